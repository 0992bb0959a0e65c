import Verif.Model.BayesNet

/-!
# `pyBN/classes/factor.py`: class `Factor`

`self.bn` is passed as an argument to the methods that use it.  In-place updates return the new value.
`multiply_factor` also returns the (possibly modified) right operand.  Tables are lists of rationals.
Strides: `v/rv_card` (factor.py:441, 501, 603) is a true division (factor.py:27 `from __future__ import division`), so strides become whole
floats.  It is exact whenever `rv_card` divides `v`, which the layout invariant guarantees, so natural-number division is used; that arrays may
be indexed with whole floats is assumed (numpy before 1.12; later versions raise `IndexError` on the next table access).
-/

namespace PyBN

/-- factor.py:138-148: the attributes `var`, `cpt`, `scope`, `card`, `stride` (`bn` is passed separately). -/
structure Factor (N : Type _) where
  var : N
  cpt : List ℚ
  scope : List N
  card : Dict N ℕ
  stride : Dict N ℕ
  deriving DecidableEq

namespace Factor
variable {N A : Type _} [DecidableEq N] [DecidableEq A]

/-- factor.py:146-148: the loop assigning strides to the parents. -/
def initStride (card : Dict N ℕ) : List N → Dict N ℕ → ℕ → Py (Dict N ℕ)
  | [], d, _ => .ok d
  | v :: ps, d, s => do
      let c ← card.get v
      initStride card ps (d.set v s) (s * c)

/-- factor.py:142: `dict([(rv, bn.card(rv)) for rv in self.scope])`, pairs. -/
def cardPairs (bn : BayesNet N A) : List N → Py (List (N × ℕ))
  | [] => .ok []
  | v :: vs => do
      let c ← bn.card v
      let r ← cardPairs bn vs
      pure ((v, c) :: r)

/-- factor.py:109-148 `Factor(bn, var)`. -/
def init (bn : BayesNet N A) (var : N) : Py (Factor N) := do
  let cpt ← bn.cpt var
  let scope ← bn.scope var
  let pairs ← cardPairs bn scope
  let card := Dict.ofPairs pairs
  let s ← card.get var
  let ps ← bn.parents var
  let stride ← initStride card ps [(var, 1)] s
  pure ⟨var, cpt, scope, card, stride⟩

/-- factor.py:215-227 `value_indices(val_dict)`: `sum(value_idx * stride)` over the dictionary's items. -/
def valueIndices (bn : BayesNet N A) (f : Factor N) : Dict N A → Py ℤ
  | [] => .ok 0
  | (rv, val) :: d => do
      let i ← bn.valueIdx rv val
      let s ← f.stride.get rv
      let r ← valueIndices bn f d
      pure (i * s + r)

/-- factor.py:229-239 `sepset(other)`. -/
def sepset (f g : Factor N) : List N := f.scope.filter (· ∈ g.scope)

/-! ## multiply_factor -/

/-- factor.py:302-303: `if rv in phi1.scope: j = j-(phi1.card[rv]-1)*phi1.stride[rv]`; `c` is `phi1.card[rv]`
after the update on line 288. -/
def backJ (phi : Factor N) (rv : N) (c : ℕ) (j : ℤ) : Py ℤ :=
  if rv ∈ phi.scope then do
    let s ← phi.stride.get rv
    pure (j - ((c : ℤ) - 1) * s)
  else pure j

/-- factor.py:304-305: `if rv in phi2.scope: k = k-(phi2.card[rv]-1)*phi2.stride[rv]`. -/
def backK (phi : Factor N) (rv : N) (k : ℤ) : Py ℤ :=
  if rv ∈ phi.scope then do
    let c2 ← phi.card.get rv
    let s ← phi.stride.get rv
    pure (k - ((c2 : ℤ) - 1) * s)
  else pure k

/-- factor.py:307-310: `if rv in phi.scope: j = j+phi.stride[rv]`. -/
def fwd (phi : Factor N) (rv : N) (j : ℤ) : Py ℤ :=
  if rv ∈ phi.scope then do
    let s ← phi.stride.get rv
    pure (j + s)
  else pure j

/-- factor.py:298-311: the odometer `for rv in rv_order`, ending with `break`.
`card1` is `phi1.card` after the update on line 288. -/
def odometer (phi1 phi2 : Factor N) (card1 : Dict N ℕ) :
    List N → Dict N ℕ → ℤ → ℤ → Py (Dict N ℕ × ℤ × ℤ)
  | [], asg, j, k => .ok (asg, j, k)
  | rv :: rest, asg, j, k => do
      let x ← asg.get rv
      let c ← card1.get rv
      if x + 1 = c then do
        let j' ← backJ phi1 rv c j
        let k' ← backK phi2 rv k
        odometer phi1 phi2 card1 rest (asg.set rv 0) j' k'
      else do
        let j' ← fwd phi1 rv j
        let k' ← fwd phi2 rv k
        .ok (asg.set rv (x + 1), j', k')

/-- factor.py:295-310: `for i in range(len(psi))`, producing the remaining `n` entries of `psi`. -/
def mulLoop (phi1 phi2 : Factor N) (card1 : Dict N ℕ) (order : List N) :
    ℕ → Dict N ℕ → ℤ → ℤ → Py (List ℚ)
  | 0, _, _, _ => .ok []
  | n + 1, asg, j, k => do
      let x ← pyIdx phi1.cpt j
      let y ← pyIdx phi2.cpt k
      let (asg', j', k') ← odometer phi1 phi2 card1 order asg j k
      let r ← mulLoop phi1 phi2 card1 order n asg' j' k'
      pure (x * y :: r)

/-- factor.py:314-318: strides as running products along `rv_order`. -/
def orderStride (card : Dict N ℕ) : List N → ℕ → Py (Dict N ℕ)
  | [], _ => .ok []
  | v :: vs, s => do
      let c ← card.get v
      let r ← orderStride card vs (s * c)
      pure ((v, s) :: r)

/-- factor.py:281-319 with `phi1`, `phi2` chosen: the new table, scope, card and stride. -/
def mulCore (h : HashOrder N) (phi1 phi2 : Factor N) :
    Py (List ℚ × List N × Dict N ℕ × Dict N ℕ) := do
  -- 282: sorted(phi1.stride, key=phi1.stride.__getitem__)
  let o1 := sortBy (fun v => (phi1.stride.get? v).getD 0) (h.iter phi1.stride.keys)
  -- 283: set(phi1.scope).union(set(phi2.scope))
  let scopeSet := (phi1.scope ++ phi2.scope).dedup
  -- 287: rv_order.extend(list(set(phi2.scope).difference(set(phi1.scope))))
  let order := o1 ++ h.iter ((phi2.scope.filter (fun v => v ∉ phi1.scope)).dedup)
  -- 288: phi1.card.update(phi2.card)
  let card1 := phi1.card.update phi2.card
  -- 292: assignment = dict([(rv, 0) for rv in scope_set])
  let asg : Dict N ℕ := scopeSet.map (fun v => (v, 0))
  -- 293: len(psi) = np.product(phi1.card.values())
  let psi ← mulLoop phi1 phi2 card1 order card1.vals.prod asg 0 0
  let stride ← orderStride card1 order 1
  pure (psi, h.iter scopeSet, card1, stride)

/-- factor.py:245-319 `self.multiply_factor(other)`: new `self` and new `other`.
If `other` has the larger scope it is `phi1`, and line 288 changes its `card` in place.
(The resulting sharing of that dict between `self` and `other` is modelled in `Model/FactorHeap.lean`.) -/
def mul (h : HashOrder N) (self other : Factor N) : Py (Factor N × Factor N) :=
  if self.scope.length ≥ other.scope.length then do
    let (psi, scope, card, stride) ← mulCore h self other
    pure (⟨self.var, psi, scope, card, stride⟩, other)
  else do
    let (psi, scope, card, stride) ← mulCore h other self
    pure (⟨self.var, psi, scope, card, stride⟩, { other with card := card })

/-! ## sumout_var, maxout_var, reduce_factor -/

/-- factor.py:441, 501, 603: `stride.update((k, v/rv_card) for k,v in stride.items() if v > rv_stride)`. -/
def shrinkStride (stride : Dict N ℕ) (rvCard rvStride : ℕ) : Dict N ℕ :=
  stride.map fun kv => if kv.2 > rvStride then (kv.1, kv.2 / rvCard) else kv

/-- factor.py:445-448, 607-610: the new `var` when the old one was removed (`l[0]` in dict order). -/
def newVar (h : HashOrder N) (var rv : N) (stride : Dict N ℕ) : N :=
  if rv = var then
    match (h.iter stride.keys).filter (fun k => stride.get? k = some 1) with
    | [] => var
    | k :: _ => k
  else var

/-- factor.py:440-443, 500-503, 602-605: remove `rv` from card, stride and scope. -/
def dropVar (f : Factor N) (rv : N) (rvCard rvStride : ℕ) (newCpt : List ℚ) : Py (Factor N) := do
  let card ← f.card.del rv
  let stride ← (shrinkStride f.stride rvCard rvStride).del rv
  let scope ← pyRemove f.scope rv
  pure ⟨f.var, newCpt, scope, card, stride⟩

/-- factor.py:433-434: `for c in range(rv_card): new_cpt[i] += cpt[k + rv_stride*c]`, for the last `n` values of `c`
starting at `c`. -/
def sumC (cpt : List ℚ) (stride k : ℕ) : ℕ → ℕ → ℚ → Py ℚ
  | 0, _, acc => .ok acc
  | n + 1, c, acc => do
      let x ← pyIdx cpt (k + stride * c : ℕ)
      sumC cpt stride k n (c + 1) (acc + x)

/-- factor.py:490-494: the running maximum, starting from 0. -/
def maxC (cpt : List ℚ) (stride k : ℕ) : ℕ → ℕ → ℚ → Py ℚ
  | 0, _, acc => .ok acc
  | n + 1, c, acc => do
      let x ← pyIdx cpt (k + stride * c : ℕ)
      maxC cpt stride k n (c + 1) (if x > acc then x else acc)

/-- factor.py:432-437 and 489-497: the outer loop with the running index `k`, `n` entries to go.
`agg k` computes one entry. -/
def elimLoop (agg : ℕ → Py ℚ) (rvCard p : ℕ) : ℕ → ℕ → Py (List ℚ)
  | 0, _ => .ok []
  | n + 1, k => do
      let x ← agg k
      let k1 := k + 1
      let k2 := if k1 % p = 0 then k1 + p * (rvCard - 1) else k1
      let r ← elimLoop agg rvCard p n k2
      pure (x :: r)

/-- factor.py:431, 488: `np.prod([card[r] for r in scope if stride[r] < stride[rv]])`. -/
def blockSize (f : Factor N) (rvStride : ℕ) : List N → Py ℕ
  | [] => .ok 1
  | r :: rs => do
      let s ← f.stride.get r
      if s < rvStride then
        let c ← f.card.get r
        let p ← blockSize f rvStride rs
        pure (c * p)
      else blockSize f rvStride rs

/-- factor.py:399-448 `sumout_var(rv)`. -/
def sumout (h : HashOrder N) (f : Factor N) (rv : N) : Py (Factor N) := do
  let rvCard ← f.card.get rv
  if rvCard = 0 then .error .zeroDivision
  else do
    let rvStride ← f.stride.get rv
    let p ← blockSize f rvStride f.scope
    let newCpt ← elimLoop (fun k => sumC f.cpt rvStride k rvCard 0 0) rvCard p (f.cpt.length / rvCard) 0
    let f' ← dropVar f rv rvCard rvStride newCpt
    pure { f' with var := newVar h f.var rv f'.stride }

/-- factor.py:453-509 `maxout_var(rv)` (`var` is not updated). -/
def maxout (f : Factor N) (rv : N) : Py (Factor N) := do
  let rvCard ← f.card.get rv
  if rvCard = 0 then .error .zeroDivision
  else do
    let rvStride ← f.stride.get rv
    let p ← blockSize f rvStride f.scope
    let newCpt ← elimLoop (fun k => maxC f.cpt rvStride k rvCard 0 0) rvCard p (f.cpt.length / rvCard) 0
    dropVar f rv rvCard rvStride newCpt

/-- factor.py:373-397 `sumout_var_list(var_list)`. -/
def sumoutList (h : HashOrder N) : Factor N → List N → Py (Factor N)
  | f, [] => .ok f
  | f, v :: vs => do
      let f' ← sumout h f v
      sumoutList h f' vs

/-- factor.py:593-599: the block copy `while add_idx < exp_len`; `acc` is the part of `new_cpt` written so far.
`exp_len` is the float `len(cpt) / card`, the array has its integer part as length.
A pass that copies nothing would repeat for ever (`diverges`); a pass that copies past the end raises.
`fuel` only makes the recursion structural: each pass that continues has copied at least one entry. -/
def reduceLoop (cpt : List ℚ) (rvCard rvStride expLen : ℕ) : ℕ → ℕ → List ℚ → Py (List ℚ)
  | 0, _, acc => if acc.length * rvCard < cpt.length then .error .diverges else .ok acc
  | fuel + 1, idx, acc =>
      if acc.length * rvCard < cpt.length then
        let sl := pySlice cpt idx (idx + rvStride)
        if sl.isEmpty then .error .diverges
        else if acc.length + sl.length > expLen then .error .indexError
        else reduceLoop cpt rvCard rvStride expLen fuel (idx + rvCard * rvStride) (acc ++ sl)
      else .ok acc

/-- factor.py:545-610 `reduce_factor(rv, val)`. -/
def reduce (h : HashOrder N) (bn : BayesNet N A) (f : Factor N) (rv : N) (val : A) : Py (Factor N) := do
  let rvCard ← f.card.get rv
  if rvCard = 0 then .error .zeroDivision
  else do
    let expLen := f.cpt.length / rvCard
    let vals ← bn.values rv
    let valIdx ← pyIndex vals val
    let rvStride ← f.stride.get rv
    let newCpt ← reduceLoop f.cpt rvCard rvStride expLen (expLen + 1) (valIdx * rvStride) []
    let f' ← dropVar f rv rvCard rvStride newCpt
    pure { f' with var := newVar h f.var rv f'.stride }

/-- factor.py:511-543 `reduce_factor_by_list(evidence)`, list form; for the dict form the caller supplies
the items in iteration order. -/
def reduceList (h : HashOrder N) (bn : BayesNet N A) : Factor N → List (N × A) → Py (Factor N)
  | f, [] => .ok f
  | f, (rv, val) :: es => do
      let f' ← reduce h bn f rv val
      reduceList h bn f' es

/-! ## sumover_var, normalize -/

/-- factor.py:361-363: `while idx < len(cpt): new_cpt[i] += np.sum(cpt[idx:idx+rv_stride]); idx += step`. -/
def sumoverLoop (cpt : List ℚ) (rvStride step : ℕ) : ℕ → ℕ → ℚ → Py ℚ
  | 0, idx, acc => if idx < cpt.length then .error .diverges else .ok acc
  | fuel + 1, idx, acc =>
      if idx < cpt.length then
        sumoverLoop cpt rvStride step fuel (idx + step) (acc + (pySlice cpt idx (idx + rvStride)).sum)
      else .ok acc

/-- factor.py:359-363: `for i in range(exp_len)`, `n` iterations to go from `i`. -/
def sumoverEntries (cpt : List ℚ) (rvCard rvStride : ℕ) : ℕ → ℕ → Py (List ℚ)
  | 0, _ => .ok []
  | n + 1, i => do
      let x ← sumoverLoop cpt rvStride (rvCard * rvStride) cpt.length (i * rvStride) 0
      let r ← sumoverEntries cpt rvCard rvStride n (i + 1)
      pure (x :: r)

/-- factor.py:323-369 `sumover_var(rv)`. -/
def sumover (f : Factor N) (rv : N) : Py (Factor N) := do
  let rvCard ← f.card.get rv
  let rvStride ← f.stride.get rv
  let newCpt ← sumoverEntries f.cpt rvCard rvStride rvCard 0
  pure ⟨rv, newCpt, [rv], [(rv, rvCard)], [(rv, 1)]⟩

/-- factor.py:203-210 `parents()`: the scope without `var`. -/
def parents (f : Factor N) : List N := f.scope.filter fun rv => rv ≠ f.var

/-- factor.py:628-634 `perturb()`: add `1e-7` to every entry. -/
def perturb (cpt : List ℚ) : List ℚ := cpt.map (· + 1 / 10000000)

/-- factor.py:656-659: divide each consecutive block of `c` entries by its sum; `n` blocks at most
(`n` only makes the recursion structural).  Division by zero gives `nan` in numpy and 0 here; the theorems
only concern tables whose block sums are positive. -/
def normBlocks (c : ℕ) : ℕ → List ℚ → List ℚ
  | 0, l => l
  | n + 1, l =>
      if l.isEmpty then []
      else (l.take c).map (· / (l.take c).sum) ++ normBlocks c n (l.drop c)

/-- factor.py:661-662: `for i in range(len(cpt)): cpt[i] /= np.sum(cpt)` (the sum changes as entries change). -/
def normSeq : List ℚ → List ℚ → List ℚ
  | done, [] => done
  | done, x :: rest => normSeq (done ++ [x / (done.sum + x + rest.sum)]) rest

/-- factor.py:636-662 `normalize()`. -/
def normalize (h : HashOrder N) (f : Factor N) : Py (Factor N) :=
  let cpt := perturb f.cpt
  match (h.iter f.stride.keys).filter (fun k => f.stride.get? k = some 1) with
  | var :: _ => do
      let c ← f.card.get var
      if c = 0 then .error .valueError   -- range() step 0
      else if cpt.length % c = 0 then pure { f with cpt := normBlocks c cpt.length cpt }
      else .error .indexError            -- the last partial block is indexed past the end
  | [] => pure { f with cpt := normSeq [] cpt }

end Factor
end PyBN
