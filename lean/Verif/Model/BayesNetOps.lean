import Verif.Model.BayesNet
import Verif.Model.Graph

/-!
# `pyBN/classes/bayesnet.py`: queries, `set_structure`, equality

Editing operations and `copy`, where object identity matters, are in `Model/Edit.lean`.
-/

namespace PyBN

/-- A list comprehension whose element expression may raise: `[f(x) for x in l]`. -/
def pyMap {α β : Type _} (f : α → Py β) : List α → Py (List β)
  | [] => .ok []
  | x :: l => do
      let y ← f x
      let ys ← pyMap f l
      pure (y :: ys)

namespace BayesNet
variable {N A : Type _} [DecidableEq N] [DecidableEq A]

/-- bayesnet.py:176-179 `edges()`, as the list of what the generator yields. -/
def edges (bn : BayesNet N A) : Py (List (N × N)) := do
  let ls ← pyMap (fun u => do let c ← bn.E.get u; pure (c.map fun v => (u, v))) bn.V
  pure ls.flatten

/-- bayesnet.py:180-184 `num_edges()`. -/
def numEdges (bn : BayesNet N A) : Py ℕ := do
  let ls ← pyMap (fun u => do let c ← bn.E.get u; pure c.length) bn.V
  pure ls.sum

/-- bayesnet.py:186-190 `num_params()`. -/
def numParams (bn : BayesNet N A) : Py ℕ := do
  let ls ← pyMap (fun u => do let d ← bn.F.get u; pure d.cpt.length) bn.V
  pure ls.sum

/-- bayesnet.py:192-193 `scope_size(rv)`. -/
def scopeSize (bn : BayesNet N A) (rv : N) : Py ℕ := do
  let d ← bn.F.get rv
  pure (d.parents.length + 1)

/-- bayesnet.py:228-235 `stride(rv, n)`. -/
def stride (bn : BayesNet N A) (rv n : N) : Py ℕ :=
  if n = rv then .ok 1
  else do
    let c ← bn.card rv
    let ps ← bn.parents rv
    let cs ← pyMap bn.card ps
    let i ← pyIndex ps n
    pure (((c :: cs).take (i + 1)).prod)

/-- bayesnet.py:247 `flat_cpt()`. -/
def flatCpt (bn : BayesNet N A) : Py (List ℚ) := do
  let ls ← pyMap bn.cpt bn.V
  pure ls.flatten

/-- bayesnet.py:242-243 `flat_cpt(by_var=True)`. -/
def flatCptByVar (bn : BayesNet N A) : Py (List ℚ) :=
  pyMap (fun rv => do let c ← bn.cpt rv; pure c.sum) bn.V

/-- bayesnet.py:245, one node: `[sum(cpt[i:i+card]) for i in range(len(cpt)/card)]` (integer division). -/
def windowSums (cpt : List ℚ) (card : ℕ) : Py (List ℚ) :=
  if card = 0 then .error .zeroDivision
  else .ok ((List.range (cpt.length / card)).map fun i => (pySlice cpt i (i + card)).sum)

/-- bayesnet.py:244-245 `flat_cpt(by_parents=True)`. -/
def flatCptByParents (bn : BayesNet N A) : Py (List ℚ) := do
  let ls ← pyMap (fun rv => do let c ← bn.cpt rv; let k ← bn.card rv; windowSums c k) bn.V
  pure ls.flatten

/-- bayesnet.py:281-283: `while s_idx < len: rv_idx.extend(range(s_idx, s_idx+stride)); s_idx += step`.
`fuel` only makes the recursion structural; a positive step ends within it. -/
def idxLoop (len stride step : ℕ) : ℕ → ℤ → Py (List ℤ)
  | 0, s => if s < len then .error .diverges else .ok []
  | fuel + 1, s =>
      if s < len then do
        let r ← idxLoop len stride step fuel (s + step)
        pure ((List.range stride).map (fun (t : ℕ) => s + t) ++ r)
      else .ok []

/-- bayesnet.py:277-284: the loop over `val_dict.items()`; `idx` is the current set (as a duplicate-free list). -/
def cptIndicesLoop (bn : BayesNet N A) (len : ℕ) (stride card : Dict N ℕ) : List ℤ → List (N × A) → Py (List ℤ)
  | idx, [] => .ok idx
  | idx, (rv, val) :: es => do
      let vi ← bn.valueIdx rv val
      let s ← stride.get rv
      let c ← card.get rv
      let rvIdx ← idxLoop len s (s * c) (len + s + 1) (vi * s)
      cptIndicesLoop bn len stride card (idx.filter (fun i => decide (i ∈ rvIdx))) es

/-- bayesnet.py:250-286 `cpt_indices(target, val_dict)`.  `hE` orders the items of `val_dict`, `hI` the final set. -/
def cptIndices (hE : HashOrder (N × A)) (hI : HashOrder ℤ) (bn : BayesNet N A) (target : N) (valDict : Dict N A) :
    Py (List ℤ) := do
  let sc ← bn.scope target
  let stride ← pyMap (fun n => do let s ← bn.stride target n; pure (n, s)) sc
  let card ← pyMap (fun n => do let c ← bn.card n; pure (n, c)) sc
  let cpt ← bn.cpt target
  let idx ← cptIndicesLoop bn cpt.length (Dict.ofPairs stride) (Dict.ofPairs card)
    ((List.range cpt.length).map fun (i : ℕ) => (i : ℤ)) (hE.iter valDict)
  pure (hI.iter idx)

/-- bayesnet.py:293-303 `cpt_str_idx(rv, idx)`, as data: the value shown for `rv` and the `(parent, value)` pairs printed.
The string formatting is not modelled. -/
def cptStrIdx (hE : HashOrder (N × A)) (hI : HashOrder ℤ) (bn : BayesNet N A) (rv : N) (idx : ℕ) :
    Py (A × List (N × A)) := do
  let vs ← bn.values rv
  let c ← bn.card rv
  if c = 0 then .error .zeroDivision
  else do
    let rvVal ← pyIdx vs ((idx % c : ℕ) : ℤ)
    let ps ← bn.parents rv
    let shown ← pyMap (fun p => do
      let pv ← bn.values p
      pyMap (fun val => do
        let is ← cptIndices hE hI bn rv (Dict.ofPairs [(rv, rvVal), (p, val)])
        pure (if (idx : ℤ) ∈ is then [(p, val)] else [])) pv) ps
    pure (rvVal, shown.flatten.flatten)

/-- bayesnet.py:346 for one node: `[p for p in self.nodes() if rv in self.children(p)]`. -/
def parentList (V : List N) (E : Dict N (List N)) (rv : N) : Py (List N) := do
  let ls ← pyMap (fun p => do let c ← E.get p; pure (if rv ∈ c then [p] else [])) V
  pure ls.flatten

/-- bayesnet.py:350-351 for one node. -/
def valueList (valueDict : Option (Dict N (List A))) (rv : N) : Py (List A) :=
  match valueDict with
  | none => .ok []
  | some d => d.get rv

/-- bayesnet.py:307-351 `set_structure(edge_dict, value_dict)`, which is also `BayesNet(E, value_dict)` (73-86). -/
def setStructure (h : HashOrder N) (edgeDict : Dict N (List N)) (valueDict : Option (Dict N (List A))) :
    Py (BayesNet N A) := do
  let V ← topsort h edgeDict none
  let F ← pyMap (fun rv => do
    let ps ← parentList V edgeDict rv
    let vs ← valueList valueDict rv
    pure (rv, (⟨ps, vs, []⟩ : NodeData N A))) V
  pure ⟨V, edgeDict, Dict.ofPairs F⟩

/-- bayesnet.py:353-363 `adj_list()`: positions of the children of each node. -/
def adjList (bn : BayesNet N A) : Py (List (List ℕ)) := do
  let es ← bn.edges
  -- vi_map[u], vi_map[v] for every edge; a later occurrence of a name in V would win
  let vi : Dict N ℕ := Dict.ofPairs (bn.V.zipIdx)
  let ps ← pyMap (fun (e : N × N) => do let i ← vi.get e.1; let j ← vi.get e.2; pure (i, j)) es
  pure ((List.range bn.V.length).map fun i => (ps.filter (fun p => p.1 = i)).map Prod.snd)

/-- Insert into a set represented by a duplicate-free list. -/
def setAdd {α : Type _} [DecidableEq α] (s : List α) (x : α) : List α := if x ∈ s then s else s ++ [x]

/-- bayesnet.py:383-385: the loop over `p2`. -/
def moralInner (p1 : N) (e : List (N × N)) : List N → List (N × N)
  | [] => e
  | p2 :: ps => moralInner p1 (if p1 ≠ p2 ∧ (p2, p1) ∉ e then setAdd e (p1, p2) else e) ps

/-- bayesnet.py:381-385: the loop over `p1`. -/
def moralNode (u : N) (ps : List N) (e : List (N × N)) : List N → List (N × N)
  | [] => e
  | p1 :: rest => moralNode u ps (moralInner p1 (setAdd e (p1, u)) ps) rest

/-- bayesnet.py:380-385: the loop over the nodes. -/
def moralLoop (bn : BayesNet N A) : List (N × N) → List N → Py (List (N × N))
  | e, [] => .ok e
  | e, u :: us => do
      let ps ← bn.parents u
      moralLoop bn (moralNode u ps e ps) us

/-- bayesnet.py:365-386 `moralized_edges()`. -/
def moralizedEdges (hP : HashOrder (N × N)) (bn : BayesNet N A) : Py (List (N × N)) := do
  let e ← moralLoop bn [] bn.V
  pure (hP.iter e)

/-- utils/class_equivalence.py:25-30, the loop body reached for the first node: `set + set` is a `TypeError`
(after the four lookups, which may raise `KeyError`).  With no node the loop is empty. -/
def neighboursLoop (x y : BayesNet N A) : List N → Py Bool
  | [] => .ok true
  | rv :: _ => do
      let _ ← x.parents rv
      let _ ← y.children rv
      .error .typeError

/-- bayesnet.py:88-95 `__eq__`, utils/class_equivalence.py:15-31 `are_class_equivalent`. -/
def eq (x y : BayesNet N A) : Py Bool :=
  if (∀ v ∈ x.V, v ∈ y.V) ∧ (∀ v ∈ y.V, v ∈ x.V) then neighboursLoop x y x.V
  else .ok false

end BayesNet
end PyBN
