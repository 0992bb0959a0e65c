import Verif.Model.Factor
import Verif.Model.BayesNetOps
import Verif.Py.Num
import Mathlib.Algebra.Order.Field.Basic

/-!
# `pyBN/inference/marginal_approx/{forward_sample,lw_sample,gibbs_sample}.py`, `pyBN/utils/random_sample.py`

Randomness: `U : ℕ → K` is the sequence of uniform numbers in `[0, 1)` the generator produces, `K` any ordered field (`ℚ` for
evaluation, `ℝ` for probability).  The state carries the number of draws made so far.  Arithmetic on tables is exact.
The tables `sample_dict` are not read by the sampling loops; they are updated after each pass instead of during it.
-/

namespace PyBN

section Choice
variable {K : Type _} [Field K] [LinearOrder K] {A : Type _}

/-- numpy `RandomState.choice`: `cdf = p.cumsum(); cdf /= cdf[-1]; cdf.searchsorted(u, side='right')`; `acc` is the partial sum
before the head of the list. -/
def searchRight (u : K) (tot : ℚ) : ℚ → List ℚ → ℕ
  | _, [] => 0
  | acc, p :: ps => if (((acc + p) / tot : ℚ) : K) ≤ u then searchRight u tot (acc + p) ps + 1 else 0

/-- `np.random.choice(vals, p=ps)`, `u` being the uniform number drawn; `tol` is numpy's tolerance for the sum of `ps`
(it depends on the numpy version). -/
def choice (tol : ℚ) (u : K) (vals : List A) (ps : List ℚ) : Py A :=
  if vals = [] ∨ ps.length ≠ vals.length ∨ (∃ p ∈ ps, p < 0) ∨ tol < |ps.sum - 1| then .error .valueError
  else pyIdx vals (searchRight u ps.sum 0 ps : ℤ)

/-- `np.random.choice(vals)`: a uniform index, computed from the uniform number `u` (only used through "some index in range"). -/
def choiceUniform [FloorRing K] (u : K) (vals : List A) : Py A :=
  if vals = [] then .error .valueError else pyIdx vals ⌊u * vals.length⌋

end Choice

namespace Sampling
variable {N A : Type _} [DecidableEq N] [DecidableEq A] {K : Type _} [Field K] [LinearOrder K]

/-- forward_sample.py:56-57: `for p in bn.parents(rv): f.reduce_factor(p, new_sample[p])`. -/
def conditionOn (h : HashOrder N) (bn : BayesNet N A) (s : Dict N A) : List N → Factor N → Py (Factor N)
  | [], f => .ok f
  | p :: ps, f => do
      let val ← s.get p
      let f' ← f.reduce h bn p val
      conditionOn h bn s ps f'

/-- forward_sample.py:55-59: the factor of `rv` reduced by the sampled parents; its table. -/
def conditional (h : HashOrder N) (bn : BayesNet N A) (s : Dict N A) (rv : N) : Py (List ℚ) := do
  let f ← Factor.init bn rv
  let ps ← bn.parents rv
  let f' ← conditionOn h bn s ps f
  pure f'.cpt

/-- forward_sample.py:44-48 (also lw_sample.py:48-51, gibbs_sample.py:39-43): all counters zero. -/
def zeroCounts (bn : BayesNet N A) : Py (Dict N (Dict A ℚ)) := do
  let l ← pyMap (fun rv => do let vs ← bn.values rv; pure (rv, Dict.ofPairs (vs.map fun v => (v, (0 : ℚ))))) bn.V
  pure (Dict.ofPairs l)

/-- `sample_dict[rv][val] += w` for every `(rv, val)` of a sample.  The order is immaterial (distinct counters). -/
def bump (w : ℚ) : Dict N A → Dict N (Dict A ℚ) → Py (Dict N (Dict A ℚ))
  | [], d => .ok d
  | (rv, val) :: es, d => do
      let t ← d.get rv
      let x ← t.get val
      bump w es (d.set rv (t.set val (x + w)))

/-- `f` applied to every entry of `sample_dict`. -/
def mapCounts (f : ℚ → ℚ) (d : Dict N (Dict A ℚ)) : Dict N (Dict A ℚ) := d.map fun kt => (kt.1, kt.2.map fun vx => (vx.1, f vx.2))

/-- Is there any entry at all (so that a division is executed)? -/
def anyEntry (d : Dict N (Dict A ℚ)) : Bool := d.any fun kt => !kt.2.isEmpty

/-- forward_sample.py:53-64, the loop over `bn.nodes()` for one sample; returns the number of draws made and the sample. -/
def forwardNodes (tol : ℚ) (h : HashOrder N) (bn : BayesNet N A) (U : ℕ → K) : List N → ℕ → Dict N A → Py (ℕ × Dict N A)
  | [], k, s => .ok (k, s)
  | rv :: rvs, k, s => do
      let ps ← conditional h bn s rv
      let vs ← bn.values rv
      let val ← choice tol (U k) vs ps
      forwardNodes tol h bn U rvs (k + 1) (s.set rv val)

/-- forward_sample.py:50-64: `for i in range(n)`. -/
def forwardLoop (tol : ℚ) (h : HashOrder N) (bn : BayesNet N A) (U : ℕ → K) : ℕ → ℕ → Dict N (Dict A ℚ) → Py (Dict N (Dict A ℚ))
  | 0, _, d => .ok d
  | n + 1, k, d => do
      let r ← forwardNodes tol h bn U bn.V k []
      let d' ← bump 1 r.2 d
      forwardLoop tol h bn U n r.1 d'

/-- forward_sample.py:8-70 `forward_sample(bn, n)`. -/
def forwardSample (tol : ℚ) (h : HashOrder N) (bn : BayesNet N A) (n : ℕ) (U : ℕ → K) : Py (Dict N (Dict A ℚ)) := do
  let d0 ← zeroCounts bn
  let d ← forwardLoop tol h bn U n 0 d0
  if n = 0 ∧ anyEntry d = true then .error .zeroDivision
  else pure (mapCounts (fun x => x / n) d)

/-! ## lw_sample -/

/-- lw_sample.py:57-73, the loop over the nodes for one sample; returns the draws made, the sample and its weight. -/
def lwNodes (tol : ℚ) (h : HashOrder N) (bn : BayesNet N A) (ev : Dict N A) (U : ℕ → K) :
    List N → ℕ → Dict N A → ℚ → Py (ℕ × Dict N A × ℚ)
  | [], k, s, w => .ok (k, s, w)
  | rv :: rvs, k, s, w => do
      let ps ← conditional h bn s rv
      let vs ← bn.values rv
      match ev.get? rv with
      | some val => do
          let i ← pyIndex vs val
          let x ← pyIdx ps (i : ℤ)
          lwNodes tol h bn ev U rvs k (s.set rv val) (w * x)
      | none => do
          let val ← choice tol (U k) vs ps
          lwNodes tol h bn ev U rvs (k + 1) (s.set rv val) w

/-- lw_sample.py:53-76: `for i in range(n)`; also accumulates the sum of the weights (line 78). -/
def lwLoop (tol : ℚ) (h : HashOrder N) (bn : BayesNet N A) (ev : Dict N A) (U : ℕ → K) :
    ℕ → ℕ → ℚ → Dict N (Dict A ℚ) → Py (ℚ × Dict N (Dict A ℚ))
  | 0, _, ws, d => .ok (ws, d)
  | n + 1, k, ws, d => do
      let r ← lwNodes tol h bn ev U bn.V k [] 1
      let d' ← bump r.2.2 r.2.1 d
      lwLoop tol h bn ev U n r.1 (ws + r.2.2) d'

/-- lw_sample.py:10-88 `lw_sample(bn, evidence, n=n)` (`target=None`; with a target the caller gets that node's table).
With total weight zero numpy returns `nan` for every entry; that is modelled as the error `zeroDivision`. -/
def lwSample (tol : ℚ) (h : HashOrder N) (bn : BayesNet N A) (ev : Dict N A) (n : ℕ) (U : ℕ → K) : Py (Dict N (Dict A ℚ)) := do
  let d0 ← zeroCounts bn
  let r ← lwLoop tol h bn ev U n 0 0 d0
  if r.1 = 0 ∧ anyEntry r.2 = true then .error .zeroDivision
  else pure (mapCounts (fun x => roundAway 4 (x / r.1)) r.2)

/-! ## gibbs_sample -/

/-- gibbs_sample.py:45-47: the uniform initial state. -/
def gibbsInit [FloorRing K] (bn : BayesNet N A) (U : ℕ → K) : List N → ℕ → Dict N A → Py (ℕ × Dict N A)
  | [], k, s => .ok (k, s)
  | rv :: rvs, k, s => do
      let vs ← bn.values rv
      let val ← choiceUniform (U k) vs
      gibbsInit bn U rvs (k + 1) (s.set rv val)

/-- gibbs_sample.py:55-67: the distribution a node is resampled from: its prior, or its table conditioned on the current values of
its parents (the children are not consulted). -/
def gibbsProbs (h : HashOrder N) (bn : BayesNet N A) (s : Dict N A) (rv : N) : Py (List ℚ) := do
  let ps ← bn.parents rv
  if ps = [] then bn.cpt rv else conditional h bn s rv

/-- gibbs_sample.py:52-69: one sweep over the nodes. -/
def gibbsNodes (tol : ℚ) (h : HashOrder N) (bn : BayesNet N A) (U : ℕ → K) : List N → ℕ → Dict N A → Py (ℕ × Dict N A)
  | [], k, s => .ok (k, s)
  | rv :: rvs, k, s => do
      let ps ← gibbsProbs h bn s rv
      let vs ← bn.values rv
      let val ← choice tol (U k) vs ps
      gibbsNodes tol h bn U rvs (k + 1) (s.set rv val)

/-- gibbs_sample.py:71-73: `if i > burn: for rv in ...: sample_dict[rv][sample[rv]] += 1`. -/
def tally (burn : ℤ) (i : ℕ) (s : Dict N A) (d : Dict N (Dict A ℚ)) : Py (Dict N (Dict A ℚ)) :=
  if burn < (i : ℤ) then bump 1 s d else .ok d

/-- gibbs_sample.py:49-73: `for i in range(n)`, `i` being the current value; a sweep is counted if `i > burn`. -/
def gibbsLoop (tol : ℚ) (h : HashOrder N) (bn : BayesNet N A) (burn : ℤ) (U : ℕ → K) :
    ℕ → ℕ → ℕ → Dict N A → Dict N (Dict A ℚ) → Py (Dict N (Dict A ℚ))
  | 0, _, _, _, d => .ok d
  | n + 1, i, k, s, d => do
      let r ← gibbsNodes tol h bn U bn.V k s
      let d' ← tally burn i r.2 d
      gibbsLoop tol h bn burn U n (i + 1) r.1 r.2 d'

/-- gibbs_sample.py:11-79 `gibbs_sample(bn, n, burn)`. -/
def gibbsSample [FloorRing K] (tol : ℚ) (h : HashOrder N) (bn : BayesNet N A) (n : ℕ) (burn : ℤ) (U : ℕ → K) :
    Py (Dict N (Dict A ℚ)) := do
  let d0 ← zeroCounts bn
  let r ← gibbsInit bn U bn.V 0 []
  let d ← gibbsLoop tol h bn burn U n 0 r.1 r.2 d0
  if (n : ℤ) = burn ∧ anyEntry d = true then .error .zeroDivision
  else pure (mapCounts (fun x => roundAway 4 (x / ((n : ℤ) - burn : ℤ))) d)

/-! ## random_sample -/

/-- random_sample.py:53-54: `f.reduce_factor(p, bn.values(p)[sample[i][rv_map[p]]])`. -/
def conditionOnRow (h : HashOrder N) (bn : BayesNet N A) (pos : Dict N ℕ) (row : List ℤ) : List N → Factor N → Py (Factor N)
  | [], f => .ok f
  | p :: ps, f => do
      let j ← pos.get p
      let x ← pyIdx row (j : ℤ)
      let vs ← bn.values p
      let val ← pyIdx vs x
      let f' ← f.reduce h bn p val
      conditionOnRow h bn pos row ps f'

/-- random_sample.py:50-58: one row. -/
def randomRow (tol : ℚ) (h : HashOrder N) (bn : BayesNet N A) (pos : Dict N ℕ) (U : ℕ → K) : List N → ℕ → List ℤ → Py (ℕ × List ℤ)
  | [], k, row => .ok (k, row)
  | rv :: rvs, k, row => do
      let f ← Factor.init bn rv
      let ps ← bn.parents rv
      let f' ← conditionOnRow h bn pos row ps f
      let vs ← bn.values rv
      let val ← choice tol (U k) vs f'.cpt
      let i ← pyIndex vs val
      let j ← pos.get rv
      randomRow tol h bn pos U rvs (k + 1) (row.set j (i : ℤ))

/-- random_sample.py:49-58: the loop over the rows; `G i` is what `np.empty` left in row `i`. -/
def randomRows (tol : ℚ) (h : HashOrder N) (bn : BayesNet N A) (pos : Dict N ℕ) (U : ℕ → K) :
    List (List ℤ) → ℕ → Py (List (List ℤ))
  | [], _ => .ok []
  | g :: gs, k => do
      let r ← randomRow tol h bn pos U bn.V k g
      let rs ← randomRows tol h bn pos U gs r.1
      pure (r.2 :: rs)

/-- random_sample.py:17-60 `random_sample(bn, n)`; `garbage` is the content of the fresh `np.empty` array (`n` rows of
`num_nodes` arbitrary integers). -/
def randomSample (tol : ℚ) (h : HashOrder N) (bn : BayesNet N A) (garbage : List (List ℤ)) (U : ℕ → K) : Py (List (List ℤ)) := do
  let _ ← pyMap (Factor.init bn) bn.V
  randomRows tol h bn (Dict.ofPairs bn.V.zipIdx) U garbage 0

end Sampling
end PyBN
