import Verif.Spec.HillClimb
import Verif.Spec.Recover
import Verif.Model.Indep

/-!
# Specification: the tree that greedy selection of arcs builds
-/

namespace PyBN

/-- Between `n` nodes with the arcs `T`: the arc `u -> v` gives a node without parent a parent and closes no directed cycle. -/
structure Allowed (n : ℕ) (T : List (ℕ × ℕ)) (u v : ℕ) : Prop where
  src : u < n
  tgt : v < n
  orphan : ∀ p, (p, v) ∉ T
  acyclic : Acyclic fun a b => (a, b) ∈ T ∨ (a = u ∧ b = v)

/-- `T` is chosen greedily: each arc is allowed when it is chosen, and then beats every other allowed arc by more than `gap`. -/
inductive Greedy (n : ℕ) (w : ℕ → ℕ → ℝ) (gap : ℝ) : List (ℕ × ℕ) → Prop
  | nil : Greedy n w gap []
  | snoc (T : List (ℕ × ℕ)) (u v : ℕ) : Greedy n w gap T → Allowed n T u v →
      (∀ u' v', Allowed n T u' v' → (u', v') ≠ (u, v) → w u' v' + gap < w u v) → Greedy n w gap (T ++ [(u, v)])

/-- Entropy of column `v` minus mutual information of columns `v` and `u`, as the searches compute them. -/
noncomputable def gain (rows : List (List ℕ)) (u v : ℕ) : ℚ := (Indep.dataScore rows [v]).getD 0 - (Indep.dataScore rows [v, u]).getD 0

/-- Entropy of node `v` minus mutual information of the nodes `v` and `u`, smoothed. -/
noncomputable def netGain {A : Type _} (bn : BayesNet ℕ A) (u v : ℕ) : ℝ := nodeH bn v - pairMI (1 / 10 ^ 7) bn v u

end PyBN
