import Verif.Spec.Inference

/-!
# Specification: networks that differ only in their tables
-/

namespace PyBN
variable {N A : Type _} [DecidableEq N] [DecidableEq A]

/-- `bn'` has the nodes, parents and values of `bn`, and every table entry is within `δ` of that of `bn`. -/
structure Perturbed (δ : ℚ) (bn bn' : BayesNet N A) : Prop where
  nodes : bn'.V = bn.V
  parents : ∀ v ∈ bn.V, bn'.parentsOf v = bn.parentsOf v
  values : ∀ v ∈ bn.V, bn'.valuesOf v = bn.valuesOf v
  close : ∀ v ∈ bn.V, ∀ a, InRange bn.cardOf (bn.fam v) a → |bn'.prob v a - bn.prob v a| ≤ δ

/-- How far probabilities can move: `∏ (1 + card(v) δ) - 1` over all nodes, about `δ` times the total number of values. -/
def drift (bn : BayesNet N A) (δ : ℚ) : ℚ := (bn.V.map fun v => 1 + bn.cardOf v * δ).prod - 1

end PyBN
