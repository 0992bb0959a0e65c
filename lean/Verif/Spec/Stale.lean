import Verif.Spec.BayesNet

/-!
# Specification: networks whose tables do not fit

`add_edge` and `remove_edge` change the parents of a node and leave its table alone.  What is left is a network that is well formed except
for the number of entries of a table.
-/

namespace PyBN
namespace BayesNet
variable {N A : Type _} [DecidableEq N]

/-- The number of entries the table of `v` should have: one for every value of `v` and of its parents. -/
def tableSize (bn : BayesNet N A) (v : N) : ℕ := ((v :: bn.parentsOf v).map bn.cardOf).prod

/-- Well formed except perhaps for the table sizes: distinct nodes, every node described, non-empty duplicate-free value lists, known distinct
parents. -/
structure ShapeWF (bn : BayesNet N A) : Prop where
  nodup : bn.V.Nodup
  dom : ∀ v, (bn.F.get? v).isSome ↔ v ∈ bn.V
  fam_nodup : ∀ v ∈ bn.V, (v :: bn.parentsOf v).Nodup
  parents_mem : ∀ v ∈ bn.V, ∀ p ∈ bn.parentsOf v, p ∈ bn.V
  values_nodup : ∀ v ∈ bn.V, (bn.valuesOf v).Nodup
  values_ne : ∀ v ∈ bn.V, bn.valuesOf v ≠ []

/-- The same network with every table cut to its first `tableSize` entries. -/
def cut (bn : BayesNet N A) : BayesNet N A :=
  { bn with F := bn.F.map fun kv => (kv.1, { kv.2 with cpt := kv.2.cpt.take (bn.tableSize kv.1) }) }

end BayesNet
end PyBN
