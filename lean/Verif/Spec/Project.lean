import Verif.Spec.Recover

/-!
# Specification: learning the tables of a structure other than the one the rows came from
-/

namespace PyBN
variable {N A : Type _} [DecidableEq N] [DecidableEq A]

/-- `P(v = a v | W = a W)`: the probability of the value of `v` among the outcomes in which the nodes `W` have the values `a`. -/
def condOf (bn : BayesNet N A) (v : N) (W : List N) (a : Asg N) : ℚ := margOf bn (v :: W) a / margOf bn W a

/-- A network `bn` to draw rows from and a network `target` over the same nodes to be given parameters; its arcs may be any, and it may list the nodes in any
order, provided the node it lists at position `v` has as many values as node `v` (the estimators take the values of a node from the column at its
position). Parents are in node order, with matching children lists, as `BayesNet(edges)` builds them. -/
structure OtherStructure (bn : BayesNet ℕ A) (target : BayesNet ℕ ℤ) : Prop extends Sampleable bn where
  nodes : target.V.Perm bn.V
  aligned : ∀ v ∈ bn.V, bn.cardOf (target.V.idxOf v) = bn.cardOf v
  described : ∀ v, (target.F.get? v).isSome ↔ v ∈ bn.V
  proper : ∀ v ∈ bn.V, v ∉ target.parentsOf v
  ordered : ∀ v ∈ bn.V, (target.parentsOf v).Sublist target.V
  keys : ∀ v ∈ bn.V, v ∈ target.E.keys
  children : ∀ v ∈ bn.V, ∀ u, u ∈ target.parentsOf v ↔ u ∈ bn.V ∧ v ∈ target.childrenOf u

/-- `target` has every arc of `bn`, possibly more, and all its arcs go from earlier to later nodes of `bn`. -/
structure Superset (bn : BayesNet ℕ A) (target : BayesNet ℕ ℤ) : Prop extends OtherStructure bn target where
  sameOrder : target.V = bn.V
  more : ∀ v ∈ bn.V, ∀ u ∈ bn.parentsOf v, u ∈ target.parentsOf v
  earlier : ∀ v ∈ bn.V, ∀ u ∈ target.parentsOf v, u < v

/-- How many different counts an estimator takes for a structure with parents `par`: the values of every node, the combinations of values of its parents, and the
combinations of values of the node and its parents. -/
def countsTaken (bn : BayesNet ℕ A) (par : ℕ → List ℕ) : ℕ :=
  (bn.V.map fun v => bn.cardOf v + ((par v).map bn.cardOf).prod + ((v :: par v).map bn.cardOf).prod).sum

end PyBN
