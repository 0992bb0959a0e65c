import Verif.Spec.Factor
import Verif.Model.BayesNet

/-!
# Specification of networks

What a Bayesian network means: cardinalities, the conditional tables, the joint probability.
-/

namespace PyBN
namespace BayesNet
variable {N A : Type _} [DecidableEq N]

/-- Number of values of a node (0 for an unknown node). -/
def cardOf (bn : BayesNet N A) (v : N) : ℕ := match bn.F.get? v with | some d => d.values.length | none => 0

/-- The parents of a node ([] for an unknown node). -/
def parentsOf (bn : BayesNet N A) (v : N) : List N := match bn.F.get? v with | some d => d.parents | none => []

/-- The values of a node. -/
def valuesOf (bn : BayesNet N A) (v : N) : List A := match bn.F.get? v with | some d => d.values | none => []

/-- The flat CPT of a node. -/
def cptOf (bn : BayesNet N A) (v : N) : List ℚ := match bn.F.get? v with | some d => d.cpt | none => []

/-- The children recorded for a node. -/
def childrenOf (bn : BayesNet N A) (v : N) : List N := match bn.E.get? v with | some l => l | none => []

/-- A well-formed network (no acyclicity or normalisation is demanded here): distinct nodes, every node described,
non-empty duplicate-free value lists, known distinct parents, tables of the right size. -/
structure WF (bn : BayesNet N A) : Prop where
  nodup : bn.V.Nodup
  dom : ∀ v, (bn.F.get? v).isSome ↔ v ∈ bn.V
  fam_nodup : ∀ v ∈ bn.V, (v :: bn.parentsOf v).Nodup
  parents_mem : ∀ v ∈ bn.V, ∀ p ∈ bn.parentsOf v, p ∈ bn.V
  values_nodup : ∀ v ∈ bn.V, (bn.valuesOf v).Nodup
  values_ne : ∀ v ∈ bn.V, bn.valuesOf v ≠ []
  cpt_len : ∀ v ∈ bn.V, (bn.cptOf v).length = ((v :: bn.parentsOf v).map bn.cardOf).prod

/-- The children lists describe the same arcs as the parent lists. -/
structure EdgeWF (bn : BayesNet N A) : Prop where
  dom : ∀ v, (bn.E.get? v).isSome ↔ v ∈ bn.V
  keys_nodup : bn.E.keys.Nodup
  nodup : ∀ v ∈ bn.V, (bn.childrenOf v).Nodup
  iff : ∀ u v, v ∈ bn.childrenOf u ↔ u ∈ bn.parentsOf v

/-- `P(v = a v | parents = a parents)`: the CPT entry, child fastest, then the parents in order. -/
def prob (bn : BayesNet N A) (v : N) (a : Asg N) : ℚ :=
  ((bn.cptOf v)[enc bn.cardOf (v :: bn.parentsOf v) a]?).getD 0

/-- The joint probability of a complete assignment: the product of the CPT entries. -/
def joint (bn : BayesNet N A) (a : Asg N) : ℚ := (bn.V.map fun v => bn.prob v a).prod

/-- All CPT entries are non-negative. -/
def Nonneg (bn : BayesNet N A) : Prop := ∀ v ∈ bn.V, ∀ x ∈ bn.cptOf v, 0 ≤ x

/-- Every CPT row sums to one. -/
def Normalised (bn : BayesNet N A) : Prop :=
  ∀ v ∈ bn.V, ∀ a, InRange bn.cardOf (bn.parentsOf v) a →
    ∑ x ∈ Finset.range (bn.cardOf v), bn.prob v (a.upd v x) = 1

/-- There is an order of the nodes in which all parents come first (the network is acyclic). -/
def Acyclic (bn : BayesNet N A) : Prop :=
  ∃ o : List N, o.Perm bn.V ∧ ∀ o1 v o2, o = o1 ++ v :: o2 → ∀ p ∈ bn.parentsOf v, p ∈ o1

end BayesNet
end PyBN
