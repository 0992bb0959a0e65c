import Verif.Spec.BayesNet
import Verif.Model.Factorization

/-!
# Specification of exact inference queries
-/

namespace PyBN
variable {N A : Type _} [DecidableEq N]

/-- The function denoted by a list of factors: the product of their values. -/
def prodVal (phi : List (Factor N)) (a : Asg N) : ℚ := (phi.map fun f => f.val a).prod

/-- Some factor of the list mentions `v`. -/
def Mentions (phi : List (Factor N)) (v : N) : Prop := ∃ f ∈ phi, v ∈ f.scope

namespace BayesNet

/-- The complete assignment `a` (value indices) gives every evidence variable its observed value. -/
def Agrees (bn : BayesNet N A) (ev : Dict N A) (a : Asg N) : Prop :=
  ∀ e ∈ ev, (bn.valuesOf e.1)[a e.1]? = some e.2

/-- Evidence a user may legally give: a dict whose keys are nodes, with values of those nodes. -/
structure LegalEvidence (bn : BayesNet N A) (ev : Dict N A) : Prop where
  nodup : ev.keys.Nodup
  legal : ∀ e ∈ ev, e.1 ∈ bn.V ∧ e.2 ∈ bn.valuesOf e.1

/-- `P(target = a target, evidence)`: the joint probability summed over all values of all nodes that are neither the
target nor observed; `a` holds the values of the target and the evidence. -/
def marginal (bn : BayesNet N A) (target : N) (ev : Dict N A) (a : Asg N) : ℚ :=
  sumAll bn.cardOf (bn.V.filter fun v => v ≠ target ∧ v ∉ ev.keys) bn.joint a

/-- `P(evidence)`. -/
def evidenceProb (bn : BayesNet N A) (ev : Dict N A) (a : Asg N) : ℚ :=
  sumAll bn.cardOf (bn.V.filter fun v => v ∉ ev.keys) bn.joint a

/-- The family of a node: itself and its parents. -/
def fam (bn : BayesNet N A) (u : N) : List N := u :: bn.parentsOf u

/-- Two nodes are linked through the variables `O` if one gets from the family of one to the family of the other by
repeatedly moving to a family sharing a variable of `O`. -/
inductive Linked (bn : BayesNet N A) (O : List N) : N → N → Prop
  | refl (u : N) : Linked bn O u u
  | step {u v w x : N} : Linked bn O u v → w ∈ bn.V → x ∈ O → x ∈ bn.fam v → x ∈ bn.fam w → Linked bn O u w

end BayesNet
end PyBN
