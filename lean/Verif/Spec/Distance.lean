import Verif.Spec.BayesNet
import Mathlib.Data.Set.Card

/-!
# Specification for structural distances and Markov blankets
-/

namespace PyBN
namespace BayesNet
variable {N A : Type _} [DecidableEq N]

/-- A structurally consistent network: distinct nodes, every node described, duplicate-free parent and children lists that say
the same thing, no self-loop.  Nothing is asked about values and tables. -/
structure Struct (bn : BayesNet N A) : Prop where
  nodup : bn.V.Nodup
  dom : ∀ v, (bn.F.get? v).isSome ↔ v ∈ bn.V
  fam_nodup : ∀ v ∈ bn.V, (v :: bn.parentsOf v).Nodup
  edges : bn.EdgeWF

/-- The set of arcs of a network. -/
def arcs (bn : BayesNet N A) : Set (N × N) := {p | p.2 ∈ bn.childrenOf p.1}

/-- `y` is in the Markov blanket of `x`: a parent, a child, or another parent of a child. -/
def InBlanket (bn : BayesNet N A) (x y : N) : Prop :=
  y ∈ bn.parentsOf x ∨ y ∈ bn.childrenOf x ∨ (y ≠ x ∧ ∃ c ∈ bn.childrenOf x, y ∈ bn.parentsOf c)

end BayesNet
end PyBN
