import Verif.Spec.Inference

/-!
# Specification: the same model written differently

Two networks describe the same model if, after renaming nodes and values, they have the same nodes, every node has the same values and the same
parents, and the same conditional probabilities, whatever the order in which nodes, parents and values are listed.
-/

namespace PyBN
namespace BayesNet
variable {N A M B : Type _} [DecidableEq N] [DecidableEq A] [DecidableEq M] [DecidableEq B]

/-- The value positions of an assignment of values. -/
def positions (bn : BayesNet N A) (α : N → A) : Asg N := fun u => (bn.valuesOf u).idxOf (α u)

/-- `P(v = α v | parents = α parents)`: the entry of the table of `v` for the named values. -/
def condProb (bn : BayesNet N A) (v : N) (α : N → A) : ℚ := bn.prob v (bn.positions α)

/-- The joint probability of an assignment of values. -/
def jointProb (bn : BayesNet N A) (α : N → A) : ℚ := bn.joint (bn.positions α)

/-- `bn'` is the model `bn`, with node `v` called `ρ v` and value `x` of node `v` called `τ v x`, nodes, parents and values listed in any order. -/
structure SameModel (ρ : N → M) (τ : N → A → B) (bn : BayesNet N A) (bn' : BayesNet M B) : Prop where
  nodes : bn'.V.Perm (bn.V.map ρ)
  values : ∀ v ∈ bn.V, (bn'.valuesOf (ρ v)).Perm ((bn.valuesOf v).map (τ v))
  parents : ∀ v ∈ bn.V, (bn'.parentsOf (ρ v)).Perm ((bn.parentsOf v).map ρ)
  prob : ∀ v ∈ bn.V, ∀ (α : N → A) (α' : M → B), (∀ u ∈ bn.fam v, α u ∈ bn.valuesOf u ∧ α' (ρ u) = τ u (α u)) →
    bn'.condProb (ρ v) α' = bn.condProb v α

/-- The same observations in the other names. -/
def renameEv (ρ : N → M) (τ : N → A → B) (ev : Dict N A) : Dict M B := ev.map fun e => (ρ e.1, τ e.1 e.2)

end BayesNet
end PyBN
