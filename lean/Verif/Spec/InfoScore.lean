import Verif.Spec.BayesNet
import Mathlib.Analysis.SpecialFunctions.Log.Basic

/-!
# Quantities the scores are made of
-/

namespace PyBN
namespace BayesNet
variable {N A : Type _} [DecidableEq N]

/-- The number of table entries of the network. -/
def paramCount (bn : BayesNet N A) : ℕ := (bn.V.map fun v => (bn.cptOf v).length).sum

/-- The number of arcs. -/
def arcCount (bn : BayesNet N A) : ℕ := (bn.V.map fun v => (bn.parentsOf v).length).sum

/-- The sum of the logarithms of all table entries, each increased by `1e-7`. -/
noncomputable def logSum (bn : BayesNet N A) : ℝ := (bn.V.map fun v => ((bn.cptOf v).map fun x : ℚ => Real.log ((x : ℝ) + 1 / 10 ^ 7)).sum).sum

/-- The same nodes, parents and numbers of values. -/
def SameShape (b u : BayesNet N A) : Prop := u.V = b.V ∧ u.E = b.E ∧ ∀ v ∈ b.V, u.parentsOf v = b.parentsOf v ∧ u.cardOf v = b.cardOf v

/-- The likelihood of complete rows. -/
def likelihood (bn : BayesNet N A) (rows : List (Asg N)) : ℚ := (rows.map bn.joint).prod

/-- `u` is `b` with the table of `x` repeated `k` times: what an additional parent with `k` values changes if `x` does not depend on it. -/
def Repeated (b u : BayesNet N A) (x : N) (k : ℕ) : Prop :=
  u.V = b.V ∧ x ∈ b.V ∧ (∀ v ∈ b.V, v ≠ x → u.cptOf v = b.cptOf v) ∧ (u.cptOf x).Perm (List.replicate k (b.cptOf x)).flatten

end BayesNet
end PyBN
