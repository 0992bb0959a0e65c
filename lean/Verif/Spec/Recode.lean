import Verif.Spec.Learn

/-!
# Specification: recoded data
-/

namespace PyBN

/-- The data set with the entries of column `i` replaced by their images under `g i`. -/
def Data.recode (data : Data) (g : ℕ → ℤ → ℤ) : Data := ⟨data.ncol, data.rows.map fun row => row.mapIdx g⟩

/-- `a'` names, among the values of `c`, the codes of the values that `a` names among the values of `b`. -/
def Recoded (g : ℕ → ℤ → ℤ) (b c : BayesNet ℕ ℤ) (fam : List ℕ) (a a' : Asg ℕ) : Prop :=
  ∀ u ∈ fam, (c.valuesOf u)[a' u]? = ((b.valuesOf u)[a u]?).map (g u)

end PyBN
