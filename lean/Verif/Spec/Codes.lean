import Verif.Model.Indep

/-!
# Specification: recoded columns
-/

namespace PyBN
namespace Indep

/-- The data with the entry `x` of column `j` replaced by `g j x`. -/
def recode (g : ℕ → ℕ → ℕ) (rows : List (List ℕ)) : List (List ℕ) := rows.map fun r => r.mapIdx g

/-- Every row has `n` entries. -/
def Rect (n : ℕ) (rows : List (List ℕ)) : Prop := ∀ r ∈ rows, r.length = n

/-- What the tests see of two data sets: the same number of distinct values per column, and row by row the same bins. -/
structure SameBins (n : ℕ) (rows rows' : List (List ℕ)) : Prop where
  nb : ∀ j < n, nbins rows j = nbins rows' j
  bins : List.Forall₂ (fun r r' => ∀ j < n, ∀ k, histBin (column rows j) k (r.getD j 0) = histBin (column rows' j) k (r'.getD j 0)) rows rows'

end Indep
end PyBN
