import Mathlib.Data.Rat.Defs
import Mathlib.Algebra.Order.Ring.Rat

/-!
# What encoding and discretizing a data set should do

Independent of the model.
-/

namespace PyBN

/-- The smallest and largest entry of a column. -/
structure MinMax (col : List ℚ) (lo hi : ℚ) : Prop where
  lo_mem : lo ∈ col
  hi_mem : hi ∈ col
  lo_le : ∀ x ∈ col, lo ≤ x
  le_hi : ∀ x ∈ col, x ≤ hi

/-- `vals` lists exactly the entries of the column, in increasing order, each once. -/
structure IsValueList {α : Type _} [LinearOrder α] (col vals : List α) : Prop where
  sorted : vals.Pairwise (· < ·)
  mem : ∀ x, x ∈ vals ↔ x ∈ col

/-- The codes of one column are a reversible, order-preserving encoding through `vals`, using every code. -/
structure IsEncoding {α : Type _} [LinearOrder α] (col : List α) (codes : List ℕ) (vals : List α) : Prop where
  length : codes.length = col.length
  decode : ∀ (r : ℕ) (x : α) (c : ℕ), col[r]? = some x → codes[r]? = some c → vals[c]? = some x
  onto : ∀ c, c < vals.length → c ∈ codes
  order : ∀ (r s : ℕ) (x y : α) (c d : ℕ), col[r]? = some x → col[s]? = some y → codes[r]? = some c → codes[s]? = some d → (c < d ↔ x < y)

end PyBN
