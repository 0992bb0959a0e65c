import Mathlib.Data.Rat.Defs
import Mathlib.Algebra.Order.Field.Rat
import Mathlib.Algebra.Order.Round
import Mathlib.Data.Int.Log
import Mathlib.Data.Rat.Floor

/-!
# Specification of rounded arithmetic: the standard model of floating point
-/

namespace PyBN

/-- Rounding with relative error at most `u`: `fl(x) = x (1 + d)`, `|d| ≤ u`. -/
structure Rounds (u : ℚ) (rnd : ℚ → ℚ) : Prop where
  nonneg : 0 ≤ u
  lt_one : u < 1
  err : ∀ x, |rnd x - x| ≤ u * |x|

/-- `y` is a computed value of the non-negative quantity `x` after at most `k` roundings. -/
def Near (u : ℚ) (k : ℕ) (x y : ℚ) : Prop := 0 ≤ x ∧ (1 - u) ^ k * x ≤ y ∧ y ≤ (1 + u) ^ k * x

/-- Round to the nearest number with `p` significant binary digits (IEEE 754 binary64 has `p = 53`), the exponent being unbounded. -/
def flBin (p : ℕ) (x : ℚ) : ℚ :=
  let ulp : ℚ := (2 : ℚ) ^ (Int.log 2 |x| - p + 1)
  round (x / ulp) * ulp

end PyBN
