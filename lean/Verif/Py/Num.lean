import Verif.Py.Basic
import Mathlib.Algebra.Order.Floor.Ring
import Mathlib.Data.Rat.Floor

/-!
# numpy / Python 2 numeric primitives: rounding and argmax
-/

namespace PyBN

/-- Nearest integer, ties to even. -/
def rintEven (x : ℚ) : ℤ :=
  let f := ⌊x⌋
  let r := x - f
  if r < 1 / 2 then f else if 1 / 2 < r then f + 1 else if f % 2 = 0 then f else f + 1

/-- `np.round(x, d)`: scale, round half to even, unscale (exact arithmetic). -/
def roundEven (d : ℕ) (x : ℚ) : ℚ := rintEven (x * 10 ^ d) / 10 ^ d

/-- Nearest integer, ties away from zero. -/
def rintAway (x : ℚ) : ℤ := if 0 ≤ x then ⌊x + 1 / 2⌋ else -⌊-x + 1 / 2⌋

/-- Python 2's builtin `round(x, d)`: half away from zero (exact arithmetic). -/
def roundAway (d : ℕ) (x : ℚ) : ℚ := rintAway (x * 10 ^ d) / 10 ^ d

/-- The loop behind `np.argmax`: `i` is the index of the head of the list, `best`/`bx` the current winner. -/
def argmaxFrom (best : ℕ) (bx : ℚ) : ℕ → List ℚ → ℕ
  | _, [] => best
  | i, x :: l => if bx < x then argmaxFrom i x (i + 1) l else argmaxFrom best bx (i + 1) l

/-- `np.argmax(l)`: the first position of the maximum; `ValueError` on an empty array. -/
def pyArgmax : List ℚ → Py ℕ
  | [] => .error .valueError
  | x :: l => .ok (argmaxFrom 0 x 1 l)

end PyBN
