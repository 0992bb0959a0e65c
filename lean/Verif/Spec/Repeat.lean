import Verif.Spec.Learn

/-!
# Specification: repeated data, rounding half down
-/

namespace PyBN

/-- The data set `k` times over. -/
def Data.times (data : Data) (k : ℕ) : Data := ⟨data.ncol, (List.replicate k data.rows).flatten⟩

/-- The nearest number with five decimals; of two equally near ones the smaller. -/
def nearestDown (x : ℚ) : ℚ := ⌈x * 100000 - 1 / 2⌉ / 100000

end PyBN
