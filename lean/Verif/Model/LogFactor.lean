import Verif.Model.Factor
import Mathlib.Analysis.SpecialFunctions.Log.Basic

/-!
# `Factor.to_log`, `Factor.from_log` (`pyBN/classes/factor.py`)

Both replace the attribute `cpt` entry by entry and touch nothing else; they are modelled as functions on tables.  `np.log` and `np.exp` are the real functions.
-/

namespace PyBN

/-- An entry of a table in log space: a number, `-inf` or `nan`. -/
inductive LFloat where
  | nan | ninf | fin (x : ℚ)
  deriving DecidableEq

/-- Nearest integer, ties to even (`np.rint`). -/
noncomputable def rintR (x : ℝ) : ℤ :=
  if x - ⌊x⌋ < 1 / 2 then ⌊x⌋ else if 1 / 2 < x - ⌊x⌋ then ⌊x⌋ + 1 else if ⌊x⌋ % 2 = 0 then ⌊x⌋ else ⌊x⌋ + 1

/-- `np.round(x, 5)`. -/
noncomputable def round5 (x : ℝ) : ℚ := (rintR (x * 10 ^ 5) : ℚ) / 10 ^ 5

/-- factor.py:618, one entry: `np.log(0) = -inf`, `np.log` of a negative number is `nan` (both with a warning). -/
noncomputable def logEntry (x : ℚ) : LFloat := if x < 0 then .nan else if x = 0 then .ninf else .fin (round5 (Real.log x))

/-- factor.py:626, one entry. -/
noncomputable def expEntry : LFloat → LFloat
  | .nan => .nan
  | .ninf => .fin (round5 0)
  | .fin x => .fin (round5 (Real.exp x))

namespace Factor

/-- factor.py:612-618 `to_log()`: the new table. -/
noncomputable def toLog (cpt : List ℚ) : List LFloat := cpt.map logEntry

/-- factor.py:620-626 `from_log()`: the new table. -/
noncomputable def fromLog (cpt : List LFloat) : List LFloat := cpt.map expEntry

end Factor
end PyBN
