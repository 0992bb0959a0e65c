import Verif.Model.DataPrep
import Mathlib.Analysis.SpecialFunctions.Log.Basic
import Mathlib.Analysis.SpecialFunctions.Gamma.Basic
import Mathlib.Algebra.BigOperators.Group.Finset.Basic

/-!
# `pyBN/utils/independence_tests.py`

A data set is the list of its rows, a row the list of its entries, natural numbers (the codes `replace_strings` produces).  Floats are real
numbers; `1e-7` is `eps`.  `entropy` and `mi_from_en` are in `Verif.Model.Entropy`; `chi2_test` is not modelled (it
raises `NameError`).
-/

namespace PyBN
namespace Indep
open Finset

/-- Column `j` of the data. -/
def column (rows : List (List ℕ)) (j : ℕ) : List ℕ := rows.map fun r => r.getD j 0

/-- `np.amin(col)` of a non-empty column. -/
def colLo (col : List ℕ) : ℕ := col.min?.getD 0

/-- `np.amax(col)` of a non-empty column. -/
def colHi (col : List ℕ) : ℕ := col.max?.getD 0

/-- The bin `np.histogramdd` puts `x` in, for `k` equal-width bins over `[lo, hi]`: the last bin is closed on both sides; if `lo = hi` the
range is widened to `[lo - 1/2, hi + 1/2]`. -/
def binOf (lo hi k x : ℕ) : ℕ := if lo = hi then k / 2 else if x = hi then k - 1 else (x - lo) * k / (hi - lo)

/-- The bin of an entry of the column `col`. -/
def histBin (col : List ℕ) (k x : ℕ) : ℕ := binOf (colLo col) (colHi col) k x

/-- `np.histogramdd(data, bins=(k0, k1))` of two columns. -/
def hist2 (rows : List (List ℕ)) (k0 k1 i j : ℕ) : ℕ :=
  rows.countP fun r => histBin (column rows 0) k0 (r.getD 0 0) = i ∧ histBin (column rows 1) k1 (r.getD 1 0) = j

/-- `np.histogramdd(data, bins=(k0, k1, k2))` of three columns. -/
def hist3 (rows : List (List ℕ)) (k0 k1 k2 i j k : ℕ) : ℕ :=
  rows.countP fun r => histBin (column rows 0) k0 (r.getD 0 0) = i ∧ histBin (column rows 1) k1 (r.getD 1 0) = j ∧
    histBin (column rows 2) k2 (r.getD 2 0) = k

/-- `unique_bins(data)[j]`. -/
def nbins (rows : List (List ℕ)) (j : ℕ) : ℕ := (uniqueVals (column rows j)).length

/-- The decimal digits of `str(n)`, most significant first. -/
def decDigits (n : ℕ) : List ℕ := if n = 0 then [0] else (Nat.digits 10 n).reverse

/-- independence_tests.py:55-59, 85-89, 191-195: `int(''.join(row[c:]))`.  The fixed width of the string array (21 characters for `int64`)
and integer overflow are not modelled. -/
def joinDec (zs : List ℕ) : ℕ := (zs.flatMap decDigits).foldl (fun a d => 10 * a + d) 0

/-- independence_tests.py:54-59 (`c = 2`) and 85-89 (`c = 1`): the columns from `c` on joined into one. -/
def joinFrom (c : ℕ) (rows : List (List ℕ)) : List (List ℕ) := rows.map fun r => r.take c ++ [joinDec (r.drop c)]

/-- `1e-7`. -/
noncomputable def eps : ℝ := 1 / 10 ^ 7

/-- independence_tests.py:43-50, 93-100, 173-180: marginals, smoothing, and the sum, for a `k0 × k1` table of frequencies. -/
noncomputable def mi2 (k0 k1 : ℕ) (P : ℕ → ℕ → ℝ) : ℝ :=
  ∑ i ∈ range k0, ∑ j ∈ range k1,
    (P i j + eps) * Real.log ((P i j + eps) / ((∑ j' ∈ range k1, P i j') * (∑ i' ∈ range k0, P i' j) + eps))

/-- independence_tests.py:64-81, 202-219: the same conditionally on the third index. -/
noncomputable def mi3 (k0 k1 k2 : ℕ) (P : ℕ → ℕ → ℕ → ℝ) : ℝ :=
  ∑ i ∈ range k0, ∑ j ∈ range k1, ∑ k ∈ range k2,
    (P i j k + eps) * Real.log
      ((P i j k / ((∑ i' ∈ range k0, ∑ j' ∈ range k1, P i' j' k) + eps) + eps) /
       ((∑ j' ∈ range k1, P i j' k) / ((∑ i' ∈ range k0, ∑ j' ∈ range k1, P i' j' k) + eps) *
        ((∑ i' ∈ range k0, P i' j k) / ((∑ i' ∈ range k0, ∑ j' ∈ range k1, P i' j' k) + eps)) + eps))

/-- `round(x, 4)` (Python 2: half away from zero). -/
noncomputable def round4 (x : ℝ) : ℚ :=
  if 0 ≤ x then (⌊x * 10 ^ 4 + 1 / 2⌋ : ℚ) / 10 ^ 4 else -((⌊-x * 10 ^ 4 + 1 / 2⌋ : ℚ) / 10 ^ 4)

/-- A float result: a number, `inf` or `nan`. -/
inductive PFloat where
  | nan | inf | fin (x : ℝ)

/-- `p < a`: false for `inf` and `nan`. -/
def PFloat.lt : PFloat → ℝ → Prop
  | .fin x, a => x < a
  | _, _ => False

/-- `p > a`: false for `nan`. -/
def PFloat.gt : PFloat → ℝ → Prop
  | .fin x, a => a < x
  | .inf, _ => True
  | .nan, _ => False

/-- `round(p, 4)`. -/
noncomputable def PFloat.round4 : PFloat → PFloat
  | .fin x => .fin (Indep.round4 x : ℚ)
  | p => p

/-- `2 * p`. -/
noncomputable def PFloat.twice : PFloat → PFloat
  | .fin x => .fin (2 * x)
  | p => p

/-- `scipy.stats.chi2.pdf(x, df)` for an integer `df`. -/
noncomputable def chi2pdf (x : ℝ) (df : ℕ) : PFloat :=
  if df = 0 then .nan
  else if x < 0 then .fin 0
  else if x = 0 then (if df = 1 then .inf else if df = 2 then .fin (1 / 2) else .fin 0)
  else .fin (x ^ ((df : ℝ) / 2 - 1) * Real.exp (-x / 2) / (2 ^ ((df : ℝ) / 2) * Real.Gamma ((df : ℝ) / 2)))

/-- Lines 168-180, 189-219: the mutual information of `mi_test` before rounding, for `n` columns. -/
noncomputable def miStat (n : ℕ) (rows : List (List ℕ)) : ℝ :=
  if n = 2 then mi2 (nbins rows 0) (nbins rows 1) fun i j => (hist2 rows (nbins rows 0) (nbins rows 1) i j : ℝ) / rows.length
  else
    let d := if 3 < n then joinFrom 2 rows else rows
    mi3 (nbins d 0) (nbins d 1) (nbins d 2) fun i j k => (hist3 d (nbins d 0) (nbins d 1) (nbins d 2) i j k : ℝ) / rows.length

/-- Lines 185, 224: the degrees of freedom. -/
def ddof (n : ℕ) (rows : List (List ℕ)) : ℕ :=
  if n = 2 then (nbins rows 0 - 1) * (nbins rows 1 - 1)
  else
    let d := if 3 < n then joinFrom 2 rows else rows
    (nbins d 0 - 1) * (nbins d 1 - 1) * nbins d 2

/-- independence_tests.py:105-226 `mi_test(data, test=False)` on data with `n` columns: no rows or fewer than two columns raise. -/
noncomputable def miTestMI (n : ℕ) (rows : List (List ℕ)) : Py ℚ :=
  if rows = [] ∨ n < 2 then .error .valueError else .ok (round4 (miStat n rows))

/-- independence_tests.py:105-226 `mi_test(data)`: the "p-value". -/
noncomputable def miTest (n : ℕ) (rows : List (List ℕ)) : Py PFloat :=
  if rows = [] ∨ n < 2 then .error .valueError
  else .ok (chi2pdf (2 * rows.length * miStat n rows) (ddof n rows)).twice.round4

open Classical in
/-- independence_tests.py:24-29 `are_independent(data, alpha)`. -/
noncomputable def areIndependent (n : ℕ) (rows : List (List ℕ)) (alpha : ℝ) : Py Bool := do
  let p ← miTest n rows
  pure (decide (p.lt alpha))

/-- `np.histogramdd(data, bins=(k,))` of one column. -/
def hist1 (rows : List (List ℕ)) (k i : ℕ) : ℕ := rows.countP fun r => histBin (column rows 0) k (r.getD 0 0) = i

/-- Lines 35-37: `-sum(Px * log(Px))`; an empty bin gives `0 * log(0) = nan`. -/
noncomputable def ent1 (k : ℕ) (P : ℕ → ℝ) : ℝ := -1 * ∑ i ∈ range k, P i * Real.log (P i)

open Classical in
/-- independence_tests.py:31-101 `mutual_information(data, conditional)` on data with `n` columns; `none` is `nan`.  Lines 61-62 use the largest
code of each column, not the number of its codes, as the number of bins; `np.histogramdd` raises `ValueError` if that is 0.  Line 91 uses the
number of codes of the *first* joined column. -/
noncomputable def mutualInformation (n : ℕ) (rows : List (List ℕ)) (conditional : Bool) : Py (Option ℚ) :=
  if rows = [] ∨ n = 0 then .error .valueError
  else if n = 1 then
    if ∃ i < nbins rows 0, hist1 rows (nbins rows 0) i = 0 then .ok none
    else .ok (some (round4 (ent1 (nbins rows 0) fun i => (hist1 rows (nbins rows 0) i : ℝ) / rows.length)))
  else if n = 2 then
    .ok (some (round4 (mi2 (nbins rows 0) (nbins rows 1) fun i j => (hist2 rows (nbins rows 0) (nbins rows 1) i j : ℝ) / rows.length)))
  else if conditional then
    let d := if 3 < n then joinFrom 2 rows else rows
    let b := fun j => colHi (column d j)
    if b 0 = 0 ∨ b 1 = 0 ∨ b 2 = 0 then .error .valueError
    else .ok (some (round4 (mi3 (b 0) (b 1) (b 2) fun i j k => (hist3 d (b 0) (b 1) (b 2) i j k : ℝ) / rows.length)))
  else
    let d := joinFrom 1 rows
    .ok (some (round4 (mi2 (nbins rows 0) (nbins rows 1) fun i j => (hist2 d (nbins rows 0) (nbins rows 1) i j : ℝ) / rows.length)))

/-- `data[:, cols]`. -/
def select (cols : List ℕ) (rows : List (List ℕ)) : List (List ℕ) := rows.map fun r => cols.map fun c => r.getD c 0

/-- hill_climbing.py:141-144 etc.: `mutual_information(data[:, cols])` as a number; `none` is `nan` (or no rows). -/
noncomputable def dataScore (rows : List (List ℕ)) (cols : List ℕ) : Option ℚ :=
  match mutualInformation cols.length (select cols rows) false with
  | .ok q => q
  | .error _ => none

end Indep
end PyBN
