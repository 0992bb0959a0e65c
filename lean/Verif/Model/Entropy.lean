import Verif.Model.Indep

/-!
# `entropy` and `mi_from_en` (`pyBN/utils/independence_tests.py`)

Data as in `Verif.Model.Indep`.
-/

namespace PyBN
namespace Indep
open Finset

/-- independence_tests.py:283-289: two columns, a `k0 × k1` table of frequencies. -/
noncomputable def ent2 (k0 k1 : ℕ) (P : ℕ → ℕ → ℝ) : ℝ :=
  ∑ i ∈ range k0, ∑ j ∈ range k1, (P i j + eps) * Real.log (((∑ i' ∈ range k0, P i' j) + eps) / (P i j + eps))

/-- independence_tests.py:300-305: three columns. -/
noncomputable def ent3 (k0 k1 k2 : ℕ) (P : ℕ → ℕ → ℕ → ℝ) : ℝ :=
  -1 * (∑ i ∈ range k0, ∑ j ∈ range k1, ∑ k ∈ range k2, (P i j k + eps) * Real.log (P i j k + eps)) +
    ∑ j ∈ range k1, ∑ k ∈ range k2, ((∑ i' ∈ range k0, P i' j k) + eps) * Real.log ((∑ i' ∈ range k0, P i' j k) + eps)

open Classical in
/-- independence_tests.py:228-305 `entropy(data)` on a two-dimensional array with `n` columns; `none` is `nan`.  Line 297 takes the largest
code of each column as the number of its bins; `np.histogramdd` raises `ValueError` if that is 0. -/
noncomputable def entropy (n : ℕ) (rows : List (List ℕ)) : Py (Option ℚ) :=
  if rows = [] ∨ n = 0 then .error .valueError
  else if n = 1 then
    if ∃ i < nbins rows 0, hist1 rows (nbins rows 0) i = 0 then .ok none
    else .ok (some (round4 (ent1 (nbins rows 0) fun i => (hist1 rows (nbins rows 0) i : ℝ) / rows.length)))
  else if n = 2 then
    .ok (some (round4 (ent2 (nbins rows 0) (nbins rows 1) fun i j => (hist2 rows (nbins rows 0) (nbins rows 1) i j : ℝ) / rows.length)))
  else
    let d := if 3 < n then joinFrom 2 rows else rows
    let b := fun j => colHi (column d j)
    if b 0 = 0 ∨ b 1 = 0 ∨ b 2 = 0 then .error .valueError
    else .ok (some (round4 (ent3 (b 0) (b 1) (b 2) fun i j k => (hist3 d (b 0) (b 1) (b 2) i j k : ℝ) / rows.length)))

/-- independence_tests.py:263-277 `entropy(data)` on a one-dimensional array: `unique_bins` then treats every entry as a column, giving as
many "numbers of bins" (all 1) as there are entries, which `np.histogramdd` rejects unless there is exactly one. -/
def entropyVec (col : List ℕ) : Py (Option ℚ) := if col.length = 1 then .ok (some 0) else .error .valueError

/-- `round(a - b, 4)`, with `nan`. -/
noncomputable def diff4 : Option ℚ → Option ℚ → Option ℚ
  | some a, some b => some (round4 ((a - b : ℚ) : ℝ))
  | _, _ => none

/-- independence_tests.py:307-346 `mi_from_en(data)` on data with `n` columns.  With fewer than two columns `MI` is never assigned
(`UnboundLocalError`, a `NameError`). -/
noncomputable def miFromEn (n : ℕ) (rows : List (List ℕ)) : Py (Option ℚ) :=
  if n < 2 then .error .nameError
  else if n = 2 then do
    let h ← entropyVec (column rows 0)
    let q ← entropy 2 rows
    pure (diff4 h q)
  else do
    let d := if 3 < n then joinFrom 2 rows else rows
    let h ← entropy 2 (select [0, 2] d)
    let q ← entropy 3 d
    pure (diff4 h q)

end Indep
end PyBN
