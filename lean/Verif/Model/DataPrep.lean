import Verif.Py.Num
import Verif.Model.BayesNetOps
import Mathlib.Data.Nat.Digits.Defs
import Mathlib.Algebra.BigOperators.Group.List.Basic

/-!
# `pyBN/utils/data.py` and `pyBN/utils/discretize.py`

A 2-D array is given as the list of its columns (`data.T`).  `int32` overflow is not modelled; floats are exact rationals.
-/

namespace PyBN

section
variable {α : Type _} [LinearOrder α]

/-- Insertion into an increasing list without duplicates. -/
def insertSet (x : α) : List α → List α
  | [] => [x]
  | y :: l => if x < y then x :: y :: l else if x = y then y :: l else y :: insertSet x l

/-- `np.unique(col)[0]`: the distinct entries in increasing order. -/
def uniqueVals : List α → List α
  | [] => []
  | x :: l => insertSet x (uniqueVals l)

/-- `np.unique(col, True, True)[2]`: for every entry its position among the distinct values. -/
def uniqueInv (col : List α) : List ℕ := col.map fun x => (uniqueVals col).idxOf x

/-- data.py:15-36 `replace_strings(data, return_values=True)` on an array whose entries can hold any integer (a numeric or object
array): codes and values, column by column. -/
def replaceNums (cols : List (List α)) : List (List ℕ) × List (List α) := (cols.map uniqueInv, cols.map uniqueVals)

/-- Storing the integer `c` in an array of strings of width `w` keeps the `w` leading characters of its decimal spelling; reading it back as
an integer. -/
def throughWidth (w c : ℕ) : ℕ := Nat.ofDigits 10 ((Nat.digits 10 c).drop ((Nat.digits 10 c).length - w))

/-- data.py:15-36 `replace_strings` on an array of strings of width `w` (numpy dtype `S<w>`): line 29 writes the codes back into that array,
line 34 converts it to integers. -/
def replaceStrs (w : ℕ) (cols : List (List α)) : List (List ℕ) × List (List α) :=
  (cols.map fun c => (uniqueInv c).map (throughWidth w), cols.map uniqueVals)

/-- data.py:38-48 `unique_bins(data)`. -/
def uniqueBins (cols : List (List α)) : List ℕ := cols.map fun c => (uniqueVals c).length

end

/-- `np.amin(col)`; `ValueError` on an empty column. -/
def colMin : List ℚ → Py ℚ
  | [] => .error .valueError
  | x :: l => .ok (l.foldl min x)

/-- `np.amax(col)`. -/
def colMax : List ℚ → Py ℚ
  | [] => .error .valueError
  | x :: l => .ok (l.foldl max x)

/-- `np.linspace(lo, hi, k)` (the last point is `hi` itself). -/
def linspace (lo hi : ℚ) (k : ℕ) : List ℚ :=
  if k = 1 then [lo] else (List.range k).map fun i : ℕ => lo + (hi - lo) * (i : ℚ) / ((k - 1 : ℕ) : ℚ)

/-- `np.digitize(x, bins)` for non-decreasing bins: how many of them are at most `x`. -/
def digitize (bins : List ℚ) (x : ℚ) : ℕ := bins.countP fun b => decide (b ≤ x)

/-- discretize.py:76-82: the loop over the selected columns; `mm` are the minima and maxima of the original columns. -/
def discLoop (mm : List (ℚ × ℚ)) (bins : List ℕ) : List ℕ → List (List ℚ) → Py (List (List ℚ))
  | [], cols => .ok cols
  | c :: cs, cols =>
      match mm[c]?, bins[c]?, cols[c]? with
      | some (lo, hi), some k, some col => discLoop mm bins cs (cols.set c (col.map fun x => (digitize (linspace lo hi k) x : ℚ)))
      | _, _, _ => .error .indexError

/-- Conversion to an integer array: truncation towards zero. -/
def truncZ (x : ℚ) : ℤ := if 0 ≤ x then ⌊x⌋ else -⌊-x⌋

/-- discretize.py:19-84 `discretize(data, cols, bins)`, for a 2-D array and non-negative column numbers. -/
def discretize (data : List (List ℚ)) (cols : Option (List ℕ)) (bins : Option (List ℕ)) : Py (List (List ℤ)) := do
  let bins' := bins.getD (List.replicate data.length 5)
  let cols' := cols.getD (List.range data.length)
  let mm ← pyMap (fun c => do let lo ← colMin c; let hi ← colMax c; pure (lo, hi)) data
  let r ← discLoop mm bins' cols' data
  pure (r.map fun c => c.map truncZ)

end PyBN
