import Verif.Model.Indep
import Mathlib.Data.Fintype.Pi
import Mathlib.Algebra.BigOperators.Fin

/-!
# `pyBN/classes/empiricaldistribution.py`: class `EmpiricalDistribution`

Python 2: `range` gives a list.  The data is a rectangular array of `n` columns of natural numbers.
-/

namespace PyBN
namespace EmpDist
open Indep

/-- The kinds of argument the methods distinguish: an integer, a string, a tuple, a list (not hashable). -/
inductive Arg where
  | int (i : ℤ) | str (s : String) | tup (l : List Arg) | list (l : List Arg)

/-- An object: `names` (always the column numbers), `counts`, `joint`, and the keys of `cache` (the cached tables play no part). -/
structure ED (n : ℕ) where
  bins : Fin n → ℕ
  counts : (Fin n → ℕ) → ℕ
  joint : (Fin n → ℕ) → ℚ
  cache : List Arg

/-- empiricaldistribution.py:45-46: `self.bins`. -/
def binsOf (n : ℕ) (rows : List (List ℕ)) : Fin n → ℕ := fun j => nbins rows j

/-- empiricaldistribution.py:49-50: `np.histogramdd(data, bins=self.bins)`. -/
def countsOf (n : ℕ) (rows : List (List ℕ)) (c : Fin n → ℕ) : ℕ :=
  rows.countP fun r => decide (∀ j : Fin n, histBin (column rows j) (nbins rows j) (r.getD j 0) = c j)

/-- empiricaldistribution.py:35-61 `EmpiricalDistribution(data, names)` for data with `n` columns; `names` is `None` or a sequence.  A sequence raises, because `self.NVAR` is read before it is
set (line 40).  Without rows every number of bins is 0, which `np.histogramdd` refuses; `hist.sum()` counts the rows. -/
def init (n : ℕ) (rows : List (List ℕ)) (names : Option (List Arg)) : Py (ED n) :=
  match names with
  | some _ => .error .attributeError
  | none =>
    if n = 0 ∨ rows = [] then .error .valueError
    else .ok ⟨binsOf n rows, countsOf n rows, fun c => (countsOf n rows c : ℚ) / rows.length + 1 / 1000, []⟩

/-- A method call. -/
inductive Call where
  | mpd (rv : Arg) | jpd (rvs : Arg) | cpd (lhs rhs : Arg) | mi (lhs rhs : Arg) | idx (rv : Arg) | idxMap (rvs : Arg)

/-- Lines 70-71 `idx(rv)`: the position of `rv` in `names = [0, ..., n-1]`. -/
def idx (n : ℕ) : Arg → Py ℕ
  | .int i => if 0 ≤ i ∧ i < n then .ok i.toNat else .error .valueError
  | _ => .error .valueError

mutual
/-- Whether an argument can be a dictionary key. -/
def hashable : Arg → Bool
  | .list _ => false
  | .tup l => hashableAll l
  | _ => true
def hashableAll : List Arg → Bool
  | [] => true
  | a :: l => hashable a && hashableAll l
end

/-- What a method returns: the table of a distribution is not represented further (no call gets that far). -/
inductive Result where
  | position (i : ℕ) | table

open Classical in
/-- Lines 76-90 `mpd(rv)`. -/
noncomputable def mpd {n : ℕ} (s : ED n) (rv : Arg) : Py (Result × ED n) :=
  match rv with
  | .str x =>
    if rv ∈ s.cache then .ok (.table, s)
    else do
      let _ ← idx n (.str x)
      pure (.table, { s with cache := rv :: s.cache })
  | _ => .error .assertionError

/-- Lines 92-100 `jpd(rvs)`: the assertion reads the undefined name `args`. -/
def jpd {n : ℕ} (_s : ED n) (_rvs : Arg) : Py (Result × ED n) := .error .nameError

open Classical in
/-- Lines 102-119 `cpd(lhs, rhs)`: `_key in self.cache` needs a hashable key. -/
noncomputable def cpd {n : ℕ} (s : ED n) (lhs rhs : Arg) : Py (Result × ED n) :=
  match rhs with
  | .tup r =>
    if hashable (.tup [lhs, rhs]) = false then .error .typeError
    else if Arg.tup [lhs, rhs] ∈ s.cache then .ok (.table, s)
    else do
      let tot := match lhs with
        | .tup l => Arg.tup (l ++ r)
        | a => Arg.tup (a :: r)
      let (_, s) ← jpd s tot
      let (_, s) ← jpd s rhs
      pure (.table, { s with cache := Arg.tup [lhs, rhs] :: s.cache })
  | _ => .error .assertionError

/-- Line 128: `mi` reads its local `data` before assigning it (`UnboundLocalError`, a `NameError`). -/
def mi {n : ℕ} (_s : ED n) (_lhs _rhs : Arg) : Py (Result × ED n) := .error .nameError

/-- One method call; the new state is returned with the result. -/
noncomputable def call {n : ℕ} (s : ED n) : Call → Py (Result × ED n)
  | .mpd rv => mpd s rv
  | .jpd rvs => jpd s rvs
  | .cpd l r => cpd s l r
  | .mi l r => mi s l r
  | .idx rv => do
    let i ← idx n rv
    pure (.position i, s)
  | .idxMap _ => .error .nameError

/-- A history of calls whose exceptions the user catches: the results and the object at the end.  (No method changes the object before it raises.) -/
noncomputable def calls {n : ℕ} : ED n → List Call → List (Py Result) × ED n
  | s, [] => ([], s)
  | s, c :: cs =>
    match call s c with
    | .ok (r, s') => (.ok r :: (calls s' cs).1, (calls s' cs).2)
    | .error e => (.error e :: (calls s cs).1, (calls s cs).2)

end EmpDist
end PyBN
