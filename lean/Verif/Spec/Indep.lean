import Mathlib.Analysis.SpecialFunctions.Log.Basic
import Mathlib.Algebra.BigOperators.Group.Finset.Basic
import Mathlib.Data.Finset.Dedup

/-!
# Empirical distributions of a data set

Independent of the model.  A data set is the list of its rows.
-/

namespace PyBN
namespace Indep
open Finset

/-- Entry `j` of a row. -/
def entry (j : ℕ) (r : List ℕ) : ℕ := r.getD j 0

/-- The values of column `j`. -/
def valuesOf (rows : List (List ℕ)) (j : ℕ) : Finset ℕ := (rows.map (entry j)).toFinset

/-- Relative frequency of a condition on rows. -/
noncomputable def freq (rows : List (List ℕ)) (p : List ℕ → Prop) [DecidablePred p] : ℝ := (rows.filter fun r => p r).length / rows.length

/-- Empirical mutual information of columns 0 and 1, with `e` added to every joint and product probability. -/
noncomputable def empMI (e : ℝ) (rows : List (List ℕ)) : ℝ :=
  ∑ x ∈ valuesOf rows 0, ∑ y ∈ valuesOf rows 1,
    (freq rows (fun r => entry 0 r = x ∧ entry 1 r = y) + e) *
      Real.log ((freq rows (fun r => entry 0 r = x ∧ entry 1 r = y) + e) / (freq rows (fun r => entry 0 r = x) * freq rows (fun r => entry 1 r = y) + e))

/-- Empirical entropy of column 0. -/
noncomputable def empH (rows : List (List ℕ)) : ℝ :=
  ∑ x ∈ valuesOf rows 0, -(freq rows (fun r => entry 0 r = x) * Real.log (freq rows fun r => entry 0 r = x))

/-- Columns 0 and 1 are independent in the data. -/
def EmpIndep (rows : List (List ℕ)) : Prop :=
  ∀ x y, freq rows (fun r => entry 0 r = x ∧ entry 1 r = y) = freq rows (fun r => entry 0 r = x) * freq rows fun r => entry 1 r = y

/-- Empirical conditional mutual information of columns 0 and 1 given column 2, with `e` added to every denominator `P(z)`, to every joint
probability and to both conditional ones; `e = 0` gives the textbook quantity. -/
noncomputable def empCMIs (e : ℝ) (rows : List (List ℕ)) : ℝ :=
  ∑ x ∈ valuesOf rows 0, ∑ y ∈ valuesOf rows 1, ∑ z ∈ valuesOf rows 2,
    (freq rows (fun r => entry 0 r = x ∧ entry 1 r = y ∧ entry 2 r = z) + e) *
      Real.log ((freq rows (fun r => entry 0 r = x ∧ entry 1 r = y ∧ entry 2 r = z) / (freq rows (fun r => entry 2 r = z) + e) + e) /
        (freq rows (fun r => entry 0 r = x ∧ entry 2 r = z) / (freq rows (fun r => entry 2 r = z) + e) *
          (freq rows (fun r => entry 1 r = y ∧ entry 2 r = z) / (freq rows (fun r => entry 2 r = z) + e)) + e))

/-- Columns 0 and 1 are conditionally independent given column 2 in the data. -/
def EmpCondIndep (rows : List (List ℕ)) : Prop :=
  ∀ x y z, freq rows (fun r => entry 0 r = x ∧ entry 1 r = y ∧ entry 2 r = z) * freq rows (fun r => entry 2 r = z) =
    freq rows (fun r => entry 0 r = x ∧ entry 2 r = z) * freq rows fun r => entry 1 r = y ∧ entry 2 r = z

/-- The codes of column `j` are 0, 1, ..., as `replace_strings` produces them. -/
def Coded (rows : List (List ℕ)) (j : ℕ) : Prop := ∀ r ∈ rows, ∀ v < entry j r, ∃ r' ∈ rows, entry j r' = v

/-- All entries are 0 or 1 and every row has `n` of them. -/
def Binary (n : ℕ) (rows : List (List ℕ)) : Prop := ∀ r ∈ rows, r.length = n ∧ ∀ x ∈ r, x ≤ 1

/-- Exchange the first two entries of a row. -/
def swap01 : List ℕ → List ℕ
  | a :: b :: r => b :: a :: r
  | r => r

end Indep
end PyBN
