import Verif.Spec.Indep

/-!
# Empirical conditional entropies
-/

namespace PyBN
namespace Indep
open Finset

/-- `H(a | b)` in the data (`0 log 0 = 0`). -/
noncomputable def empCondH (rows : List (List ℕ)) (a b : ℕ) : ℝ :=
  ∑ x ∈ valuesOf rows a, ∑ y ∈ valuesOf rows b, freq rows (fun r => entry a r = x ∧ entry b r = y) *
    Real.log (freq rows (fun r => entry b r = y) / freq rows (fun r => entry a r = x ∧ entry b r = y))

/-- `H(a | b, c)` in the data. -/
noncomputable def empCondH2 (rows : List (List ℕ)) (a b c : ℕ) : ℝ :=
  ∑ x ∈ valuesOf rows a, ∑ y ∈ valuesOf rows b, ∑ z ∈ valuesOf rows c, freq rows (fun r => entry a r = x ∧ entry b r = y ∧ entry c r = z) *
    Real.log (freq rows (fun r => entry b r = y ∧ entry c r = z) / freq rows (fun r => entry a r = x ∧ entry b r = y ∧ entry c r = z))

/-- `I(a ; b | c)` in the data. -/
noncomputable def empCMI (rows : List (List ℕ)) (a b c : ℕ) : ℝ :=
  ∑ x ∈ valuesOf rows a, ∑ y ∈ valuesOf rows b, ∑ z ∈ valuesOf rows c, freq rows (fun r => entry a r = x ∧ entry b r = y ∧ entry c r = z) *
    Real.log (freq rows (fun r => entry c r = z) * freq rows (fun r => entry a r = x ∧ entry b r = y ∧ entry c r = z) /
      (freq rows (fun r => entry a r = x ∧ entry c r = z) * freq rows (fun r => entry b r = y ∧ entry c r = z)))

/-- The codes of column `j` have no gaps. -/
def Consecutive (rows : List (List ℕ)) (j : ℕ) : Prop :=
  ∀ r ∈ rows, ∀ s ∈ rows, ∀ v, entry j r ≤ v → v ≤ entry j s → ∃ t ∈ rows, entry j t = v

/-- The codes of column `j` are 1, 2, .... -/
def FromOne (rows : List (List ℕ)) (j : ℕ) : Prop := ∀ r ∈ rows, 1 ≤ entry j r ∧ ∀ v, 1 ≤ v → v ≤ entry j r → ∃ t ∈ rows, entry j t = v

end Indep
end PyBN
