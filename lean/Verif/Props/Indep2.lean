import Verif.Proofs.Indep5

/-!
# C93: the range of the p-value
-/

namespace PyBN
namespace Indep

/-- The degrees of freedom of the test on `n` columns: the product of the numbers of values of the two tested columns, less one each, and the number of
combinations of values of the conditioning columns. -/
def degrees (n : ℕ) (rows : List (List ℕ)) : ℕ :=
  ((valuesOf rows 0).card - 1) * ((valuesOf rows 1).card - 1) * if n = 2 then 1 else (rows.map fun r => r.drop 2).toFinset.card

/-- C93, the part that holds: with at least two degrees of freedom the result of `mi_test` is a number between 0 and 1.  (Codes below 10 with two or more
conditioning columns.)  With one degree of freedom see `C93_false`, with none the result is `nan`. -/
theorem C93_range_partial (n : ℕ) (rows : List (List ℕ)) (hn : 2 ≤ n) (hne : rows ≠ []) (hlen : ∀ r ∈ rows, r.length = n)
    (hten : 3 < n → ∀ r ∈ rows, ∀ x ∈ r, x < 10) :
    (2 ≤ degrees n rows → ∃ p : ℝ, miTest n rows = .ok (.fin p) ∧ 0 ≤ p ∧ p ≤ 1) ∧ (degrees n rows = 0 → miTest n rows = .ok .nan) := by
  have hd : ddof n rows = degrees n rows := by
    unfold degrees
    by_cases h2 : n = 2
    · unfold ddof; rw [if_pos h2, if_pos h2, mul_one, nbins_card, nbins_card]
    · rw [if_neg h2]; exact ddof_eq (by omega) hlen hten
  unfold miTest
  rw [if_neg (by simp [hne]; omega), hd]
  refine ⟨fun h => ?_, fun h => by rw [h]; rfl⟩
  obtain ⟨q, hq, h0, h1⟩ := chi2pdf_range (2 * rows.length * miStat n rows) (degrees n rows) h
  rw [hq]
  refine ⟨(round4 (2 * q) : ℚ), rfl, ?_, ?_⟩
  · exact_mod_cast round4_nonneg (by linarith : 0 ≤ 2 * q)
  · have := round4_mono (by linarith : 2 * q ≤ 1)
    rw [round4_one] at this
    exact_mod_cast this

/-- C93 is false of the code with one degree of freedom: two independent binary columns give `inf`. -/
theorem C93_false : ¬ ∀ rows : List (List ℕ), rows ≠ [] → (∀ r ∈ rows, r.length = 2) → ∃ p : ℝ, miTest 2 rows = .ok (.fin p) ∧ 0 ≤ p ∧ p ≤ 1 := by
  intro h
  obtain ⟨p, hp, -⟩ := h [[0, 0], [0, 1], [1, 0], [1, 1]] (by decide) (by decide)
  have := (C92_independent_pvalue [[0, 0], [0, 1], [1, 0], [1, 1]] (by decide) (by unfold Coded; decide) (by unfold Coded; decide)
    (empIndep_of_counts (by decide) (by decide)) 1 (by decide)).2.1 rfl
  rw [this] at hp
  cases hp

/-- Witness for C93: four binary columns, four degrees of freedom. -/
example : ∃ p : ℝ, miTest 4 exFour = .ok (.fin p) ∧ 0 ≤ p ∧ p ≤ 1 :=
  (C93_range_partial 4 exFour (by decide) (by decide) (by decide) (by decide)).1 (by decide)

end Indep
end PyBN
