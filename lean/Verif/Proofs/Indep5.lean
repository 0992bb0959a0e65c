import Verif.Props.Indep
import Mathlib.MeasureTheory.Integral.Gamma
import Mathlib.Analysis.SpecialFunctions.Gamma.Basic

/-!
# Range of the chi-square density, degrees of freedom
-/

set_option linter.unusedSectionVars false
namespace PyBN
namespace Indep
open MeasureTheory

theorem gamma_lower {a y : ℝ} (ha : 1 ≤ a) (hy : 0 < y) : y ^ (a - 1) * Real.exp (-y) ≤ Real.Gamma a := by
  rw [Real.Gamma_eq_integral (by linarith)]
  have hint := Real.GammaIntegral_convergent (s := a) (by linarith)
  have hsub : Set.Ioi y ⊆ Set.Ioi (0:ℝ) := Set.Ioi_subset_Ioi hy.le
  calc y ^ (a - 1) * Real.exp (-y) = ∫ t in Set.Ioi y, y ^ (a - 1) * Real.exp (-t) := by
        rw [integral_const_mul, integral_exp_neg_Ioi]
    _ ≤ ∫ t in Set.Ioi y, Real.exp (-t) * t ^ (a - 1) := by
        refine setIntegral_mono_on ?_ (hint.mono_set hsub) measurableSet_Ioi fun t ht => ?_
        · exact (integrableOn_exp_neg_Ioi y).const_mul _
        · rw [mul_comm]
          exact mul_le_mul_of_nonneg_left (Real.rpow_le_rpow hy.le (le_of_lt ht) (by linarith)) (Real.exp_pos _).le
    _ ≤ _ := setIntegral_mono_set hint ((ae_restrict_iff' measurableSet_Ioi).2 (.of_forall fun t ht => by
        have : 0 < t := ht
        show 0 ≤ Real.exp (-t) * t ^ (a-1)
        positivity)) hsub.eventuallyLE

/-- With at least two degrees of freedom the density is at most 1/2. -/
theorem chi2pdf_range (x : ℝ) (df : ℕ) (h : 2 ≤ df) : ∃ q, chi2pdf x df = .fin q ∧ 0 ≤ q ∧ q ≤ 1 / 2 := by
  unfold chi2pdf
  rw [if_neg (by omega)]
  split
  · exact ⟨0, rfl, le_rfl, by norm_num⟩
  · rename_i h0
    split
    · rw [if_neg (by omega)]
      split
      · exact ⟨_, rfl, by norm_num, le_rfl⟩
      · exact ⟨_, rfl, le_rfl, by norm_num⟩
    · rename_i h1
      have hx : 0 < x := lt_of_le_of_ne (not_lt.1 h0) (Ne.symm h1)
      have hdf : (2 : ℝ) ≤ df := by exact_mod_cast h
      have ha : (1 : ℝ) ≤ (df : ℝ) / 2 := by linarith
      have hg := gamma_lower ha (half_pos hx)
      have hG : 0 < Real.Gamma ((df : ℝ) / 2) := Real.Gamma_pos_of_pos (by linarith)
      refine ⟨_, rfl, by positivity, ?_⟩
      rw [div_le_iff₀ (by positivity)]
      have e1 : x ^ ((df : ℝ) / 2 - 1) = (x / 2) ^ ((df : ℝ) / 2 - 1) * 2 ^ ((df : ℝ) / 2 - 1) := by
        rw [← Real.mul_rpow (by positivity) (by norm_num)]
        congr 1; ring
      have e2 : (2 : ℝ) ^ ((df : ℝ) / 2) = 2 ^ ((df : ℝ) / 2 - 1) * 2 := by
        rw [Real.rpow_sub_one (by norm_num)]; ring
      have e3 : -x / 2 = -(x / 2) := by ring
      rw [e1, e2, e3]
      have hp : (0 : ℝ) < 2 ^ ((df : ℝ) / 2 - 1) := by positivity
      calc (x / 2) ^ ((df : ℝ) / 2 - 1) * 2 ^ ((df : ℝ) / 2 - 1) * Real.exp (-(x / 2))
          = 2 ^ ((df : ℝ) / 2 - 1) * ((x / 2) ^ ((df : ℝ) / 2 - 1) * Real.exp (-(x / 2))) := by ring
        _ ≤ 2 ^ ((df : ℝ) / 2 - 1) * Real.Gamma ((df : ℝ) / 2) := mul_le_mul_of_nonneg_left hg hp.le
        _ = _ := by ring

theorem round4_one : round4 1 = 1 := by
  unfold round4
  rw [if_pos (by norm_num)]
  have : ⌊(1 : ℝ) * 10 ^ 4 + 1 / 2⌋ = 10000 := by rw [Int.floor_eq_iff]; norm_num
  rw [this]; norm_num

theorem uniqueVals_card (l : List ℕ) : (uniqueVals l).length = l.toFinset.card := by
  rw [← List.toFinset_card_of_nodup (uniqueVals_nodup l)]
  congr 1
  ext x
  simp only [List.mem_toFinset, mem_uniqueVals]

theorem nbins_card (rows : List (List ℕ)) (j : ℕ) : nbins rows j = (valuesOf rows j).card := uniqueVals_card _

theorem joinDec_single (z : ℕ) (h : z < 10) : joinDec [z] = z := by
  have := joinDec_cons (z := z) (zs := []) (by simpa using h)
  simpa [joinDec] using this

/-- The degrees of freedom in terms of distinct values. -/
theorem ddof_eq {n : ℕ} {rows : List (List ℕ)} (hn : 3 ≤ n) (hlen : ∀ r ∈ rows, r.length = n) (hten : 3 < n → ∀ r ∈ rows, ∀ x ∈ r, x < 10) :
    ddof n rows = ((valuesOf rows 0).card - 1) * ((valuesOf rows 1).card - 1) * (rows.map fun r => r.drop 2).toFinset.card := by
  unfold ddof
  rw [if_neg (by omega)]
  by_cases h3 : 3 < n
  · simp only [if_pos h3]
    have hc : ∀ j < 2, column (joinFrom 2 rows) j = column rows j := by
      intro j hj
      unfold column joinFrom
      rw [List.map_map]
      refine List.map_congr_left fun r hr => ?_
      have : 2 ≤ r.length := by rw [hlen r hr]; omega
      match r, this with
      | a :: b :: r, _ => interval_cases j <;> rfl
    have hb : ∀ j < 2, nbins (joinFrom 2 rows) j = (valuesOf rows j).card := fun j hj => by
      rw [← nbins_card]; unfold nbins; rw [hc j hj]
    rw [hb 0 (by omega), hb 1 (by omega)]
    congr 1
    unfold nbins
    rw [uniqueVals_card]
    have : column (joinFrom 2 rows) 2 = (rows.map fun r => r.drop 2).map joinDec := by
      unfold column joinFrom
      rw [List.map_map, List.map_map]
      refine List.map_congr_left fun r hr => ?_
      have : 2 ≤ r.length := by rw [hlen r hr]; omega
      match r, this with
      | a :: b :: r, _ => rfl
    rw [this]
    have himg : ((rows.map fun r => r.drop 2).map joinDec).toFinset = (rows.map fun r => r.drop 2).toFinset.image joinDec := by
      ext x; simp
    rw [himg, Finset.card_image_of_injOn]
    intro x hx y hy hxy
    simp only [List.coe_toFinset, List.mem_map, Set.mem_setOf_eq] at hx hy
    obtain ⟨r, hr, rfl⟩ := hx
    obtain ⟨s, hs, rfl⟩ := hy
    exact (C95_join_injective_partial n rows hlen (hten h3) 2 r hr s hs).1 hxy
  · simp only [if_neg h3]
    rw [nbins_card, nbins_card, nbins_card]
    congr 1
    have hn3 : n = 3 := by omega
    have himg : (rows.map fun r => r.drop 2).toFinset = (valuesOf rows 2).image fun x => [x] := by
      unfold valuesOf
      ext x
      simp only [List.mem_toFinset, List.mem_map, Finset.mem_image, exists_exists_and_eq_and]
      refine exists_congr fun r => and_congr_right fun hr => ?_
      have := hlen r hr
      rw [hn3] at this
      match r, this with
      | [a, b, c], _ => simp [entry]
    rw [himg, Finset.card_image_of_injective _ fun a b h => by simpa using h]

end Indep
end PyBN
