import Verif.Proofs.Indep6
import Verif.Props.Indep2
import Mathlib.Analysis.Complex.ExponentialBounds
import Mathlib.Analysis.SpecialFunctions.Pow.NNReal
import Mathlib.Tactic.NormNum

/-!
# C160: `mi_test(data, test=False)` with one conditioning column
-/

namespace PyBN
namespace Indep
open Finset

/-- C160: for three coded columns `mi_test(data, test=False)` is the four-digit rounding of the empirical conditional mutual information of the
first two given the third, smoothed by `1e-7`.  If the first two are conditionally independent in the data, it is not negative, and it is 0
unless the third column has more than 400 values or there are more than a million rows. -/
theorem C160_conditional_mi_value (rows : List (List ℕ)) (hne : rows ≠ []) (h0 : Coded rows 0) (h1 : Coded rows 1) (h2 : Coded rows 2) :
    ∃ q, miTestMI 3 rows = .ok q ∧ |(q : ℝ) - empCMIs (1 / 10 ^ 7) rows| ≤ 1 / 20000 ∧
      (EmpCondIndep rows → 0 ≤ q ∧ 0 ≤ empCMIs (1 / 10 ^ 7) rows ∧
        empCMIs (1 / 10 ^ 7) rows ≤ (valuesOf rows 2).card * (1 / 10 ^ 7 * (1 + 1 / 10 ^ 7 * rows.length))) ∧
      (EmpCondIndep rows → (valuesOf rows 2).card ≤ 400 → rows.length ≤ 10 ^ 6 → q = 0) := by
  have hst := miStat_three_coded hne h0 h1 h2
  have hN : (0 : ℝ) < rows.length := by
    have := List.length_pos_of_ne_nil hne
    exact_mod_cast this
  have he := eps_pos
  have key : EmpCondIndep rows → 0 ≤ empCMIs eps rows ∧ empCMIs eps rows ≤ (valuesOf rows 2).card * (eps * (1 + eps * rows.length)) := by
    intro hci
    -- the three-way table
    set p : ℕ → ℕ → ℕ → ℝ := fun x y z => freq rows fun r => entry 0 r = x ∧ entry 1 r = y ∧ entry 2 r = z with hp
    have hp0 : ∀ x y z, 0 ≤ p x y z := fun x y z => by simp only [hp, freq_eq_countP]; positivity
    have hz0 : ∀ z ∈ valuesOf rows 2, 0 < freq rows fun r => entry 2 r = z := by
      intro z hz
      rw [freq_eq_countP]
      obtain ⟨r, hr, e⟩ := List.mem_map.1 (List.mem_toFinset.1 hz)
      have : 0 < rows.countP fun r => decide (entry 2 r = z) := List.countP_pos_iff.2 ⟨r, hr, by simpa using e⟩
      exact div_pos (by exact_mod_cast this) hN
    have hpn : ∀ x y z, p x y z ≠ 0 → p x y z + eps ≤ p x y z * (1 + eps * rows.length) := by
      intro x y z hxyz
      have h1 : 1 ≤ p x y z * rows.length := by
        have hc : p x y z * rows.length = (rows.countP fun r => entry 0 r = x ∧ entry 1 r = y ∧ entry 2 r = z : ℝ) := by
          simp only [hp, freq_eq_countP]; field_simp
        rw [hc]
        have : (rows.countP fun r => decide (entry 0 r = x ∧ entry 1 r = y ∧ entry 2 r = z)) ≠ 0 := by
          intro h
          apply hxyz
          simp only [hp, freq_eq_countP, h]; simp
        exact_mod_cast Nat.one_le_iff_ne_zero.2 this
      nlinarith
    have hcell : ∀ x y z, z ∈ valuesOf rows 2 → _ := fun x y z hz => cell_bounds (hp0 x y z) (hz0 z hz) he (hci x y z)
    refine ⟨?_, ?_⟩
    · unfold empCMIs
      exact sum_nonneg fun x _ => sum_nonneg fun y _ => sum_nonneg fun z hz => (hcell x y z hz).1
    · calc empCMIs eps rows ≤ ∑ x ∈ valuesOf rows 0, ∑ y ∈ valuesOf rows 1, ∑ z ∈ valuesOf rows 2,
            p x y z * (1 + eps * rows.length) * (eps / freq rows fun r => entry 2 r = z) := by
            unfold empCMIs
            refine sum_le_sum fun x _ => sum_le_sum fun y _ => sum_le_sum fun z hz => (hcell x y z hz).2.trans ?_
            have hez : 0 ≤ eps / freq rows fun r => entry 2 r = z := le_of_lt (div_pos he (hz0 z hz))
            split_ifs with h
            · rw [h]; simp
            · exact mul_le_mul_of_nonneg_right (hpn x y z h) hez
        _ = ∑ z ∈ valuesOf rows 2, (∑ x ∈ valuesOf rows 0, ∑ y ∈ valuesOf rows 1, p x y z) *
              ((1 + eps * rows.length) * (eps / freq rows fun r => entry 2 r = z)) := by
            simp only [sum_mul]
            rw [sum_congr rfl fun x _ => sum_comm, sum_comm]
            refine sum_congr rfl fun z _ => sum_congr rfl fun x _ => sum_congr rfl fun y _ => by ring
        _ = ∑ z ∈ valuesOf rows 2, eps * (1 + eps * rows.length) := by
            refine sum_congr rfl fun z hz => ?_
            have hs : (∑ x ∈ valuesOf rows 0, ∑ y ∈ valuesOf rows 1, p x y z) = freq rows fun r => entry 2 r = z := by
              rw [valuesOf_coded hne h0, valuesOf_coded hne h1, ← freqZ hne h0 h1 h2 z]
              refine sum_congr rfl fun i _ => sum_congr rfl fun j _ => ?_
              rw [hist3_coded hne h0 h1 h2]; simp only [hp, freq_eq_countP]
            rw [hs]
            have := (hz0 z hz).ne'
            field_simp
        _ = _ := by rw [sum_const, nsmul_eq_mul]
  have hnear := round4_near (miStat 3 rows)
  refine ⟨round4 (miStat 3 rows), ?_, ?_, ?_, ?_⟩
  · unfold miTestMI; rw [if_neg (by simp [hne])]
  · show |(round4 (miStat 3 rows) : ℝ) - empCMIs eps rows| ≤ _
    rw [← hst]; exact hnear
  · intro hci
    exact ⟨round4_nonneg (by rw [hst]; exact (key hci).1), key hci⟩
  · intro hci hc hn
    obtain ⟨k1, k2⟩ := key hci
    rw [hst]
    apply round4_eq_zero
    · linarith
    · refine lt_of_le_of_lt k2 ?_
      have hc' : ((valuesOf rows 2).card : ℝ) ≤ 400 := by exact_mod_cast hc
      have hn' : (rows.length : ℝ) ≤ 10 ^ 6 := by exact_mod_cast hn
      have e1 : eps * (1 + eps * rows.length) ≤ 11 / 10 ^ 8 := by
        have : eps * rows.length ≤ eps * 10 ^ 6 := mul_le_mul_of_nonneg_left hn' he.le
        have e2 : eps = 1 / 10 ^ 7 := rfl
        rw [e2] at this ⊢
        norm_num at this ⊢
        linarith
      have e0 : 0 ≤ eps * (1 + eps * rows.length) := by positivity
      calc ((valuesOf rows 2).card : ℝ) * (eps * (1 + eps * rows.length)) ≤ 400 * (11 / 10 ^ 8) :=
            mul_le_mul hc' e1 e0 (by norm_num)
        _ < 1 / 20000 := by norm_num

/-- Witness: given the third column, the first two are independent (in each half all four combinations). -/
example : let rows := [[0, 0, 0], [0, 1, 0], [1, 0, 0], [1, 1, 0], [0, 1, 1], [0, 1, 1]]
    rows ≠ [] ∧ Coded rows 0 ∧ Coded rows 1 ∧ Coded rows 2 ∧ ∀ x < 2, ∀ y < 2, ∀ z < 2,
      (rows.countP fun r => entry 0 r = x ∧ entry 1 r = y ∧ entry 2 r = z) * (rows.countP fun r => entry 2 r = z) =
      (rows.countP fun r => entry 0 r = x ∧ entry 2 r = z) * (rows.countP fun r => entry 1 r = y ∧ entry 2 r = z) := by
  refine ⟨by decide, ?_, ?_, ?_, by decide⟩ <;> (unfold Coded; decide)

/-- The density near 0, for three or more degrees of freedom. -/
theorem chi2pdf_small {y : ℝ} {df : ℕ} (h : 3 ≤ df) (h0 : 0 ≤ y) (h1 : y ≤ 3 / 10 ^ 4 * (1 + 1 / 1000)) :
    ∃ q, chi2pdf (2 * y) df = .fin q ∧ 0 ≤ q ∧ q ≤ 24 / 1000 := by
  unfold chi2pdf
  rw [if_neg (by omega), if_neg (by linarith)]
  split
  · rw [if_neg (by omega), if_neg (by omega)]
    exact ⟨0, rfl, le_rfl, by norm_num⟩
  · rename_i hy
    have hy0 : 0 < y := lt_of_le_of_ne h0 fun e => hy (by rw [← e]; ring)
    have hdf : (3 : ℝ) ≤ df := by exact_mod_cast h
    set a : ℝ := (df : ℝ) / 2 with ha
    have ha1 : (3 / 2 : ℝ) ≤ a := by rw [ha]; linarith
    have hG0 : 0 < Real.Gamma a := Real.Gamma_pos_of_pos (by linarith)
    have hG : Real.exp (-1) ≤ Real.Gamma a := by
      have := gamma_lower (a := a) (y := 1) (by linarith) one_pos
      rwa [Real.one_rpow, one_mul] at this
    have e3 : -(2 * y) / 2 = -y := by ring
    refine ⟨_, rfl, by positivity, ?_⟩
    rw [div_le_iff₀ (by positivity), e3]
    have e1 : (2 * y) ^ (a - 1) = 2 ^ (a - 1) * y ^ (a - 1) := Real.mul_rpow (by norm_num) h0
    have e2 : (2 : ℝ) ^ a = 2 ^ (a - 1) * 2 := by rw [Real.rpow_sub_one (by norm_num)]; ring
    rw [e1, e2]
    have hp : (0 : ℝ) < 2 ^ (a - 1) := by positivity
    have hyr : y ^ (a - 1) ≤ 174 / 10000 := by
      calc y ^ (a - 1) ≤ y ^ (1 / 2 : ℝ) := Real.rpow_le_rpow_of_exponent_ge hy0 (by norm_num at h1; linarith) (by linarith)
        _ = Real.sqrt y := (Real.sqrt_eq_rpow y).symm
        _ ≤ 174 / 10000 := by
            rw [Real.sqrt_le_left (by norm_num)]
            norm_num at h1 ⊢
            linarith
    have hex : Real.exp (-y) ≤ 1 := Real.exp_le_one_iff.2 (by linarith)
    have hyr0 : 0 ≤ y ^ (a - 1) := by positivity
    have hee : (174 / 10000 : ℝ) ≤ 48 / 1000 * Real.exp (-1) := by
      rw [Real.exp_neg, ← div_eq_mul_inv, le_div_iff₀ (Real.exp_pos 1)]
      have := Real.exp_one_lt_d9
      norm_num at this ⊢
      linarith
    calc 2 ^ (a - 1) * y ^ (a - 1) * Real.exp (-y) ≤ 2 ^ (a - 1) * (174 / 10000) * 1 :=
          mul_le_mul (mul_le_mul_of_nonneg_left hyr hp.le) hex (Real.exp_pos _).le (by positivity)
      _ ≤ 2 ^ (a - 1) * (48 / 1000 * Real.exp (-1)) := by rw [mul_one]; exact mul_le_mul_of_nonneg_left hee hp.le
      _ ≤ 2 ^ (a - 1) * (48 / 1000 * Real.Gamma a) := by
          apply mul_le_mul_of_nonneg_left _ hp.le
          apply mul_le_mul_of_nonneg_left hG (by norm_num)
      _ = _ := by ring

/-- C161: conditionally independent data.  For three coded columns, the first two conditionally independent given the third in the data, with
rows times values of the third column at most 3000: with two degrees of freedom the p-value is at least 0.99; with three or more it is below
0.05, i.e. the data are declared *dependent* (and `are_independent` answers `True`). -/
theorem C161_conditionally_independent_pvalue (rows : List (List ℕ)) (hne : rows ≠ []) (h0 : Coded rows 0) (h1 : Coded rows 1)
    (h2 : Coded rows 2) (hci : EmpCondIndep rows) (hsmall : rows.length * (valuesOf rows 2).card ≤ 3000) (df : ℕ)
    (hdf : df = ((valuesOf rows 0).card - 1) * ((valuesOf rows 1).card - 1) * (valuesOf rows 2).card) :
    (df = 0 → miTest 3 rows = .ok .nan) ∧
    (df = 2 → ∃ p : ℝ, miTest 3 rows = .ok (.fin p) ∧ 99 / 100 ≤ p ∧ areIndependent 3 rows (1 / 20) = .ok false) ∧
    (3 ≤ df → ∃ p : ℝ, miTest 3 rows = .ok (.fin p) ∧ p < 1 / 20 ∧ areIndependent 3 rows (1 / 20) = .ok true) := by
  have hst := miStat_three_coded hne h0 h1 h2
  obtain ⟨q, _, _, hk, _⟩ := C160_conditional_mi_value rows hne h0 h1 h2
  obtain ⟨_, k1, k2⟩ := hk hci
  have hd : ddof 3 rows = df := by
    unfold ddof
    rw [if_neg (by decide), if_neg (by decide), hdf]
    simp only [nbins_card]
  have hN0 : (0 : ℝ) ≤ rows.length := by positivity
  have hs' : (rows.length : ℝ) * (valuesOf rows 2).card ≤ 3000 := by exact_mod_cast hsmall
  have hNc : (rows.length : ℝ) ≤ 3000 := by
    have hc1 : 1 ≤ (valuesOf rows 2).card := by
      have := nbins_pos hne 2
      rw [nbins_card] at this; exact this
    have : rows.length ≤ 3000 := le_trans (Nat.le_mul_of_pos_right _ hc1) hsmall
    exact_mod_cast this
  set y : ℝ := rows.length * empCMIs (1 / 10 ^ 7) rows with hy
  have hy0 : 0 ≤ y := mul_nonneg hN0 k1
  have hy1 : y ≤ 3 / 10 ^ 4 * (1 + 1 / 1000) := by
    have a1 : y ≤ rows.length * ((valuesOf rows 2).card * (1 / 10 ^ 7 * (1 + 1 / 10 ^ 7 * rows.length))) := mul_le_mul_of_nonneg_left k2 hN0
    have a2 : (1 : ℝ) / 10 ^ 7 * (1 + 1 / 10 ^ 7 * rows.length) ≤ 1 / 10 ^ 7 * (1 + 1 / 1000) := by
      apply mul_le_mul_of_nonneg_left _ (by norm_num)
      norm_num; linarith
    have a3 : (rows.length : ℝ) * (valuesOf rows 2).card * (1 / 10 ^ 7 * (1 + 1 / 10 ^ 7 * rows.length)) ≤
        3000 * (1 / 10 ^ 7 * (1 + 1 / 1000)) := mul_le_mul hs' a2 (by positivity) (by norm_num)
    have a4 : (3000 : ℝ) * (1 / 10 ^ 7 * (1 + 1 / 1000)) = 3 / 10 ^ 4 * (1 + 1 / 1000) := by norm_num
    rw [← a4, ← mul_assoc] at *
    linarith
  have hm : miTest 3 rows = .ok (chi2pdf (2 * y) df).twice.round4 := by
    unfold miTest
    rw [if_neg (by simp [hne]), hst, hd, hy]
    congr 4
    show 2 * (rows.length : ℝ) * empCMIs (1 / 10 ^ 7) rows = _
    ring
  have hai : ∀ p, miTest 3 rows = .ok p → ∃ b, areIndependent 3 rows (1 / 20) = .ok b ∧ (b = true ↔ p.lt (1 / 20)) :=
    (C96_are_independent 3 rows (1 / 20)).1
  refine ⟨fun h => ?_, fun h => ?_, fun h => ?_⟩
  · rw [hm, h]; rfl
  · have hq : ∃ q, chi2pdf (2 * y) df = .fin q ∧ 99 / 100 ≤ 2 * q := by
      rw [h]
      unfold chi2pdf
      rw [if_neg (by omega), if_neg (by linarith)]
      split
      · rw [if_neg (by omega), if_pos rfl]; exact ⟨_, rfl, by norm_num⟩
      · refine ⟨_, rfl, ?_⟩
        have e1 : (((2 : ℕ) : ℝ) / 2 - 1) = 0 := by norm_num
        have e2 : (((2 : ℕ) : ℝ) / 2) = 1 := by norm_num
        rw [e1, e2, Real.rpow_zero, Real.rpow_one, Real.Gamma_one]
        have := Real.add_one_le_exp (-(2 * y) / 2)
        norm_num at hy1
        linarith
    obtain ⟨q, hq1, hq2⟩ := hq
    rw [hq1] at hm
    have hp : (99 / 100 : ℝ) ≤ ((round4 (2 * q) : ℚ) : ℝ) := by
      have := round4_mono hq2
      have e : round4 (99 / 100) = 99 / 100 := by
        unfold round4
        rw [if_pos (by norm_num)]
        have : ⌊(99 / 100 : ℝ) * 10 ^ 4 + 1 / 2⌋ = 9900 := by rw [Int.floor_eq_iff]; norm_num
        rw [this]; norm_num
      rw [e] at this
      have h' : (((99 / 100 : ℚ)) : ℝ) ≤ ((round4 (2 * q) : ℚ) : ℝ) := Rat.cast_le.2 this
      push_cast at h'
      exact h'
    refine ⟨_, hm, hp, ?_⟩
    obtain ⟨b, hb1, hb2⟩ := hai _ hm
    rw [hb1]
    cases b with
    | false => rfl
    | true =>
      exfalso
      have : ((round4 (2 * q) : ℚ) : ℝ) < 1 / 20 := hb2.1 rfl
      linarith
  · obtain ⟨q, hq1, hq2, hq3⟩ := chi2pdf_small h hy0 hy1
    rw [hq1] at hm
    have hp : ((round4 (2 * q) : ℚ) : ℝ) < 1 / 20 := by
      have := round4_near (2 * q)
      rw [abs_le] at this
      linarith [this.2]
    refine ⟨_, hm, hp, ?_⟩
    obtain ⟨b, hb1, hb2⟩ := hai _ hm
    rw [hb1, hb2.2 hp]

/-- Conditional independence in the data, by counting. -/
theorem empCondIndep_of_counts {rows : List (List ℕ)} (hne : rows ≠ []) (h : ∀ x ∈ valuesOf rows 0, ∀ y ∈ valuesOf rows 1, ∀ z ∈ valuesOf rows 2,
    (rows.countP fun r => entry 0 r = x ∧ entry 1 r = y ∧ entry 2 r = z) * (rows.countP fun r => entry 2 r = z) =
      (rows.countP fun r => entry 0 r = x ∧ entry 2 r = z) * (rows.countP fun r => entry 1 r = y ∧ entry 2 r = z)) : EmpCondIndep rows := by
  intro x y z
  simp only [freq_eq_countP]
  have hzero : ∀ (j v : ℕ), v ∉ valuesOf rows j → ∀ r ∈ rows, entry j r ≠ v := fun j v hv r hr he =>
    hv (by unfold valuesOf; rw [List.mem_toFinset]; exact List.mem_map.2 ⟨r, hr, he⟩)
  have key : (rows.countP fun r => entry 0 r = x ∧ entry 1 r = y ∧ entry 2 r = z) * (rows.countP fun r => entry 2 r = z) =
      (rows.countP fun r => entry 0 r = x ∧ entry 2 r = z) * (rows.countP fun r => entry 1 r = y ∧ entry 2 r = z) := by
    by_cases hx : x ∈ valuesOf rows 0
    · by_cases hy : y ∈ valuesOf rows 1
      · by_cases hz : z ∈ valuesOf rows 2
        · exact h x hx y hy z hz
        · have := hzero 2 z hz
          have e1 : (rows.countP fun r => decide (entry 2 r = z)) = 0 := List.countP_eq_zero.2 fun r hr => by simpa using this r hr
          have e2 : (rows.countP fun r => decide (entry 0 r = x ∧ entry 2 r = z)) = 0 := List.countP_eq_zero.2 fun r hr => by
            simp only [decide_eq_true_eq, not_and]; exact fun _ => this r hr
          rw [e1, e2, Nat.mul_zero, Nat.zero_mul]
      · have := hzero 1 y hy
        have e1 : (rows.countP fun r => decide (entry 1 r = y ∧ entry 2 r = z)) = 0 := List.countP_eq_zero.2 fun r hr => by
          simp only [decide_eq_true_eq, not_and]; exact fun e => absurd e (this r hr)
        have e2 : (rows.countP fun r => decide (entry 0 r = x ∧ entry 1 r = y ∧ entry 2 r = z)) = 0 := List.countP_eq_zero.2 fun r hr => by
          simp only [decide_eq_true_eq, not_and]; exact fun _ e => absurd e (this r hr)
        rw [e1, e2, Nat.mul_zero, Nat.zero_mul]
    · have := hzero 0 x hx
      have e1 : (rows.countP fun r => decide (entry 0 r = x ∧ entry 2 r = z)) = 0 := List.countP_eq_zero.2 fun r hr => by
        simp only [decide_eq_true_eq, not_and]; exact fun e => absurd e (this r hr)
      have e2 : (rows.countP fun r => decide (entry 0 r = x ∧ entry 1 r = y ∧ entry 2 r = z)) = 0 := List.countP_eq_zero.2 fun r hr => by
        simp only [decide_eq_true_eq, not_and]; exact fun e => absurd e (this r hr)
      rw [e1, e2, Nat.zero_mul, Nat.zero_mul]
  rw [div_mul_div_comm, div_mul_div_comm]
  congr 1
  exact_mod_cast key

/-- Three values of the conditioning column, all four combinations of the other two for each. -/
def exTwelve : List (List ℕ) := [[0, 0, 0], [0, 1, 0], [1, 0, 0], [1, 1, 0], [0, 0, 1], [0, 1, 1], [1, 0, 1], [1, 1, 1],
  [0, 0, 2], [0, 1, 2], [1, 0, 2], [1, 1, 2]]

/-- Witness for C160 and C161: in `exTwelve` the first two columns are independent given the third, with three degrees of freedom, and the
test calls them dependent. -/
example : (∃ p : ℝ, miTest 3 exTwelve = .ok (.fin p) ∧ p < 1 / 20 ∧ areIndependent 3 exTwelve (1 / 20) = .ok true) ∧ miTestMI 3 exTwelve = .ok 0 := by
  have hne : exTwelve ≠ [] := by decide
  have h0 : Coded exTwelve 0 := by unfold Coded; decide
  have h1 : Coded exTwelve 1 := by unfold Coded; decide
  have h2 : Coded exTwelve 2 := by unfold Coded; decide
  have hci : EmpCondIndep exTwelve := empCondIndep_of_counts hne (by decide)
  constructor
  · exact (C161_conditionally_independent_pvalue exTwelve hne h0 h1 h2 hci (by decide) 3 (by decide)).2.2 le_rfl
  · obtain ⟨q, hq, _, _, h⟩ := C160_conditional_mi_value exTwelve hne h0 h1 h2
    rw [hq, h hci (by decide) (by decide)]

end Indep
end PyBN
