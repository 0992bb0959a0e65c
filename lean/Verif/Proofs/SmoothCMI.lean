import Verif.Proofs.Indep6
import Mathlib.Analysis.SpecialFunctions.Log.Deriv
import Mathlib.Analysis.SpecialFunctions.Arsinh

/-!
# The smoothed conditional mutual information is positive
-/

namespace PyBN
namespace Indep
open Finset

/-- `A log (A/B) ≥ A - B + (A - B)²/2` for `0 < A, B ≤ 1`. -/
theorem klogk {A B : ℝ} (hA : 0 < A) (hB : 0 < B) (hA1 : A ≤ 1) (hB1 : B ≤ 1) : A - B + (A - B) ^ 2 / 2 ≤ A * Real.log (A / B) := by
  rcases le_total A B with h | h
  · -- `log s ≤ (s - 1/s)/2` for `s = B/A ≥ 1`
    have hs : 1 ≤ B / A := by rw [one_le_div hA]; exact h
    have h1 : Real.log (B / A) ≤ Real.sinh (Real.log (B / A)) := Real.self_le_sinh_iff.2 (Real.log_nonneg hs)
    rw [Real.sinh_log (by positivity)] at h1
    have h2 : Real.log (A / B) = - Real.log (B / A) := by rw [← Real.log_inv, inv_div]
    rw [h2]
    have h3 : A * Real.log (B / A) ≤ A * ((B / A - (B / A)⁻¹) / 2) := mul_le_mul_of_nonneg_left h1 hA.le
    have h4 : A * ((B / A - (B / A)⁻¹) / 2) = (B - A ^ 2 / B) / 2 := by field_simp
    rw [h4] at h3
    have h5 : A - B + (A - B) ^ 2 / 2 ≤ -((B - A ^ 2 / B) / 2) := by
      have : -((B - A ^ 2 / B) / 2) - (A - B) = (A - B) ^ 2 / (2 * B) := by field_simp; ring
      have h6 : (A - B) ^ 2 / 2 ≤ (A - B) ^ 2 / (2 * B) := by
        apply div_le_div_of_nonneg_left (sq_nonneg _) (by positivity) (by linarith)
      linarith
    linarith
  · set s := 1 - B / A with hs
    have hs0 : 0 ≤ s := by rw [hs, sub_nonneg, div_le_one hA]; exact h
    have hs1 : s < 1 := by rw [hs]; have : 0 < B / A := by positivity
                           linarith
    have hsum := Real.hasSum_pow_div_log_of_abs_lt_one (x := s) (by rw [abs_of_nonneg hs0]; exact hs1)
    have h1 := sum_le_hasSum (range 2) (fun i _ => by positivity) hsum
    rw [sum_range_succ, sum_range_one] at h1
    have e1 : 1 - s = B / A := by rw [hs]; ring
    rw [e1] at h1
    have h2 : Real.log (A / B) = - Real.log (B / A) := by rw [← Real.log_inv, inv_div]
    rw [h2]
    have h3 : A * (s + s ^ 2 / 2) ≤ A * -Real.log (B / A) := by
      apply mul_le_mul_of_nonneg_left _ hA.le
      norm_num at h1 ⊢; linarith
    have h4 : A * (s + s ^ 2 / 2) = A - B + (A - B) ^ 2 / (2 * A) := by rw [hs]; field_simp
    rw [h4] at h3
    have h6 : (A - B) ^ 2 / 2 ≤ (A - B) ^ 2 / (2 * A) := by
      apply div_le_div_of_nonneg_left (sq_nonneg _) (by positivity) (by linarith)
    linarith

/-- One cell: `p` the joint probability, `a`, `b` those of the first and second with the third, `z` that of the third. -/
theorem cell_lower {p a b z e q : ℝ} (he : 0 < e) (hq : 0 < q) (hqp : q ≤ p) (ha : p ≤ a) (hb : p ≤ b) (haz : a ≤ z) (hbz : b ≤ z) (hz : z + e ≤ 1) :
    (z + e) * ((p / (z + e) + e) - (a / (z + e) * (b / (z + e)) + e)) - e ^ 2 / (2 * q ^ 2) ≤
      (p + e) * Real.log ((p / (z + e) + e) / (a / (z + e) * (b / (z + e)) + e)) := by
  have hp0 : 0 < p := by linarith
  have hz0 : 0 < z := by linarith
  have hze : 0 < z + e := by linarith
  set A := p / (z + e) + e with hA
  set B := a / (z + e) * (b / (z + e)) + e with hB
  have hlow : q ≤ A := by
    have : q ≤ p / (z + e) := by rw [le_div_iff₀ hze]; nlinarith
    linarith
  have hA0 : 0 < A := by linarith
  have hB0 : 0 < B := by have : 0 < a := by linarith
                         have : 0 < b := by linarith
                         positivity
  have hze1 : z / (z + e) + e ≤ 1 := by
    rw [← le_sub_iff_add_le, div_le_iff₀ hze]; nlinarith
  have hA1 : A ≤ 1 := by
    have : p / (z + e) ≤ z / (z + e) := by gcongr; linarith
    linarith
  have hB1 : B ≤ 1 := by
    have h1 : a / (z + e) ≤ 1 := by rw [div_le_one hze]; linarith
    have h2 : b / (z + e) ≤ z / (z + e) := by gcongr
    have h3 : 0 ≤ b / (z + e) := div_nonneg (by linarith) hze.le
    nlinarith
  have hpe : p + e = (z + e) * A + e * (1 - z - e) := by rw [hA]; field_simp; ring
  have hk := klogk hA0 hB0 hA1 hB1
  have hl : (A - B) / A ≤ Real.log (A / B) := by
    have := Real.one_sub_inv_le_log_of_pos (x := A / B) (by positivity)
    rw [inv_div] at this
    have e1 : (A - B) / A = 1 - B / A := by field_simp
    rw [e1]; exact this
  have hc : 0 ≤ e * (1 - z - e) := mul_nonneg he.le (by linarith)
  have hc1 : e * (1 - z - e) ≤ e := mul_le_of_le_one_right he.le (by linarith)
  set c := e * (1 - z - e) with hcd
  have e0 : ((z + e) * A + c) * Real.log (A / B) = (z + e) * (A * Real.log (A / B)) + c * Real.log (A / B) := by ring
  rw [hpe, e0]
  have h1 : (z + e) * (A - B + (A - B) ^ 2 / 2) ≤ (z + e) * (A * Real.log (A / B)) := mul_le_mul_of_nonneg_left hk hze.le
  have h2 : c * ((A - B) / A) ≤ c * Real.log (A / B) := mul_le_mul_of_nonneg_left hl hc
  -- complete the square
  have h3 : -(c ^ 2 / (2 * A ^ 2 * (z + e))) ≤ (z + e) * ((A - B) ^ 2 / 2) + c * ((A - B) / A) := by
    have : (z + e) * ((A - B) ^ 2 / 2) + c * ((A - B) / A) + c ^ 2 / (2 * A ^ 2 * (z + e)) =
        (z + e) / 2 * ((A - B) + c / (A * (z + e))) ^ 2 := by field_simp; ring
    have h4 : 0 ≤ (z + e) / 2 * ((A - B) + c / (A * (z + e))) ^ 2 := by positivity
    linarith
  have h5 : c ^ 2 / (2 * A ^ 2 * (z + e)) ≤ e ^ 2 / (2 * q ^ 2) := by
    have hAq : q ^ 2 ≤ A ^ 2 * (z + e) := by
      have h6 : p ≤ A * (z + e) := by
        rw [hA, add_mul, div_mul_cancel₀ _ hze.ne']
        exact le_add_of_nonneg_right (by positivity)
      have h7 : q ^ 2 ≤ p ^ 2 := pow_le_pow_left₀ hq.le hqp 2
      have h8 : p ^ 2 ≤ (A * (z + e)) ^ 2 := pow_le_pow_left₀ hp0.le h6 2
      have h9 : (A * (z + e)) ^ 2 ≤ A ^ 2 * (z + e) := by
        rw [mul_pow]
        exact mul_le_mul_of_nonneg_left (pow_le_of_le_one hze.le hz two_ne_zero) (sq_nonneg _)
      linarith only [h7, h8, h9]
    have hnum : c ^ 2 ≤ e ^ 2 := pow_le_pow_left₀ hc hc1 2
    rw [mul_assoc]
    exact div_le_div₀ (by positivity) hnum (by positivity) (by linarith only [hAq])
  have h10 : (z + e) * (A - B + (A - B) ^ 2 / 2) = (z + e) * (A - B) + (z + e) * ((A - B) ^ 2 / 2) := by ring
  rw [h10] at h1
  linarith only [h1, h2, h3, h5]

/-- Sum over the cells with one value of the third variable. -/
theorem block_pos {k0 k1 : ℕ} {p : ℕ → ℕ → ℝ} {e q : ℝ} (h0 : 0 < k0) (h1 : 0 < k1) (he : 0 < e) (hq : 0 < q) (heq : e < q ^ 3)
    (hp : ∀ x < k0, ∀ y < k1, q ≤ p x y) (hz : (∑ x ∈ range k0, ∑ y ∈ range k1, p x y) + e ≤ 1) :
    0 < ∑ x ∈ range k0, ∑ y ∈ range k1, (p x y + e) *
      Real.log ((p x y / ((∑ x ∈ range k0, ∑ y ∈ range k1, p x y) + e) + e) /
        ((∑ y' ∈ range k1, p x y') / ((∑ x ∈ range k0, ∑ y ∈ range k1, p x y) + e) *
          ((∑ x' ∈ range k0, p x' y) / ((∑ x ∈ range k0, ∑ y ∈ range k1, p x y) + e)) + e)) := by
  set z := ∑ x ∈ range k0, ∑ y ∈ range k1, p x y with hzd
  have hpos : ∀ x ∈ range k0, ∀ y ∈ range k1, 0 ≤ p x y := fun x hx y hy => hq.le.trans (hp x (mem_range.1 hx) y (mem_range.1 hy))
  have hzk : (k0 * k1 : ℝ) * q ≤ z := by
    have : ∑ _x ∈ range k0, ∑ _y ∈ range k1, q ≤ z :=
      sum_le_sum fun x hx => sum_le_sum fun y hy => hp x (mem_range.1 hx) y (mem_range.1 hy)
    simpa [mul_assoc] using this
  have hk0 : (1 : ℝ) ≤ k0 := by exact_mod_cast h0
  have hk1 : (1 : ℝ) ≤ k1 := by exact_mod_cast h1
  have hkk : (1 : ℝ) ≤ k0 * k1 := by nlinarith
  have hqz : q ≤ z := by nlinarith
  have hz0 : 0 < z := by linarith
  have hze : 0 < z + e := by linarith
  have hq1 : q ≤ 1 := by linarith
  have hez : e ≤ z := by
    have : q ^ 3 ≤ q := by nlinarith [mul_nonneg hq.le (sub_nonneg.2 hq1), mul_nonneg (mul_nonneg hq.le hq.le) (sub_nonneg.2 hq1)]
    linarith
  have ha : ∀ x ∈ range k0, ∑ y' ∈ range k1, p x y' ≤ z := fun x hx =>
    single_le_sum (f := fun x => ∑ y' ∈ range k1, p x y') (fun x hx => sum_nonneg (hpos x hx)) hx
  have hb : ∀ y ∈ range k1, ∑ x' ∈ range k0, p x' y ≤ z := fun y hy => by
    rw [hzd, sum_comm]
    exact single_le_sum (f := fun y => ∑ x' ∈ range k0, p x' y) (fun y hy => sum_nonneg fun x hx => hpos x hx y hy) hy
  have hlow : ∑ x ∈ range k0, ∑ y ∈ range k1, ((z + e) * ((p x y / (z + e) + e) - ((∑ y' ∈ range k1, p x y') / (z + e) * ((∑ x' ∈ range k0, p x' y) / (z + e)) + e)) - e ^ 2 / (2 * q ^ 2)) ≤
      ∑ x ∈ range k0, ∑ y ∈ range k1, (p x y + e) *
      Real.log ((p x y / (z + e) + e) / ((∑ y' ∈ range k1, p x y') / (z + e) * ((∑ x' ∈ range k0, p x' y) / (z + e)) + e)) := by
    refine sum_le_sum fun x hx => sum_le_sum fun y hy => ?_
    exact cell_lower he hq (hp x (mem_range.1 hx) y (mem_range.1 hy)) (single_le_sum (f := fun y' => p x y') (hpos x hx) hy)
      (single_le_sum (f := fun x' => p x' y) (fun x' hx' => hpos x' hx' y hy) hx) (ha x hx) (hb y hy) hz
  refine lt_of_lt_of_le ?_ hlow
  have hval : ∑ x ∈ range k0, ∑ y ∈ range k1, ((z + e) * ((p x y / (z + e) + e) - ((∑ y' ∈ range k1, p x y') / (z + e) * ((∑ x' ∈ range k0, p x' y) / (z + e)) + e)) - e ^ 2 / (2 * q ^ 2)) =
      z - z ^ 2 / (z + e) - k0 * k1 * (e ^ 2 / (2 * q ^ 2)) := by
    have hcell : ∀ x y, (z + e) * ((p x y / (z + e) + e) - ((∑ y' ∈ range k1, p x y') / (z + e) * ((∑ x' ∈ range k0, p x' y) / (z + e)) + e)) - e ^ 2 / (2 * q ^ 2) =
        p x y - (∑ y' ∈ range k1, p x y') * (∑ x' ∈ range k0, p x' y) * (1 / (z + e)) - e ^ 2 / (2 * q ^ 2) := by
      intro x y; field_simp; ring
    simp only [hcell, sum_sub_distrib, sum_const, card_range, nsmul_eq_mul]
    rw [← hzd]
    have hprod : ∑ x ∈ range k0, ∑ y ∈ range k1, (∑ y' ∈ range k1, p x y') * (∑ x' ∈ range k0, p x' y) * (1 / (z + e)) = z ^ 2 / (z + e) := by
      simp only [← sum_mul, ← mul_sum]
      rw [← hzd, sum_comm (s := range k1), ← hzd]; ring
    rw [hprod]; ring
  rw [hval]
  have h2 : z - z ^ 2 / (z + e) = z * e / (z + e) := by field_simp; ring
  rw [h2]
  have h3 : e / 2 ≤ z * e / (z + e) := by rw [div_le_div_iff₀ (by norm_num) hze]; nlinarith
  have h4 : k0 * k1 * (e ^ 2 / (2 * q ^ 2)) < e / 2 := by
    have h5 : (k0 * k1 : ℝ) * q ≤ 1 := by linarith
    have h6 : (k0 * k1 : ℝ) * (e ^ 2 / (2 * q ^ 2)) = (k0 * k1 * q) * (e ^ 2 / (2 * q ^ 3)) := by field_simp
    rw [h6]
    have h7 : e ^ 2 / (2 * q ^ 3) < e / 2 := by
      rw [div_lt_div_iff₀ (by positivity) (by norm_num)]; nlinarith
    have h8 : 0 ≤ e ^ 2 / (2 * q ^ 3) := by positivity
    nlinarith
  linarith

/-- A cell that occurs contributes a positive term under conditional independence. -/
theorem cell_pos {p a b z e : ℝ} (hp : 0 < p) (hz : 0 < z) (he : 0 < e) (hci : p * z = a * b) :
    0 < (p + e) * Real.log ((p / (z + e) + e) / (a / (z + e) * (b / (z + e)) + e)) := by
  have hB : a / (z + e) * (b / (z + e)) = p / (z + e) * (z / (z + e)) := by field_simp; linarith
  rw [hB]
  have hA0 : 0 < p / (z + e) := by positivity
  have ht : z / (z + e) < 1 := by rw [div_lt_one (by linarith)]; linarith
  have hden : 0 < p / (z + e) * (z / (z + e)) + e := by positivity
  apply mul_pos (by linarith)
  apply Real.log_pos
  rw [one_lt_div hden]
  nlinarith

end Indep
end PyBN
