import Verif.Proofs.Indep5
import Mathlib.Tactic.Linarith
import Mathlib.Tactic.FieldSimp
import Mathlib.Tactic.Positivity

/-!
# One conditioning column: the histogram of coded columns, and the statistic under conditional independence
-/

set_option linter.unusedSectionVars false

namespace PyBN
namespace Indep
open Finset

theorem entry_lt {rows : List (List ℕ)} {j : ℕ} (hne : rows ≠ []) (h : Coded rows j) {r : List ℕ} (hr : r ∈ rows) : entry j r < nbins rows j :=
  ((coded_spec hne h).1 _).1 (mem_column hr j)

theorem hist3_coded {rows : List (List ℕ)} (hne : rows ≠ []) (h0 : Coded rows 0) (h1 : Coded rows 1) (h2 : Coded rows 2) (i j k : ℕ) :
    hist3 rows (nbins rows 0) (nbins rows 1) (nbins rows 2) i j k = rows.countP fun r => entry 0 r = i ∧ entry 1 r = j ∧ entry 2 r = k := by
  unfold hist3
  apply List.countP_congr
  intro r hr
  rw [(coded_spec hne h0).2.2.2 _ (mem_column hr 0), (coded_spec hne h1).2.2.2 _ (mem_column hr 1), (coded_spec hne h2).2.2.2 _ (mem_column hr 2)]
  rfl

theorem freq_eq_countP (rows : List (List ℕ)) (p : List ℕ → Prop) [DecidablePred p] : freq rows p = (rows.countP fun r => p r : ℝ) / rows.length := by
  unfold freq; rw [List.countP_eq_length_filter]

theorem freqXZ {rows : List (List ℕ)} (hne : rows ≠ []) (h0 : Coded rows 0) (h1 : Coded rows 1) (h2 : Coded rows 2) (i k : ℕ) :
    ∑ j ∈ range (nbins rows 1), (hist3 rows (nbins rows 0) (nbins rows 1) (nbins rows 2) i j k : ℝ) / rows.length =
      freq rows fun r => entry 0 r = i ∧ entry 2 r = k := by
  rw [← sum_div, freq_eq_countP]
  congr 1
  simp only [hist3_coded hne h0 h1 h2]
  have := sum_countP rows (fun r => entry 0 r = i ∧ entry 2 r = k) (entry 1) (nbins rows 1) fun r hr => entry_lt hne h1 hr
  rw [← this]
  push_cast
  refine sum_congr rfl fun j _ => ?_
  congr 2; funext r; congr 1; simp only [eq_iff_iff]; tauto

theorem freqYZ {rows : List (List ℕ)} (hne : rows ≠ []) (h0 : Coded rows 0) (h1 : Coded rows 1) (h2 : Coded rows 2) (j k : ℕ) :
    ∑ i ∈ range (nbins rows 0), (hist3 rows (nbins rows 0) (nbins rows 1) (nbins rows 2) i j k : ℝ) / rows.length =
      freq rows fun r => entry 1 r = j ∧ entry 2 r = k := by
  rw [← sum_div, freq_eq_countP]
  congr 1
  simp only [hist3_coded hne h0 h1 h2]
  have := sum_countP rows (fun r => entry 1 r = j ∧ entry 2 r = k) (entry 0) (nbins rows 0) fun r hr => entry_lt hne h0 hr
  rw [← this]
  push_cast
  refine sum_congr rfl fun i _ => ?_
  congr 2; funext r; congr 1; simp only [eq_iff_iff]; tauto

theorem freqZ {rows : List (List ℕ)} (hne : rows ≠ []) (h0 : Coded rows 0) (h1 : Coded rows 1) (h2 : Coded rows 2) (k : ℕ) :
    ∑ i ∈ range (nbins rows 0), ∑ j ∈ range (nbins rows 1), (hist3 rows (nbins rows 0) (nbins rows 1) (nbins rows 2) i j k : ℝ) / rows.length =
      freq rows fun r => entry 2 r = k := by
  simp only [freqXZ hne h0 h1 h2, freq_eq_countP]
  rw [← sum_div]
  congr 1
  have := sum_countP rows (fun r => entry 2 r = k) (entry 0) (nbins rows 0) fun r hr => entry_lt hne h0 hr
  rw [← this]
  push_cast
  refine sum_congr rfl fun i _ => ?_
  congr 2; funext r; congr 1; simp only [eq_iff_iff]; tauto

/-- For coded columns the statistic with one conditioning column is the smoothed empirical conditional mutual information. -/
theorem miStat_three_coded {rows : List (List ℕ)} (hne : rows ≠ []) (h0 : Coded rows 0) (h1 : Coded rows 1) (h2 : Coded rows 2) :
    miStat 3 rows = empCMIs eps rows := by
  unfold miStat empCMIs
  rw [if_neg (by decide), if_neg (by decide)]
  unfold mi3
  rw [valuesOf_coded hne h0, valuesOf_coded hne h1, valuesOf_coded hne h2]
  refine sum_congr rfl fun i _ => sum_congr rfl fun j _ => sum_congr rfl fun k _ => ?_
  rw [freqZ hne h0 h1 h2]
  simp only [freqXZ hne h0 h1 h2, freqYZ hne h0 h1 h2]
  have : (hist3 rows (nbins rows 0) (nbins rows 1) (nbins rows 2) i j k : ℝ) / rows.length =
      freq rows fun r => entry 0 r = i ∧ entry 1 r = j ∧ entry 2 r = k := by
    rw [hist3_coded hne h0 h1 h2, freq_eq_countP]
  rw [this]

/-- One cell: joint probability `p ≤ z`, conditionally independent (`p * z = a * b`), smoothing `e`. -/
theorem cell_bounds {p a b z e : ℝ} (hp : 0 ≤ p) (hz : 0 < z) (he : 0 < e) (hci : p * z = a * b) :
    0 ≤ (p + e) * Real.log ((p / (z + e) + e) / (a / (z + e) * (b / (z + e)) + e)) ∧
    (p + e) * Real.log ((p / (z + e) + e) / (a / (z + e) * (b / (z + e)) + e)) ≤ if p = 0 then 0 else (p + e) * (e / z) := by
  have hB : a / (z + e) * (b / (z + e)) = p / (z + e) * (z / (z + e)) := by
    field_simp; linarith
  rw [hB]
  set A := p / (z + e) with hA
  have hA0 : 0 ≤ A := by positivity
  have ht : z / (z + e) ≤ 1 := by rw [div_le_one (by linarith)]; linarith
  have ht0 : 0 < z / (z + e) := by positivity
  have hden : 0 < A * (z / (z + e)) + e := by positivity
  have hlow : 1 ≤ (A + e) / (A * (z / (z + e)) + e) := by
    rw [le_div_iff₀ hden]; nlinarith
  refine ⟨mul_nonneg (by linarith) (Real.log_nonneg hlow), ?_⟩
  by_cases hp0 : p = 0
  · rw [if_pos hp0]
    have : A = 0 := by rw [hA, hp0, zero_div]
    rw [this]; simp [he.ne']
  · rw [if_neg hp0]
    apply mul_le_mul_of_nonneg_left _ (by linarith)
    have hup : (A + e) / (A * (z / (z + e)) + e) ≤ 1 + e / z := by
      rw [div_le_iff₀ hden]
      have e1 : A * (z / (z + e)) * (1 + e / z) = A := by field_simp
      have : 0 ≤ e * (e / z) := by positivity
      nlinarith
    have := Real.log_le_sub_one_of_pos (lt_of_lt_of_le one_pos hlow)
    linarith

end Indep
end PyBN
