import Verif.Model.Entropy
import Verif.Spec.Entropy
import Verif.Proofs.Indep2
import Mathlib.Analysis.SpecialFunctions.Log.NegMulLog
import Mathlib.Analysis.Complex.ExponentialBounds

/-! Lemmas about `entropy`. -/

set_option linter.unusedSectionVars false

namespace PyBN
namespace Indep
open Finset

theorem binOf_shift (lo hi k x : ℕ) (h1 : lo ≤ x) (h2 : x ≤ hi) : binOf lo hi k x = binOf 0 (hi - lo) k (x - lo) := by
  unfold binOf
  have e1 : (lo = hi) ↔ (0 = hi - lo) := by omega
  have e2 : (x = hi) ↔ (x - lo = hi - lo) := by omega
  simp only [e1, e2, Nat.sub_zero]

/-- In a column without gaps the bins are the codes, shifted. -/
theorem consec_spec {rows : List (List ℕ)} {j : ℕ} (hne : rows ≠ []) (h : Consecutive rows j) :
    ∃ lo, colLo (column rows j) = lo ∧ (∀ x, x ∈ column rows j ↔ lo ≤ x ∧ x < lo + nbins rows j) ∧
      colHi (column rows j) + 1 = lo + nbins rows j ∧
      ∀ x ∈ column rows j, histBin (column rows j) (nbins rows j) x = x - lo := by
  have hcne : column rows j ≠ [] := by simpa [column] using hne
  set lo := colLo (column rows j) with hlo
  set hi := colHi (column rows j) with hhi
  have hlh : lo ≤ hi := colLo_le (colHi_mem hcne)
  have hmem : ∀ x, x ∈ column rows j ↔ lo ≤ x ∧ x ≤ hi := by
    intro x
    constructor
    · intro hx; exact ⟨colLo_le hx, le_colHi hx⟩
    · rintro ⟨h1, h2⟩
      obtain ⟨r, hr, hre⟩ := List.mem_map.1 (colLo_mem hcne)
      obtain ⟨s, hs, hse⟩ := List.mem_map.1 (colHi_mem hcne)
      obtain ⟨t, ht, rfl⟩ := h r hr s hs x (by unfold entry; rw [hre]; exact h1) (by unfold entry; rw [hse]; exact h2)
      exact mem_column ht j
  have hk : nbins rows j = hi + 1 - lo := by
    unfold nbins
    have hp : (uniqueVals (column rows j)).Perm ((List.range (hi + 1 - lo)).map fun i => lo + i) := by
      refine (List.perm_ext_iff_of_nodup (uniqueVals_nodup _) (List.nodup_range.map fun a b hab => by simpa using hab)).2 fun x => ?_
      rw [mem_uniqueVals, hmem, List.mem_map]
      constructor
      · rintro ⟨h1, h2⟩; exact ⟨x - lo, List.mem_range.2 (by omega), by omega⟩
      · rintro ⟨i, hi', rfl⟩; have := List.mem_range.1 hi'; omega
    rw [hp.length_eq]; simp
  refine ⟨lo, rfl, fun x => by rw [hmem, hk]; omega, by omega, fun x hx => ?_⟩
  unfold histBin
  rw [binOf_shift _ _ _ _ ((hmem x).1 hx).1 ((hmem x).1 hx).2, hk]
  have : hi + 1 - lo = (hi - lo) + 1 := by omega
  rw [this]
  exact binOf_id (by have := ((hmem x).1 hx).2; omega)

theorem mem_valuesOf {rows : List (List ℕ)} {j x : ℕ} : x ∈ valuesOf rows j ↔ x ∈ column rows j := by
  unfold valuesOf
  rw [List.mem_toFinset]; rfl

/-- Sums over the values of a column without gaps are sums over its bins. -/
theorem sum_values {rows : List (List ℕ)} {j lo : ℕ} (hm : ∀ x, x ∈ column rows j ↔ lo ≤ x ∧ x < lo + nbins rows j) (g : ℕ → ℝ) :
    ∑ x ∈ valuesOf rows j, g x = ∑ i ∈ range (nbins rows j), g (lo + i) := by
  symm
  refine sum_bij (fun i _ => lo + i) ?_ ?_ ?_ ?_
  · intro i hi
    rw [mem_valuesOf, hm]
    have := mem_range.1 hi; omega
  · intro a _ b _ h; simpa using h
  · intro x hx
    rw [mem_valuesOf, hm] at hx
    exact ⟨x - lo, mem_range.2 (by omega), by omega⟩
  · intro i _; rfl

theorem card_values {rows : List (List ℕ)} {j lo : ℕ} (hm : ∀ x, x ∈ column rows j ↔ lo ≤ x ∧ x < lo + nbins rows j) :
    (valuesOf rows j).card = nbins rows j := by
  have := sum_values hm (fun _ => (1 : ℝ))
  simp only [sum_const, nsmul_eq_mul, mul_one, card_range] at this
  exact_mod_cast this

theorem freq_congr {rows : List (List ℕ)} {p q : List ℕ → Prop} [DecidablePred p] [DecidablePred q] (h : ∀ r ∈ rows, (p r ↔ q r)) :
    freq rows p = freq rows q := by
  unfold freq
  rw [List.filter_congr (q := fun r => decide (q r)) fun r hr => by simp [h r hr]]

theorem freq_countP {rows : List (List ℕ)} {p : List ℕ → Prop} [DecidablePred p] : ((rows.countP fun r => p r : ℕ) : ℝ) / rows.length = freq rows p := by
  unfold freq
  rw [List.countP_eq_length_filter]

theorem freq_nonneg {rows : List (List ℕ)} {p : List ℕ → Prop} [DecidablePred p] : 0 ≤ freq rows p := by unfold freq; positivity

theorem freq_le {rows : List (List ℕ)} {p q : List ℕ → Prop} [DecidablePred p] [DecidablePred q] (h : ∀ r ∈ rows, p r → q r) :
    freq rows p ≤ freq rows q := by
  rw [← freq_countP, ← freq_countP]
  have : rows.countP (fun r => p r) ≤ rows.countP fun r => q r := List.countP_mono_left fun r hr => by simpa using h r hr
  gcongr

theorem freq_le_one {rows : List (List ℕ)} {p : List ℕ → Prop} [DecidablePred p] : freq rows p ≤ 1 := by
  rw [← freq_countP]
  refine div_le_one_of_le₀ ?_ (by positivity)
  exact_mod_cast List.countP_le_length

/-- Summing a frequency over the values of a column. -/
theorem freq_sum {rows : List (List ℕ)} (j : ℕ) (p : List ℕ → Prop) [DecidablePred p] :
    ∑ y ∈ valuesOf rows j, freq rows (fun r => p r ∧ entry j r = y) = freq rows p := by
  have key : ∀ l : List (List ℕ), (∀ r ∈ l, entry j r ∈ valuesOf rows j) →
      ∑ y ∈ valuesOf rows j, l.countP (fun r => p r ∧ entry j r = y) = l.countP fun r => p r := by
    intro l
    induction l with
    | nil => simp
    | cons r l ih =>
      intro hl
      simp only [List.countP_cons, sum_add_distrib]
      rw [ih fun s hs => hl s (by simp [hs])]
      congr 1
      by_cases hp : p r
      · simp [hp, hl r (by simp)]
      · simp [hp]
  simp_rw [← freq_countP]
  rw [← sum_div]
  congr 1
  exact_mod_cast key rows fun r hr => mem_valuesOf.2 (mem_column hr j)

/-! ### Smoothing -/

theorem eps_le : eps ≤ 1 / 10 ^ 7 := le_rfl

theorem log_eps : Real.log ((1 + eps) / eps) ≤ 17 := by
  have h : (1 + eps) / eps ≤ 2 ^ 24 := by unfold eps; norm_num
  have h0 : 0 < (1 + eps) / eps := by have := eps_pos; positivity
  calc Real.log ((1 + eps) / eps) ≤ Real.log (2 ^ 24) := Real.log_le_log h0 h
    _ = 24 * Real.log 2 := by rw [Real.log_pow]; norm_num
    _ ≤ 17 := by have := Real.log_two_lt_d9; linarith

/-- Smoothing one term of a conditional entropy. -/
theorem smooth_cond {p s : ℝ} (hp : 0 ≤ p) (hps : p ≤ s) (hs : s ≤ 1) :
    p * Real.log (s / p) ≤ (p + eps) * Real.log ((s + eps) / (p + eps)) ∧
      (p + eps) * Real.log ((s + eps) / (p + eps)) ≤ p * Real.log (s / p) + 17 * eps ∧ 0 ≤ p * Real.log (s / p) := by
  have he := eps_pos
  have hr : Real.log ((s + eps) / (p + eps)) ≤ 17 := by
    refine le_trans (Real.log_le_log (div_pos (by linarith) (by linarith)) ?_) log_eps
    rw [div_le_div_iff₀ (by linarith) he]
    nlinarith
  refine ⟨?_, ?_, ?_⟩
  · have := smooth_le hp (hp.trans hps) (fun h => by linarith) he
    have e1 : Real.log ((p + eps) / (s + eps)) = -Real.log ((s + eps) / (p + eps)) := by rw [← Real.log_inv, inv_div]
    have e2 : Real.log (p / s) = -Real.log (s / p) := by rw [← Real.log_inv, inv_div]
    rw [e1, e2] at this
    linarith
  · rcases hp.eq_or_lt with rfl | hp'
    · rw [zero_mul]
      rw [zero_add] at hr ⊢
      nlinarith
    · have h1 : Real.log ((s + eps) / (p + eps)) ≤ Real.log (s / p) := by
        refine Real.log_le_log (div_pos (by linarith) (by linarith)) ?_
        rw [div_le_div_iff₀ (by linarith) hp']
        nlinarith
      nlinarith
  · rcases hp.eq_or_lt with rfl | hp'
    · simp
    · exact mul_nonneg hp (Real.log_nonneg (by rw [le_div_iff₀ hp']; linarith))

/-- Smoothing `-t log t`. -/
theorem smooth_negMulLog {p : ℝ} (hp : 0 ≤ p) (hp1 : p ≤ 1) :
    -(p * Real.log p) - 2 * eps ≤ -((p + eps) * Real.log (p + eps)) ∧ -((p + eps) * Real.log (p + eps)) ≤ -(p * Real.log p) + 17 * eps := by
  have he := eps_pos
  have hl : -Real.log (p + eps) ≤ 17 := by
    rw [← Real.log_inv]
    refine le_trans (Real.log_le_log (by positivity) ?_) log_eps
    rw [inv_eq_one_div, div_le_div_iff₀ (by linarith) he]
    nlinarith
  have hu : Real.log (p + eps) ≤ 1 := by
    have := Real.log_le_sub_one_of_pos (x := p + eps) (by linarith)
    have h2 := eps_le
    norm_num at h2
    linarith
  rcases hp.eq_or_lt with rfl | hp'
  · simp only [zero_mul, zero_add] at *
    constructor <;> nlinarith
  · have h1 : Real.log p ≤ Real.log (p + eps) := Real.log_le_log hp' (by linarith)
    have h2 : p * (Real.log (p + eps) - Real.log p) ≤ eps := by
      have h3 : Real.log (p + eps) - Real.log p = Real.log ((p + eps) / p) := (Real.log_div (by linarith) hp'.ne').symm
      have h4 := Real.log_le_sub_one_of_pos (x := (p + eps) / p) (by positivity)
      rw [h3]
      calc p * Real.log ((p + eps) / p) ≤ p * ((p + eps) / p - 1) := mul_le_mul_of_nonneg_left h4 hp
        _ = eps := by field_simp; ring
    have h5 : 0 ≤ p * (Real.log (p + eps) - Real.log p) := mul_nonneg hp (by linarith)
    constructor <;> nlinarith

/-! ### The tables -/

theorem bin_iff {rows : List (List ℕ)} {j lo : ℕ} (hm : ∀ x, x ∈ column rows j ↔ lo ≤ x ∧ x < lo + nbins rows j)
    (hb : ∀ x ∈ column rows j, histBin (column rows j) (nbins rows j) x = x - lo) {r : List ℕ} (hr : r ∈ rows) (i : ℕ) :
    histBin (column rows j) (nbins rows j) (r.getD j 0) = i ↔ entry j r = lo + i := by
  rw [hb _ (mem_column hr j)]
  have := (hm _).1 (mem_column hr j)
  unfold entry
  omega

theorem ent1_consec {rows : List (List ℕ)} (hne : rows ≠ []) (h0 : Consecutive rows 0) :
    (∀ i < nbins rows 0, hist1 rows (nbins rows 0) i ≠ 0) ∧
      ent1 (nbins rows 0) (fun i => (hist1 rows (nbins rows 0) i : ℝ) / rows.length) = empH rows := by
  obtain ⟨lo, -, hm, -, hb⟩ := consec_spec hne h0
  refine ⟨fun i hi => ?_, ?_⟩
  · obtain ⟨r, hr, hre⟩ := List.mem_map.1 ((hm (lo + i)).2 (by omega))
    unfold hist1
    rw [Ne, List.countP_eq_zero]
    intro h
    exact h r hr (by simpa using (bin_iff hm hb hr i).2 hre)
  · have hf : ∀ i, (hist1 rows (nbins rows 0) i : ℝ) / rows.length = freq rows fun r => entry 0 r = lo + i := by
      intro i
      unfold hist1
      rw [freq_countP]
      exact freq_congr fun r hr => bin_iff hm hb hr i
    unfold ent1 empH
    rw [sum_values hm]
    simp_rw [hf]
    rw [sum_neg_distrib, neg_one_mul]

theorem ent2_consec {rows : List (List ℕ)} (hne : rows ≠ []) (h0 : Consecutive rows 0) (h1 : Consecutive rows 1) :
    ent2 (nbins rows 0) (nbins rows 1) (fun i j => (hist2 rows (nbins rows 0) (nbins rows 1) i j : ℝ) / rows.length) =
      ∑ x ∈ valuesOf rows 0, ∑ y ∈ valuesOf rows 1, (freq rows (fun r => entry 0 r = x ∧ entry 1 r = y) + eps) *
        Real.log ((freq rows (fun r => entry 1 r = y) + eps) / (freq rows (fun r => entry 0 r = x ∧ entry 1 r = y) + eps)) := by
  obtain ⟨lo0, -, hm0, -, hb0⟩ := consec_spec hne h0
  obtain ⟨lo1, -, hm1, -, hb1⟩ := consec_spec hne h1
  have hf : ∀ i j, (hist2 rows (nbins rows 0) (nbins rows 1) i j : ℝ) / rows.length =
      freq rows fun r => entry 0 r = lo0 + i ∧ entry 1 r = lo1 + j := by
    intro i j
    unfold hist2
    rw [freq_countP]
    exact freq_congr fun r hr => and_congr (bin_iff hm0 hb0 hr i) (bin_iff hm1 hb1 hr j)
  have hs : ∀ j, ∑ i ∈ range (nbins rows 0), freq rows (fun r => entry 0 r = lo0 + i ∧ entry 1 r = lo1 + j) =
      freq rows fun r => entry 1 r = lo1 + j := by
    intro j
    rw [← freq_sum 0 (fun r => entry 1 r = lo1 + j), sum_values hm0]
    exact sum_congr rfl fun i _ => freq_congr fun r _ => and_comm
  unfold ent2
  rw [sum_values hm0]
  refine sum_congr rfl fun i _ => ?_
  rw [sum_values hm1]
  refine sum_congr rfl fun j _ => ?_
  simp_rw [hf]
  rw [hs]

theorem ent2_near {rows : List (List ℕ)} (hne : rows ≠ []) (h0 : Consecutive rows 0) (h1 : Consecutive rows 1) :
    0 ≤ empCondH rows 0 1 ∧
    empCondH rows 0 1 ≤ ent2 (nbins rows 0) (nbins rows 1) (fun i j => (hist2 rows (nbins rows 0) (nbins rows 1) i j : ℝ) / rows.length) ∧
      ent2 (nbins rows 0) (nbins rows 1) (fun i j => (hist2 rows (nbins rows 0) (nbins rows 1) i j : ℝ) / rows.length) ≤
        empCondH rows 0 1 + 17 / 10 ^ 7 * ((valuesOf rows 0).card * (valuesOf rows 1).card) := by
  rw [ent2_consec hne h0 h1]
  unfold empCondH
  have h : ∀ x y, _ := fun x y => smooth_cond (p := freq rows fun r => entry 0 r = x ∧ entry 1 r = y) (s := freq rows fun r => entry 1 r = y)
    freq_nonneg (freq_le fun r _ h => h.2) freq_le_one
  refine ⟨sum_nonneg fun x _ => sum_nonneg fun y _ => (h x y).2.2, sum_le_sum fun x _ => sum_le_sum fun y _ => (h x y).1, ?_⟩
  calc _ ≤ ∑ x ∈ valuesOf rows 0, ∑ y ∈ valuesOf rows 1, (_ + 17 * eps) := sum_le_sum fun x _ => sum_le_sum fun y _ => (h x y).2.1
    _ = _ := by
      simp only [sum_add_distrib, sum_const, nsmul_eq_mul]
      unfold eps
      ring

theorem fromOne_spec {rows : List (List ℕ)} {j : ℕ} (hne : rows ≠ []) (h : FromOne rows j) :
    Consecutive rows j ∧ colHi (column rows j) = nbins rows j := by
  have hc : Consecutive rows j := fun r hr s hs v h1 h2 => (h s hs).2 v ((h r hr).1.trans h1) h2
  obtain ⟨lo, hlo, hm, hhi, _⟩ := consec_spec hne hc
  have hcne : column rows j ≠ [] := by simpa [column] using hne
  obtain ⟨r, hr, hre⟩ := List.mem_map.1 (colHi_mem hcne)
  have hl1 : lo = 1 := by
    rw [← hlo]
    have h1 := (h r hr)
    obtain ⟨t, ht, hte⟩ := h1.2 1 le_rfl h1.1
    refine colLo_eq (by rw [← hte]; exact mem_column ht j) fun x hx => ?_
    obtain ⟨s, hs, rfl⟩ := List.mem_map.1 hx
    exact (h s hs).1
  exact ⟨hc, by omega⟩

theorem ent3_consec {rows : List (List ℕ)} (hne : rows ≠ []) (h0 : Consecutive rows 0) (h1 : Consecutive rows 1) (h2 : Consecutive rows 2) :
    ent3 (nbins rows 0) (nbins rows 1) (nbins rows 2) (fun i j k => (hist3 rows (nbins rows 0) (nbins rows 1) (nbins rows 2) i j k : ℝ) / rows.length) =
      (∑ x ∈ valuesOf rows 0, ∑ y ∈ valuesOf rows 1, ∑ z ∈ valuesOf rows 2,
        -((freq rows (fun r => entry 0 r = x ∧ entry 1 r = y ∧ entry 2 r = z) + eps) *
          Real.log (freq rows (fun r => entry 0 r = x ∧ entry 1 r = y ∧ entry 2 r = z) + eps))) -
      ∑ y ∈ valuesOf rows 1, ∑ z ∈ valuesOf rows 2, -((freq rows (fun r => entry 1 r = y ∧ entry 2 r = z) + eps) *
          Real.log (freq rows (fun r => entry 1 r = y ∧ entry 2 r = z) + eps)) := by
  obtain ⟨lo0, -, hm0, -, hb0⟩ := consec_spec hne h0
  obtain ⟨lo1, -, hm1, -, hb1⟩ := consec_spec hne h1
  obtain ⟨lo2, -, hm2, -, hb2⟩ := consec_spec hne h2
  have hf : ∀ i j k, (hist3 rows (nbins rows 0) (nbins rows 1) (nbins rows 2) i j k : ℝ) / rows.length =
      freq rows fun r => entry 0 r = lo0 + i ∧ entry 1 r = lo1 + j ∧ entry 2 r = lo2 + k := by
    intro i j k
    unfold hist3
    rw [freq_countP]
    exact freq_congr fun r hr => and_congr (bin_iff hm0 hb0 hr i) (and_congr (bin_iff hm1 hb1 hr j) (bin_iff hm2 hb2 hr k))
  have hs : ∀ j k, ∑ i ∈ range (nbins rows 0), freq rows (fun r => entry 0 r = lo0 + i ∧ entry 1 r = lo1 + j ∧ entry 2 r = lo2 + k) =
      freq rows fun r => entry 1 r = lo1 + j ∧ entry 2 r = lo2 + k := by
    intro j k
    rw [← freq_sum 0 (fun r => entry 1 r = lo1 + j ∧ entry 2 r = lo2 + k), sum_values hm0]
    exact sum_congr rfl fun i _ => freq_congr fun r _ => and_comm
  unfold ent3
  simp_rw [hf, hs, sum_values hm0, sum_values hm1, sum_values hm2, sum_neg_distrib]
  ring

/-- `H(X | Y, Z) = H(X, Y, Z) - H(Y, Z)`. -/
theorem condH2_eq (rows : List (List ℕ)) : empCondH2 rows 0 1 2 =
      (∑ x ∈ valuesOf rows 0, ∑ y ∈ valuesOf rows 1, ∑ z ∈ valuesOf rows 2,
        -(freq rows (fun r => entry 0 r = x ∧ entry 1 r = y ∧ entry 2 r = z) *
          Real.log (freq rows (fun r => entry 0 r = x ∧ entry 1 r = y ∧ entry 2 r = z)))) -
      ∑ y ∈ valuesOf rows 1, ∑ z ∈ valuesOf rows 2, -(freq rows (fun r => entry 1 r = y ∧ entry 2 r = z) *
          Real.log (freq rows (fun r => entry 1 r = y ∧ entry 2 r = z))) := by
  have ht : ∀ x y z, freq rows (fun r => entry 0 r = x ∧ entry 1 r = y ∧ entry 2 r = z) *
      Real.log (freq rows (fun r => entry 1 r = y ∧ entry 2 r = z) / freq rows (fun r => entry 0 r = x ∧ entry 1 r = y ∧ entry 2 r = z)) =
      freq rows (fun r => entry 0 r = x ∧ entry 1 r = y ∧ entry 2 r = z) * Real.log (freq rows (fun r => entry 1 r = y ∧ entry 2 r = z)) +
        -(freq rows (fun r => entry 0 r = x ∧ entry 1 r = y ∧ entry 2 r = z) *
          Real.log (freq rows (fun r => entry 0 r = x ∧ entry 1 r = y ∧ entry 2 r = z))) := by
    intro x y z
    rcases (freq_nonneg (rows := rows) (p := fun r => entry 0 r = x ∧ entry 1 r = y ∧ entry 2 r = z)).eq_or_lt with h | h
    · rw [← h]; simp
    · have h2 : 0 < freq rows (fun r => entry 1 r = y ∧ entry 2 r = z) := lt_of_lt_of_le h (freq_le fun r _ h => h.2)
      rw [Real.log_div h2.ne' h.ne']; ring
  unfold empCondH2
  simp_rw [ht, sum_add_distrib]
  have : ∑ x ∈ valuesOf rows 0, ∑ y ∈ valuesOf rows 1, ∑ z ∈ valuesOf rows 2,
      freq rows (fun r => entry 0 r = x ∧ entry 1 r = y ∧ entry 2 r = z) * Real.log (freq rows (fun r => entry 1 r = y ∧ entry 2 r = z)) =
      ∑ y ∈ valuesOf rows 1, ∑ z ∈ valuesOf rows 2, freq rows (fun r => entry 1 r = y ∧ entry 2 r = z) *
          Real.log (freq rows (fun r => entry 1 r = y ∧ entry 2 r = z)) := by
    rw [sum_comm]
    refine sum_congr rfl fun y _ => ?_
    rw [sum_comm]
    refine sum_congr rfl fun z _ => ?_
    rw [← sum_mul]
    congr 1
    rw [← freq_sum 0 (fun r => entry 1 r = y ∧ entry 2 r = z)]
    exact sum_congr rfl fun i _ => freq_congr fun r _ => and_comm
  rw [this]
  simp_rw [sum_neg_distrib]
  ring

theorem ent3_near {rows : List (List ℕ)} (hne : rows ≠ []) (h0 : Consecutive rows 0) (h1 : Consecutive rows 1) (h2 : Consecutive rows 2) :
    |ent3 (nbins rows 0) (nbins rows 1) (nbins rows 2) (fun i j k => (hist3 rows (nbins rows 0) (nbins rows 1) (nbins rows 2) i j k : ℝ) / rows.length) -
      empCondH2 rows 0 1 2| ≤ 17 / 10 ^ 7 * ((valuesOf rows 0).card * (valuesOf rows 1).card * (valuesOf rows 2).card +
        (valuesOf rows 1).card * (valuesOf rows 2).card) := by
  have he := eps_pos
  have hs : ∀ (p : List ℕ → Prop) [DecidablePred p], |-((freq rows p + eps) * Real.log (freq rows p + eps)) - -(freq rows p * Real.log (freq rows p))| ≤ 17 * eps := by
    intro p _
    obtain ⟨a, b⟩ := smooth_negMulLog (freq_nonneg (rows := rows) (p := p)) freq_le_one
    rw [abs_le]; constructor <;> linarith
  rw [ent3_consec hne h0 h1 h2, condH2_eq]
  have e : ∀ a b c d : ℝ, a - b - (c - d) = (a - c) - (b - d) := fun a b c d => by ring
  rw [e]
  refine (abs_sub _ _).trans ?_
  simp_rw [← sum_sub_distrib]
  have hA : |∑ x ∈ valuesOf rows 0, ∑ y ∈ valuesOf rows 1, ∑ z ∈ valuesOf rows 2,
      (-((freq rows (fun r => entry 0 r = x ∧ entry 1 r = y ∧ entry 2 r = z) + eps) *
          Real.log (freq rows (fun r => entry 0 r = x ∧ entry 1 r = y ∧ entry 2 r = z) + eps)) -
        -(freq rows (fun r => entry 0 r = x ∧ entry 1 r = y ∧ entry 2 r = z) *
          Real.log (freq rows (fun r => entry 0 r = x ∧ entry 1 r = y ∧ entry 2 r = z))))| ≤
      ∑ x ∈ valuesOf rows 0, ∑ y ∈ valuesOf rows 1, ∑ z ∈ valuesOf rows 2, 17 * eps :=
    (abs_sum_le_sum_abs _ _).trans (sum_le_sum fun x _ => (abs_sum_le_sum_abs _ _).trans (sum_le_sum fun y _ =>
      (abs_sum_le_sum_abs _ _).trans (sum_le_sum fun z _ => hs _)))
  have hB : |∑ y ∈ valuesOf rows 1, ∑ z ∈ valuesOf rows 2,
      (-((freq rows (fun r => entry 1 r = y ∧ entry 2 r = z) + eps) * Real.log (freq rows (fun r => entry 1 r = y ∧ entry 2 r = z) + eps)) -
        -(freq rows (fun r => entry 1 r = y ∧ entry 2 r = z) * Real.log (freq rows (fun r => entry 1 r = y ∧ entry 2 r = z))))| ≤
      ∑ y ∈ valuesOf rows 1, ∑ z ∈ valuesOf rows 2, 17 * eps :=
    (abs_sum_le_sum_abs _ _).trans (sum_le_sum fun y _ => (abs_sum_le_sum_abs _ _).trans (sum_le_sum fun z _ => hs _))
  refine (add_le_add hA hB).trans (le_of_eq ?_)
  simp only [sum_const, nsmul_eq_mul]
  unfold eps
  ring

/-- `I(X ; Y | Z) = H(X | Z) - H(X | Y, Z)`. -/
theorem cmi_eq (rows : List (List ℕ)) : empCMI rows 0 1 2 = empCondH rows 0 2 - empCondH2 rows 0 1 2 := by
  rw [eq_sub_iff_add_eq]
  unfold empCMI empCondH2 empCondH
  simp_rw [← sum_add_distrib]
  refine sum_congr rfl fun x _ => ?_
  rw [sum_comm]
  refine sum_congr rfl fun z _ => ?_
  have ht : ∀ y, freq rows (fun r => entry 0 r = x ∧ entry 1 r = y ∧ entry 2 r = z) *
        Real.log (freq rows (fun r => entry 2 r = z) * freq rows (fun r => entry 0 r = x ∧ entry 1 r = y ∧ entry 2 r = z) /
          (freq rows (fun r => entry 0 r = x ∧ entry 2 r = z) * freq rows (fun r => entry 1 r = y ∧ entry 2 r = z))) +
      freq rows (fun r => entry 0 r = x ∧ entry 1 r = y ∧ entry 2 r = z) *
        Real.log (freq rows (fun r => entry 1 r = y ∧ entry 2 r = z) / freq rows (fun r => entry 0 r = x ∧ entry 1 r = y ∧ entry 2 r = z)) =
      freq rows (fun r => entry 0 r = x ∧ entry 1 r = y ∧ entry 2 r = z) *
        Real.log (freq rows (fun r => entry 2 r = z) / freq rows (fun r => entry 0 r = x ∧ entry 2 r = z)) := by
    intro y
    rcases (freq_nonneg (rows := rows) (p := fun r => entry 0 r = x ∧ entry 1 r = y ∧ entry 2 r = z)).eq_or_lt with h | h
    · rw [← h]; simp
    · have h1 : 0 < freq rows (fun r => entry 1 r = y ∧ entry 2 r = z) := lt_of_lt_of_le h (freq_le fun r _ h => h.2)
      have h2 : 0 < freq rows (fun r => entry 0 r = x ∧ entry 2 r = z) := lt_of_lt_of_le h (freq_le fun r _ h => ⟨h.1, h.2.2⟩)
      have h3 : 0 < freq rows (fun r => entry 2 r = z) := lt_of_lt_of_le h (freq_le fun r _ h => h.2.2)
      rw [Real.log_div (mul_pos h3 h).ne' (mul_pos h2 h1).ne', Real.log_mul h3.ne' h.ne', Real.log_mul h2.ne' h1.ne',
        Real.log_div h1.ne' h.ne', Real.log_div h3.ne' h2.ne']
      ring
  simp_rw [ht]
  rw [← sum_mul]
  congr 1
  rw [← freq_sum 1 (fun r => entry 0 r = x ∧ entry 2 r = z)]
  exact sum_congr rfl fun y _ => freq_congr fun r _ => by tauto

end Indep
end PyBN
