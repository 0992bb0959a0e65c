import Verif.Model.Indep
import Verif.Proofs.DataPrep
import Mathlib.Tactic.Linarith
import Mathlib.Tactic.Positivity
import Mathlib.Tactic.FieldSimp
import Mathlib.Algebra.Order.Floor.Ring
import Mathlib.Algebra.BigOperators.Ring.Finset
import Mathlib.Algebra.Order.BigOperators.Group.Finset

set_option linter.unusedSectionVars false

namespace PyBN
namespace Indep
open Finset

theorem eps_pos : 0 < eps := by unfold eps; positivity

/-! ### Rounding -/

theorem round4_zero : round4 0 = 0 := by
  unfold round4
  rw [if_pos le_rfl]
  have : ⌊(0 : ℝ) * 10 ^ 4 + 1 / 2⌋ = 0 := by rw [Int.floor_eq_zero_iff]; norm_num
  rw [this]; norm_num

theorem round4_mono {x y : ℝ} (h : x ≤ y) : round4 x ≤ round4 y := by
  unfold round4
  have key : ∀ z : ℝ, 0 ≤ z → (0 : ℚ) ≤ (⌊z * 10 ^ 4 + 1 / 2⌋ : ℚ) / 10 ^ 4 := by
    intro z hz
    apply div_nonneg _ (by norm_num)
    have : 0 ≤ ⌊z * 10 ^ 4 + 1 / 2⌋ := Int.floor_nonneg.2 (by positivity)
    exact_mod_cast this
  have mono : ∀ z w : ℝ, z ≤ w → (⌊z * 10 ^ 4 + 1 / 2⌋ : ℚ) / 10 ^ 4 ≤ (⌊w * 10 ^ 4 + 1 / 2⌋ : ℚ) / 10 ^ 4 := by
    intro z w hzw
    apply div_le_div_of_nonneg_right _ (by norm_num)
    have : ⌊z * 10 ^ 4 + 1 / 2⌋ ≤ ⌊w * 10 ^ 4 + 1 / 2⌋ := Int.floor_le_floor (by linarith [mul_le_mul_of_nonneg_right hzw (by norm_num : (0:ℝ) ≤ 10 ^ 4)])
    exact_mod_cast this
  split <;> split
  · exact mono x y h
  · rename_i h1 h2; exact absurd (h1.trans h) h2
  · rename_i h1 h2
    have := key (-x) (by linarith)
    have := key y h2
    linarith
  · exact neg_le_neg (mono (-y) (-x) (by linarith))

theorem round4_nonneg {x : ℝ} (h : 0 ≤ x) : 0 ≤ round4 x := by
  have := round4_mono h
  rwa [round4_zero] at this

theorem round4_eq_zero {x : ℝ} (h1 : -(1 / 20000) < x) (h2 : x < 1 / 20000) : round4 x = 0 := by
  unfold round4
  split
  · rename_i h
    have : ⌊x * 10 ^ 4 + 1 / 2⌋ = 0 := by rw [Int.floor_eq_zero_iff]; constructor <;> norm_num <;> linarith
    rw [this]; norm_num
  · rename_i h
    have : ⌊-x * 10 ^ 4 + 1 / 2⌋ = 0 := by rw [Int.floor_eq_zero_iff]; constructor <;> norm_num <;> linarith
    rw [this]; norm_num

theorem round4_near (x : ℝ) : |(round4 x : ℝ) - x| ≤ 1 / 20000 := by
  have key : ∀ z : ℝ, |((⌊z * 10 ^ 4 + 1 / 2⌋ : ℝ) / 10 ^ 4) - z| ≤ 1 / 20000 := by
    intro z
    have h1 := Int.floor_le (z * 10 ^ 4 + 1 / 2)
    have h2 := Int.lt_floor_add_one (z * 10 ^ 4 + 1 / 2)
    rw [abs_le]
    constructor <;> linarith
  unfold round4
  split
  · push_cast; exact key x
  · push_cast
    have := key (-x)
    rw [abs_le] at this ⊢
    constructor <;> linarith [this.1, this.2]

/-! ### Information inequalities -/

theorem mul_log_div_ge {a b : ℝ} (ha : 0 < a) (hb : 0 < b) : a - b ≤ a * Real.log (a / b) := by
  have h := Real.log_le_sub_one_of_pos (div_pos hb ha)
  have h2 : Real.log (a / b) = -Real.log (b / a) := by rw [← Real.log_inv, inv_div]
  rw [h2]
  have : a * Real.log (b / a) ≤ a * (b / a - 1) := mul_le_mul_of_nonneg_left h ha.le
  have e : a * (b / a - 1) = b - a := by field_simp
  linarith

theorem mul_log_div_gt {a b : ℝ} (ha : 0 < a) (hb : 0 < b) (hne : a ≠ b) : a - b < a * Real.log (a / b) := by
  have h := Real.log_lt_sub_one_of_pos (div_pos hb ha) (by rw [Ne, div_eq_one_iff_eq ha.ne']; exact fun h => hne h.symm)
  have h2 : Real.log (a / b) = -Real.log (b / a) := by rw [← Real.log_inv, inv_div]
  rw [h2]
  have : a * Real.log (b / a) < a * (b / a - 1) := mul_lt_mul_of_pos_left h ha
  have e : a * (b / a - 1) = b - a := by field_simp
  linarith

theorem smooth_le {a b e : ℝ} (ha : 0 ≤ a) (hb : 0 ≤ b) (hab : b = 0 → a = 0) (he : 0 < e) :
    (a + e) * Real.log ((a + e) / (b + e)) ≤ a * Real.log (a / b) := by
  rcases ha.eq_or_lt with rfl | ha'
  · rw [zero_add, zero_mul]
    apply mul_nonpos_of_nonneg_of_nonpos he.le
    apply Real.log_nonpos (by positivity)
    rw [div_le_one (by positivity)]; linarith
  · have hb' : 0 < b := lt_of_le_of_ne hb fun h => ha'.ne' (hab h.symm)
    set t := (a + e) / (b + e) with ht
    have htpos : 0 < t := by positivity
    have h1 : Real.log (a / b) = Real.log t - Real.log (t * b / a) := by
      rw [Real.log_div ha'.ne' hb'.ne', Real.log_div (mul_pos htpos hb').ne' ha'.ne', Real.log_mul htpos.ne' hb'.ne']
      ring
    have h2 : Real.log (t * b / a) ≤ t * b / a - 1 := Real.log_le_sub_one_of_pos (by positivity)
    have h3 : Real.log t ≤ t - 1 := Real.log_le_sub_one_of_pos htpos
    have h4 : a * Real.log (t * b / a) ≤ t * b - a := by
      have := mul_le_mul_of_nonneg_left h2 ha'.le
      have e : a * (t * b / a - 1) = t * b - a := by field_simp
      linarith
    have h5 : e * Real.log t ≤ e * (t - 1) := mul_le_mul_of_nonneg_left h3 he.le
    have h6 : t * (b + e) = a + e := by rw [ht]; field_simp
    rw [h1]
    nlinarith

/-- The smoothed mutual information of a probability table is non-negative. -/
theorem mi2_nonneg {k0 k1 : ℕ} {P : ℕ → ℕ → ℝ} (hP : ∀ i j, 0 ≤ P i j) (h1 : ∑ i ∈ range k0, ∑ j ∈ range k1, P i j = 1) :
    0 ≤ mi2 k0 k1 P := by
  have he := eps_pos
  set X := fun i => ∑ j' ∈ range k1, P i j'
  set Y := fun j => ∑ i' ∈ range k0, P i' j
  have hX : ∀ i, 0 ≤ X i := fun i => sum_nonneg fun j _ => hP i j
  have hY : ∀ j, 0 ≤ Y j := fun j => sum_nonneg fun i _ => hP i j
  have hXY : ∑ i ∈ range k0, ∑ j ∈ range k1, X i * Y j = 1 := by
    simp_rw [← mul_sum, ← sum_mul]
    have : ∑ j ∈ range k1, Y j = 1 := by rw [← h1]; exact sum_comm
    rw [this, mul_one]; exact h1
  have : ∑ i ∈ range k0, ∑ j ∈ range k1, ((P i j + eps) - (X i * Y j + eps)) ≤ mi2 k0 k1 P := by
    unfold mi2
    refine sum_le_sum fun i _ => sum_le_sum fun j _ => mul_log_div_ge ?_ ?_
    · linarith [hP i j]
    · linarith [mul_nonneg (hX i) (hY j)]
  have h0 : ∑ i ∈ range k0, ∑ j ∈ range k1, ((P i j + eps) - (X i * Y j + eps)) = 0 := by
    have : ∀ i j, (P i j + eps) - (X i * Y j + eps) = P i j - X i * Y j := fun i j => by ring
    simp_rw [this, sum_sub_distrib]
    rw [hXY, h1, sub_self]
  linarith

/-- It is zero exactly for product tables. -/
theorem mi2_eq_zero_iff {k0 k1 : ℕ} {P : ℕ → ℕ → ℝ} (hP : ∀ i j, 0 ≤ P i j) (h1 : ∑ i ∈ range k0, ∑ j ∈ range k1, P i j = 1) :
    mi2 k0 k1 P = 0 ↔ ∀ i < k0, ∀ j < k1, P i j = (∑ j' ∈ range k1, P i j') * ∑ i' ∈ range k0, P i' j := by
  have he := eps_pos
  set X := fun i => ∑ j' ∈ range k1, P i j' with hXd
  set Y := fun j => ∑ i' ∈ range k0, P i' j with hYd
  have hX : ∀ i, 0 ≤ X i := fun i => sum_nonneg fun j _ => hP i j
  have hY : ∀ j, 0 ≤ Y j := fun j => sum_nonneg fun i _ => hP i j
  constructor
  · intro hz i hi j hj
    by_contra hne
    have hXY : ∑ i ∈ range k0, ∑ j ∈ range k1, X i * Y j = 1 := by
      simp_rw [← mul_sum, ← sum_mul]
      have : ∑ j ∈ range k1, Y j = 1 := by rw [← h1]; exact sum_comm
      rw [this, mul_one]; exact h1
    have hle : ∀ i j, (P i j + eps) - (X i * Y j + eps) ≤ (P i j + eps) * Real.log ((P i j + eps) / (X i * Y j + eps)) := fun i j =>
      mul_log_div_ge (by linarith [hP i j]) (by linarith [mul_nonneg (hX i) (hY j)])
    have : ∑ i ∈ range k0, ∑ j ∈ range k1, ((P i j + eps) - (X i * Y j + eps)) < mi2 k0 k1 P := by
      unfold mi2
      refine sum_lt_sum (fun i _ => sum_le_sum fun j _ => hle i j) ⟨i, mem_range.2 hi, sum_lt_sum (fun j _ => hle i j) ⟨j, mem_range.2 hj, ?_⟩⟩
      refine mul_log_div_gt (by linarith [hP i j]) (by linarith [mul_nonneg (hX i) (hY j)]) fun h => hne ?_
      have := add_right_cancel h
      exact this
    have h0 : ∑ i ∈ range k0, ∑ j ∈ range k1, ((P i j + eps) - (X i * Y j + eps)) = 0 := by
      have : ∀ i j, (P i j + eps) - (X i * Y j + eps) = P i j - X i * Y j := fun i j => by ring
      simp_rw [this, sum_sub_distrib]
      rw [hXY, h1, sub_self]
    linarith
  · intro h
    unfold mi2
    refine sum_eq_zero fun i hi => sum_eq_zero fun j hj => ?_
    rw [← h i (mem_range.1 hi) j (mem_range.1 hj), div_self (by linarith [hP i j]), Real.log_one, mul_zero]

/-- It is at most the entropy of the first variable. -/
theorem mi2_le_ent {k0 k1 : ℕ} {P : ℕ → ℕ → ℝ} (hP : ∀ i j, 0 ≤ P i j) :
    mi2 k0 k1 P ≤ ent1 k0 fun i => ∑ j ∈ range k1, P i j := by
  unfold mi2 ent1
  rw [neg_one_mul, ← sum_neg_distrib]
  refine sum_le_sum fun i hi => ?_
  have hX : 0 ≤ ∑ j ∈ range k1, P i j := sum_nonneg fun j _ => hP i j
  calc _ ≤ ∑ j ∈ range k1, -(P i j * Real.log (∑ j ∈ range k1, P i j)) := ?_
    _ = _ := by rw [sum_neg_distrib, ← sum_mul]
  refine sum_le_sum fun j hj => ?_
  have hY : 0 ≤ ∑ i' ∈ range k0, P i' j := sum_nonneg fun i _ => hP i j
  have hPX : P i j ≤ ∑ j ∈ range k1, P i j := single_le_sum (f := fun j => P i j) (fun j _ => hP i j) hj
  have hPY : P i j ≤ ∑ i' ∈ range k0, P i' j := single_le_sum (f := fun i => P i j) (fun i _ => hP i j) hi
  refine (smooth_le (hP i j) (mul_nonneg hX hY) ?_ eps_pos).trans ?_
  · intro h
    rcases mul_eq_zero.1 h with h | h
    · exact le_antisymm (h ▸ hPX) (hP i j)
    · exact le_antisymm (h ▸ hPY) (hP i j)
  · rcases (hP i j).eq_or_lt with h0 | hpos
    · rw [← h0]; simp
    · have hXp := lt_of_lt_of_le hpos hPX
      have hYp := lt_of_lt_of_le hpos hPY
      rw [Real.log_div hpos.ne' (by positivity), Real.log_mul hXp.ne' hYp.ne']
      have := Real.log_le_log hpos hPY
      have := mul_le_mul_of_nonneg_left this hpos.le
      linarith

theorem ent1_nonneg {k : ℕ} {P : ℕ → ℝ} (hP : ∀ i, 0 ≤ P i) (h1 : ∀ i < k, P i ≤ 1) : 0 ≤ ent1 k P := by
  unfold ent1
  rw [neg_one_mul, ← sum_neg_distrib]
  refine sum_nonneg fun i hi => ?_
  have := Real.log_nonpos (hP i) (h1 i (mem_range.1 hi))
  have := mul_nonneg (hP i) (neg_nonneg.2 this)
  linarith

theorem mi2_comm (k0 k1 : ℕ) (P : ℕ → ℕ → ℝ) : mi2 k0 k1 P = mi2 k1 k0 fun j i => P i j := by
  unfold mi2
  rw [sum_comm]
  refine sum_congr rfl fun j _ => sum_congr rfl fun i _ => ?_
  rw [mul_comm (∑ j' ∈ range k1, P i j')]

theorem mi3_comm (k0 k1 k2 : ℕ) (P : ℕ → ℕ → ℕ → ℝ) : mi3 k0 k1 k2 P = mi3 k1 k0 k2 fun j i k => P i j k := by
  unfold mi3
  rw [sum_comm]
  refine sum_congr rfl fun j _ => sum_congr rfl fun i _ => sum_congr rfl fun k _ => ?_
  rw [sum_comm (s := range k0) (t := range k1)]
  rw [mul_comm ((∑ j' ∈ range k1, P i j' k) / _)]

/-! ### Histograms -/

theorem sum_countP {α : Type _} (l : List α) (p : α → Prop) [DecidablePred p] (f : α → ℕ) (k : ℕ) (hf : ∀ x ∈ l, f x < k) :
    ∑ j ∈ range k, l.countP (fun x => p x ∧ f x = j) = l.countP fun x => p x := by
  induction l with
  | nil => simp
  | cons x l ih =>
    simp_rw [List.countP_cons]
    rw [sum_add_distrib, ih fun y hy => hf y (by simp [hy])]
    congr 1
    by_cases hp : p x
    · simp only [hp, true_and, decide_eq_true_eq, if_true]
      rw [sum_ite_eq, if_pos (mem_range.2 (hf x (by simp)))]
    · simp [hp]

theorem countP_and_comm {α : Type _} (l : List α) (p q : α → Prop) [DecidablePred p] [DecidablePred q] :
    l.countP (fun x => p x ∧ q x) = l.countP fun x => q x ∧ p x := by
  congr 1; funext x; simp only [and_comm]

theorem colLo_le {col : List ℕ} {x : ℕ} (h : x ∈ col) : colLo col ≤ x := by
  unfold colLo
  cases hm : col.min? with
  | none => rw [List.min?_eq_none_iff] at hm; subst hm; cases h
  | some m => exact (List.min?_eq_some_iff.1 hm).2 x h

theorem le_colHi {col : List ℕ} {x : ℕ} (h : x ∈ col) : x ≤ colHi col := by
  unfold colHi
  cases hm : col.max? with
  | none => rw [List.max?_eq_none_iff] at hm; subst hm; cases h
  | some m => exact (List.max?_eq_some_iff.1 hm).2 x h

theorem colLo_mem {col : List ℕ} (h : col ≠ []) : colLo col ∈ col := by
  unfold colLo
  cases hm : col.min? with
  | none => rw [List.min?_eq_none_iff] at hm; exact absurd hm h
  | some m => exact (List.min?_eq_some_iff.1 hm).1

theorem colHi_mem {col : List ℕ} (h : col ≠ []) : colHi col ∈ col := by
  unfold colHi
  cases hm : col.max? with
  | none => rw [List.max?_eq_none_iff] at hm; exact absurd hm h
  | some m => exact (List.max?_eq_some_iff.1 hm).1

theorem colLo_eq {col : List ℕ} {m : ℕ} (h : m ∈ col) (hm : ∀ x ∈ col, m ≤ x) : colLo col = m :=
  le_antisymm (colLo_le h) (hm _ (colLo_mem (List.ne_nil_of_mem h)))

theorem colHi_eq {col : List ℕ} {m : ℕ} (h : m ∈ col) (hm : ∀ x ∈ col, x ≤ m) : colHi col = m :=
  le_antisymm (hm _ (colHi_mem (List.ne_nil_of_mem h))) (le_colHi h)

theorem binOf_lt {lo hi k x : ℕ} (hk : 0 < k) (h1 : lo ≤ x) (h2 : x ≤ hi) : binOf lo hi k x < k := by
  unfold binOf
  split
  · exact Nat.div_lt_self hk (by omega)
  · split
    · omega
    · rw [Nat.div_lt_iff_lt_mul (by omega), Nat.mul_comm k]
      exact Nat.mul_lt_mul_of_pos_right (by omega) hk

theorem histBin_lt {col : List ℕ} {k x : ℕ} (hk : 0 < k) (h : x ∈ col) : histBin col k x < k := binOf_lt hk (colLo_le h) (le_colHi h)

theorem mem_column {rows : List (List ℕ)} {r : List ℕ} (h : r ∈ rows) (j : ℕ) : r.getD j 0 ∈ column rows j := List.mem_map.2 ⟨r, h, rfl⟩

theorem nbins_pos {rows : List (List ℕ)} (h : rows ≠ []) (j : ℕ) : 0 < nbins rows j := by
  obtain ⟨r, hr⟩ := List.exists_mem_of_ne_nil rows h
  exact List.length_pos_of_mem (mem_uniqueVals.2 (mem_column hr j))

theorem hist2_sum {rows : List (List ℕ)} {k0 k1 : ℕ} (h1 : 0 < k1) (i : ℕ) :
    ∑ j ∈ range k1, hist2 rows k0 k1 i j = hist1 rows k0 i := by
  unfold hist2 hist1
  exact sum_countP rows _ _ k1 fun r hr => histBin_lt h1 (mem_column hr 1)

theorem hist1_sum {rows : List (List ℕ)} {k0 : ℕ} (h0 : 0 < k0) : ∑ i ∈ range k0, hist1 rows k0 i = rows.length := by
  unfold hist1
  have := sum_countP rows (fun _ => True) (fun r => histBin (column rows 0) k0 (r.getD 0 0)) k0 fun r hr => histBin_lt h0 (mem_column hr 0)
  simpa using this

theorem freq2_sum {rows : List (List ℕ)} (hr : rows ≠ []) {k0 k1 : ℕ} (h0 : 0 < k0) (h1 : 0 < k1) :
    ∑ i ∈ range k0, ∑ j ∈ range k1, (hist2 rows k0 k1 i j : ℝ) / rows.length = 1 := by
  simp_rw [← sum_div]
  rw [div_eq_one_iff_eq (by simpa using hr)]
  have : ∑ i ∈ range k0, ∑ j ∈ range k1, hist2 rows k0 k1 i j = rows.length := by
    rw [← hist1_sum (rows := rows) h0]; exact sum_congr rfl fun i _ => hist2_sum h1 i
  exact_mod_cast this

end Indep
end PyBN
