import Verif.Proofs.Entropy
import Verif.Proofs.Indep5
import Verif.Props.Indep

/-!
# C137–C141: `entropy` and `mi_from_en`
-/

namespace PyBN
namespace Indep
open Finset

/-! ### `data[:, (0, 2)]` -/

theorem entry_select (r : List ℕ) : entry 0 ([0, 2].map fun c => r.getD c 0) = entry 0 r ∧ entry 1 ([0, 2].map fun c => r.getD c 0) = entry 2 r :=
  ⟨rfl, rfl⟩

theorem freq_select (rows : List (List ℕ)) (p : List ℕ → Prop) [DecidablePred p] :
    freq (select [0, 2] rows) p = freq rows fun r => p ([0, 2].map fun c => r.getD c 0) := by
  rw [← freq_countP, ← freq_countP]
  unfold select
  rw [List.countP_map, List.length_map]
  rfl

theorem valuesOf_select (rows : List (List ℕ)) : valuesOf (select [0, 2] rows) 0 = valuesOf rows 0 ∧ valuesOf (select [0, 2] rows) 1 = valuesOf rows 2 := by
  unfold valuesOf select
  simp only [List.map_map]
  exact ⟨rfl, rfl⟩

theorem condH_select (rows : List (List ℕ)) : empCondH (select [0, 2] rows) 0 1 = empCondH rows 0 2 := by
  unfold empCondH
  simp only [freq_select, valuesOf_select]
  rfl

theorem consec_select {rows : List (List ℕ)} (h0 : Consecutive rows 0) (h2 : Consecutive rows 2) :
    Consecutive (select [0, 2] rows) 0 ∧ Consecutive (select [0, 2] rows) 1 := by
  constructor
  · intro r hr s hs v a b
    obtain ⟨r', hr', rfl⟩ := List.mem_map.1 hr
    obtain ⟨s', hs', rfl⟩ := List.mem_map.1 hs
    obtain ⟨t, ht, e⟩ := h0 r' hr' s' hs' v a b
    exact ⟨_, List.mem_map.2 ⟨t, ht, rfl⟩, e⟩
  · intro r hr s hs v a b
    obtain ⟨r', hr', rfl⟩ := List.mem_map.1 hr
    obtain ⟨s', hs', rfl⟩ := List.mem_map.1 hs
    obtain ⟨t, ht, e⟩ := h2 r' hr' s' hs' v a b
    exact ⟨_, List.mem_map.2 ⟨t, ht, rfl⟩, e⟩

/-- Rounding twice is rounding once. -/
theorem round4_round4 (x : ℝ) : round4 ((round4 x : ℚ) : ℝ) = round4 x := by
  have key : ∀ k : ℤ, 0 ≤ k → ⌊(((k : ℚ) / 10 ^ 4 : ℚ) : ℝ) * 10 ^ 4 + 1 / 2⌋ = k := by
    intro k _
    rw [Int.floor_eq_iff]
    push_cast
    constructor <;> · field_simp; linarith
  by_cases h : 0 ≤ x
  · have hx : round4 x = (⌊x * 10 ^ 4 + 1 / 2⌋ : ℚ) / 10 ^ 4 := by unfold round4; rw [if_pos h]
    have hk : 0 ≤ ⌊x * 10 ^ 4 + 1 / 2⌋ := Int.floor_nonneg.2 (by positivity)
    rw [hx]
    unfold round4
    rw [if_pos (by push_cast; positivity), key _ hk]
  · have hx : round4 x = -((⌊-x * 10 ^ 4 + 1 / 2⌋ : ℚ) / 10 ^ 4) := by unfold round4; rw [if_neg h]
    have hx0 : 0 < -x := by linarith
    have hk : 0 ≤ ⌊-x * 10 ^ 4 + 1 / 2⌋ := Int.floor_nonneg.2 (by positivity)
    rw [hx]
    unfold round4
    by_cases hz : ⌊-x * 10 ^ 4 + 1 / 2⌋ = 0
    · rw [hz]; norm_num
    · have hpos : 0 < ⌊-x * 10 ^ 4 + 1 / 2⌋ := lt_of_le_of_ne hk (Ne.symm hz)
      rw [if_neg (by push_cast; rw [not_le, neg_lt_zero]; positivity), Rat.cast_neg, neg_neg, key _ hk]

/-! ### The theorems -/

/-- C137: `entropy` of one column whose codes have no gaps is its Shannon entropy, rounded to four decimals. -/
theorem C137_entropy_one (rows : List (List ℕ)) (hne : rows ≠ []) (h0 : Consecutive rows 0) :
    ∃ q : ℚ, entropy 1 rows = .ok (some q) ∧ 0 ≤ q ∧ |(q : ℝ) - empH rows| ≤ 1 / 20000 := by
  obtain ⟨a, b⟩ := ent1_consec hne h0
  refine ⟨round4 (empH rows), ?_, round4_nonneg ?_, round4_near _⟩
  · unfold entropy
    rw [if_neg (by simp [hne]), if_pos rfl, if_neg (by push Not; exact a), b]
  · unfold empH
    exact sum_nonneg fun x _ => by
      have := Real.negMulLog_nonneg (x := freq rows fun r => entry 0 r = x) freq_nonneg freq_le_one
      rw [Real.negMulLog, neg_mul] at this
      exact this

/-- C137: `entropy` of two columns whose codes have no gaps is `H(X | Y)`, up to the rounding and the smoothing by `1e-7`. -/
theorem C137_entropy_two (rows : List (List ℕ)) (hne : rows ≠ []) (h0 : Consecutive rows 0) (h1 : Consecutive rows 1) :
    ∃ q : ℚ, entropy 2 rows = .ok (some q) ∧ 0 ≤ q ∧ empCondH rows 0 1 - 1 / 20000 ≤ q ∧
      (q : ℝ) ≤ empCondH rows 0 1 + 17 / 10 ^ 7 * ((valuesOf rows 0).card * (valuesOf rows 1).card) + 1 / 20000 := by
  obtain ⟨a, b, c⟩ := ent2_near hne h0 h1
  refine ⟨_, ?_, round4_nonneg (a.trans b), ?_, ?_⟩
  · unfold entropy
    rw [if_neg (by simp [hne]), if_neg (by decide), if_pos rfl]
  · have := abs_le.1 (round4_near (ent2 (nbins rows 0) (nbins rows 1) fun i j => (hist2 rows (nbins rows 0) (nbins rows 1) i j : ℝ) / rows.length))
    linarith
  · have := abs_le.1 (round4_near (ent2 (nbins rows 0) (nbins rows 1) fun i j => (hist2 rows (nbins rows 0) (nbins rows 1) i j : ℝ) / rows.length))
    linarith

/-- C138, the part that holds: `entropy` of three columns with codes 1, 2, ... is `H(X | Y, Z)`, up to the rounding and the smoothing.  With codes from 0, the
ones `replace_strings` produces, see `C138_false` and C139. -/
theorem C138_entropy_three_partial (rows : List (List ℕ)) (hne : rows ≠ []) (h : ∀ j < 3, FromOne rows j) :
    ∃ q : ℚ, entropy 3 rows = .ok (some q) ∧ |(q : ℝ) - empCondH2 rows 0 1 2| ≤ 1 / 20000 + 17 / 10 ^ 7 *
      ((valuesOf rows 0).card * (valuesOf rows 1).card * (valuesOf rows 2).card + (valuesOf rows 1).card * (valuesOf rows 2).card) := by
  obtain ⟨c0, e0⟩ := fromOne_spec hne (h 0 (by omega))
  obtain ⟨c1, e1⟩ := fromOne_spec hne (h 1 (by omega))
  obtain ⟨c2, e2⟩ := fromOne_spec hne (h 2 (by omega))
  have hn := ent3_near hne c0 c1 c2
  refine ⟨round4 (ent3 (nbins rows 0) (nbins rows 1) (nbins rows 2) fun i j k =>
      (hist3 rows (nbins rows 0) (nbins rows 1) (nbins rows 2) i j k : ℝ) / rows.length), ?_, ?_⟩
  · unfold entropy
    rw [if_neg (by simp [hne]), if_neg (by decide), if_neg (by decide), if_neg (by decide : ¬ (3 : ℕ) < 3)]
    simp only [e0, e1, e2]
    rw [if_neg (by have := nbins_pos hne 0; have := nbins_pos hne 1; have := nbins_pos hne 2; omega)]
  · have := round4_near (ent3 (nbins rows 0) (nbins rows 1) (nbins rows 2) (fun i j k =>
      (hist3 rows (nbins rows 0) (nbins rows 1) (nbins rows 2) i j k : ℝ) / rows.length))
    exact (abs_sub_le _ _ _).trans (add_le_add this hn)

/-- C139: `entropy` of three 0/1 columns is 0.0 whatever the data are, or raises `ValueError` if a column is constantly 0. -/
theorem C139_entropy_zero (rows : List (List ℕ)) (hne : rows ≠ []) (hb : Binary 3 rows) :
    entropy 3 rows = (if ∀ j ∈ ([0, 1, 2] : List ℕ), ∃ r ∈ rows, entry j r = (1 : ℕ) then .ok (some 0) else .error .valueError : Py (Option ℚ)) := by
  have hle : ∀ r ∈ rows, ∀ j, r.getD j 0 ≤ 1 := fun r hr j => getD_of_binary hb hr
  have hhi : ∀ j, colHi (column rows j) = 1 ↔ ∃ r ∈ rows, entry j r = 1 := by
    intro j
    have hcne : column rows j ≠ [] := by simpa [column] using hne
    constructor
    · intro h
      obtain ⟨r, hr, he⟩ := List.mem_map.1 (colHi_mem hcne)
      exact ⟨r, hr, by rw [← h]; exact he⟩
    · rintro ⟨r, hr, he⟩
      refine colHi_eq (by rw [← he]; exact mem_column hr j) fun x hx => ?_
      obtain ⟨s, hs, rfl⟩ := List.mem_map.1 hx
      exact hle s hs j
  have hhi0 : ∀ j, colHi (column rows j) = 0 ∨ colHi (column rows j) = 1 := by
    intro j
    have hcne : column rows j ≠ [] := by simpa [column] using hne
    obtain ⟨r, hr, he⟩ := List.mem_map.1 (colHi_mem hcne)
    have := hle r hr j
    have he' : r.getD j 0 = colHi (column rows j) := he
    omega
  unfold entropy
  rw [if_neg (by simp [hne]), if_neg (by decide), if_neg (by decide), if_neg (by decide : ¬ (3 : ℕ) < 3)]
  simp only []
  by_cases hall : ∀ j ∈ [0, 1, 2], ∃ r ∈ rows, entry j r = 1
  · have e : ∀ j < 3, colHi (column rows j) = 1 := fun j hj => (hhi j).2 (hall j (by simp; omega))
    rw [if_pos hall, e 0 (by omega), e 1 (by omega), e 2 (by omega), if_neg (by omega)]
    congr 2
    unfold ent3
    simp only [sum_range_one]
    rw [neg_one_mul, neg_add_cancel, round4_zero]
  · rw [if_neg hall, if_pos]
    by_contra hno
    apply hall
    intro j hj
    refine (hhi j).1 ?_
    have := hhi0 j
    push Not at hno
    simp only [List.mem_cons, List.not_mem_nil, or_false] at hj
    rcases hj with rfl | rfl | rfl <;> omega

/-- C138 is false of the code on 0/1 data: `X` uniform and independent of `(Y, Z)`, yet the result is 0. -/
theorem C138_false : ¬ ∀ rows : List (List ℕ), rows ≠ [] → (∀ j < 3, Coded rows j) →
    ∃ q : ℚ, entropy 3 rows = .ok (some q) ∧ |(q : ℝ) - empCondH2 rows 0 1 2| ≤ 1 / 2 := by
  intro h
  obtain ⟨q, hq, hd⟩ := h [[0, 0, 0], [1, 0, 0], [0, 1, 1], [1, 1, 1]] (by decide) (by unfold Coded; decide)
  rw [C139_entropy_zero _ (by decide) (by unfold Binary; decide), if_pos (by decide)] at hq
  cases hq
  have : empCondH2 [[0, 0, 0], [1, 0, 0], [0, 1, 1], [1, 1, 1]] 0 1 2 = Real.log 2 := by
    unfold empCondH2 valuesOf freq entry
    simp
    norm_num
    ring
  rw [this, Rat.cast_zero, zero_sub, abs_neg, abs_of_pos (Real.log_pos (by norm_num))] at hd
  have := Real.log_two_gt_d9
  linarith

/-- C140, the part that holds: `mi_from_en` of three columns with codes 1, 2, ... is the conditional mutual information `I(X ; Y | Z)`, up to roundings and
smoothing.  On two columns it raises (`C140_false`), on 0/1 codes see C141. -/
theorem C140_mi_from_en_partial (rows : List (List ℕ)) (hne : rows ≠ []) (h : ∀ j < 3, FromOne rows j) :
    ∃ q : ℚ, miFromEn 3 rows = .ok (some q) ∧ |(q : ℝ) - empCMI rows 0 1 2| ≤ 3 / 20000 + 17 / 10 ^ 7 *
      ((valuesOf rows 0).card * (valuesOf rows 2).card + (valuesOf rows 0).card * (valuesOf rows 1).card * (valuesOf rows 2).card +
        (valuesOf rows 1).card * (valuesOf rows 2).card) := by
  obtain ⟨q, hq, hqd⟩ := C138_entropy_three_partial rows hne h
  obtain ⟨s0, s2⟩ := consec_select (fromOne_spec hne (h 0 (by omega))).1 (fromOne_spec hne (h 2 (by omega))).1
  obtain ⟨p, hp, -, hp1, hp2⟩ := C137_entropy_two (select [0, 2] rows) (by simpa [select] using hne) s0 s2
  rw [condH_select] at hp1 hp2
  rw [(valuesOf_select rows).1, (valuesOf_select rows).2] at hp2
  refine ⟨round4 ((p - q : ℚ) : ℝ), ?_, ?_⟩
  · unfold miFromEn
    rw [if_neg (by decide), if_neg (by decide), if_neg (by decide : ¬ (3 : ℕ) < 3)]
    simp only [hp, hq]
    rfl
  · have h1 := abs_le.1 (round4_near ((p - q : ℚ) : ℝ))
    have h2 := abs_le.1 hqd
    rw [cmi_eq]
    push_cast at h1 ⊢
    rw [abs_le]
    have h3 : (0 : ℝ) ≤ (valuesOf rows 0).card * (valuesOf rows 2).card := by positivity
    constructor <;> nlinarith

/-- C141: `mi_from_en` on two columns raises `ValueError`, unless there is exactly one row; it raises `UnboundLocalError` on fewer than two columns. -/
theorem C141_two_columns (rows : List (List ℕ)) :
    miFromEn 2 rows = (if rows.length = 1 then .ok (some 0) else .error .valueError) ∧ ∀ n < 2, miFromEn n rows = .error .nameError := by
  refine ⟨?_, fun n hn => by unfold miFromEn; rw [if_pos hn]⟩
  unfold miFromEn entropyVec
  rw [if_neg (by decide), if_pos rfl]
  have hl : (column rows 0).length = rows.length := by simp [column]
  rw [hl]
  by_cases h : rows.length = 1
  · rw [if_pos h]
    obtain ⟨r, rfl⟩ := List.length_eq_one_iff.1 h
    have hk : ∀ j, nbins [r] j = 1 := fun j => by simp [nbins_card, valuesOf]
    have : entropy 2 [r] = .ok (some 0) := by
      unfold entropy
      rw [if_neg (by simp), if_neg (by decide), if_pos rfl]
      congr 2
      unfold ent2
      rw [hk, hk]
      simp only [sum_range_one]
      have he := eps_pos
      have hP : 0 ≤ (hist2 [r] 1 1 0 0 : ℝ) / ([r].length : ℕ) := by positivity
      rw [div_self (by positivity), Real.log_one, mul_zero, round4_zero]
    simp only [this]
    show Except.ok (diff4 (some 0) (some 0)) = _
    unfold diff4
    simp [round4_zero]
  · rw [if_neg h]; rfl

/-- C141: on three 0/1 columns, each containing a 1, `mi_from_en` returns the entropy `H(X | Z)` of columns 0 and 2: column 1 has no influence. -/
theorem C141_ignores_second (rows : List (List ℕ)) (hne : rows ≠ []) (hb : Binary 3 rows) (h1 : ∀ j ∈ [0, 1, 2], ∃ r ∈ rows, entry j r = 1) :
    miFromEn 3 rows = entropy 2 (select [0, 2] rows) := by
  unfold miFromEn
  rw [if_neg (by decide), if_neg (by decide), if_neg (by decide : ¬ (3 : ℕ) < 3)]
  simp only [C139_entropy_zero rows hne hb, if_pos h1]
  have hs : entropy 2 (select [0, 2] rows) = .ok (some (round4 (ent2 (nbins (select [0, 2] rows) 0) (nbins (select [0, 2] rows) 1) fun i j =>
      (hist2 (select [0, 2] rows) (nbins (select [0, 2] rows) 0) (nbins (select [0, 2] rows) 1) i j : ℝ) / (select [0, 2] rows).length))) := by
    unfold entropy
    rw [if_neg (by simpa [select] using hne), if_neg (by decide), if_pos rfl]
  rw [hs]
  show Except.ok (diff4 (some _) (some 0)) = _
  simp only [diff4, sub_zero, round4_round4]

/-- C140 is false of the code: `mi_from_en` raises `ValueError` on any two columns of two rows or more. -/
theorem C140_false : ¬ ∀ rows : List (List ℕ), rows ≠ [] → (∀ j < 2, FromOne rows j) →
    ∃ q : ℚ, miFromEn 2 rows = .ok (some q) ∧ |(q : ℝ) - empMI 0 rows| ≤ 1 := by
  intro h
  obtain ⟨q, hq, -⟩ := h [[1, 1], [2, 2]] (by decide) (by
    intro j hj
    unfold FromOne
    intro r hr
    interval_cases j <;> (simp only [List.mem_cons, List.not_mem_nil, or_false] at hr; rcases hr with rfl | rfl <;>
      refine ⟨by decide, fun v h1 h2 => ?_⟩ <;> simp [entry] at h2 ⊢ <;> omega))
  rw [(C141_two_columns _).1, if_neg (by decide)] at hq
  cases hq

/-! ### Witnesses -/

/-- C137: a column with codes 3, 4. -/
example : ∃ q : ℚ, entropy 1 [[3], [4], [3]] = .ok (some q) ∧ 0 ≤ q ∧ |(q : ℝ) - empH [[3], [4], [3]]| ≤ 1 / 20000 := by
  refine C137_entropy_one _ (by decide) fun r hr s hs v h1 h2 => ?_
  simp only [List.mem_cons, List.not_mem_nil, or_false] at hr hs
  have : v = 3 ∨ v = 4 := by rcases hr with rfl | rfl | rfl <;> rcases hs with rfl | rfl | rfl <;> simp [entry] at h1 h2 <;> omega
  rcases this with rfl | rfl <;> simp [entry]

/-- Three columns with codes 1, 2. -/
theorem exOne : ∀ j < 3, FromOne [[1, 1, 2], [2, 1, 1], [1, 2, 2]] j := by
  intro j hj r hr
  simp only [List.mem_cons, List.not_mem_nil, or_false] at hr
  interval_cases j <;> rcases hr with rfl | rfl | rfl <;> refine ⟨by decide, fun v h1 h2 => ?_⟩ <;> simp [entry] at h2 ⊢ <;> omega

/-- C137, two columns. -/
example : ∃ q : ℚ, entropy 2 [[1, 1, 2], [2, 1, 1], [1, 2, 2]] = .ok (some q) ∧ 0 ≤ q :=
  have ⟨q, h, h', _⟩ := C137_entropy_two [[1, 1, 2], [2, 1, 1], [1, 2, 2]] (by decide) (fromOne_spec (by decide) (exOne 0 (by omega))).1
    (fromOne_spec (by decide) (exOne 1 (by omega))).1
  ⟨q, h, h'⟩

/-- C138. -/
example : ∃ q : ℚ, entropy 3 [[1, 1, 2], [2, 1, 1], [1, 2, 2]] = .ok (some q) :=
  have ⟨q, h, _⟩ := C138_entropy_three_partial _ (by decide) exOne
  ⟨q, h⟩

/-- C139: a constant 0 column. -/
example : entropy 3 [[0, 0, 0], [1, 0, 1]] = .error .valueError := by
  rw [C139_entropy_zero _ (by decide) (by unfold Binary; decide), if_neg (by decide)]

/-- C140. -/
example : ∃ q : ℚ, miFromEn 3 [[1, 1, 2], [2, 1, 1], [1, 2, 2]] = .ok (some q) :=
  have ⟨q, h, _⟩ := C140_mi_from_en_partial _ (by decide) exOne
  ⟨q, h⟩

/-- C141: changing column 1 does not change the result. -/
example : miFromEn 3 [[0, 0, 0], [1, 1, 1], [1, 0, 0]] = miFromEn 3 [[0, 1, 0], [1, 0, 1], [1, 0, 0]] := by
  rw [C141_ignores_second _ (by decide) (by unfold Binary; decide) (by decide), C141_ignores_second _ (by decide) (by unfold Binary; decide) (by decide)]
  rfl

/-- C141. -/
example : miFromEn 2 [[0, 0], [1, 1]] = .error .valueError := (C141_two_columns _).1

end Indep
end PyBN
