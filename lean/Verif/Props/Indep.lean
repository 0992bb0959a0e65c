import Verif.Proofs.Indep4

/-!
# C89-C98: the independence test and the mutual information score
-/

namespace PyBN
namespace Indep
open Finset

/-- C89: neither the order of the rows nor exchanging the two tested columns changes the result of `mi_test`, with any number of
conditioning columns, nor of `are_independent`. -/
theorem C89_symmetric (n : ℕ) (rows rows' : List (List ℕ)) (hlen : ∀ r ∈ rows, r.length = n)
    (h : rows'.Perm rows ∨ rows' = rows.map swap01) :
    miTest n rows' = miTest n rows ∧ miTestMI n rows' = miTestMI n rows ∧ ∀ alpha, areIndependent n rows' alpha = areIndependent n rows alpha := by
  have key : miTest n rows' = miTest n rows ∧ miTestMI n rows' = miTestMI n rows := by
    unfold miTest miTestMI
    by_cases hn : n < 2
    · simp [hn]
    rcases h with h | h
    · have he : rows' = [] ↔ rows = [] := ⟨fun e => by rw [e] at h; exact List.nil_perm.1 h, fun e => by rw [e] at h; exact List.perm_nil.1 h⟩
      simp only [he, miStat_perm h n, ddof_perm h n, h.length_eq, and_self]
    · have hl : ∀ r ∈ rows, 2 ≤ r.length := fun r hr => by rw [hlen r hr]; omega
      subst h
      simp only [List.map_eq_nil_iff, miStat_swap hl n, ddof_swap hl n, List.length_map, and_self]
  refine ⟨key.1, key.2, fun alpha => ?_⟩
  unfold areIndependent
  rw [key.1]

/-- C90: for two columns coded 0, 1, ..., `mi_test(data, test=False)` is the four-digit rounding of the empirical mutual information smoothed by
`1e-7`; it is never negative, is 0 for empirically independent columns, and exceeds the true empirical mutual information and the empirical entropy by
at most the rounding. -/
theorem C90_mi_value (rows : List (List ℕ)) (hne : rows ≠ []) (h0 : Coded rows 0) (h1 : Coded rows 1) :
    ∃ q, miTestMI 2 rows = .ok q ∧ |(q : ℝ) - empMI (1 / 10 ^ 7) rows| ≤ 1 / 20000 ∧ 0 ≤ q ∧ (EmpIndep rows → q = 0) ∧
      (empMI (1 / 10 ^ 7) rows = 0 ↔ EmpIndep rows) ∧ (q : ℝ) ≤ empMI 0 rows + 1 / 20000 ∧ (q : ℝ) ≤ empH rows + 1 / 20000 := by
  have hst := miStat_two_coded hne h0 h1
  have hnn := miStat_two_nonneg hne
  have hnear := round4_near (miStat 2 rows)
  have hiff : empMI eps rows = 0 ↔ EmpIndep rows := by
    rw [← hst]
    unfold miStat
    rw [if_pos rfl, mi2_eq_zero_iff (fun i j => by positivity) (freq2_sum hne (nbins_pos hne 0) (nbins_pos hne 1))]
    simp only [freqX hne h0, freqY hne h1]
    simp only [freqXY hne h0 h1]
    have hout : ∀ j, j < 2 → Coded rows j → ∀ x, ¬ x < nbins rows j → ∀ r ∈ rows, entry j r ≠ x := by
      intro j _ hj x hx r hr he
      exact hx (((coded_spec hne hj).1 x).1 (he ▸ mem_column hr j))
    constructor
    · intro h x y
      by_cases hx : x < nbins rows 0
      · by_cases hy : y < nbins rows 1
        · exact h x hx y hy
        · have e1 : (rows.filter fun r => decide (entry 1 r = y)) = [] := List.filter_eq_nil_iff.2 fun r hr => by simpa using hout 1 (by omega) h1 y hy r hr
          have e2 : (rows.filter fun r => decide (entry 0 r = x ∧ entry 1 r = y)) = [] := List.filter_eq_nil_iff.2 fun r hr => by
            simp only [decide_eq_true_eq, not_and]; intro _; exact hout 1 (by omega) h1 y hy r hr
          unfold freq; rw [e1, e2]; simp
      · have e1 : (rows.filter fun r => decide (entry 0 r = x)) = [] := List.filter_eq_nil_iff.2 fun r hr => by simpa using hout 0 (by omega) h0 x hx r hr
        have e2 : (rows.filter fun r => decide (entry 0 r = x ∧ entry 1 r = y)) = [] := List.filter_eq_nil_iff.2 fun r hr => by
          simp only [decide_eq_true_eq, not_and]; intro h; exact absurd h (hout 0 (by omega) h0 x hx r hr)
        unfold freq; rw [e1, e2]; simp
    · intro h i _ j _
      exact h i j
  have hfn : ∀ (p : List ℕ → Prop) [DecidablePred p], 0 ≤ freq rows p := fun p _ => by unfold freq; positivity
  have hmono : ∀ (p q : List ℕ → Prop) [DecidablePred p] [DecidablePred q], (∀ r, p r → q r) → freq rows p ≤ freq rows q := by
    intro p q _ _ hpq
    unfold freq
    apply div_le_div_of_nonneg_right _ (by positivity)
    rw [← List.countP_eq_length_filter, ← List.countP_eq_length_filter]
    exact_mod_cast List.countP_mono_left fun r _ h => by simp at h ⊢; exact hpq r h
  have hup : empMI eps rows ≤ empMI 0 rows := by
    unfold empMI
    refine sum_le_sum fun x _ => sum_le_sum fun y _ => ?_
    simp only [add_zero]
    refine smooth_le (hfn _) (mul_nonneg (hfn _) (hfn _)) ?_ eps_pos
    intro h
    rcases mul_eq_zero.1 h with h | h
    · exact le_antisymm (h ▸ hmono _ _ fun r hr => hr.1) (hfn _)
    · exact le_antisymm (h ▸ hmono _ _ fun r hr => hr.2) (hfn _)
  have hent : empMI eps rows ≤ empH rows := by
    rw [← hst]
    unfold miStat
    rw [if_pos rfl]
    refine (mi2_le_ent fun i j => by positivity).trans (le_of_eq ?_)
    unfold ent1 empH
    rw [valuesOf_coded hne h0, neg_one_mul, ← sum_neg_distrib]
    refine sum_congr rfl fun i _ => ?_
    simp only [freqX hne h0]
  rw [abs_le] at hnear
  refine ⟨round4 (miStat 2 rows), ?_, ?_, round4_nonneg hnn, ?_, hiff, ?_, ?_⟩
  · unfold miTestMI; rw [if_neg (by simp [hne])]
  · show |(round4 (miStat 2 rows) : ℝ) - empMI eps rows| ≤ _
    rw [← hst, abs_le]; exact hnear
  · intro hi
    rw [hst, hiff.2 hi, round4_zero]
  · rw [hst] at hnear ⊢; linarith [hnear.2]
  · rw [hst] at hnear ⊢; linarith [hnear.2]

/-- C92: the "p-value" for empirically independent coded columns with `a` and `b` values: `nan`, `inf`, 1 or 0, depending on the degrees of freedom
`(a - 1) * (b - 1)`: the density at 0 is used in place of a tail probability. -/
theorem C92_independent_pvalue (rows : List (List ℕ)) (hne : rows ≠ []) (h0 : Coded rows 0) (h1 : Coded rows 1) (hi : EmpIndep rows) (df : ℕ)
    (hdf : df = ((valuesOf rows 0).card - 1) * ((valuesOf rows 1).card - 1)) :
    (df = 0 → miTest 2 rows = .ok .nan) ∧ (df = 1 → miTest 2 rows = .ok .inf) ∧ (df = 2 → miTest 2 rows = .ok (.fin 1)) ∧
      (3 ≤ df → miTest 2 rows = .ok (.fin 0)) := by
  obtain ⟨_, _, _, _, _, hz, _⟩ := C90_mi_value rows hne h0 h1
  have hst : miStat 2 rows = 0 := by rw [miStat_two_coded hne h0 h1]; exact hz.2 hi
  have hd : ddof 2 rows = df := by
    unfold ddof
    rw [if_pos rfl, hdf, valuesOf_coded hne h0, valuesOf_coded hne h1, card_range, card_range]
  have hm : miTest 2 rows = .ok (chi2pdf 0 df).twice.round4 := by
    unfold miTest
    rw [if_neg (by simp [hne]), hst, hd, mul_zero]
  rw [hm]
  unfold chi2pdf
  refine ⟨fun h => by subst h; rfl, fun h => by subst h; simp [PFloat.twice, PFloat.round4], fun h => ?_, fun h => ?_⟩
  · subst h
    simp only [if_neg (by decide : ¬ (2 : ℕ) = 0), lt_irrefl, if_false, if_true, if_neg (by decide : ¬ (2 : ℕ) = 1), PFloat.twice, PFloat.round4]
    have : round4 (2 * (1 / 2)) = 1 := by
      unfold round4
      rw [if_pos (by norm_num)]
      have : ⌊(2 * (1 / 2) : ℝ) * 10 ^ 4 + 1 / 2⌋ = 10000 := by rw [Int.floor_eq_iff]; norm_num
      rw [this]; norm_num
    rw [this]; simp
  · simp only [if_neg (show ¬ df = 0 by omega), lt_irrefl, if_false, if_true, if_neg (show ¬ df = 1 by omega), if_neg (show ¬ df = 2 by omega),
      PFloat.twice, PFloat.round4, mul_zero, round4_zero]
    simp

/-- Independence in the data, by counting. -/
theorem empIndep_of_counts {rows : List (List ℕ)} (hne : rows ≠ []) (h : ∀ x ∈ valuesOf rows 0, ∀ y ∈ valuesOf rows 1,
    rows.length * (rows.filter fun r => entry 0 r = x ∧ entry 1 r = y).length =
      (rows.filter fun r => entry 0 r = x).length * (rows.filter fun r => entry 1 r = y).length) : EmpIndep rows := by
  intro x y
  have hN : (rows.length : ℝ) ≠ 0 := by simpa using hne
  have key : (rows.length : ℝ) * (rows.filter fun r => entry 0 r = x ∧ entry 1 r = y).length =
      (rows.filter fun r => entry 0 r = x).length * (rows.filter fun r => entry 1 r = y).length := by
    by_cases hx : x ∈ valuesOf rows 0
    · by_cases hy : y ∈ valuesOf rows 1
      · exact_mod_cast h x hx y hy
      · have hy' : ∀ r ∈ rows, entry 1 r ≠ y := fun r hr he => hy (by unfold valuesOf; rw [List.mem_toFinset]; exact List.mem_map.2 ⟨r, hr, he⟩)
        have e1 : (rows.filter fun r => decide (entry 1 r = y)) = [] := List.filter_eq_nil_iff.2 fun r hr => by simpa using hy' r hr
        have e2 : (rows.filter fun r => decide (entry 0 r = x ∧ entry 1 r = y)) = [] := List.filter_eq_nil_iff.2 fun r hr => by
          simp only [decide_eq_true_eq, not_and]; intro _; exact hy' r hr
        rw [e1, e2]; simp
    · have hx' : ∀ r ∈ rows, entry 0 r ≠ x := fun r hr he => hx (by unfold valuesOf; rw [List.mem_toFinset]; exact List.mem_map.2 ⟨r, hr, he⟩)
      have e1 : (rows.filter fun r => decide (entry 0 r = x)) = [] := List.filter_eq_nil_iff.2 fun r hr => by simpa using hx' r hr
      have e2 : (rows.filter fun r => decide (entry 0 r = x ∧ entry 1 r = y)) = [] := List.filter_eq_nil_iff.2 fun r hr => by
        simp only [decide_eq_true_eq, not_and]; intro h; exact absurd h (hx' r hr)
      rw [e1, e2]; simp
  unfold freq
  rw [div_mul_div_comm, div_eq_div_iff hN (mul_ne_zero hN hN), ← key]
  ring

/-- Two three-valued columns, every combination once. -/
def exNine : List (List ℕ) := [[0, 0], [0, 1], [0, 2], [1, 0], [1, 1], [1, 2], [2, 0], [2, 1], [2, 2]]

theorem exNine_spec : exNine ≠ [] ∧ Coded exNine 0 ∧ Coded exNine 1 ∧ EmpIndep exNine ∧
    ((valuesOf exNine 0).card - 1) * ((valuesOf exNine 1).card - 1) = 4 := by
  refine ⟨by decide, ?_, ?_, ?_, by decide⟩
  · unfold Coded; decide
  · unfold Coded; decide
  · exact empIndep_of_counts (by decide) (by decide)

/-- C91 is false of the code: empirically independent columns can get p = 0. -/
theorem C91_false : ¬ ∀ rows : List (List ℕ), rows ≠ [] → Coded rows 0 → Coded rows 1 → EmpIndep rows →
    ∃ p, miTest 2 rows = .ok p ∧ ¬ p.lt (1 / 20) := by
  intro h
  obtain ⟨h1, h2, h3, h4, h5⟩ := exNine_spec
  obtain ⟨p, hp, hlt⟩ := h exNine h1 h2 h3 h4
  have := (C92_independent_pvalue exNine h1 h2 h3 h4 4 h5.symm).2.2.2 (by omega)
  rw [this] at hp
  cases hp
  apply hlt
  show (0 : ℝ) < 1 / 20
  norm_num

/-- C91, the part that holds: with at most two degrees of freedom independent columns never get a small p (it is `inf`, 1 or `nan`). -/
theorem C91_independent_partial (rows : List (List ℕ)) (hne : rows ≠ []) (h0 : Coded rows 0) (h1 : Coded rows 1) (hi : EmpIndep rows)
    (hdf : ((valuesOf rows 0).card - 1) * ((valuesOf rows 1).card - 1) ≤ 2) (alpha : ℝ) (ha : alpha ≤ 1) :
    ∃ p, miTest 2 rows = .ok p ∧ ¬ p.lt alpha := by
  obtain ⟨a, b, c, _⟩ := C92_independent_pvalue rows hne h0 h1 hi _ rfl
  have : ((valuesOf rows 0).card - 1) * ((valuesOf rows 1).card - 1) = 0 ∨ ((valuesOf rows 0).card - 1) * ((valuesOf rows 1).card - 1) = 1 ∨
      ((valuesOf rows 0).card - 1) * ((valuesOf rows 1).card - 1) = 2 := by omega
  rcases this with h | h | h
  · exact ⟨_, a h, id⟩
  · exact ⟨_, b h, id⟩
  · exact ⟨_, c h, not_lt.2 ha⟩

/-- C96: `are_independent` answers `True` exactly if `mi_test`'s p is below `alpha`, although a small p means dependence.  For empirically independent
columns the answer is `False` with one or two degrees of freedom and `True` with three or more. -/
theorem C96_are_independent (n : ℕ) (rows : List (List ℕ)) (alpha : ℝ) :
    (∀ p, miTest n rows = .ok p → ∃ b, areIndependent n rows alpha = .ok b ∧ (b = true ↔ p.lt alpha)) ∧
    (0 < alpha → alpha ≤ 1 → rows ≠ [] → Coded rows 0 → Coded rows 1 → EmpIndep rows →
      areIndependent 2 rows alpha = .ok (decide (3 ≤ ((valuesOf rows 0).card - 1) * ((valuesOf rows 1).card - 1)))) := by
  constructor
  · intro p hp
    unfold areIndependent
    rw [hp]
    exact ⟨_, rfl, by simp⟩
  · intro ha ha1 hne h0 h1 hi
    unfold areIndependent
    by_cases hd : 3 ≤ ((valuesOf rows 0).card - 1) * ((valuesOf rows 1).card - 1)
    · rw [(C92_independent_pvalue rows hne h0 h1 hi _ rfl).2.2.2 hd]
      show Except.ok _ = _
      congr 1
      rw [decide_eq_true hd]
      simp only [decide_eq_true_eq]
      exact ha
    · obtain ⟨p, hp, hlt⟩ := C91_independent_partial rows hne h0 h1 hi (by omega) alpha ha1
      rw [hp]
      show Except.ok _ = _
      congr 1
      rw [decide_eq_false hd]
      simpa using hlt

/-- C94: with two binary conditioning variables, the first one not constant, the mutual information computed by `mi_test` does not depend on the
second one. -/
theorem C94_second_conditioner_ignored (rows : List (List ℕ)) (hlen : ∀ r ∈ rows, r.length = 4) (hz : ∀ r ∈ rows, entry 2 r ≤ 1 ∧ entry 3 r ≤ 1)
    (h0 : ∃ r ∈ rows, entry 2 r = 0) (h1 : ∃ r ∈ rows, entry 2 r = 1) : miTestMI 4 rows = miTestMI 3 (select [0, 1, 2] rows) := by
  have hne : rows ≠ [] := by obtain ⟨r, hr, _⟩ := h0; exact List.ne_nil_of_mem hr
  unfold miTestMI
  rw [if_neg (by simp [hne]), if_neg (by simp [hne, select]), miStat_second_ignored hlen hz h0 h1]

/-- C95: joining conditioning columns into one is injective if all codes are below 10 ... -/
theorem C95_join_injective_partial (n : ℕ) (rows : List (List ℕ)) (hlen : ∀ r ∈ rows, r.length = n) (hten : ∀ r ∈ rows, ∀ x ∈ r, x < 10) (c : ℕ) :
    ∀ r ∈ rows, ∀ s ∈ rows, (joinDec (r.drop c) = joinDec (s.drop c) ↔ r.drop c = s.drop c) := by
  intro r hr s hs
  refine ⟨fun h => joinDec_inj ?_ (fun z hz => hten r hr z (List.mem_of_mem_drop hz)) (fun z hz => hten s hs z (List.mem_of_mem_drop hz)) h, fun h => by rw [h]⟩
  rw [List.length_drop, List.length_drop, hlen r hr, hlen s hs]

/-- ... and not otherwise. -/
theorem C95_false : ¬ ∀ zs ws : List ℕ, zs.length = ws.length → joinDec zs = joinDec ws → zs = ws := by
  intro h
  have := h [1, 11] [11, 1] rfl (by decide +kernel)
  revert this; decide

open Classical in
/-- C97: on non-empty 0/1 data with three columns `mutual_information(data, conditional=True)` is 0.0 whatever the data are, or raises `ValueError` if a
column is constantly 0: the largest code is used as the number of bins. -/
theorem C97_conditional_zero (rows : List (List ℕ)) (hne : rows ≠ []) (hb : Binary 3 rows) :
    mutualInformation 3 rows true = if ∀ j < 3, ∃ r ∈ rows, entry j r = 1 then .ok (some 0) else .error .valueError := by
  have hle : ∀ r ∈ rows, ∀ j, r.getD j 0 ≤ 1 := fun r hr j => getD_of_binary hb hr
  have hhi : ∀ j, colHi (column rows j) = 1 ↔ ∃ r ∈ rows, entry j r = 1 := by
    intro j
    have hcne : column rows j ≠ [] := by simpa [column] using hne
    constructor
    · intro h
      obtain ⟨r, hr, he⟩ := List.mem_map.1 (colHi_mem hcne)
      exact ⟨r, hr, by rw [← h]; exact he⟩
    · rintro ⟨r, hr, he⟩
      refine colHi_eq (by rw [← he]; exact mem_column hr j) fun x hx => ?_
      obtain ⟨s, hs, rfl⟩ := List.mem_map.1 hx
      exact hle s hs j
  have hhi0 : ∀ j, colHi (column rows j) = 0 ∨ colHi (column rows j) = 1 := by
    intro j
    have hcne : column rows j ≠ [] := by simpa [column] using hne
    obtain ⟨r, hr, he⟩ := List.mem_map.1 (colHi_mem hcne)
    have := hle r hr j
    have he' : r.getD j 0 = colHi (column rows j) := he
    omega
  unfold mutualInformation
  rw [if_neg (by simp [hne]), if_neg (by decide), if_neg (by decide), if_pos rfl, if_neg (by decide : ¬ (3 : ℕ) < 3)]
  simp only []
  by_cases hall : ∀ j < 3, ∃ r ∈ rows, entry j r = 1
  · have e : ∀ j < 3, colHi (column rows j) = 1 := fun j hj => (hhi j).2 (hall j hj)
    rw [if_pos hall, e 0 (by omega), e 1 (by omega), e 2 (by omega), if_neg (by omega)]
    congr 2
    have hP : hist3 rows 1 1 1 0 0 0 = rows.length := by
      unfold hist3
      rw [List.countP_eq_length]
      intro r hr
      simp only [decide_eq_true_eq]
      have := histBin_lt (k := 1) (by omega) (mem_column hr 0)
      have := histBin_lt (k := 1) (by omega) (mem_column hr 1)
      have := histBin_lt (k := 1) (by omega) (mem_column hr 2)
      omega
    have hN : (rows.length : ℝ) ≠ 0 := by simpa using hne
    unfold mi3
    simp only [sum_range_one, hP, div_self hN]
    have he := eps_pos
    have he1 : eps ≤ 1 / 10 ^ 7 := le_of_eq rfl
    set u := 1 / (1 + eps) with hu
    have hu0 : 0 < u := by positivity
    have hu1 : u < 1 := by rw [hu, div_lt_one (by linarith)]; linarith
    have hueq : u * (1 + eps) = 1 := by rw [hu]; field_simp
    have hden : 0 < u * u + eps := by positivity
    have hlow : 1 ≤ (u + eps) / (u * u + eps) := by rw [le_div_iff₀ hden]; nlinarith
    have hup : (u + eps) / (u * u + eps) ≤ 1 + eps := by rw [div_le_iff₀ hden]; nlinarith
    have hl0 : 0 ≤ Real.log ((u + eps) / (u * u + eps)) := Real.log_nonneg hlow
    have hl1 : Real.log ((u + eps) / (u * u + eps)) ≤ eps := by
      have := Real.log_le_sub_one_of_pos (lt_of_lt_of_le one_pos hlow)
      linarith
    apply round4_eq_zero
    · have : 0 ≤ (1 + eps) * Real.log ((u + eps) / (u * u + eps)) := mul_nonneg (by linarith) hl0
      linarith
    · have : (1 + eps) * Real.log ((u + eps) / (u * u + eps)) ≤ (1 + eps) * eps := mul_le_mul_of_nonneg_left hl1 (by linarith)
      have : (1 + eps) * eps ≤ 2 * eps := by nlinarith
      norm_num at he1
      linarith
  · rw [if_neg hall, if_pos]
    by_contra hno
    apply hall
    intro j hj
    rw [← hhi j]
    rcases hhi0 j with h | h
    · exfalso; interval_cases j <;> omega
    · exact h

/-- C98: on 0/1 data the mutual information of a variable with any number of parents, as the hill-climbing score computes it, is that with its first
parent alone. -/
theorem C98_first_parent_only (n : ℕ) (rows : List (List ℕ)) (hn : 2 ≤ n) (hb : Binary n rows) :
    mutualInformation n rows false = mutualInformation 2 (select [0, 1] rows) false := by
  by_cases hne : rows = []
  · subst hne; simp [mutualInformation, select]
  rcases Nat.lt_or_ge n 3 with h2 | h3
  · have : n = 2 := by omega
    subst this
    congr 1
    unfold select
    conv_lhs => rw [← List.map_id rows]
    refine List.map_congr_left fun r hr => ?_
    match r, (hb r hr).1 with
    | [a, b], _ => rfl
  · obtain ⟨m, rfl⟩ : ∃ m, n = m + 2 := ⟨n - 2, by omega⟩
    refine mutualInformation_first h3 (fun r hr => by rw [(hb r hr).1]; omega) ?_
    exact histBin_join hne (fun r hr => (hb r hr).1) (fun r hr x hx => by have := (hb r hr).2 x hx; omega) (fun hk => binary_coded hb hk)
      (Or.inr fun r hr => (hb r hr).2)

theorem joinDec_zeros {zs : List ℕ} (h : ∀ z ∈ zs, z = 0) : joinDec zs = 0 := by
  induction zs with
  | nil => rfl
  | cons z zs ih =>
    rw [joinDec_cons fun y hy => by rw [h y hy]; omega, ih fun y hy => h y (by simp [hy]), h z (by simp)]
    simp

theorem joinDec_le {zs ws : List ℕ} (hl : zs.length = ws.length) (hz : ∀ z ∈ zs, z < 10) (hw : ∀ z ∈ ws, z < 10)
    (h : ∀ j, zs.getD j 0 ≤ ws.getD j 0) : joinDec zs ≤ joinDec ws := by
  induction zs generalizing ws with
  | nil => exact Nat.zero_le _
  | cons z zs ih =>
    cases ws with
    | nil => simp at hl
    | cons w ws =>
      simp only [List.length_cons, Nat.add_right_cancel_iff] at hl
      rw [joinDec_cons hz, joinDec_cons hw, hl]
      have h0 := h 0
      simp only [List.getD_cons_zero] at h0
      have := ih hl (fun y hy => hz y (List.mem_cons_of_mem _ hy)) (fun y hy => hw y (List.mem_cons_of_mem _ hy)) fun j => by simpa using h (j + 1)
      have := Nat.mul_le_mul_right (10 ^ ws.length) h0
      omega

/-- C98 for any codes below 10, if some row has all parents at 0 and some row has all parents at their largest codes. -/
theorem C98_first_parent_only_coded (n : ℕ) (rows : List (List ℕ)) (hn : 3 ≤ n) (hlen : ∀ r ∈ rows, r.length = n) (hten : ∀ r ∈ rows, ∀ x ∈ r, x < 10)
    (hc : Coded rows 1) (h0 : ∃ r ∈ rows, ∀ j, 1 ≤ j → entry j r = 0) (hM : ∃ q ∈ rows, ∀ r ∈ rows, ∀ j, 1 ≤ j → entry j r ≤ entry j q) :
    mutualInformation n rows false = mutualInformation 2 (select [0, 1] rows) false := by
  obtain ⟨z, hz, hz0⟩ := h0
  obtain ⟨q, hq, hqm⟩ := hM
  obtain ⟨m, rfl⟩ : ∃ m, n = m + 2 := ⟨n - 2, by omega⟩
  refine mutualInformation_first hn (fun r hr => by rw [hlen r hr]; omega) ?_
  refine histBin_join (List.ne_nil_of_mem hz) hlen hten (fun _ => hc) (Or.inl ⟨⟨z, hz, joinDec_zeros fun x hx => ?_⟩, q, hq, fun r hr => ⟨hqm r hr 1 le_rfl, ?_⟩⟩)
  · obtain ⟨j, hj, rfl⟩ := List.mem_iff_getElem.1 hx
    have := hz0 (1 + j) (by omega)
    unfold entry at this
    rw [List.length_drop] at hj
    rw [List.getD_eq_getElem _ _ (by omega)] at this
    rw [List.getElem_drop]; exact this
  · refine joinDec_le (by rw [List.length_drop, List.length_drop, hlen r hr, hlen q hq]) (fun x hx => hten r hr x (List.mem_of_mem_drop hx))
      (fun x hx => hten q hq x (List.mem_of_mem_drop hx)) fun j => ?_
    have := hqm r hr (2 + j) (by omega)
    unfold entry at this
    simpa [List.getD_eq_getElem?_getD, List.getElem?_drop] using this

/-- C99: what the hill-climbing score compares when `v` gains its first parent `u`: the entropy of `v` and the mutual information of `v` and `u`, both
rounded.  The difference `mi_old - mi_new` is never negative and largest for `u` empirically independent of `v`. -/
theorem C99_first_parent_score (rows : List (List ℕ)) (hne : rows ≠ []) (v u : ℕ) (hv : Coded rows v) :
    ∃ h i, mutualInformation 1 (select [v] rows) false = .ok (some h) ∧ mutualInformation 2 (select [v, u] rows) false = .ok (some i) ∧
      |(h : ℝ) - empH (select [v] rows)| ≤ 1 / 20000 ∧ 0 ≤ i ∧ i ≤ h ∧ (Coded rows u → EmpIndep (select [v, u] rows) → i = 0) := by
  have hs1 : select [v] rows ≠ [] := by simpa [select] using hne
  have hs2 : select [v, u] rows ≠ [] := by simpa [select] using hne
  have hc1 : Coded (select [v] rows) 0 := by
    intro r hr w hw
    obtain ⟨s, hs, rfl⟩ := List.mem_map.1 hr
    obtain ⟨t, ht, he⟩ := hv s hs w hw
    exact ⟨_, List.mem_map.2 ⟨t, ht, rfl⟩, he⟩
  have hc2 : Coded (select [v, u] rows) 0 := by
    intro r hr w hw
    obtain ⟨s, hs, rfl⟩ := List.mem_map.1 hr
    obtain ⟨t, ht, he⟩ := hv s hs w hw
    exact ⟨_, List.mem_map.2 ⟨t, ht, rfl⟩, he⟩
  have hcol : column (select [v] rows) 0 = column rows v ∧ column (select [v, u] rows) 0 = column rows v := by
    unfold column select
    rw [List.map_map, List.map_map]
    exact ⟨rfl, rfl⟩
  have hnb : nbins (select [v] rows) 0 = nbins (select [v, u] rows) 0 := by unfold nbins; rw [hcol.1, hcol.2]
  have hh1 : ∀ k i, hist1 (select [v] rows) k i = hist1 (select [v, u] rows) k i := by
    intro k i
    unfold hist1
    rw [hcol.1, hcol.2]
    unfold select
    rw [List.countP_map, List.countP_map]
    rfl
  have hlen : (select [v] rows).length = (select [v, u] rows).length := by simp [select]
  have hpos1 := nbins_pos hs2 1
  have hpos0 := nbins_pos hs2 0
  set A := mi2 (nbins (select [v, u] rows) 0) (nbins (select [v, u] rows) 1) fun i j =>
    (hist2 (select [v, u] rows) (nbins (select [v, u] rows) 0) (nbins (select [v, u] rows) 1) i j : ℝ) / (select [v, u] rows).length with hA
  set H := ent1 (nbins (select [v] rows) 0) fun i => (hist1 (select [v] rows) (nbins (select [v] rows) 0) i : ℝ) / (select [v] rows).length with hH
  have hAH : A ≤ H := by
    refine (mi2_le_ent fun i j => by positivity).trans (le_of_eq ?_)
    rw [hH, hnb]
    unfold ent1
    congr 1
    refine sum_congr rfl fun i _ => ?_
    have : ∑ j ∈ range (nbins (select [v, u] rows) 1), (hist2 (select [v, u] rows) (nbins (select [v, u] rows) 0) (nbins (select [v, u] rows) 1) i j : ℝ) /
        (select [v, u] rows).length = (hist1 (select [v] rows) (nbins (select [v, u] rows) 0) i : ℝ) / (select [v] rows).length := by
      rw [← sum_div, hlen, hh1]
      have := hist2_sum (rows := select [v, u] rows) (k0 := nbins (select [v, u] rows) 0) hpos1 i
      rw [← this]; push_cast; rfl
    simp only [this]
  refine ⟨round4 H, round4 A, ?_, ?_, ?_, ?_, round4_mono hAH, ?_⟩
  · unfold mutualInformation
    rw [if_neg (by simp [hs1]), if_pos rfl, if_neg]
    rintro ⟨i, hi, h0⟩
    rw [hist1_coded hs1 hc1, List.length_eq_zero_iff, List.filter_eq_nil_iff] at h0
    obtain ⟨r, hr, he⟩ := List.mem_map.1 (((coded_spec hs1 hc1).1 i).2 hi)
    exact h0 r hr (by simpa [entry] using he)
  · unfold mutualInformation
    rw [if_neg (by simp [hs2]), if_neg (by decide), if_pos rfl]
  · have : H = empH (select [v] rows) := by
      rw [hH]
      unfold ent1 empH
      rw [valuesOf_coded hs1 hc1, neg_one_mul, ← sum_neg_distrib]
      refine sum_congr rfl fun i _ => ?_
      have : (hist1 (select [v] rows) (nbins (select [v] rows) 0) i : ℝ) / (select [v] rows).length = freq (select [v] rows) fun r => entry 0 r = i := by
        rw [hist1_coded hs1 hc1]; rfl
      simp only [this]
    rw [← this]; exact round4_near H
  · exact round4_nonneg (mi2_nonneg (fun i j => by positivity) (freq2_sum hs2 hpos0 hpos1))
  · intro hu hi
    have hcu : Coded (select [v, u] rows) 1 := by
      intro r hr w hw
      obtain ⟨s, hs, rfl⟩ := List.mem_map.1 hr
      obtain ⟨t, ht, he⟩ := hu s hs w hw
      exact ⟨_, List.mem_map.2 ⟨t, ht, rfl⟩, he⟩
    have hst := miStat_two_coded hs2 hc2 hcu
    unfold miStat at hst
    rw [if_pos rfl] at hst
    obtain ⟨_, _, _, _, _, hz, _⟩ := C90_mi_value _ hs2 hc2 hcu
    have : A = 0 := by rw [hA, hst]; exact hz.2 hi
    rw [this, round4_zero]

/-! ### Concrete cases -/

/-- Five rows of four binary variables. -/
def exFour : List (List ℕ) := [[0, 0, 0, 0], [0, 1, 0, 1], [1, 0, 1, 0], [1, 1, 1, 1], [1, 0, 0, 1]]

/-- C89. -/
example : miTest 4 exFour.reverse = miTest 4 exFour ∧ miTest 4 (exFour.map swap01) = miTest 4 exFour ∧ exFour.map swap01 ≠ exFour :=
  ⟨(C89_symmetric 4 exFour _ (by decide) (Or.inl (List.reverse_perm exFour))).1, (C89_symmetric 4 exFour _ (by decide) (Or.inr rfl)).1, by decide⟩

/-- C90, C92, C96. -/
example : miTestMI 2 exNine = .ok 0 ∧ miTest 2 exNine = .ok (.fin 0) ∧ areIndependent 2 exNine (1 / 20) = .ok true := by
  obtain ⟨h1, h2, h3, h4, h5⟩ := exNine_spec
  obtain ⟨q, hq, -, -, h0, -⟩ := C90_mi_value exNine h1 h2 h3
  refine ⟨by rw [hq, h0 h4], (C92_independent_pvalue exNine h1 h2 h3 h4 4 h5.symm).2.2.2 (by omega), ?_⟩
  rw [(C96_are_independent 2 exNine (1 / 20)).2 (by norm_num) (by norm_num) h1 h2 h3 h4, h5]; simp

/-- C94. -/
example : miTestMI 4 exFour = miTestMI 3 [[0, 0, 0], [0, 1, 0], [1, 0, 1], [1, 1, 1], [1, 0, 0]] :=
  C94_second_conditioner_ignored exFour (by decide) (by decide) (by decide) (by decide)

/-- C95. -/
example : joinDec [1, 2, 0] ≠ joinDec [1, 0, 2] ∧ joinDec [1, 2, 0] = 120 := by decide +kernel

/-- C97: two equal columns given a third one: dependent, still 0.0. -/
example : mutualInformation 3 [[0, 0, 0], [1, 1, 0], [0, 0, 1], [1, 1, 1]] true = .ok (some 0) := by
  rw [C97_conditional_zero _ (by decide) (by unfold Binary; decide), if_pos (by decide)]

/-- C98. -/
example : mutualInformation 4 exFour false = mutualInformation 2 [[0, 0], [0, 1], [1, 0], [1, 1], [1, 0]] false :=
  C98_first_parent_only 4 exFour (by decide) (by unfold Binary; decide)

/-- C98 for other codes. -/
example : mutualInformation 3 [[0, 0, 0], [1, 1, 2], [0, 2, 2], [1, 2, 0]] false = mutualInformation 2 [[0, 0], [1, 1], [0, 2], [1, 2]] false := by
  refine C98_first_parent_only_coded 3 _ (by decide) (by decide) (by decide) (by unfold Coded; decide) ⟨[0, 0, 0], by simp, fun j hj => ?_⟩
    ⟨[0, 2, 2], by simp, fun r hr j hj => ?_⟩
  · rcases j with _ | _ | _ | j <;> simp [entry]
  · rcases j with _ | _ | _ | j
    · omega
    · revert r; decide
    · revert r; decide
    · simp only [List.mem_cons, List.not_mem_nil, or_false] at hr
      rcases hr with rfl | rfl | rfl | rfl <;> simp [entry]

/-- C99. -/
example : ∃ h, mutualInformation 1 (select [0] exNine) false = .ok (some h) ∧ mutualInformation 2 (select [0, 1] exNine) false = .ok (some 0) ∧ 0 ≤ h := by
  obtain ⟨h1, h2, h3, h4, -⟩ := exNine_spec
  obtain ⟨h, i, e1, e2, -, e3, e4, e5⟩ := C99_first_parent_score exNine h1 0 1 h2
  rw [e5 h3 h4] at e2 e4
  exact ⟨h, e1, e2, e4⟩

end Indep
end PyBN
