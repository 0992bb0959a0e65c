import Verif.Proofs.Indep3

set_option linter.unusedSectionVars false

namespace PyBN
namespace Indep
open Finset

/-- One summand of `mi3`, as a function of the slice at one value of the conditioning variable. -/
noncomputable def miTerm (k0 k1 : ℕ) (Q : ℕ → ℕ → ℝ) (i j : ℕ) : ℝ :=
  (Q i j + eps) * Real.log
      ((Q i j / ((∑ i' ∈ range k0, ∑ j' ∈ range k1, Q i' j') + eps) + eps) /
       ((∑ j' ∈ range k1, Q i j') / ((∑ i' ∈ range k0, ∑ j' ∈ range k1, Q i' j') + eps) *
        ((∑ i' ∈ range k0, Q i' j) / ((∑ i' ∈ range k0, ∑ j' ∈ range k1, Q i' j') + eps)) + eps))

theorem mi3_eq (k0 k1 k2 : ℕ) (P : ℕ → ℕ → ℕ → ℝ) :
    mi3 k0 k1 k2 P = ∑ i ∈ range k0, ∑ j ∈ range k1, ∑ k ∈ range k2, miTerm k0 k1 (fun i j => P i j k) i j := rfl

theorem miTerm_zero (k0 k1 i j : ℕ) : miTerm k0 k1 (fun _ _ => 0) i j = 0 := by
  unfold miTerm
  have := eps_pos
  simp

theorem sum_two {K : ℕ} (hK : 2 ≤ K) (f : ℕ → ℝ) (h : ∀ k, k ≠ 0 → k ≠ K - 1 → f k = 0) : ∑ k ∈ range K, f k = f 0 + f (K - 1) := by
  have : ∑ k ∈ ({0, K - 1} : Finset ℕ), f k = ∑ k ∈ range K, f k := by
    apply sum_subset
    · intro k hk
      simp only [mem_insert, mem_singleton] at hk
      rw [mem_range]; omega
    · intro k _ hk
      simp only [mem_insert, mem_singleton, not_or] at hk
      exact h k hk.1 hk.2
  rw [← this, sum_pair (by omega)]

theorem mi3_two {k0 k1 K : ℕ} (hK : 2 ≤ K) {P P' : ℕ → ℕ → ℕ → ℝ} (h0 : ∀ i j, P' i j 0 = P i j 0) (h1 : ∀ i j, P' i j (K - 1) = P i j 1)
    (hz : ∀ i j k, k ≠ 0 → k ≠ K - 1 → P' i j k = 0) : mi3 k0 k1 K P' = mi3 k0 k1 2 P := by
  rw [mi3_eq, mi3_eq]
  refine sum_congr rfl fun i _ => sum_congr rfl fun j _ => ?_
  rw [sum_two hK, sum_range_succ, sum_range_one]
  · have e0 : (fun i j => P' i j 0) = fun i j => P i j 0 := by funext i j; exact h0 i j
    have e1 : (fun i j => P' i j (K - 1)) = fun i j => P i j 1 := by funext i j; exact h1 i j
    rw [e0, e1]
  · intro k hk0 hk1
    have : (fun i j => P' i j k) = fun _ _ => 0 := by funext i j; exact hz i j k hk0 hk1
    rw [this]
    exact miTerm_zero _ _ _ _

theorem getD_of_binary {n j : ℕ} {rows : List (List ℕ)} {r : List ℕ} (h : Binary n rows) (hr : r ∈ rows) : r.getD j 0 ≤ 1 := by
  rcases Nat.lt_or_ge j r.length with hlt | hge
  · rw [List.getD_eq_getElem _ _ hlt]; exact (h r hr).2 _ (List.getElem_mem _)
  · rw [List.getD_eq_default _ _ hge]; omega

/-- Bins of two joined binary columns: only the first one matters. -/
theorem binOf_two {lo hi K z1 z2 : ℕ} (hlo : lo ≤ 1) (hhi : hi = 10 ∨ hi = 11) (hK : 2 ≤ K) (hK4 : K ≤ 4) (h4 : lo = 1 → K ≤ 3) (h1 : z1 ≤ 1) (h2 : z2 ≤ 1)
    (hge : lo ≤ 10 * z1 + z2) (hle : 10 * z1 + z2 ≤ hi) : binOf lo hi K (10 * z1 + z2) = if z1 = 0 then 0 else K - 1 := by
  interval_cases lo <;> rcases hhi with rfl | rfl <;> interval_cases K <;> interval_cases z1 <;> interval_cases z2 <;>
    first | rfl | (exfalso; omega)

/-- With two binary conditioning variables, the first one not constant, the statistic does not depend on the second. -/
theorem miStat_second_ignored {rows : List (List ℕ)} (hlen : ∀ r ∈ rows, r.length = 4) (hz : ∀ r ∈ rows, r.getD 2 0 ≤ 1 ∧ r.getD 3 0 ≤ 1)
    (h0 : ∃ r ∈ rows, r.getD 2 0 = 0) (h1 : ∃ r ∈ rows, r.getD 2 0 = 1) : miStat 4 rows = miStat 3 (select [0, 1, 2] rows) := by
  obtain ⟨r0, hr0, e0⟩ := h0
  obtain ⟨r1, hr1, e1⟩ := h1
  have hne : rows ≠ [] := List.ne_nil_of_mem hr0
  set d := joinFrom 2 rows with hd
  have hrow : ∀ r ∈ rows, (r.take 2 ++ [joinDec (r.drop 2)]).getD 0 0 = r.getD 0 0 ∧ (r.take 2 ++ [joinDec (r.drop 2)]).getD 1 0 = r.getD 1 0 ∧
      (r.take 2 ++ [joinDec (r.drop 2)]).getD 2 0 = 10 * r.getD 2 0 + r.getD 3 0 := by
    intro r hr
    match r, hlen r hr, hz r hr with
    | [a, b, z1, z2], _, hz =>
      refine ⟨rfl, rfl, ?_⟩
      simp only [List.getD_cons_succ, List.getD_cons_zero] at hz
      show joinDec [z1, z2] = 10 * z1 + z2
      rw [joinDec_cons (by intro y hy; simp at hy; omega), joinDec_cons (by intro y hy; simp at hy; omega), joinDec_nil]
      simp; ring
  have hc : ∀ j < 2, column d j = column rows j := by
    intro j hj
    unfold column
    rw [hd]; unfold joinFrom
    rw [List.map_map]
    refine List.map_congr_left fun r hr => ?_
    interval_cases j
    · exact (hrow r hr).1
    · exact (hrow r hr).2.1
  have hc2 : column d 2 = rows.map fun r => 10 * r.getD 2 0 + r.getD 3 0 := by
    unfold column
    rw [hd]; unfold joinFrom
    rw [List.map_map]
    exact List.map_congr_left fun r hr => (hrow r hr).2.2
  have hs : ∀ j < 3, column (select [0, 1, 2] rows) j = column rows j := by
    intro j hj
    unfold column select
    rw [List.map_map]
    refine List.map_congr_left fun r hr => ?_
    interval_cases j <;> rfl
  have hn : ∀ j < 2, nbins d j = nbins rows j := fun j hj => by unfold nbins; rw [hc j hj]
  have hns : ∀ j < 3, nbins (select [0, 1, 2] rows) j = nbins rows j := fun j hj => by unfold nbins; rw [hs j hj]
  -- the first conditioning column
  have hn2 : nbins rows 2 = 2 := by
    unfold nbins
    have : uniqueVals (column rows 2) = List.range 2 := uniqueVals_range fun x => by
      constructor
      · intro hx
        obtain ⟨r, hr, rfl⟩ := List.mem_map.1 hx
        have := (hz r hr).1; omega
      · intro hx
        interval_cases x
        · rw [← e0]; exact mem_column hr0 2
        · rw [← e1]; exact mem_column hr1 2
    rw [this]; rfl
  have hlo2 : colLo (column rows 2) = 0 := colLo_eq (by rw [← e0]; exact mem_column hr0 2) fun _ _ => Nat.zero_le _
  have hhi2 : colHi (column rows 2) = 1 := colHi_eq (by rw [← e1]; exact mem_column hr1 2) fun x hx => by
    obtain ⟨r, hr, rfl⟩ := List.mem_map.1 hx
    exact (hz r hr).1
  have hb2 : ∀ r ∈ rows, histBin (column rows 2) 2 (r.getD 2 0) = r.getD 2 0 := by
    intro r hr
    have := (hz r hr).1
    unfold histBin
    rw [hlo2, hhi2]
    exact binOf_id this
  -- the joined column
  set K := nbins d 2 with hKd
  have hJmem : ∀ r ∈ rows, 10 * r.getD 2 0 + r.getD 3 0 ∈ column d 2 := fun r hr => by rw [hc2]; exact List.mem_map.2 ⟨r, hr, rfl⟩
  have hJne : column d 2 ≠ [] := List.ne_nil_of_mem (hJmem r0 hr0)
  have hlo : colLo (column d 2) ≤ 1 := by
    have := colLo_le (hJmem r0 hr0)
    have := (hz r0 hr0).2
    omega
  have hhi : colHi (column d 2) = 10 ∨ colHi (column d 2) = 11 := by
    have h2 := le_colHi (hJmem r1 hr1)
    have h3 := colHi_mem hJne
    rw [hc2] at h3
    obtain ⟨r, hr, he⟩ := List.mem_map.1 h3
    rw [hc2] at h2 ⊢
    have := hz r hr
    omega
  have hsub : ∀ x ∈ column d 2, x ∈ [0, 1, 10, 11] := by
    intro x hx
    rw [hc2] at hx
    obtain ⟨r, hr, rfl⟩ := List.mem_map.1 hx
    have := hz r hr
    have h3 : (r.getD 2 0 = 0 ∨ r.getD 2 0 = 1) ∧ (r.getD 3 0 = 0 ∨ r.getD 3 0 = 1) := by omega
    rcases h3 with ⟨h | h, h' | h'⟩ <;> rw [h, h'] <;> simp
  have hKle : K ≤ 4 := by
    have : (uniqueVals (column d 2)).Subperm [0, 1, 10, 11] :=
      (uniqueVals_nodup _).subperm fun x hx => hsub x (mem_uniqueVals.1 hx)
    exact this.length_le
  have hK3 : colLo (column d 2) = 1 → K ≤ 3 := by
    intro hl
    have : (uniqueVals (column d 2)).Subperm [1, 10, 11] :=
      (uniqueVals_nodup _).subperm fun x hx => by
        have h1 := hsub x (mem_uniqueVals.1 hx)
        have h2 := colLo_le (mem_uniqueVals.1 hx)
        simp at h1 ⊢; omega
    exact this.length_le
  have hK2 : 2 ≤ K := by
    have : [10 * r0.getD 2 0 + r0.getD 3 0, 10 * r1.getD 2 0 + r1.getD 3 0].Subperm (uniqueVals (column d 2)) := by
      apply List.Nodup.subperm
      · have := hz r0 hr0
        have := hz r1 hr1
        exact List.nodup_cons.2 ⟨by rw [List.mem_singleton]; omega, List.nodup_singleton _⟩
      · intro x hx
        simp only [List.mem_cons, List.not_mem_nil, or_false] at hx
        rcases hx with rfl | rfl
        · exact mem_uniqueVals.2 (hJmem r0 hr0)
        · exact mem_uniqueVals.2 (hJmem r1 hr1)
    exact this.length_le
  have hbJ : ∀ r ∈ rows, histBin (column d 2) K (10 * r.getD 2 0 + r.getD 3 0) = if r.getD 2 0 = 0 then 0 else K - 1 := fun r hr =>
    binOf_two hlo hhi hK2 hKle hK3 (hz r hr).1 (hz r hr).2 (colLo_le (hJmem r hr)) (le_colHi (hJmem r hr))
  -- the two histograms
  have hist_d : ∀ i j k, hist3 d (nbins rows 0) (nbins rows 1) K i j k =
      rows.countP fun r => histBin (column rows 0) (nbins rows 0) (r.getD 0 0) = i ∧ histBin (column rows 1) (nbins rows 1) (r.getD 1 0) = j ∧
        (if r.getD 2 0 = 0 then 0 else K - 1) = k := by
    intro i j k
    unfold hist3
    rw [hc 0 (by omega), hc 1 (by omega)]
    conv_lhs => rw [hd]
    unfold joinFrom
    refine countP_map_congr fun r hr => ?_
    rw [(hrow r hr).1, (hrow r hr).2.1, (hrow r hr).2.2]
    have := hbJ r hr
    rw [hd] at this
    unfold joinFrom at this
    rw [this]
  have hist_s : ∀ i j k, hist3 (select [0, 1, 2] rows) (nbins rows 0) (nbins rows 1) 2 i j k =
      rows.countP fun r => histBin (column rows 0) (nbins rows 0) (r.getD 0 0) = i ∧ histBin (column rows 1) (nbins rows 1) (r.getD 1 0) = j ∧
        r.getD 2 0 = k := by
    intro i j k
    unfold hist3
    rw [hs 0 (by omega), hs 1 (by omega), hs 2 (by omega)]
    unfold select
    refine countP_map_congr fun r hr => ?_
    have := hb2 r hr
    show _ ∧ _ ∧ histBin (column rows 2) 2 (r.getD 2 0) = k ↔ _
    rw [this]
    rfl
  have hlen' : (select [0, 1, 2] rows).length = rows.length := by simp [select]
  unfold miStat
  rw [if_neg (by decide : ¬ (4 : ℕ) = 2), if_neg (by decide : ¬ (3 : ℕ) = 2), if_pos (by decide : (3 : ℕ) < 4), if_neg (by decide : ¬ (3 : ℕ) < 3)]
  simp only []
  rw [← hd, hn 0 (by omega), hn 1 (by omega), hns 0 (by omega), hns 1 (by omega), hns 2 (by omega), hn2, hlen', ← hKd]
  refine mi3_two hK2 ?_ ?_ ?_
  · intro i j
    rw [hist_d, hist_s]
    congr 2
    refine List.countP_congr fun r hr => ?_
    simp only [decide_eq_true_eq]
    refine and_congr_right fun _ => and_congr_right fun _ => ?_
    split <;> omega
  · intro i j
    rw [hist_d, hist_s]
    congr 2
    refine List.countP_congr fun r hr => ?_
    simp only [decide_eq_true_eq]
    have := (hz r hr).1
    refine and_congr_right fun _ => and_congr_right fun _ => ?_
    split <;> omega
  · intro i j k hk0 hk1
    rw [hist_d]
    have : (rows.countP fun r => histBin (column rows 0) (nbins rows 0) (r.getD 0 0) = i ∧ histBin (column rows 1) (nbins rows 1) (r.getD 1 0) = j ∧
        (if r.getD 2 0 = 0 then 0 else K - 1) = k) = 0 := by
      rw [List.countP_eq_zero]
      intro r _
      simp only [decide_eq_true_eq, not_and]
      intro _ _
      split <;> omega
    rw [this]; simp

end Indep
end PyBN
