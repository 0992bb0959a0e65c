import Verif.Proofs.Indep
import Verif.Spec.Indep
import Mathlib.Data.List.Sort
import Mathlib.Tactic.IntervalCases

set_option linter.unusedSectionVars false

namespace PyBN
namespace Indep
open Finset

/-! ### Order of rows -/

theorem uniqueVals_eq {l l' : List ℕ} (h : ∀ x, x ∈ l ↔ x ∈ l') : uniqueVals l = uniqueVals l' := by
  have hp : (uniqueVals l).Perm (uniqueVals l') :=
    (List.perm_ext_iff_of_nodup (uniqueVals_nodup l) (uniqueVals_nodup l')).2 fun x => by rw [mem_uniqueVals, mem_uniqueVals, h]
  have s1 := (uniqueVals_sorted l).imp fun {a b} (h : a < b) => h.le
  have s2 := (uniqueVals_sorted l').imp fun {a b} (h : a < b) => h.le
  exact hp.eq_of_pairwise' s1 s2

theorem colLo_congr {l l' : List ℕ} (h : l.Perm l') : colLo l = colLo l' := by
  by_cases hn : l = []
  · subst hn; rw [List.nil_perm] at h; rw [h]
  · exact colLo_eq (h.mem_iff.2 (colLo_mem (fun e => hn (by rw [e] at h; exact List.perm_nil.1 h)))) fun x hx => colLo_le (h.mem_iff.1 hx)

theorem colHi_congr {l l' : List ℕ} (h : l.Perm l') : colHi l = colHi l' := by
  by_cases hn : l = []
  · subst hn; rw [List.nil_perm] at h; rw [h]
  · exact colHi_eq (h.mem_iff.2 (colHi_mem (fun e => hn (by rw [e] at h; exact List.perm_nil.1 h)))) fun x hx => le_colHi (h.mem_iff.1 hx)

theorem column_perm {rows rows' : List (List ℕ)} (h : rows.Perm rows') (j : ℕ) : (column rows j).Perm (column rows' j) := h.map _

theorem nbins_perm {rows rows' : List (List ℕ)} (h : rows.Perm rows') (j : ℕ) : nbins rows j = nbins rows' j := by
  unfold nbins; rw [uniqueVals_eq fun x => (column_perm h j).mem_iff]

theorem histBin_perm {l l' : List ℕ} (h : l.Perm l') (k x : ℕ) : histBin l k x = histBin l' k x := by
  unfold histBin; rw [colLo_congr h, colHi_congr h]

theorem hist2_perm {rows rows' : List (List ℕ)} (h : rows.Perm rows') (k0 k1 i j : ℕ) : hist2 rows k0 k1 i j = hist2 rows' k0 k1 i j := by
  unfold hist2
  rw [h.countP_eq]
  simp_rw [histBin_perm (column_perm h 0), histBin_perm (column_perm h 1)]

theorem hist3_perm {rows rows' : List (List ℕ)} (h : rows.Perm rows') (k0 k1 k2 i j k : ℕ) :
    hist3 rows k0 k1 k2 i j k = hist3 rows' k0 k1 k2 i j k := by
  unfold hist3
  rw [h.countP_eq]
  simp_rw [histBin_perm (column_perm h 0), histBin_perm (column_perm h 1), histBin_perm (column_perm h 2)]

theorem hist1_perm {rows rows' : List (List ℕ)} (h : rows.Perm rows') (k i : ℕ) : hist1 rows k i = hist1 rows' k i := by
  unfold hist1
  rw [h.countP_eq]
  simp_rw [histBin_perm (column_perm h 0)]

theorem joinFrom_perm {rows rows' : List (List ℕ)} (h : rows.Perm rows') (c : ℕ) : (joinFrom c rows).Perm (joinFrom c rows') := h.map _

theorem miStat_perm {rows rows' : List (List ℕ)} (h : rows.Perm rows') (n : ℕ) : miStat n rows = miStat n rows' := by
  unfold miStat
  split
  · simp_rw [nbins_perm h, hist2_perm h, h.length_eq]
  · have hd : (if 3 < n then joinFrom 2 rows else rows).Perm (if 3 < n then joinFrom 2 rows' else rows') := by
      split
      · exact joinFrom_perm h 2
      · exact h
    simp only []
    simp_rw [nbins_perm hd, hist3_perm hd, h.length_eq]

theorem ddof_perm {rows rows' : List (List ℕ)} (h : rows.Perm rows') (n : ℕ) : ddof n rows = ddof n rows' := by
  unfold ddof
  split
  · simp_rw [nbins_perm h]
  · have hd : (if 3 < n then joinFrom 2 rows else rows).Perm (if 3 < n then joinFrom 2 rows' else rows') := by
      split
      · exact joinFrom_perm h 2
      · exact h
    simp only []
    simp_rw [nbins_perm hd]

/-! ### Order of the two tested columns -/

theorem swap01_getD {r : List ℕ} (h : 2 ≤ r.length) : (swap01 r).getD 0 0 = r.getD 1 0 ∧ (swap01 r).getD 1 0 = r.getD 0 0 ∧
    ∀ j, 2 ≤ j → (swap01 r).getD j 0 = r.getD j 0 := by
  match r, h with
  | a :: b :: r, _ =>
    refine ⟨rfl, rfl, fun j hj => ?_⟩
    obtain ⟨j, rfl⟩ := Nat.exists_eq_add_of_le' hj
    rfl

theorem column_swap {rows : List (List ℕ)} (h : ∀ r ∈ rows, 2 ≤ r.length) : column (rows.map swap01) 0 = column rows 1 ∧
    column (rows.map swap01) 1 = column rows 0 ∧ ∀ j, 2 ≤ j → column (rows.map swap01) j = column rows j := by
  unfold column
  refine ⟨?_, ?_, fun j hj => ?_⟩
  · rw [List.map_map]; exact List.map_congr_left fun r hr => (swap01_getD (h r hr)).1
  · rw [List.map_map]; exact List.map_congr_left fun r hr => (swap01_getD (h r hr)).2.1
  · rw [List.map_map]; exact List.map_congr_left fun r hr => (swap01_getD (h r hr)).2.2 j hj

theorem nbins_swap {rows : List (List ℕ)} (h : ∀ r ∈ rows, 2 ≤ r.length) : nbins (rows.map swap01) 0 = nbins rows 1 ∧
    nbins (rows.map swap01) 1 = nbins rows 0 ∧ ∀ j, 2 ≤ j → nbins (rows.map swap01) j = nbins rows j := by
  obtain ⟨h0, h1, h2⟩ := column_swap h
  unfold nbins
  exact ⟨by rw [h0], by rw [h1], fun j hj => by rw [h2 j hj]⟩

theorem countP_map_congr {rows : List (List ℕ)} {p q : List ℕ → Prop} [DecidablePred p] [DecidablePred q] {f : List ℕ → List ℕ}
    (h : ∀ r ∈ rows, (p (f r) ↔ q r)) : (rows.map f).countP (fun r => p r) = rows.countP fun r => q r := by
  rw [List.countP_map]
  exact List.countP_congr fun r hr => by simpa using h r hr

theorem hist2_swap {rows : List (List ℕ)} (h : ∀ r ∈ rows, 2 ≤ r.length) (k0 k1 i j : ℕ) :
    hist2 (rows.map swap01) k0 k1 i j = hist2 rows k1 k0 j i := by
  obtain ⟨h0, h1, h2⟩ := column_swap h
  unfold hist2
  refine countP_map_congr fun r hr => ?_
  obtain ⟨e0, e1, _⟩ := swap01_getD (h r hr)
  rw [h0, h1, e0, e1, and_comm]

theorem hist3_swap {rows : List (List ℕ)} (h : ∀ r ∈ rows, 2 ≤ r.length) (k0 k1 k2 i j k : ℕ) :
    hist3 (rows.map swap01) k0 k1 k2 i j k = hist3 rows k1 k0 k2 j i k := by
  obtain ⟨h0, h1, h2⟩ := column_swap h
  unfold hist3
  refine countP_map_congr fun r hr => ?_
  obtain ⟨e0, e1, e2⟩ := swap01_getD (h r hr)
  rw [h0, h1, h2 2 le_rfl, e0, e1, e2 2 le_rfl]
  tauto

theorem joinFrom_swap {rows : List (List ℕ)} (h : ∀ r ∈ rows, 2 ≤ r.length) : joinFrom 2 (rows.map swap01) = (joinFrom 2 rows).map swap01 := by
  unfold joinFrom
  rw [List.map_map, List.map_map]
  refine List.map_congr_left fun r hr => ?_
  match r, h r hr with
  | a :: b :: r, _ => rfl

theorem joinFrom_length {rows : List (List ℕ)} (h : ∀ r ∈ rows, 2 ≤ r.length) : ∀ r ∈ joinFrom 2 rows, 2 ≤ r.length := by
  intro r hr
  obtain ⟨s, hs, rfl⟩ := List.mem_map.1 hr
  simp; have := h s hs; omega

theorem miStat_swap {rows : List (List ℕ)} (h : ∀ r ∈ rows, 2 ≤ r.length) (n : ℕ) : miStat n (rows.map swap01) = miStat n rows := by
  unfold miStat
  split
  · obtain ⟨h0, h1, _⟩ := nbins_swap h
    rw [h0, h1, mi2_comm]
    simp_rw [hist2_swap h, List.length_map]
  · simp only []
    have hd : (if 3 < n then joinFrom 2 (rows.map swap01) else rows.map swap01) = (if 3 < n then joinFrom 2 rows else rows).map swap01 := by
      split
      · exact joinFrom_swap h
      · rfl
    have hl : ∀ r ∈ (if 3 < n then joinFrom 2 rows else rows), 2 ≤ r.length := by
      split
      · exact joinFrom_length h
      · exact h
    rw [hd]
    obtain ⟨h0, h1, h2⟩ := nbins_swap hl
    rw [h0, h1, h2 2 le_rfl, mi3_comm]
    simp_rw [hist3_swap hl, List.length_map]

theorem ddof_swap {rows : List (List ℕ)} (h : ∀ r ∈ rows, 2 ≤ r.length) (n : ℕ) : ddof n (rows.map swap01) = ddof n rows := by
  unfold ddof
  split
  · obtain ⟨h0, h1, _⟩ := nbins_swap h
    rw [h0, h1, Nat.mul_comm]
  · simp only []
    have hd : (if 3 < n then joinFrom 2 (rows.map swap01) else rows.map swap01) = (if 3 < n then joinFrom 2 rows else rows).map swap01 := by
      split
      · exact joinFrom_swap h
      · rfl
    have hl : ∀ r ∈ (if 3 < n then joinFrom 2 rows else rows), 2 ≤ r.length := by
      split
      · exact joinFrom_length h
      · exact h
    rw [hd]
    obtain ⟨h0, h1, h2⟩ := nbins_swap hl
    rw [h0, h1, h2 2 le_rfl, Nat.mul_comm (nbins _ 1 - 1)]

/-! ### Columns coded 0, 1, ... -/

theorem uniqueVals_range {l : List ℕ} {k : ℕ} (h : ∀ x, x ∈ l ↔ x < k) : uniqueVals l = List.range k := by
  have hp : (uniqueVals l).Perm (List.range k) :=
    (List.perm_ext_iff_of_nodup (uniqueVals_nodup l) List.nodup_range).2 fun x => by rw [mem_uniqueVals, h, List.mem_range]
  have s1 := (uniqueVals_sorted l).imp fun {a b} (h : a < b) => h.le
  have s2 := (List.pairwise_lt_range (n := k)).imp fun {a b} (h : a < b) => h.le
  exact hp.eq_of_pairwise' s1 s2

theorem binOf_id {hi x : ℕ} (h : x ≤ hi) : binOf 0 hi (hi + 1) x = x := by
  unfold binOf
  split
  · omega
  · split
    · omega
    · rename_i h1 h2
      rw [Nat.sub_zero, Nat.sub_zero]
      rw [Nat.div_eq_iff (by omega)]
      constructor
      · nlinarith
      · have : x * (hi + 1) = x * hi + x := by ring
        omega

/-- In a coded column the bins are the codes. -/
theorem coded_spec {rows : List (List ℕ)} {j : ℕ} (hne : rows ≠ []) (h : Coded rows j) :
    (∀ x, x ∈ column rows j ↔ x < nbins rows j) ∧ colLo (column rows j) = 0 ∧ colHi (column rows j) + 1 = nbins rows j ∧
      ∀ x ∈ column rows j, histBin (column rows j) (nbins rows j) x = x := by
  have hcne : column rows j ≠ [] := by simpa [column] using hne
  have hmem : ∀ x, x ∈ column rows j ↔ x < colHi (column rows j) + 1 := by
    intro x
    constructor
    · intro hx; have := le_colHi hx; omega
    · intro hx
      obtain ⟨r, hr, hre⟩ := List.mem_map.1 (colHi_mem hcne)
      rcases Nat.lt_or_ge x (colHi (column rows j)) with hlt | hge
      · obtain ⟨r', hr', he'⟩ := h r hr x (by unfold entry; rw [hre]; exact hlt)
        rw [← he']; exact mem_column hr' j
      · have : x = colHi (column rows j) := by omega
        rw [this]; exact colHi_mem hcne
  have hk : nbins rows j = colHi (column rows j) + 1 := by
    unfold nbins; rw [uniqueVals_range hmem, List.length_range]
  have hlo : colLo (column rows j) = 0 := colLo_eq ((hmem 0).2 (by omega)) fun x _ => Nat.zero_le x
  refine ⟨fun x => by rw [hk]; exact hmem x, hlo, hk.symm, fun x hx => ?_⟩
  unfold histBin
  rw [hlo, hk]
  exact binOf_id (le_colHi hx)

theorem valuesOf_coded {rows : List (List ℕ)} {j : ℕ} (hne : rows ≠ []) (h : Coded rows j) : valuesOf rows j = range (nbins rows j) := by
  ext x
  rw [mem_range, ← (coded_spec hne h).1 x]
  unfold valuesOf
  rw [List.mem_toFinset]
  rfl

theorem hist2_coded {rows : List (List ℕ)} (hne : rows ≠ []) (h0 : Coded rows 0) (h1 : Coded rows 1) (i j : ℕ) :
    hist2 rows (nbins rows 0) (nbins rows 1) i j = (rows.filter fun r => entry 0 r = i ∧ entry 1 r = j).length := by
  unfold hist2
  rw [List.countP_eq_length_filter]
  congr 1
  refine List.filter_congr fun r hr => ?_
  rw [(coded_spec hne h0).2.2.2 _ (mem_column hr 0), (coded_spec hne h1).2.2.2 _ (mem_column hr 1)]
  rfl

theorem hist1_coded {rows : List (List ℕ)} (hne : rows ≠ []) (h0 : Coded rows 0) (i : ℕ) :
    hist1 rows (nbins rows 0) i = (rows.filter fun r => entry 0 r = i).length := by
  unfold hist1
  rw [List.countP_eq_length_filter]
  congr 1
  refine List.filter_congr fun r hr => ?_
  rw [(coded_spec hne h0).2.2.2 _ (mem_column hr 0)]
  rfl

theorem hist2_sum' {rows : List (List ℕ)} {k0 k1 : ℕ} (h0 : 0 < k0) (j : ℕ) :
    ∑ i ∈ range k0, hist2 rows k0 k1 i j = rows.countP fun r => histBin (column rows 1) k1 (r.getD 1 0) = j := by
  unfold hist2
  have := sum_countP rows (fun r => histBin (column rows 1) k1 (r.getD 1 0) = j) (fun r => histBin (column rows 0) k0 (r.getD 0 0)) k0
    fun r hr => histBin_lt h0 (mem_column hr 0)
  rw [← this]
  exact sum_congr rfl fun i _ => countP_and_comm _ _ _

theorem freqX {rows : List (List ℕ)} (hne : rows ≠ []) (h0 : Coded rows 0) (i : ℕ) :
    ∑ j' ∈ range (nbins rows 1), (hist2 rows (nbins rows 0) (nbins rows 1) i j' : ℝ) / rows.length = freq rows fun r => entry 0 r = i := by
  rw [← sum_div]
  unfold freq
  have := hist2_sum (rows := rows) (k0 := nbins rows 0) (nbins_pos hne 1) i
  rw [hist1_coded hne h0] at this
  rw [← this]; push_cast; rfl

theorem freqY {rows : List (List ℕ)} (hne : rows ≠ []) (h1 : Coded rows 1) (j : ℕ) :
    ∑ i' ∈ range (nbins rows 0), (hist2 rows (nbins rows 0) (nbins rows 1) i' j : ℝ) / rows.length = freq rows fun r => entry 1 r = j := by
  rw [← sum_div]
  unfold freq
  have := hist2_sum' (rows := rows) (k1 := nbins rows 1) (nbins_pos hne 0) j
  have e : (rows.countP fun r => histBin (column rows 1) (nbins rows 1) (r.getD 1 0) = j) = (rows.filter fun r => entry 1 r = j).length := by
    rw [List.countP_eq_length_filter]
    congr 1
    refine List.filter_congr fun r hr => ?_
    rw [(coded_spec hne h1).2.2.2 _ (mem_column hr 1)]
    rfl
  rw [e] at this
  rw [← this]; push_cast; rfl

theorem freqXY {rows : List (List ℕ)} (hne : rows ≠ []) (h0 : Coded rows 0) (h1 : Coded rows 1) (i j : ℕ) :
    (hist2 rows (nbins rows 0) (nbins rows 1) i j : ℝ) / rows.length = freq rows fun r => entry 0 r = i ∧ entry 1 r = j := by
  rw [hist2_coded hne h0 h1]; rfl

/-- For coded columns the statistic is the smoothed empirical mutual information. -/
theorem miStat_two_coded {rows : List (List ℕ)} (hne : rows ≠ []) (h0 : Coded rows 0) (h1 : Coded rows 1) : miStat 2 rows = empMI eps rows := by
  unfold miStat empMI
  rw [if_pos rfl]
  unfold mi2
  rw [valuesOf_coded hne h0, valuesOf_coded hne h1]
  refine sum_congr rfl fun i _ => sum_congr rfl fun j _ => ?_
  rw [freqX hne h0, freqY hne h1]; simp only [freqXY hne h0 h1]

theorem miStat_two_nonneg {rows : List (List ℕ)} (hne : rows ≠ []) : 0 ≤ miStat 2 rows := by
  unfold miStat
  rw [if_pos rfl]
  exact mi2_nonneg (fun i j => by positivity) (freq2_sum hne (nbins_pos hne 0) (nbins_pos hne 1))

/-! ### Joining columns -/

theorem decDigits_small {z : ℕ} (h : z < 10) : decDigits z = [z] := by
  unfold decDigits
  split
  · rename_i h0; rw [h0]
  · rename_i h0; rw [Nat.digits_of_lt 10 z h0 h]; rfl

theorem foldl_dec (l : List ℕ) (a : ℕ) : l.foldl (fun a d => 10 * a + d) a = a * 10 ^ l.length + l.foldl (fun a d => 10 * a + d) 0 := by
  induction l generalizing a with
  | nil => simp
  | cons x l ih =>
    rw [List.foldl_cons, ih, List.foldl_cons, ih (10 * 0 + x), List.length_cons, Nat.pow_succ]
    ring

theorem flatMap_decDigits {zs : List ℕ} (h : ∀ z ∈ zs, z < 10) : zs.flatMap decDigits = zs := by
  induction zs with
  | nil => rfl
  | cons z zs ih => rw [List.flatMap_cons, decDigits_small (h z (by simp)), ih fun y hy => h y (by simp [hy])]; rfl

theorem joinDec_cons {z : ℕ} {zs : List ℕ} (h : ∀ y ∈ z :: zs, y < 10) : joinDec (z :: zs) = z * 10 ^ zs.length + joinDec zs := by
  unfold joinDec
  rw [flatMap_decDigits h, flatMap_decDigits fun y hy => h y (by simp [hy]), List.foldl_cons, foldl_dec]
  simp

theorem joinDec_nil : joinDec [] = 0 := rfl

theorem joinDec_lt {zs : List ℕ} (h : ∀ z ∈ zs, z < 10) : joinDec zs < 10 ^ zs.length := by
  induction zs with
  | nil => simp [joinDec_nil]
  | cons z zs ih =>
    rw [joinDec_cons h, List.length_cons, Nat.pow_succ]
    have h1 := ih fun y hy => h y (by simp [hy])
    have h2 := h z (by simp)
    nlinarith

theorem joinDec_le_of_binary {zs : List ℕ} (h : ∀ z ∈ zs, z ≤ 1) : 9 * joinDec zs + 1 ≤ 10 ^ zs.length := by
  induction zs with
  | nil => simp [joinDec_nil]
  | cons z zs ih =>
    rw [joinDec_cons fun y hy => by have := h y hy; omega, List.length_cons, Nat.pow_succ]
    have h1 := ih fun y hy => h y (by simp [hy])
    have h2 := h z (by simp)
    nlinarith [Nat.mul_le_mul_right (10 ^ zs.length) h2]

theorem joinDec_inj {zs ws : List ℕ} (hl : zs.length = ws.length) (hz : ∀ z ∈ zs, z < 10) (hw : ∀ z ∈ ws, z < 10) (h : joinDec zs = joinDec ws) :
    zs = ws := by
  induction zs generalizing ws with
  | nil => cases ws with
    | nil => rfl
    | cons => simp at hl
  | cons z zs ih =>
    cases ws with
    | nil => simp at hl
    | cons w ws =>
      simp only [List.length_cons, Nat.add_right_cancel_iff] at hl
      rw [joinDec_cons hz, joinDec_cons hw, hl] at h
      have h1 := joinDec_lt fun y hy => hz y (List.mem_cons_of_mem z hy)
      have h2 := joinDec_lt fun y hy => hw y (List.mem_cons_of_mem w hy)
      rw [hl] at h1
      have hzw : z = w := by
        by_contra hne
        rcases Nat.lt_or_gt_of_ne hne with hlt | hlt
        · have : (z + 1) * 10 ^ ws.length ≤ w * 10 ^ ws.length := Nat.mul_le_mul_right _ hlt
          nlinarith
        · have : (w + 1) * 10 ^ ws.length ≤ z * 10 ^ ws.length := Nat.mul_le_mul_right _ hlt
          nlinarith
      subst hzw
      rw [ih hl (fun y hy => hz y (List.mem_cons_of_mem _ hy)) (fun y hy => hw y (List.mem_cons_of_mem _ hy)) (by omega)]

end Indep
end PyBN
