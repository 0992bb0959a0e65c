import Verif.Spec.Codes
import Verif.Model.Entropy
import Verif.Proofs.Indep5
import Verif.Proofs.Indep6

/-!
# C261, C262: the independence tests and the codes of the values
-/

set_option linter.unusedSectionVars false

namespace PyBN
namespace Indep
open Finset

section
variable {rows rows' : List (List ℕ)}

theorem countP_forall₂ {α β : Type _} {R : α → β → Prop} {p : α → Bool} {q : β → Bool} (h : ∀ a b, R a b → p a = q b) {l : List α} {m : List β}
    (hl : List.Forall₂ R l m) : l.countP p = m.countP q := by
  induction hl with
  | nil => rfl
  | cons hab _ ih => rw [List.countP_cons, List.countP_cons, ih, h _ _ hab]

theorem SameBins.miStat2 (h : SameBins 2 rows rows') : miStat 2 rows = miStat 2 rows' ∧ ddof 2 rows = ddof 2 rows' := by
  have e : hist2 rows = hist2 rows' := by
    funext k0 k1 i j
    unfold hist2
    refine countP_forall₂ (fun r r' hr => ?_) h.bins
    rw [hr 0 (by norm_num), hr 1 (by norm_num)]
  unfold miStat ddof
  rw [if_pos rfl, if_pos rfl, if_pos rfl, if_pos rfl, h.nb 0 (by norm_num), h.nb 1 (by norm_num), e, h.bins.length_eq]
  exact ⟨rfl, rfl⟩

theorem SameBins.miStat3 (h : SameBins 3 rows rows') : miStat 3 rows = miStat 3 rows' ∧ ddof 3 rows = ddof 3 rows' := by
  have e : hist3 rows = hist3 rows' := by
    funext k0 k1 k2 i j k
    unfold hist3
    refine countP_forall₂ (fun r r' hr => ?_) h.bins
    rw [hr 0 (by norm_num), hr 1 (by norm_num), hr 2 (by norm_num)]
  unfold miStat ddof
  have h3 : ¬ (3 : ℕ) < 3 := lt_irrefl _
  have h2 : ¬ (3 : ℕ) = 2 := by norm_num
  simp only [if_neg h2, if_neg h3]
  rw [h.nb 0 (by norm_num), h.nb 1 (by norm_num), h.nb 2 (by norm_num), e, h.bins.length_eq]
  exact ⟨rfl, rfl⟩

theorem SameBins.nil_iff {n : ℕ} (h : SameBins n rows rows') : rows = [] ↔ rows' = [] := by
  rw [← List.length_eq_zero_iff, ← List.length_eq_zero_iff, h.bins.length_eq]

theorem SameBins.mono {n m : ℕ} (h : SameBins n rows rows') (hm : m ≤ n) : SameBins m rows rows' :=
  ⟨fun j hj => h.nb j (hj.trans_le hm), h.bins.imp fun _ _ hr j hj => hr j (hj.trans_le hm)⟩

end

/-! ## Affine codes -/

theorem column_recode {n : ℕ} {rows : List (List ℕ)} (hr : Rect n rows) (g : ℕ → ℕ → ℕ) {j : ℕ} (hj : j < n) :
    column (recode g rows) j = (column rows j).map (g j) := by
  unfold column recode
  rw [List.map_map, List.map_map]
  refine List.map_congr_left fun r hrm => ?_
  have hl : j < r.length := by rw [hr r hrm]; exact hj
  show (r.mapIdx g).getD j 0 = g j (r.getD j 0)
  rw [List.getD_eq_getElem?_getD, List.getD_eq_getElem?_getD, List.getElem?_mapIdx, List.getElem?_eq_getElem hl]
  rfl

theorem nbins_recode {n : ℕ} {rows : List (List ℕ)} (hr : Rect n rows) (g : ℕ → ℕ → ℕ) {j : ℕ} (hj : j < n) (hg : Function.Injective (g j)) :
    nbins (recode g rows) j = nbins rows j := by
  unfold nbins
  rw [column_recode hr g hj, uniqueVals_card, uniqueVals_card]
  rw [show ((column rows j).map (g j)).toFinset = (column rows j).toFinset.image (g j) by ext x; simp]
  exact Finset.card_image_of_injective _ hg

theorem binOf_affine (s t : ℕ) (hs : 0 < s) (lo hi k x : ℕ) :
    binOf (s * lo + t) (s * hi + t) k (s * x + t) = binOf lo hi k x := by
  unfold binOf
  have e1 : s * lo + t = s * hi + t ↔ lo = hi := by
    rw [Nat.add_right_cancel_iff]; exact Nat.mul_right_inj hs.ne'
  have e2 : s * x + t = s * hi + t ↔ x = hi := by
    rw [Nat.add_right_cancel_iff]; exact Nat.mul_right_inj hs.ne'
  simp only [e1, e2]
  split_ifs
  · rfl
  · rfl
  · rw [Nat.add_sub_add_right, Nat.add_sub_add_right, ← Nat.mul_sub, ← Nat.mul_sub, Nat.mul_assoc, Nat.mul_div_mul_left _ _ hs]

theorem sameBins_affine {n : ℕ} {rows : List (List ℕ)} (hr : Rect n rows) (s t : ℕ → ℕ) (hs : ∀ j, 0 < s j) :
    SameBins n rows (recode (fun j x => s j * x + t j) rows) := by
  have hinj : ∀ j, Function.Injective (fun x => s j * x + t j) := fun j x y h => by
    have := Nat.add_right_cancel h
    exact Nat.eq_of_mul_eq_mul_left (hs j) this
  refine ⟨fun j hj => (nbins_recode hr _ hj (hinj j)).symm, ?_⟩
  have hcol : ∀ j < n, rows ≠ [] → colLo (column (recode (fun j x => s j * x + t j) rows) j) = s j * colLo (column rows j) + t j ∧
      colHi (column (recode (fun j x => s j * x + t j) rows) j) = s j * colHi (column rows j) + t j := by
    intro j hj hne
    rw [column_recode hr _ hj]
    have hc : column rows j ≠ [] := by unfold column; simpa using hne
    constructor
    · refine colLo_eq (List.mem_map.2 ⟨_, colLo_mem hc, rfl⟩) fun x hx => ?_
      obtain ⟨y, hy, rfl⟩ := List.mem_map.1 hx
      exact Nat.add_le_add_right (Nat.mul_le_mul_left _ (colLo_le hy)) _
    · refine colHi_eq (List.mem_map.2 ⟨_, colHi_mem hc, rfl⟩) fun x hx => ?_
      obtain ⟨y, hy, rfl⟩ := List.mem_map.1 hx
      exact Nat.add_le_add_right (Nat.mul_le_mul_left _ (le_colHi hy)) _
  rw [show recode (fun j x => s j * x + t j) rows = rows.map fun r => r.mapIdx (fun j x => s j * x + t j) from rfl] at hcol ⊢
  rw [List.forall₂_map_right_iff, List.forall₂_same]
  intro r hrm j hj k
  have hne : rows ≠ [] := by rintro rfl; cases hrm
  have hl : j < r.length := by rw [hr r hrm]; exact hj
  have hx : (r.mapIdx (fun j x => s j * x + t j)).getD j 0 = s j * r.getD j 0 + t j := by
    rw [List.getD_eq_getElem?_getD, List.getD_eq_getElem?_getD, List.getElem?_mapIdx, List.getElem?_eq_getElem hl]
    rfl
  unfold histBin
  rw [(hcol j hj hne).1, (hcol j hj hne).2, hx, binOf_affine _ _ (hs j)]

/-- **C262** (1): the tests see nothing but bins: two data sets with, column by column, as many distinct values and, row by row, the same
bins of `np.histogramdd` get the same results from `mi_test` and `are_independent` with at most one conditioning column, and from
`entropy` and `mutual_information` of one or two columns. -/
theorem C262_bins {n : ℕ} {rows rows' : List (List ℕ)} (h : SameBins n rows rows') :
    (n ≤ 3 → miTest n rows' = miTest n rows ∧ miTestMI n rows' = miTestMI n rows ∧
      ∀ alpha, areIndependent n rows' alpha = areIndependent n rows alpha) ∧
    (n ≤ 2 → entropy n rows' = entropy n rows ∧ ∀ c, mutualInformation n rows' c = mutualInformation n rows c) := by
  have hnil := h.nil_iff
  have hlen := h.bins.length_eq
  constructor
  · intro hn
    have key : 2 ≤ n → miStat n rows' = miStat n rows ∧ ddof n rows' = ddof n rows := by
      intro h2
      rcases (show n = 2 ∨ n = 3 by omega) with rfl | rfl
      · exact ⟨h.miStat2.1.symm, h.miStat2.2.symm⟩
      · exact ⟨h.miStat3.1.symm, h.miStat3.2.symm⟩
    have e1 : miTest n rows' = miTest n rows := by
      unfold miTest
      simp only [← hnil]
      split_ifs with hc
      · rfl
      · obtain ⟨k1, k2⟩ := key (by omega)
        rw [k1, k2, hlen]
    refine ⟨e1, ?_, fun alpha => by unfold areIndependent; rw [e1]⟩
    unfold miTestMI
    simp only [← hnil]
    split_ifs with hc
    · rfl
    · rw [(key (by omega)).1]
  · intro hn
    unfold entropy mutualInformation
    simp only [← hnil]
    rcases (show n = 0 ∨ n = 1 ∨ n = 2 by omega) with rfl | rfl | rfl
    · simp
    · have e : hist1 rows = hist1 rows' := by
        funext k i
        unfold hist1
        refine countP_forall₂ (fun r r' hr => ?_) h.bins
        rw [hr 0 (by norm_num)]
      have h10 : ¬ (1 : ℕ) = 0 := by norm_num
      simp only [h10, or_false, if_true]
      rw [h.nb 0 (by norm_num), e, hlen]
      exact ⟨rfl, fun _ => rfl⟩
    · have e : hist2 rows = hist2 rows' := by
        funext k0 k1 i j
        unfold hist2
        refine countP_forall₂ (fun r r' hr => ?_) h.bins
        rw [hr 0 (by norm_num), hr 1 (by norm_num)]
      have h20 : ¬ (2 : ℕ) = 0 := by norm_num
      have h21 : ¬ (2 : ℕ) = 1 := by norm_num
      simp only [h20, h21, or_false, if_true, if_false]
      rw [h.nb 0 (by norm_num), h.nb 1 (by norm_num), e, hlen]
      exact ⟨rfl, fun _ => rfl⟩

/-- **C262** (2): stretching the codes of a column and shifting them changes nothing. -/
theorem C262_affine {n : ℕ} {rows : List (List ℕ)} (hr : Rect n rows) (s t : ℕ → ℕ) (hs : ∀ j, 0 < s j) :
    (n ≤ 3 → miTest n (recode (fun j x => s j * x + t j) rows) = miTest n rows ∧
      miTestMI n (recode (fun j x => s j * x + t j) rows) = miTestMI n rows ∧
      ∀ alpha, areIndependent n (recode (fun j x => s j * x + t j) rows) alpha = areIndependent n rows alpha) ∧
    (n ≤ 2 → entropy n (recode (fun j x => s j * x + t j) rows) = entropy n rows ∧
      ∀ c, mutualInformation n (recode (fun j x => s j * x + t j) rows) c = mutualInformation n rows c) :=
  C262_bins (sameBins_affine hr s t hs)

/-! ## Codes without gaps -/

theorem entry_recode {n : ℕ} {rows : List (List ℕ)} (hr : Rect n rows) (g : ℕ → ℕ → ℕ) {j : ℕ} (hj : j < n) {r : List ℕ} (hrm : r ∈ rows) :
    entry j (r.mapIdx g) = g j (entry j r) := by
  have hl : j < r.length := by rw [hr r hrm]; exact hj
  unfold entry
  rw [List.getD_eq_getElem?_getD, List.getD_eq_getElem?_getD, List.getElem?_mapIdx, List.getElem?_eq_getElem hl]
  rfl

theorem valuesOf_recode {n : ℕ} {rows : List (List ℕ)} (hr : Rect n rows) (g : ℕ → ℕ → ℕ) {j : ℕ} (hj : j < n) :
    valuesOf (recode g rows) j = (valuesOf rows j).image (g j) := by
  ext x
  unfold valuesOf recode
  rw [List.mem_toFinset, List.map_map, Finset.mem_image]
  constructor
  · intro h
    obtain ⟨r, hrm, rfl⟩ := List.mem_map.1 h
    exact ⟨entry j r, List.mem_toFinset.2 (List.mem_map.2 ⟨r, hrm, rfl⟩), (entry_recode hr g hj hrm).symm⟩
  · rintro ⟨y, hy, rfl⟩
    obtain ⟨r, hrm, rfl⟩ := List.mem_map.1 (List.mem_toFinset.1 hy)
    exact List.mem_map.2 ⟨r, hrm, entry_recode hr g hj hrm⟩

theorem freq_recode {rows : List (List ℕ)} (g : ℕ → ℕ → ℕ) (p q : List ℕ → Prop) [DecidablePred p] [DecidablePred q]
    (h : ∀ r ∈ rows, p (r.mapIdx g) ↔ q r) : freq (recode g rows) p = freq rows q := by
  unfold freq recode
  rw [List.length_map, List.filter_map, List.length_map]
  congr 3
  refine List.filter_congr fun r hr => ?_
  rw [Function.comp_apply, decide_eq_decide]
  exact h r hr

theorem empMI_recode {rows : List (List ℕ)} (hr : Rect 2 rows) (g : ℕ → ℕ → ℕ) (hg : ∀ j, Function.Injective (g j)) (e : ℝ) :
    empMI e (recode g rows) = empMI e rows := by
  unfold empMI
  rw [valuesOf_recode hr g (by norm_num : 0 < 2), valuesOf_recode hr g (by norm_num : 1 < 2),
    Finset.sum_image fun x _ y _ h => hg 0 h]
  refine Finset.sum_congr rfl fun x _ => ?_
  rw [Finset.sum_image fun x _ y _ h => hg 1 h]
  refine Finset.sum_congr rfl fun y _ => ?_
  have e0 : ∀ r ∈ rows, entry 0 (r.mapIdx g) = g 0 x ↔ entry 0 r = x := fun r hrm => by
    rw [entry_recode hr g (by norm_num) hrm]; exact (hg 0).eq_iff
  have e1 : ∀ r ∈ rows, entry 1 (r.mapIdx g) = g 1 y ↔ entry 1 r = y := fun r hrm => by
    rw [entry_recode hr g (by norm_num) hrm]; exact (hg 1).eq_iff
  rw [freq_recode g _ (fun r => entry 0 r = x ∧ entry 1 r = y) fun r hrm => and_congr (e0 r hrm) (e1 r hrm),
    freq_recode g _ (fun r => entry 0 r = x) e0, freq_recode g _ (fun r => entry 1 r = y) e1]

theorem empCMIs_recode {rows : List (List ℕ)} (hr : Rect 3 rows) (g : ℕ → ℕ → ℕ) (hg : ∀ j, Function.Injective (g j)) (e : ℝ) :
    empCMIs e (recode g rows) = empCMIs e rows := by
  unfold empCMIs
  rw [valuesOf_recode hr g (by norm_num : 0 < 3), valuesOf_recode hr g (by norm_num : 1 < 3), valuesOf_recode hr g (by norm_num : 2 < 3),
    Finset.sum_image fun x _ y _ h => hg 0 h]
  refine Finset.sum_congr rfl fun x _ => ?_
  rw [Finset.sum_image fun x _ y _ h => hg 1 h]
  refine Finset.sum_congr rfl fun y _ => ?_
  rw [Finset.sum_image fun x _ y _ h => hg 2 h]
  refine Finset.sum_congr rfl fun z _ => ?_
  have e0 : ∀ r ∈ rows, entry 0 (r.mapIdx g) = g 0 x ↔ entry 0 r = x := fun r hrm => by
    rw [entry_recode hr g (by norm_num) hrm]; exact (hg 0).eq_iff
  have e1 : ∀ r ∈ rows, entry 1 (r.mapIdx g) = g 1 y ↔ entry 1 r = y := fun r hrm => by
    rw [entry_recode hr g (by norm_num) hrm]; exact (hg 1).eq_iff
  have e2 : ∀ r ∈ rows, entry 2 (r.mapIdx g) = g 2 z ↔ entry 2 r = z := fun r hrm => by
    rw [entry_recode hr g (by norm_num) hrm]; exact (hg 2).eq_iff
  rw [freq_recode g _ (fun r => entry 0 r = x ∧ entry 1 r = y ∧ entry 2 r = z) fun r hrm => and_congr (e0 r hrm) (and_congr (e1 r hrm) (e2 r hrm)),
    freq_recode g _ (fun r => entry 2 r = z) e2,
    freq_recode g _ (fun r => entry 0 r = x ∧ entry 2 r = z) fun r hrm => and_congr (e0 r hrm) (e2 r hrm),
    freq_recode g _ (fun r => entry 1 r = y ∧ entry 2 r = z) fun r hrm => and_congr (e1 r hrm) (e2 r hrm)]

theorem mutualInformation_two (rows : List (List ℕ)) (c : Bool) :
    mutualInformation 2 rows c = (miTestMI 2 rows).map some := by
  unfold mutualInformation miTestMI
  have h20 : ¬ (2 : ℕ) = 0 := by norm_num
  have h21 : ¬ (2 : ℕ) = 1 := by norm_num
  have h22 : ¬ (2 : ℕ) < 2 := by norm_num
  simp only [h20, h21, h22, or_false, if_true, if_false]
  split_ifs
  · rfl
  · unfold miStat; rw [if_pos rfl]; rfl

/-- **C261**, the part that holds: between codings without gaps (0, 1, ..., as `replace_strings` makes them; C262 adds shifts and
stretchings) the codes do not matter, in whatever order they are handed out: `mi_test` and `are_independent` with at most one conditioning
column, and `mutual_information` of two columns, give the same.  Missing: codes with gaps (false, `C261_false`). -/
theorem C261_coded_partial {n : ℕ} (hn : n = 2 ∨ n = 3) {rows : List (List ℕ)} (hr : Rect n rows) (g : ℕ → ℕ → ℕ) (hg : ∀ j, Function.Injective (g j))
    (hc : ∀ j < n, Coded rows j) (hc' : ∀ j < n, Coded (recode g rows) j) :
    miTest n (recode g rows) = miTest n rows ∧ miTestMI n (recode g rows) = miTestMI n rows ∧
      (∀ alpha, areIndependent n (recode g rows) alpha = areIndependent n rows alpha) ∧
      (n = 2 → ∀ c, mutualInformation n (recode g rows) c = mutualInformation n rows c) := by
  by_cases hne : rows = []
  · subst hne; exact ⟨rfl, rfl, fun _ => rfl, fun _ _ => rfl⟩
  have hne' : recode g rows ≠ [] := by unfold recode; simpa using hne
  have hlen : (recode g rows).length = rows.length := List.length_map ..
  have hb : ∀ j < n, nbins (recode g rows) j = nbins rows j := fun j hj => nbins_recode hr g hj (hg j)
  have key : miStat n (recode g rows) = miStat n rows ∧ ddof n (recode g rows) = ddof n rows := by
    rcases hn with rfl | rfl
    · refine ⟨?_, ?_⟩
      · rw [miStat_two_coded hne (hc 0 (by norm_num)) (hc 1 (by norm_num)), miStat_two_coded hne' (hc' 0 (by norm_num)) (hc' 1 (by norm_num)),
          empMI_recode hr g hg]
      · unfold ddof
        rw [if_pos rfl, if_pos rfl, hb 0 (by norm_num), hb 1 (by norm_num)]
    · refine ⟨?_, ?_⟩
      · rw [miStat_three_coded hne (hc 0 (by norm_num)) (hc 1 (by norm_num)) (hc 2 (by norm_num)),
          miStat_three_coded hne' (hc' 0 (by norm_num)) (hc' 1 (by norm_num)) (hc' 2 (by norm_num)), empCMIs_recode hr g hg]
      · unfold ddof
        have h3 : ¬ (3 : ℕ) < 3 := lt_irrefl _
        have h2 : ¬ (3 : ℕ) = 2 := by norm_num
        simp only [if_neg h2, if_neg h3]
        rw [hb 0 (by norm_num), hb 1 (by norm_num), hb 2 (by norm_num)]
  have e1 : miTest n (recode g rows) = miTest n rows := by
    unfold miTest
    simp only [hne, hne', false_or]
    rw [key.1, key.2, hlen]
  have e2 : miTestMI n (recode g rows) = miTestMI n rows := by
    unfold miTestMI
    simp only [hne, hne', false_or]
    rw [key.1]
  refine ⟨e1, e2, fun alpha => by unfold areIndependent; rw [e1], ?_⟩
  rintro rfl c
  rw [mutualInformation_two, mutualInformation_two, e2]

/-! ## Codes with gaps -/

/-- Column 1 is a function of column 0 in half of the rows.  Codes 0, 1, 2. -/
def exNoGap : List (List ℕ) := [[0, 0], [1, 1], [2, 0], [2, 1]]
/-- The same with 10 for 2. -/
def exGap : List (List ℕ) := [[0, 0], [1, 1], [10, 0], [10, 1]]

theorem miStat_exGap : miStat 2 exGap = 0 := by
  have hb0 : nbins exGap 0 = 3 := by decide +kernel
  have hb1 : nbins exGap 1 = 2 := by decide +kernel
  unfold miStat
  rw [if_pos rfl, hb0, hb1]
  have h00 : hist2 exGap 3 2 0 0 = 1 := by decide +kernel
  have h01 : hist2 exGap 3 2 0 1 = 1 := by decide +kernel
  have h10 : hist2 exGap 3 2 1 0 = 0 := by decide +kernel
  have h11 : hist2 exGap 3 2 1 1 = 0 := by decide +kernel
  have h20 : hist2 exGap 3 2 2 0 = 1 := by decide +kernel
  have h21 : hist2 exGap 3 2 2 1 = 1 := by decide +kernel
  have hl : exGap.length = 4 := rfl
  have he : (0 : ℝ) < eps := by unfold eps; norm_num
  unfold mi2
  simp only [Finset.sum_range_succ, Finset.sum_range_zero, h00, h01, h10, h11, h20, h21, hl]
  norm_num

theorem log_eps_ge : -63 ≤ Real.log eps := by
  have h1 : Real.log eps = -(7 * Real.log 10) := by
    unfold eps
    rw [one_div, Real.log_inv, Real.log_pow]; norm_num
  have h2 := Real.log_le_sub_one_of_pos (show (0 : ℝ) < 10 by norm_num)
  rw [h1]; linarith only [h2]

theorem miStat_exNoGap : (1 / 5 : ℝ) ≤ miStat 2 exNoGap := by
  have hb0 : nbins exNoGap 0 = 3 := by decide +kernel
  have hb1 : nbins exNoGap 1 = 2 := by decide +kernel
  unfold miStat
  rw [if_pos rfl, hb0, hb1]
  have h00 : hist2 exNoGap 3 2 0 0 = 1 := by decide +kernel
  have h01 : hist2 exNoGap 3 2 0 1 = 0 := by decide +kernel
  have h10 : hist2 exNoGap 3 2 1 0 = 0 := by decide +kernel
  have h11 : hist2 exNoGap 3 2 1 1 = 1 := by decide +kernel
  have h20 : hist2 exNoGap 3 2 2 0 = 1 := by decide +kernel
  have h21 : hist2 exNoGap 3 2 2 1 = 1 := by decide +kernel
  have hl : exNoGap.length = 4 := rfl
  unfold mi2
  simp only [Finset.sum_range_succ, Finset.sum_range_zero, h00, h01, h10, h11, h20, h21, hl]
  have he : (0 : ℝ) < eps := by unfold eps; norm_num
  have he' : eps ≤ 1 / 10 ^ 7 := le_refl _
  have hle := log_eps_ge
  generalize eps = e at *
  have hA : 1 / 8 ≤ (1 / 4 + e) * Real.log ((1 / 4 + e) / (1 / 8 + e)) := by
    have h := Real.one_sub_inv_le_log_of_pos (show 0 < (1 / 4 + e) / (1 / 8 + e) by positivity)
    have h4 : (0 : ℝ) < 1 / 4 + e := by positivity
    have := mul_le_mul_of_nonneg_left h h4.le
    rw [inv_div, mul_sub, mul_one, mul_div_cancel₀ _ h4.ne'] at this
    linarith only [this]
  have hB : -(1 / 80) ≤ e * Real.log (e / (1 / 8 + e)) := by
    have h8 : Real.log (1 / 8 + e) ≤ 0 := Real.log_nonpos (by positivity) (by norm_num at he'; linarith only [he'])
    rw [Real.log_div he.ne' (by positivity)]
    have h63 : -63 ≤ Real.log e - Real.log (1 / 8 + e) := by linarith only [hle, h8]
    have := mul_le_mul_of_nonneg_left h63 he.le
    norm_num at he'
    linarith only [this, he']
  norm_num
  linarith only [hA, hB]

/-- **C261** is false: the two data sets differ in the code of one value only (10 for 2), an injective recoding, and the mutual information
reported for them is 0 and at least 0.19: with the gap, `np.histogramdd` puts the values 0 and 1 in one bin and leaves another bin empty. -/
theorem C261_false : ∃ (rows : List (List ℕ)) (g : ℕ → ℕ → ℕ), Rect 2 rows ∧ (∀ j, Function.Injective (g j)) ∧
    (∃ q, miTestMI 2 rows = .ok q ∧ mutualInformation 2 rows false = .ok (some q) ∧ 19 / 100 ≤ q) ∧
    miTestMI 2 (recode g rows) = .ok 0 ∧ mutualInformation 2 (recode g rows) false = .ok (some 0) := by
  simp only [mutualInformation_two]
  refine ⟨exNoGap, fun j x => if j = 0 then (if x = 2 then 10 else if x = 10 then 2 else x) else x, by unfold Rect; decide, ?_, ?_, ?_⟩
  · intro j x y h
    dsimp only at h
    split_ifs at h <;> omega
  · have e : miTestMI 2 exNoGap = .ok (round4 (miStat 2 exNoGap)) := by
      unfold miTestMI
      rw [if_neg (by decide)]
    refine ⟨round4 (miStat 2 exNoGap), e, by rw [e]; rfl, ?_⟩
    · have h1 := miStat_exNoGap
      have h2 := abs_le.1 (round4_near (miStat 2 exNoGap))
      have : ((19 / 100 : ℚ) : ℝ) ≤ (round4 (miStat 2 exNoGap) : ℝ) := by
        push_cast
        linarith only [h1, h2.1]
      exact_mod_cast this
  · have e : recode (fun j x => if j = 0 then (if x = 2 then 10 else if x = 10 then 2 else x) else x) exNoGap = exGap := by decide
    have e0 : miTestMI 2 exGap = .ok 0 := by
      unfold miTestMI
      rw [if_neg (by decide), miStat_exGap, round4_zero]
    rw [e, e0]
    exact ⟨rfl, rfl⟩

/-- The entropy of a column of three different values coded 0, 1, 10 is `nan`: a bin is empty. -/
theorem C261_entropy_false : entropy 1 [[0], [1], [10]] = .ok none ∧ ∃ q, entropy 1 [[0], [1], [2]] = .ok (some q) := by
  constructor
  · unfold entropy
    rw [if_neg (by decide), if_pos rfl, if_pos (by decide +kernel)]
  · unfold entropy
    rw [if_neg (by decide), if_pos rfl, if_neg (by decide +kernel)]
    exact ⟨_, rfl⟩

/-- C261, C262 are not empty: a swap of the codes 0 and 1 of column 0 leaves `exNoGap` coded, and stretching gives new data. -/
example : (∀ j < 2, Coded exNoGap j) ∧ (∀ j < 2, Coded (recode (fun _ x => if x = 0 then 1 else if x = 1 then 0 else x) exNoGap) j) ∧
    recode (fun _ x => if x = 0 then 1 else if x = 1 then 0 else x) exNoGap = [[1, 1], [0, 0], [2, 1], [2, 0]] ∧ Rect 2 exNoGap ∧
    recode (fun j x => (j + 2) * x + j) exNoGap = [[0, 1], [2, 4], [4, 1], [4, 4]] := by
  refine ⟨?_, ?_, by decide, by unfold Rect; decide, by decide⟩ <;>
  · unfold Coded entry; decide

end Indep
end PyBN
