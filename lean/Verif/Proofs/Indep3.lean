import Verif.Proofs.Indep2
import Mathlib.Data.List.GetD

set_option linter.unusedSectionVars false

namespace PyBN
namespace Indep
open Finset

/-- Equal-width binning of `p * B + r` into `k` bins recovers `p`. -/
theorem binOf_join {B k p r rlo rhi : ℕ} (hk : 2 ≤ k) (hp : p < k) (hr : r < B) (hrhi : rhi < B)
    (h0 : p = 0 → rlo ≤ r) (h1 : p + 1 = k → r ≤ rhi)
    (hC : (rlo = 0 ∧ r ≤ rhi) ∨ (k = 2 ∧ 9 * r + 1 ≤ B ∧ 9 * rlo + 1 ≤ B ∧ 9 * rhi + 1 ≤ B)) :
    binOf rlo ((k - 1) * B + rhi) k (p * B + r) = p := by
  obtain ⟨m, rfl⟩ : ∃ m, k = m + 2 := ⟨k - 2, by omega⟩
  have hBpos : 0 < B := by omega
  have e : (m + 2 - 1) * B = (m + 1) * B := by congr 1
  rw [e]
  have hlohi : rlo < (m + 1) * B + rhi := by
    rcases hC with ⟨h, _⟩ | ⟨_, _, h, _⟩
    · subst h; nlinarith
    · nlinarith
  unfold binOf
  rw [if_neg (by omega)]
  split
  · rename_i hx
    by_contra hne
    have hlt : p + 1 ≤ m + 1 := by omega
    have : (p + 1) * B ≤ (m + 1) * B := Nat.mul_le_mul_right _ hlt
    nlinarith
  · rename_i hx
    rw [Nat.div_eq_iff (by omega)]
    rcases hC with ⟨rfl, hrr⟩ | ⟨hk2, hr9, hlo9, hhi9⟩
    · simp only [Nat.sub_zero]
      have hp' : p ≤ m + 1 := by omega
      constructor
      · have : p * rhi ≤ p * B := Nat.mul_le_mul_left _ hrhi.le
        nlinarith
      · apply Nat.le_sub_of_add_le
        rcases Nat.lt_or_ge p (m + 1) with hlt | hge
        · obtain ⟨d, rfl⟩ : ∃ d, m = p + d := ⟨m - p, by omega⟩
          have h3 : (d + 1) * (rhi + 1) ≤ (d + 1) * B := Nat.mul_le_mul_left _ hrhi
          have h4 : (p + d + 2) * r ≤ (p + d + 2) * rhi := Nat.mul_le_mul_left _ hrr
          nlinarith
        · have hpe : p = m + 1 := by omega
          subst hpe
          have hrlt : r + 1 ≤ rhi := by
            have : r ≠ rhi := fun h => hx (by rw [h])
            omega
          have := Nat.mul_le_mul_left (m + 2) hrlt
          nlinarith
    · have hm : m = 0 := by omega
      subst hm
      simp only [Nat.zero_add, Nat.one_mul]
      have hp2 : p = 0 ∨ p = 1 := by omega
      rcases hp2 with rfl | rfl
      · have := h0 rfl
        simp only [Nat.zero_mul, Nat.zero_add]
        omega
      · simp only [Nat.one_mul]
        have hle := h1 rfl
        have hrlt : r ≠ rhi := fun h => hx (by rw [h])
        omega

theorem joinFrom_column0 {rows : List (List ℕ)} (h : ∀ r ∈ rows, 1 ≤ r.length) : column (joinFrom 1 rows) 0 = column rows 0 := by
  unfold column joinFrom
  rw [List.map_map]
  refine List.map_congr_left fun r hr => ?_
  match r, h r hr with
  | a :: r, _ => rfl

theorem joinFrom_getD1 {r : List ℕ} (h : 1 ≤ r.length) : (r.take 1 ++ [joinDec (r.drop 1)]).getD 0 0 = r.getD 0 0 ∧
    (r.take 1 ++ [joinDec (r.drop 1)]).getD 1 0 = joinDec (r.drop 1) := by
  match r, h with
  | a :: r, _ => exact ⟨rfl, rfl⟩

theorem joinFrom_column1 {rows : List (List ℕ)} (h : ∀ r ∈ rows, 1 ≤ r.length) :
    column (joinFrom 1 rows) 1 = rows.map fun r => joinDec (r.drop 1) := by
  unfold column joinFrom
  rw [List.map_map]
  exact List.map_congr_left fun r hr => (joinFrom_getD1 (h r hr)).2

theorem select_column {rows : List (List ℕ)} : column (select [0, 1] rows) 0 = column rows 0 ∧ column (select [0, 1] rows) 1 = column rows 1 := by
  unfold column select
  rw [List.map_map, List.map_map]
  exact ⟨rfl, rfl⟩

theorem select_nbins {rows : List (List ℕ)} : nbins (select [0, 1] rows) 0 = nbins rows 0 ∧ nbins (select [0, 1] rows) 1 = nbins rows 1 := by
  unfold nbins; rw [select_column.1, select_column.2]; exact ⟨rfl, rfl⟩

theorem select_hist2 {rows : List (List ℕ)} (k0 k1 i j : ℕ) : hist2 (select [0, 1] rows) k0 k1 i j = hist2 rows k0 k1 i j := by
  unfold hist2
  rw [select_column.1, select_column.2]
  unfold select
  exact countP_map_congr fun r _ => Iff.rfl

/-- If the bins of the joined column are those of its first component, the other components do not matter. -/
theorem mutualInformation_first {n : ℕ} {rows : List (List ℕ)} (hn : 3 ≤ n) (hl : ∀ r ∈ rows, 1 ≤ r.length)
    (hb : ∀ r ∈ rows, histBin (rows.map fun r => joinDec (r.drop 1)) (nbins rows 1) (joinDec (r.drop 1)) = histBin (column rows 1) (nbins rows 1) (r.getD 1 0)) :
    mutualInformation n rows false = mutualInformation 2 (select [0, 1] rows) false := by
  have hh : ∀ i j, hist2 (joinFrom 1 rows) (nbins rows 0) (nbins rows 1) i j = hist2 (select [0, 1] rows) (nbins rows 0) (nbins rows 1) i j := by
    intro i j
    rw [select_hist2]
    unfold hist2
    rw [joinFrom_column0 hl, joinFrom_column1 hl]
    unfold joinFrom
    refine countP_map_congr fun r hr => ?_
    rw [(joinFrom_getD1 (hl r hr)).1, (joinFrom_getD1 (hl r hr)).2, hb r hr]
  unfold mutualInformation
  by_cases hne : rows = []
  · subst hne; simp [select]
  · have hs : select [0, 1] rows ≠ [] := by simpa [select] using hne
    rw [if_neg (by simp [hne]; omega), if_neg (by omega), if_neg (by omega), if_neg (by simp), if_neg (by simp [hs]), if_neg (by omega), if_pos rfl]
    simp only [select_nbins.1, select_nbins.2, hh]
    simp [select]

theorem nbins_one {rows : List (List ℕ)} {j x y : ℕ} (h : nbins rows j = 1) (hx : x ∈ column rows j) (hy : y ∈ column rows j) : x = y := by
  unfold nbins at h
  obtain ⟨a, ha⟩ := List.length_eq_one_iff.1 h
  have h1 := mem_uniqueVals.2 hx
  have h2 := mem_uniqueVals.2 hy
  rw [ha] at h1 h2
  simp at h1 h2
  omega

/-- The bins of the joined column, for a coded first component. -/
theorem histBin_join {m : ℕ} {rows : List (List ℕ)} (hne : rows ≠ []) (hlen : ∀ r ∈ rows, r.length = m + 2) (hten : ∀ r ∈ rows, ∀ x ∈ r, x < 10)
    (hk : nbins rows 1 ≠ 1 → Coded rows 1)
    (hC : ((∃ r ∈ rows, joinDec (r.drop 1) = 0) ∧ ∃ q ∈ rows, ∀ r ∈ rows, r.getD 1 0 ≤ q.getD 1 0 ∧ joinDec (r.drop 2) ≤ joinDec (q.drop 2)) ∨
      ∀ r ∈ rows, ∀ x ∈ r, x ≤ 1) :
    ∀ r ∈ rows, histBin (rows.map fun r => joinDec (r.drop 1)) (nbins rows 1) (joinDec (r.drop 1)) = histBin (column rows 1) (nbins rows 1) (r.getD 1 0) := by
  intro r hr
  have hpos := nbins_pos hne 1
  set J := rows.map fun r => joinDec (r.drop 1) with hJ
  have hJm : ∀ r ∈ rows, joinDec (r.drop 1) ∈ J := fun r hr => List.mem_map.2 ⟨r, hr, rfl⟩
  by_cases hk1 : nbins rows 1 = 1
  · have h1 := histBin_lt (k := nbins rows 1) hpos (hJm r hr)
    have h2 := histBin_lt (k := nbins rows 1) hpos (mem_column hr 1)
    omega
  · have hcod := hk hk1
    obtain ⟨hmem, hlo0, hhi1, hid⟩ := coded_spec hne hcod
    rw [hid _ (mem_column hr 1)]
    -- every joined value
    have hval : ∀ r ∈ rows, joinDec (r.drop 1) = r.getD 1 0 * 10 ^ m + joinDec (r.drop 2) ∧ joinDec (r.drop 2) < 10 ^ m ∧ r.getD 1 0 < nbins rows 1 := by
      intro r hr
      match r, hlen r hr, hten r hr, hr with
      | a :: b :: z, hl, ht, hr =>
        simp only [List.length_cons, Nat.add_right_cancel_iff] at hl
        subst hl
        refine ⟨joinDec_cons fun y hy => ht y (by simp at hy ⊢; tauto), joinDec_lt fun y hy => ht y (by simp at hy ⊢; tauto), ?_⟩
        exact (hmem _).1 (mem_column hr 1)
    have hJne : J ≠ [] := by simpa [hJ] using hne
    obtain ⟨rl, hrl, hrle⟩ := List.mem_map.1 (colLo_mem hJne)
    obtain ⟨rh, hrh, hrhe⟩ := List.mem_map.1 (colHi_mem hJne)
    -- the smallest joined value has first component 0
    obtain ⟨z0, hz0, hz0e⟩ := List.mem_map.1 ((hmem 0).2 hpos)
    have hl0 : rl.getD 1 0 = 0 := by
      have h1 := colLo_le (hJm z0 hz0)
      rw [← hrle, (hval rl hrl).1, (hval z0 hz0).1, hz0e] at h1
      have h2 := (hval z0 hz0).2.1
      by_contra hne0
      have : 1 * 10 ^ m ≤ rl.getD 1 0 * 10 ^ m := Nat.mul_le_mul_right _ (by omega)
      omega
    -- the largest joined value has the largest first component
    obtain ⟨zk, hzk, hzke⟩ := List.mem_map.1 ((hmem (nbins rows 1 - 1)).2 (by omega))
    have hhk : rh.getD 1 0 = nbins rows 1 - 1 := by
      have h1 := le_colHi (hJm zk hzk)
      rw [← hrhe, (hval rh hrh).1, (hval zk hzk).1, hzke] at h1
      have h2 := (hval rh hrh).2
      by_contra hne0
      have : (rh.getD 1 0 + 1) * 10 ^ m ≤ (nbins rows 1 - 1) * 10 ^ m := Nat.mul_le_mul_right _ (by omega)
      have : (rh.getD 1 0 + 1) * 10 ^ m = rh.getD 1 0 * 10 ^ m + 10 ^ m := by ring
      omega
    have hloe : colLo J = joinDec (rl.drop 2) := by rw [← hrle, (hval rl hrl).1, hl0]; simp
    have hhie : colHi J = (nbins rows 1 - 1) * 10 ^ m + joinDec (rh.drop 2) := by rw [← hrhe, (hval rh hrh).1, hhk]
    unfold histBin
    rw [hloe, hhie, (hval r hr).1]
    have hv := hval r hr
    refine binOf_join (by omega) hv.2.2 hv.2.1 (hval rh hrh).2.1 ?_ ?_ ?_
    · intro hp
      have := colLo_le (hJm r hr)
      rw [hloe, hv.1, hp] at this
      simpa using this
    · intro hp
      have := le_colHi (hJm r hr)
      rw [hhie, hv.1] at this
      have hp' : r.getD 1 0 = nbins rows 1 - 1 := by omega
      rw [hp'] at this
      omega
    · rcases hC with ⟨⟨z, hz, hze⟩, q, hq, hmax⟩ | hbin
      · left
        have h1 := colLo_le (hJm z hz)
        rw [hze, hloe] at h1
        refine ⟨by omega, ?_⟩
        have h2 := le_colHi (hJm q hq)
        rw [hhie, (hval q hq).1] at h2
        have h3 := (hmax zk hzk).1
        rw [hzke] at h3
        have h4 := (hval q hq).2.2
        have h5 : q.getD 1 0 = nbins rows 1 - 1 := by omega
        rw [h5] at h2
        have := (hmax r hr).2
        omega
      · right
        have h9 : ∀ s ∈ rows, 9 * joinDec (s.drop 2) + 1 ≤ 10 ^ m := by
          intro s hs
          have := joinDec_le_of_binary (zs := s.drop 2) fun x hx => hbin s hs x (List.mem_of_mem_drop hx)
          rwa [List.length_drop, hlen s hs, Nat.add_sub_cancel] at this
        refine ⟨?_, h9 r hr, h9 rl hrl, h9 rh hrh⟩
        have : rh.getD 1 0 ≤ 1 := by
          rcases Nat.lt_or_ge 1 rh.length with hlt | hge
          · rw [List.getD_eq_getElem _ _ hlt]; exact hbin rh hrh _ (List.getElem_mem _)
          · rw [List.getD_eq_default _ _ hge]; omega
        omega

theorem binary_coded {n j : ℕ} {rows : List (List ℕ)} (h : Binary n rows) (hk : nbins rows j ≠ 1) : Coded rows j := by
  have hle : ∀ r ∈ rows, r.getD j 0 ≤ 1 := by
    intro r hr
    rcases Nat.lt_or_ge j r.length with hlt | hge
    · rw [List.getD_eq_getElem _ _ hlt]; exact (h r hr).2 _ (List.getElem_mem _)
    · rw [List.getD_eq_default _ _ hge]; omega
  intro r hr v hv
  have := hle r hr
  unfold entry at hv
  have hv0 : v = 0 := by omega
  subst hv0
  by_contra hno
  apply hk
  have hall : ∀ x, x ∈ column rows j ↔ x ∈ [1] := by
    intro x
    constructor
    · intro hx
      obtain ⟨s, hs, rfl⟩ := List.mem_map.1 hx
      have h1 := hle s hs
      have h2 : s.getD j 0 ≠ 0 := fun h0 => hno ⟨s, hs, h0⟩
      simp only [List.mem_singleton]; omega
    · intro hx
      simp only [List.mem_singleton] at hx
      rw [hx]
      have : r.getD j 0 = 1 := by omega
      rw [← this]; exact mem_column hr j
  unfold nbins
  rw [uniqueVals_eq hall]; rfl

end Indep
end PyBN
