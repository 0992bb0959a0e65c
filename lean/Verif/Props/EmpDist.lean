import Verif.Model.EmpDist
import Verif.Proofs.Indep5
import Mathlib.Tactic.Linarith
import Mathlib.Tactic.FieldSimp

/-!
# C155, C156: `EmpiricalDistribution`
-/

namespace PyBN
namespace EmpDist
open Indep Finset

/-- The cells of the histogram. -/
def cells (n : ℕ) (b : Fin n → ℕ) : Finset (Fin n → ℕ) := Fintype.piFinset fun j => range (b j)

/-- Every row is counted in exactly one cell. -/
theorem counts_total (n : ℕ) (rows : List (List ℕ)) : ∑ c ∈ cells n (binsOf n rows), countsOf n rows c = rows.length := by
  classical
  let cell : List ℕ → Fin n → ℕ := fun r j => histBin (column rows j) (nbins rows j) (r.getD j 0)
  have hcell : ∀ r ∈ rows, cell r ∈ cells n (binsOf n rows) := by
    intro r hr
    refine Fintype.mem_piFinset.2 fun j => mem_range.2 ?_
    have hne : rows ≠ [] := List.ne_nil_of_mem hr
    exact histBin_lt (nbins_pos hne j) (mem_column hr j)
  have hcount : ∀ c, countsOf n rows c = rows.countP fun r => decide (cell r = c) := by
    intro c
    unfold countsOf
    refine List.countP_congr fun r _ => ?_
    simp [cell, funext_iff]
  have key : ∀ l : List (List ℕ), (∀ r ∈ l, cell r ∈ cells n (binsOf n rows)) → ∑ c ∈ cells n (binsOf n rows), l.countP (fun r => decide (cell r = c)) = l.length := by
    intro l
    induction l with
    | nil => intro _; simp
    | cons r l ih =>
      intro h
      simp only [List.countP_cons, sum_add_distrib, ih fun r' hr' => h r' (by simp [hr']), List.length_cons, decide_eq_true_eq, sum_ite_eq]
      rw [if_pos (h r (by simp))]
  simp only [hcount]
  exact key rows hcell

/-- C155: for every data set with at least one row and column, the stored joint table is the frequency of each cell plus 0.001: each entry is at least 0.001, the entries add up to one plus
0.001 times the number of cells (so never to one), and passing names always raises. -/
theorem C155_joint_mass (n : ℕ) (rows : List (List ℕ)) (hn : n ≠ 0) (hne : rows ≠ []) :
    (∃ s, init n rows none = .ok s ∧ (∀ j : Fin n, s.bins j = (valuesOf rows j).card) ∧ (∀ c, 1 / 1000 ≤ s.joint c) ∧
      ∑ c ∈ Fintype.piFinset fun j => range (s.bins j), s.joint c = 1 + (∏ j : Fin n, ((valuesOf rows j).card : ℚ)) / 1000 ∧
      ∑ c ∈ Fintype.piFinset fun j => range (s.bins j), s.joint c ≠ 1) ∧
    ∀ names, init n rows (some names) = .error .attributeError := by
  refine ⟨⟨_, by unfold init; rw [if_neg (by simp [hn, hne])], fun j => nbins_card rows j, fun c => ?_, ?_⟩, fun _ => rfl⟩
  · show (1 : ℚ) / 1000 ≤ (countsOf n rows c : ℚ) / rows.length + 1 / 1000
    have : (0 : ℚ) ≤ (countsOf n rows c : ℚ) / rows.length := by positivity
    linarith
  · have hs : ∑ c ∈ Fintype.piFinset fun j => range (binsOf n rows j), ((countsOf n rows c : ℚ) / rows.length + 1 / 1000) = 1 + (∏ j : Fin n, ((valuesOf rows j).card : ℚ)) / 1000 := by
      rw [sum_add_distrib, ← sum_div, sum_const, Fintype.card_piFinset]
      have h1 : ∑ c ∈ Fintype.piFinset fun j => range (binsOf n rows j), (countsOf n rows c : ℚ) = rows.length := by
        exact_mod_cast counts_total n rows
      rw [h1]
      have h2 : (rows.length : ℚ) ≠ 0 := by simpa using hne
      rw [div_self h2]
      simp only [card_range, nsmul_eq_mul]
      push_cast
      have h3 : ∀ j : Fin n, binsOf n rows j = (valuesOf rows j).card := fun j => nbins_card rows j
      simp only [h3]
      ring
    refine ⟨hs, ?_⟩
    show ∑ c ∈ Fintype.piFinset fun j => range (binsOf n rows j), ((countsOf n rows c : ℚ) / rows.length + 1 / 1000) ≠ 1
    rw [hs]
    have hp : 0 < ∏ j : Fin n, ((valuesOf rows j).card : ℚ) := by
      refine prod_pos fun j _ => ?_
      have := nbins_pos hne j
      rw [nbins_card] at this
      exact_mod_cast this
    intro h
    linarith

/-- The queries that should return a distribution or an information measure. -/
def Call.isQuery : Call → Prop
  | .idx _ => False
  | _ => True

theorem call_query {n : ℕ} (s : ED n) (hs : s.cache = []) (c : Call) : (c.isQuery → ∃ e, call s c = .error e) ∧ ∀ r s', call s c = .ok (r, s') → s' = s := by
  have hm : ∀ rv, ∃ e, mpd s rv = .error e := by
    intro rv
    cases rv with
    | str x => exact ⟨.valueError, by simp only [mpd, hs, List.not_mem_nil, if_false]; rfl⟩
    | _ => exact ⟨.assertionError, rfl⟩
  have hc : ∀ l r, ∃ e, cpd s l r = .error e := by
    intro l r
    cases r with
    | tup r =>
      unfold cpd
      by_cases hh : hashable (.tup [l, .tup r]) = false
      · exact ⟨.typeError, by simp only [hh, if_true]⟩
      · exact ⟨.nameError, by simp only [hh, if_false, hs, List.not_mem_nil]; rfl⟩
    | _ => exact ⟨.assertionError, rfl⟩
  cases c with
  | mpd rv =>
    obtain ⟨e, he⟩ := hm rv
    refine ⟨fun _ => ⟨e, he⟩, fun r s' h => ?_⟩
    have : mpd s rv = .ok (r, s') := h
    rw [he] at this; cases this
  | jpd rvs => exact ⟨fun _ => ⟨_, rfl⟩, fun r s' h => by cases h⟩
  | cpd l r =>
    obtain ⟨e, he⟩ := hc l r
    refine ⟨fun _ => ⟨e, he⟩, fun r' s' h => ?_⟩
    have : cpd s l r = .ok (r', s') := h
    rw [he] at this; cases this
  | mi l r => exact ⟨fun _ => ⟨_, rfl⟩, fun r s' h => by cases h⟩
  | idx rv =>
    refine ⟨fun h => h.elim, fun r s' h => ?_⟩
    simp only [call] at h
    cases hi : idx n rv with
    | error e => rw [hi] at h; cases h
    | ok i => rw [hi] at h; cases h; rfl
  | idxMap rvs => exact ⟨fun _ => ⟨_, rfl⟩, fun r s' h => by cases h⟩

/-- C156: no method of `EmpiricalDistribution` other than `idx` ever returns: whatever data the object was built from, whatever was called before and with whatever arguments, every call of
`mpd`, `jpd`, `cpd`, `mi` and `idx_map` raises, the cache stays empty, and the object is unchanged at the end of the history. -/
theorem C156_no_query_returns (n : ℕ) (rows : List (List ℕ)) (names : Option (List Arg)) (s : ED n) (h : init n rows names = .ok s) (cs : List Call) :
    (calls s cs).2 = s ∧ s.cache = [] ∧ (calls s cs).1.length = cs.length ∧
      ∀ (i : ℕ) (c : Call) (r : Py Result), cs[i]? = some c → (calls s cs).1[i]? = some r → c.isQuery → ∃ e, r = .error e := by
  have hs : s.cache = [] := by
    cases names with
    | some l => cases h
    | none =>
      unfold init at h
      simp only at h
      split_ifs at h
      cases h
      rfl
  have key : ∀ cs : List Call, (calls s cs).2 = s ∧ (calls s cs).1.length = cs.length ∧ ∀ (i : ℕ) (c : Call) (r : Py Result), cs[i]? = some c → (calls s cs).1[i]? = some r → c.isQuery → ∃ e, r = .error e := by
    intro cs
    induction cs with
    | nil => exact ⟨rfl, rfl, fun i c r h => by simp at h⟩
    | cons c cs ih =>
      obtain ⟨h1, h2⟩ := call_query s hs c
      cases hc : call s c with
      | error e =>
        simp only [calls, hc]
        refine ⟨ih.1, by simp [ih.2.1], fun i c' r hi hr hq => ?_⟩
        cases i with
        | zero => simp at hr; exact ⟨e, hr.symm⟩
        | succ i => exact ih.2.2 i c' r (by simpa using hi) (by simpa using hr) hq
      | ok p =>
        obtain ⟨r0, s'⟩ := p
        have := h2 r0 s' hc
        subst this
        simp only [calls, hc]
        refine ⟨ih.1, by simp [ih.2.1], fun i c' r hi hr hq => ?_⟩
        cases i with
        | zero =>
          simp at hi
          subst hi
          obtain ⟨e, he⟩ := h1 hq
          rw [hc] at he; cases he
        | succ i => exact ih.2.2 i c' r (by simpa using hi) (by simpa using hr) hq
  exact ⟨(key cs).1, hs, (key cs).2.1, (key cs).2.2⟩

/-- Witness for C155, C156: two binary columns. -/
example : ∃ s, init 2 [[0, 1], [1, 1], [1, 0]] none = .ok s ∧ s.counts ![1, 1] = 1 ∧ s.joint ![0, 1] = 1 / 3 + 1 / 1000 ∧ (∃ r, call s (.idx (.int 1)) = .ok r) := by
  refine ⟨_, by unfold init; rw [if_neg (by decide)], by decide, ?_, ⟨_, rfl⟩⟩
  have : countsOf 2 [[0, 1], [1, 1], [1, 0]] ![0, 1] = 1 := by decide
  show ((countsOf 2 [[0, 1], [1, 1], [1, 0]] ![0, 1] : ℕ) : ℚ) / ((3 : ℕ) : ℚ) + 1 / 1000 = 1 / 3 + 1 / 1000
  rw [this]
  norm_num

end EmpDist
end PyBN
