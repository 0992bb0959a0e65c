import Verif.Proofs.RowOrder2
import Verif.Model.DataPrep

/-!
# C246, continued: preparing rearranged data gives the rearranged result
-/

set_option linter.unusedSectionVars false

namespace PyBN
open BayesNet

/-- A column with its entries taken in the order `idx`. -/
def reorder {α : Type _} (idx : List ℕ) (c : List α) : List α := idx.filterMap fun i => c[i]?

theorem reorder_map {α β : Type _} (idx : List ℕ) (f : α → β) (c : List α) : reorder idx (c.map f) = (reorder idx c).map f := by
  unfold reorder
  rw [List.map_filterMap]
  congr 1; funext i; rw [List.getElem?_map]

theorem reorder_range {α : Type _} : ∀ c : List α, reorder (List.range c.length) c = c
  | [] => rfl
  | x :: c => by
    have ih := reorder_range c
    unfold reorder at ih ⊢
    rw [List.length_cons, List.range_succ_eq_map, List.filterMap_cons, List.filterMap_map]
    simp only [List.getElem?_cons_zero]
    rw [show ((fun i => (x :: c)[i]?) ∘ Nat.succ) = fun i => c[i]? from funext fun i => by simp, ih]

theorem reorder_perm {α : Type _} {idx : List ℕ} {c : List α} (h : idx.Perm (List.range c.length)) : (reorder idx c).Perm c := by
  have := h.filterMap (fun i => c[i]?)
  rwa [show (List.range c.length).filterMap (fun i => c[i]?) = c from reorder_range c] at this

theorem uniqueVals_perm' {α : Type _} [LinearOrder α] {l l' : List α} (h : l.Perm l') : uniqueVals l = uniqueVals l' :=
  ((List.perm_ext_iff_of_nodup ((uniqueVals_sorted l).imp fun h => h.ne) ((uniqueVals_sorted l').imp fun h => h.ne)).2 fun x => by
    rw [mem_uniqueVals, mem_uniqueVals, h.mem_iff]).eq_of_pairwise (fun _ _ _ _ hab hba => absurd (hab.trans hba) (lt_irrefl _)) (uniqueVals_sorted l) (uniqueVals_sorted l')

theorem uniqueInv_reorder {α : Type _} [LinearOrder α] {idx : List ℕ} {c : List α} (h : idx.Perm (List.range c.length)) :
    uniqueInv (reorder idx c) = reorder idx (uniqueInv c) := by
  unfold uniqueInv
  rw [uniqueVals_perm' (reorder_perm h), reorder_map]

theorem colMin_perm {l l' : List ℚ} (h : l.Perm l') : colMin l = colMin l' := by
  cases l with
  | nil => rw [List.nil_perm.1 h]
  | cons x l =>
    cases l' with
    | nil => cases h.length_eq
    | cons y l' =>
      refine congrArg Except.ok ?_
      have e : (x :: l).min? = some (l.foldl min x) := List.min?_cons'
      rw [List.min?_eq_some_iff] at e
      have e' := List.min?_eq_some_iff.2 ⟨h.mem_iff.1 e.1, fun b hb => e.2 b (h.mem_iff.2 hb)⟩
      rw [List.min?_cons'] at e'
      exact (Option.some.inj e').symm

theorem colMax_perm {l l' : List ℚ} (h : l.Perm l') : colMax l = colMax l' := by
  cases l with
  | nil => rw [List.nil_perm.1 h]
  | cons x l =>
    cases l' with
    | nil => cases h.length_eq
    | cons y l' =>
      refine congrArg Except.ok ?_
      have e : (x :: l).max? = some (l.foldl max x) := List.max?_cons'
      rw [List.max?_eq_some_iff] at e
      have e' := List.max?_eq_some_iff.2 ⟨h.mem_iff.1 e.1, fun b hb => e.2 b (h.mem_iff.2 hb)⟩
      rw [List.max?_cons'] at e'
      exact (Option.some.inj e').symm

theorem discLoop_reorder (idx : List ℕ) (mm : List (ℚ × ℚ)) (bins : List ℕ) : ∀ (cs : List ℕ) (cols : List (List ℚ)),
    discLoop mm bins cs (cols.map (reorder idx)) = (discLoop mm bins cs cols).map fun r => r.map (reorder idx)
  | [], _ => rfl
  | c :: cs, cols => by
    rw [discLoop, discLoop, List.getElem?_map]
    cases mm[c]? with
    | none => rfl
    | some p =>
      cases bins[c]? with
      | none => rfl
      | some k =>
        cases cols[c]? with
        | none => rfl
        | some col =>
          dsimp only [Option.map_some]
          rw [← reorder_map, ← discLoop_reorder idx mm bins cs, List.map_set]

/-- **C246** (4): coding or discretising rearranged rows gives the rearranged codes, and the same lists of values. -/
theorem C246_prep {idx : List ℕ} {m : ℕ} (hi : idx.Perm (List.range m)) :
    (∀ {α : Type} [LinearOrder α] (cols : List (List α)), (∀ c ∈ cols, c.length = m) →
      replaceNums (cols.map (reorder idx)) = ((replaceNums cols).1.map (reorder idx), (replaceNums cols).2) ∧
      (∀ w, replaceStrs w (cols.map (reorder idx)) = ((replaceStrs w cols).1.map (reorder idx), (replaceStrs w cols).2)) ∧
      uniqueBins (cols.map (reorder idx)) = uniqueBins cols) ∧
    ∀ (cols : List (List ℚ)), (∀ c ∈ cols, c.length = m) → ∀ which bins,
      discretize (cols.map (reorder idx)) which bins = (discretize cols which bins).map fun r => r.map (reorder idx) := by
  constructor
  · intro α _ cols hc
    have hv : ∀ c ∈ cols, uniqueVals (reorder idx c) = uniqueVals c := fun c hcm => uniqueVals_perm' (reorder_perm (by rw [hc c hcm]; exact hi))
    have hu : ∀ c ∈ cols, uniqueInv (reorder idx c) = reorder idx (uniqueInv c) := fun c hcm => uniqueInv_reorder (by rw [hc c hcm]; exact hi)
    refine ⟨?_, fun w => ?_, ?_⟩
    · unfold replaceNums
      simp only [List.map_map, Prod.mk.injEq]
      exact ⟨List.map_congr_left hu, List.map_congr_left hv⟩
    · unfold replaceStrs
      simp only [List.map_map, Prod.mk.injEq]
      refine ⟨List.map_congr_left fun c hcm => ?_, List.map_congr_left hv⟩
      simp only [Function.comp]
      rw [hu c hcm, reorder_map]
    · unfold uniqueBins
      rw [List.map_map]
      exact List.map_congr_left fun c hcm => congrArg List.length (hv c hcm)
  · intro cols hc which bins
    have hm : pyMap (fun c => do let lo ← colMin c; let hi ← colMax c; pure (lo, hi)) (cols.map (reorder idx)) =
        pyMap (fun c => do let lo ← colMin c; let hi ← colMax c; pure (lo, hi)) cols := by
      clear which bins
      induction cols with
      | nil => rfl
      | cons c cols ih =>
        have hp : (reorder idx c).Perm c := reorder_perm (by rw [hc c (by simp)]; exact hi)
        rw [List.map_cons, pyMap, pyMap, ih fun c hcm => hc c (by simp [hcm]), colMin_perm hp, colMax_perm hp]
    unfold discretize
    dsimp only
    rw [hm, List.length_map]
    cases pyMap (fun c => do let lo ← colMin c; let hi ← colMax c; pure (lo, hi)) cols with
    | error e => rfl
    | ok mm =>
      rw [Py.bind_ok, Py.bind_ok, discLoop_reorder]
      cases discLoop mm (bins.getD (List.replicate cols.length 5)) (which.getD (List.range cols.length)) cols with
      | error e => rfl
      | ok r =>
        refine congrArg Except.ok ?_
        dsimp only
        rw [List.map_map, List.map_map]
        exact List.map_congr_left fun c _ => (reorder_map idx truncZ c).symm

example : [2, 0, 1].Perm (List.range 3) ∧ reorder [2, 0, 1] [7, 4, 7] = [7, 7, 4] ∧ uniqueInv (reorder [2, 0, 1] [7, 4, 7]) = [1, 1, 0] := by
  refine ⟨by decide, by decide, by decide +kernel⟩

end PyBN
