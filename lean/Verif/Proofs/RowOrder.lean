import Verif.Model.Fitness
import Verif.Model.EmpDist
import Verif.Model.Entropy
import Verif.Model.NaiveBayes
import Verif.Model.ScoreCall
import Verif.Proofs.DataPrep
import Verif.Proofs.Learn
import Verif.Proofs.Dict
import Verif.Spec.CondRecover

/-!
# The order of the rows
-/

set_option linter.unusedSectionVars false

namespace PyBN
namespace RowOrder
open Indep

theorem column_perm {rows rows' : List (List ℕ)} (h : rows.Perm rows') (j : ℕ) : (column rows j).Perm (column rows' j) := h.map _

theorem sortedUnique_eq {l l' : List ℕ} (h1 : l.Pairwise (· < ·)) (h2 : l'.Pairwise (· < ·)) (h : ∀ x, x ∈ l ↔ x ∈ l') : l = l' :=
  ((List.perm_ext_iff_of_nodup (h1.imp fun h => h.ne) (h2.imp fun h => h.ne)).2 h).eq_of_pairwise
    (fun _ _ _ _ hab hba => absurd (hab.trans hba) (lt_irrefl _)) h1 h2

theorem uniqueVals_perm {l l' : List ℕ} (h : l.Perm l') : uniqueVals l = uniqueVals l' :=
  sortedUnique_eq (uniqueVals_sorted l) (uniqueVals_sorted l') fun x => by rw [mem_uniqueVals, mem_uniqueVals, h.mem_iff]

theorem min?_perm {l l' : List ℕ} (h : l.Perm l') : l.min? = l'.min? := by
  cases e : l.min? with
  | none => rw [List.min?_eq_none_iff] at e; subst e; rw [List.nil_perm.1 h]; rfl
  | some a =>
    rw [List.min?_eq_some_iff] at e
    exact (List.min?_eq_some_iff.2 ⟨h.mem_iff.1 e.1, fun b hb => e.2 b (h.mem_iff.2 hb)⟩).symm

theorem max?_perm {l l' : List ℕ} (h : l.Perm l') : l.max? = l'.max? := by
  cases e : l.max? with
  | none => rw [List.max?_eq_none_iff] at e; subst e; rw [List.nil_perm.1 h]; rfl
  | some a =>
    rw [List.max?_eq_some_iff] at e
    exact (List.max?_eq_some_iff.2 ⟨h.mem_iff.1 e.1, fun b hb => e.2 b (h.mem_iff.2 hb)⟩).symm

theorem colHi_perm {l l' : List ℕ} (h : l.Perm l') : colHi l = colHi l' := by unfold colHi; rw [max?_perm h]

theorem histBin_perm {l l' : List ℕ} (h : l.Perm l') : histBin l = histBin l' := by
  funext k x
  unfold histBin colLo colHi
  rw [min?_perm h, max?_perm h]

section
variable {rows rows' : List (List ℕ)} (h : rows.Perm rows')
include h

theorem nbins_rows : nbins rows = nbins rows' := by
  funext j; unfold nbins; rw [uniqueVals_perm (column_perm h j)]

theorem hist1_perm : hist1 rows = hist1 rows' := by
  funext k i; unfold hist1; rw [histBin_perm (column_perm h 0)]; exact h.countP_eq _

theorem hist2_perm : hist2 rows = hist2 rows' := by
  funext k0 k1 i j; unfold hist2; rw [histBin_perm (column_perm h 0), histBin_perm (column_perm h 1)]; exact h.countP_eq _

theorem hist3_perm : hist3 rows = hist3 rows' := by
  funext k0 k1 k2 i j k; unfold hist3
  rw [histBin_perm (column_perm h 0), histBin_perm (column_perm h 1), histBin_perm (column_perm h 2)]; exact h.countP_eq _

theorem joinFrom_perm (c : ℕ) : (joinFrom c rows).Perm (joinFrom c rows') := h.map _

theorem select_perm (cols : List ℕ) : (select cols rows).Perm (select cols rows') := h.map _

theorem nil_iff_perm : rows = [] ↔ rows' = [] := by rw [← List.length_eq_zero_iff, ← List.length_eq_zero_iff, h.length_eq]

theorem ite_join_perm (p : Prop) [Decidable p] (c : ℕ) : (if p then joinFrom c rows else rows).Perm (if p then joinFrom c rows' else rows') := by
  split
  · exact joinFrom_perm h c
  · exact h

theorem miStat_perm (n : ℕ) : miStat n rows = miStat n rows' := by
  unfold miStat
  dsimp only
  rw [nbins_rows (ite_join_perm h _ 2), hist3_perm (ite_join_perm h _ 2), nbins_rows h, hist2_perm h, h.length_eq]

theorem ddof_perm (n : ℕ) : ddof n rows = ddof n rows' := by
  unfold ddof
  dsimp only
  rw [nbins_rows (ite_join_perm h _ 2), nbins_rows h]

theorem miTestMI_perm (n : ℕ) : miTestMI n rows = miTestMI n rows' := by
  unfold miTestMI; simp only [nil_iff_perm h, miStat_perm h]

theorem miTest_perm (n : ℕ) : miTest n rows = miTest n rows' := by
  unfold miTest; simp only [nil_iff_perm h, miStat_perm h, ddof_perm h, h.length_eq]

theorem areIndependent_perm (n : ℕ) (alpha : ℝ) : areIndependent n rows alpha = areIndependent n rows' alpha := by
  unfold areIndependent; rw [miTest_perm h]

theorem mutualInformation_perm (n : ℕ) (c : Bool) : mutualInformation n rows c = mutualInformation n rows' c := by
  unfold mutualInformation
  dsimp only
  simp only [nil_iff_perm h, nbins_rows h, hist1_perm h, hist2_perm h, h.length_eq, hist2_perm (joinFrom_perm h 1), hist3_perm (ite_join_perm h (3 < n) 2),
    colHi_perm (column_perm (ite_join_perm h (3 < n) 2) 0), colHi_perm (column_perm (ite_join_perm h (3 < n) 2) 1),
    colHi_perm (column_perm (ite_join_perm h (3 < n) 2) 2)]

theorem entropy_perm (n : ℕ) : entropy n rows = entropy n rows' := by
  unfold entropy
  dsimp only
  simp only [nil_iff_perm h, nbins_rows h, hist1_perm h, hist2_perm h, h.length_eq, hist3_perm (ite_join_perm h (3 < n) 2),
    colHi_perm (column_perm (ite_join_perm h (3 < n) 2) 0), colHi_perm (column_perm (ite_join_perm h (3 < n) 2) 1),
    colHi_perm (column_perm (ite_join_perm h (3 < n) 2) 2)]

theorem miFromEn_perm (n : ℕ) : miFromEn n rows = miFromEn n rows' := by
  unfold miFromEn entropyVec
  dsimp only
  rw [(column_perm h 0).length_eq, entropy_perm h, entropy_perm (select_perm (ite_join_perm h (3 < n) 2) [0, 2]), entropy_perm (ite_join_perm h (3 < n) 2)]

theorem dataScore_perm : dataScore rows = dataScore rows' := by
  funext cols; unfold dataScore; rw [mutualInformation_perm (select_perm h cols)]

theorem fitLoop_perm (mb : List ℕ) (t : ℕ) : ∀ (xs : List ℕ) (acc : PFloat), fitLoop rows mb t xs acc = fitLoop rows' mb t xs acc
  | [], _ => rfl
  | x :: xs, acc => by
    unfold fitLoop
    rw [miTest_perm (select_perm h _)]
    simp only [fitLoop_perm mb t xs]

theorem fitNodes_perm (ho : HashOrder ℕ) (Mb : Dict ℕ (List ℕ)) (nodes : List ℕ) : ∀ (ts : List ℕ) (d : Dict ℕ PFloat),
    fitNodes ho rows Mb nodes ts d = fitNodes ho rows' Mb nodes ts d
  | [], _ => rfl
  | t :: ts, d => by
    unfold fitNodes
    simp only [fitLoop_perm h, fitNodes_perm ho Mb nodes ts]

theorem mbFitness_perm (ho : HashOrder ℕ) (Mb : Dict ℕ (List ℕ)) (target : Target) : mbFitness ho rows Mb target = mbFitness ho rows' Mb target := by
  unfold mbFitness; rw [fitNodes_perm h]

end
end RowOrder
open Indep RowOrder

section
variable {rows rows' : List (List ℕ)} (h : rows.Perm rows')
include h

theorem dataLt_perm : dataLt rows = dataLt rows' := by
  funext a c; unfold dataLt; rw [miTest_perm (select_perm h c)]

theorem dataGt_perm : dataGt rows = dataGt rows' := by
  funext a c; unfold dataGt; rw [miTest_perm (select_perm h c)]

theorem dataMI_perm : dataMI rows = dataMI rows' := by
  funext c; unfold dataMI; rw [miTestMI_perm (select_perm h c)]

end

/-! ## The estimators -/

theorem npUnique_perm {l l' : List ℤ} (h : l.Perm l') : npUnique l = npUnique l' :=
  ((List.perm_ext_iff_of_nodup (npUnique_nodup l) (npUnique_nodup l')).2 fun x => by rw [mem_npUnique, mem_npUnique, h.mem_iff]).eq_of_pairwise
    (fun _ _ _ _ hab hba => absurd (hab.trans hba) (lt_irrefl _)) (npUnique_pairwise l) (npUnique_pairwise l')

/-- `pyMap` over a rearranged list. -/
theorem pyMap_perm {α β : Type _} (f : α → Py β) {l l' : List α} (h : l.Perm l') : ∀ {r : List β}, pyMap f l = .ok r → ∃ r', pyMap f l' = .ok r' ∧ r.Perm r' := by
  induction h with
  | nil => exact fun e => ⟨_, e, .refl _⟩
  | cons x _ ih =>
    intro r e
    rw [pyMap] at e ⊢
    cases e1 : f x with
    | error y => rw [e1] at e; cases e
    | ok y =>
      rw [e1] at e
      rename_i l1 l2 _
      cases e2 : pyMap f l1 with
      | error z => rw [e2] at e; cases e
      | ok z =>
        rw [e2] at e
        obtain ⟨r', e3, p⟩ := ih e2
        cases e
        exact ⟨y :: r', by rw [e3]; rfl, p.cons y⟩
  | swap x y l =>
    intro r e
    simp only [pyMap] at e ⊢
    cases e1 : f x with
    | error z => rw [e1] at e; cases e2 : f y <;> (rw [e2] at e; cases e)
    | ok a =>
      cases e2 : f y with
      | error z => rw [e2] at e; cases e
      | ok b =>
        rw [e1, e2] at e
        cases e3 : pyMap f l with
        | error z => rw [e3] at e; cases e
        | ok c =>
          rw [e3] at e
          cases e
          exact ⟨a :: b :: c, by rfl, .swap a b c⟩
  | trans _ _ ih1 ih2 =>
    intro r e
    obtain ⟨r1, e1, p1⟩ := ih1 e
    obtain ⟨r2, e2, p2⟩ := ih2 e1
    exact ⟨r2, e2, p1.trans p2⟩

end PyBN
