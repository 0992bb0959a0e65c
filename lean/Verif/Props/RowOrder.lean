import Verif.Proofs.RowOrder2
import Verif.Model.Iamb

/-!
# C246: the order of the rows of a data set never matters
-/

set_option linter.unusedSectionVars false

namespace PyBN
open Indep RowOrder BayesNet Constraint

/-- **C246** (1): every test, measure and score of data gives the same answer (or the same exception) on rearranged rows. -/
theorem C246_tests {rows rows' : List (List ℕ)} (h : rows.Perm rows') :
    (∀ n, miTest n rows = miTest n rows') ∧ (∀ n, miTestMI n rows = miTestMI n rows') ∧
    (∀ n alpha, areIndependent n rows alpha = areIndependent n rows' alpha) ∧
    (∀ n cond, mutualInformation n rows cond = mutualInformation n rows' cond) ∧
    (∀ n, entropy n rows = entropy n rows') ∧ (∀ n, miFromEn n rows = miFromEn n rows') ∧
    (∀ ho Mb target, mbFitness ho rows Mb target = mbFitness ho rows' Mb target) ∧
    (∀ n names, EmpDist.init n rows names = EmpDist.init n rows' names) :=
  ⟨miTest_perm h, miTestMI_perm h, areIndependent_perm h, mutualInformation_perm h, entropy_perm h, miFromEn_perm h, mbFitness_perm h, fun n names => by
    have e1 : EmpDist.binsOf n rows = EmpDist.binsOf n rows' := by unfold EmpDist.binsOf; rw [nbins_rows h]
    have e2 : EmpDist.countsOf n rows = EmpDist.countsOf n rows' := by
      funext c
      unfold EmpDist.countsOf
      rw [nbins_rows h]
      simp only [fun j => histBin_perm (column_perm h j)]
      exact h.countP_eq _
    unfold EmpDist.init
    cases names with
    | some _ => rfl
    | none => dsimp only; rw [e1, e2, h.length_eq]; simp only [nil_iff_perm h]⟩

/-- **C246** (2): the estimators return the same tables, and the same networks, on rearranged rows. -/
theorem C246_estimators {data data' : Data} (hn : data.ncol = data'.ncol) (h : data.rows.Perm data'.rows) (hE : HashOrder (ℕ × ℤ)) (hI : HashOrder ℤ) :
    (∀ (bn : BayesNet ℕ ℤ) nodes r, bn.mleCounts hE hI data nodes = .ok r ↔ bn.mleCounts hE hI data' nodes = .ok r) ∧
    (∀ (bn : BayesNet ℕ ℤ) nodes r, bn.mleEstimator hE hI data nodes = .ok r ↔ bn.mleEstimator hE hI data' nodes = .ok r) ∧
    (∀ (bn : BayesNet ℕ ℤ) equiv nodes r, bn.bayesEstimator hE hI data equiv nodes = .ok r ↔ bn.bayesEstimator hE hI data' equiv nodes = .ok r) ∧
    ∀ ho target b r, naiveBayes hE hI ho data target b = .ok r ↔ naiveBayes hE hI ho data' target b = .ok r :=
  ⟨fun _ _ _ => ⟨mleCounts_perm hn h, mleCounts_perm hn.symm h.symm⟩, fun _ _ _ => ⟨mleEstimator_perm hn h, mleEstimator_perm hn.symm h.symm⟩,
    fun _ _ _ _ => ⟨bayesEstimator_perm hn h, bayesEstimator_perm hn.symm h.symm⟩, fun _ _ _ _ => ⟨naiveBayes_perm hn h, naiveBayes_perm hn.symm h.symm⟩⟩

theorem scoreStart_perm {rows rows' : List (List ℕ)} (h : rows.Perm rows') {hE : HashOrder (ℕ × ℤ)} {hI : HashOrder ℤ} {ho : HashOrder ℕ} {ncol : ℕ} {metric : String} {x : Option ℝ}
    (e : scoreStart hE hI ho ncol rows metric = .ok x) : scoreStart hE hI ho ncol rows' metric = .ok x := by
  unfold scoreStart at e ⊢
  rw [← h.length_eq]
  obtain ⟨bn, h1, e⟩ := bind_ok_iff.1 e
  obtain ⟨bn', h2, e⟩ := bind_ok_iff.1 e
  exact bind_ok_iff.2 ⟨bn, h1, bind_ok_iff.2 ⟨bn', mleEstimator_perm (data := arrayOf ncol rows) (data' := arrayOf ncol rows') rfl (h.map _) h2, e⟩⟩

theorem dataArgs_perm {rows rows' : List (List ℕ)} (h : rows.Perm rows') (fc : Dict ℕ (List ℕ) → ℕ → Bool) (ncol : ℕ) (R : Option (List (ℕ × ℕ))) (d : Bool) :
    dataArgs fc ncol rows R d = dataArgs fc ncol rows' R d := by
  unfold dataArgs; rw [dataScore_perm h, h.length_eq]

/-- **C246** (3): the structure learners return the same network on rearranged rows. -/
theorem C246_learners {rows rows' : List (List ℕ)} (h : rows.Perm rows') (ho : HashOrder ℕ) (n fuel : ℕ) (alpha : ℝ) :
    (∀ vd : Dict ℕ (List ℤ), gs (dataLt rows alpha) (dataGt rows (1 / 20)) ho n fuel vd = gs (dataLt rows' alpha) (dataGt rows' (1 / 20)) ho n fuel vd) ∧
    (∀ vd : Dict ℕ (List ℤ), pc (dataGt rows alpha) ho n fuel vd = pc (dataGt rows' alpha) ho n fuel vd) ∧
    (∀ vd : Dict ℕ (List ℤ), iamb (dataLt rows (1 / 20)) (dataLt rows alpha) (dataGt rows (1 / 20)) (dataMI rows) ho n fuel vd =
      iamb (dataLt rows' (1 / 20)) (dataLt rows' alpha) (dataGt rows' (1 / 20)) (dataMI rows') ho n fuel vd) ∧
    (∀ hE hI fc metric maxIter debug R r, hcCall hE hI ho fc n rows metric maxIter debug R = .ok r ↔ hcCall hE hI ho fc n rows' metric maxIter debug R = .ok r) ∧
    (∀ hE hI fc k metric maxIter debug R r, tabuCall hE hI ho fc n rows k metric maxIter debug R = .ok r ↔ tabuCall hE hI ho fc n rows' k metric maxIter debug R = .ok r) ∧
    ∀ hE hI fc M Rs metric maxIter debug R ops draws r, hcRrCall hE hI ho fc n rows M Rs metric maxIter debug R ops draws = .ok r ↔
      hcRrCall hE hI ho fc n rows' M Rs metric maxIter debug R ops draws = .ok r := by
  have key : ∀ {rows rows' : List (List ℕ)} (_ : rows.Perm rows') {α : Type} {hE hI metric} {f : Py α} {r : α},
      (scoreStart hE hI ho n rows metric >>= fun _ => f) = .ok r → (scoreStart hE hI ho n rows' metric >>= fun _ => f) = .ok r := by
    intro rows rows' h α hE hI metric f r e
    obtain ⟨x, h1, e⟩ := bind_ok_iff.1 e
    exact bind_ok_iff.2 ⟨x, scoreStart_perm h h1, e⟩
  refine ⟨fun vd => by rw [dataLt_perm h, dataGt_perm h], fun vd => by rw [dataGt_perm h], fun vd => by rw [dataLt_perm h, dataGt_perm h, dataMI_perm h], ?_, ?_, ?_⟩
  · intro hE hI fc metric maxIter debug R r
    unfold hcCall
    rw [dataArgs_perm h]
    exact ⟨key h, key h.symm⟩
  · intro hE hI fc k metric maxIter debug R r
    unfold tabuCall
    rw [dataArgs_perm h]
    exact ⟨key h, key h.symm⟩
  · intro hE hI fc M Rs metric maxIter debug R ops draws r
    unfold hcRrCall
    rw [dataArgs_perm h]
    exact ⟨key h, key h.symm⟩

/-- Two nodes, an arc, four rows, and the same rows in another order. -/
def exRows1 : Data := ⟨2, [[0, 5], [1, 7], [1, 5], [0, 5]]⟩
def exRows2 : Data := ⟨2, [[1, 5], [0, 5], [0, 5], [1, 7]]⟩
def exArc : BayesNet ℕ ℤ := ⟨[0, 1], Dict.ofPairs [(0, [1]), (1, [])], Dict.ofPairs [(0, ⟨[], [], []⟩), (1, ⟨[0], [], []⟩)]⟩

theorem exRows_perm : exRows1.rows.Perm exRows2.rows := by decide +kernel

/-- Both calls succeed, with the same counts. -/
example : (exArc.mleCounts .id .id exRows1 none).okAnd (fun r => decide (r = Dict.ofPairs [(0, ([0, 1], [2, 2])), (1, ([5, 7], [2, 0, 1, 1]))])) = true ∧
    (exArc.mleCounts .id .id exRows2 none).okAnd (fun r => decide (r = Dict.ofPairs [(0, ([0, 1], [2, 2])), (1, ([5, 7], [2, 0, 1, 1]))])) = true := by
  constructor <;> decide +kernel

end PyBN
