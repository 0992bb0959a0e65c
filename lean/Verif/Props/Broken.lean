import Verif.Model.Broken
import Verif.Props.Learn

/-!
# Functions that do not get to their answer: C196
-/

namespace PyBN
namespace Broken
open Indep

/-- C196: `mle_fast` raises `AttributeError` whenever it is to learn at least one node; asked for no node it erases the network (unless only counts are wanted). -/
theorem C196_mle_fast (bn : BayesNet ℕ ℤ) (nodes : Option (List ℕ)) (counts : Bool) :
    (nodes.getD bn.V ≠ [] → mleFast bn nodes counts = .error .attributeError) ∧
    (nodes.getD bn.V = [] → mleFast bn nodes true = .ok (some [], bn) ∧ mleFast bn nodes false = .ok (none, { bn with F := [] })) := by
  refine ⟨fun h => ?_, fun h => ?_⟩
  · obtain ⟨v, l, e⟩ := List.exists_cons_of_ne_nil h
    simp [mleFast, e, fastValues]
  · simp [mleFast, h, fastValues]

/-- C196: so do the Bayesian scores (whatever their formulas): only the network without nodes has a score, 1. -/
theorem C196_bayes_scores (step : ℚ → ℕ × NodeData ℕ ℤ → Py ℚ) (bn : BayesNet ℕ ℤ) :
    (bn.V ≠ [] → bayesScore step bn = .error .attributeError) ∧ (bn.V = [] → bayesScore step bn = .ok 1) := by
  refine ⟨fun h => ?_, fun h => ?_⟩
  · have := (C196_mle_fast bn none true).1 h
    simp [bayesScore, this]
  · have := ((C196_mle_fast bn none true).2 h).1
    simp [bayesScore, this]

/-- C196: `mmpc` returns only on data without columns - as shipped and with its missing imports restored, whatever the tests answer (they may even raise) and whatever the
code behind its first pass does. -/
theorem C196_mmpc (bound : Bool) (mi : List ℕ → Py PFloat) (rest : Option PFloat × ℝ × Option ℕ → Py (Dict ℕ (List ℕ))) (n : ℕ) :
    (n ≠ 0 → mmpc bound mi rest n = .error .nameError) ∧ (n = 0 → mmpc bound mi rest n = .ok []) := by
  refine ⟨fun h => ?_, fun h => by subst h; rfl⟩
  obtain ⟨m, rfl⟩ := Nat.exists_eq_succ_of_ne_zero h
  rw [mmpc, List.range_succ_eq_map]
  cases bound
  · rfl
  · simp [mmpcScan]

/-- C196: `lambda_iamb` never returns: `TypeError` once there are rows and columns, otherwise another exception. -/
theorem C196_lambda_iamb (n : ℕ) (rows : List (List ℕ)) (fs : Option ℕ) :
    (rows ≠ [] → n ≠ 0 → (∀ t ∈ fs, t < n) → lambdaIamb n rows fs = .error .typeError) ∧ ∀ r, lambdaIamb n rows fs ≠ .ok r := by
  have key : ∀ T, (rows ≠ [] → (do let _ ← entropy 1 (select [T] rows); (.error .typeError : Py (Dict ℕ (List ℕ)))) = .error .typeError) ∧
      ∀ r, (do let _ ← entropy 1 (select [T] rows); (.error .typeError : Py (Dict ℕ (List ℕ)))) ≠ .ok r := by
    intro T
    refine ⟨fun h => ?_, fun r => ?_⟩
    · have h' : select [T] rows ≠ [] := by simpa [select] using h
      unfold entropy
      rw [if_neg (by simp [h']), if_pos rfl]
      split_ifs <;> rfl
    · cases entropy 1 (select [T] rows) <;> simp
  refine ⟨fun h1 h2 h3 => ?_, fun r => ?_⟩
  · cases fs with
    | none =>
      obtain ⟨m, rfl⟩ := Nat.exists_eq_succ_of_ne_zero h2
      simp only [lambdaIamb, List.range_succ_eq_map]
      rw [if_neg (by omega)]
      exact (key 0).1 h1
    | some t =>
      simp only [lambdaIamb]
      rw [if_neg (by have := h3 t rfl; omega)]
      exact (key t).1 h1
  · unfold lambdaIamb
    split
    · simp
    · split_ifs
      · simp
      · exact (key _).2 r

/-- C196: `predict` answers only for data without rows. -/
theorem C196_predict {N A : Type} (rows : List (List ℤ)) (target : ℕ) (classifier : Option (BayesNet N A)) :
    (∀ r, predict rows target classifier = .ok r → rows = []) ∧ (classifier = none → predict rows target classifier = .error .nameError) ∧
    (rows ≠ [] → (∀ r ∈ rows, target < r.length) → predict rows target classifier = .error .nameError) ∧
    (rows = [] → classifier ≠ none → predict rows target classifier = .ok ([], [], none)) := by
  refine ⟨fun r hr => ?_, fun h => by subst h; rfl, fun h1 h2 => ?_, fun h1 h2 => by
    obtain ⟨bn, rfl⟩ := Option.ne_none_iff_exists'.1 h2
    subst h1; rfl⟩
  · cases classifier with
    | none => cases hr
    | some bn =>
      cases rows with
      | nil => rfl
      | cons x xs =>
        simp only [predict] at hr
        cases h : pyIdx x (target : ℤ) <;> rw [h] at hr <;> cases hr
  · obtain ⟨x, xs, rfl⟩ := List.exists_cons_of_ne_nil h1
    have : ∃ y, pyIdx x (target : ℤ) = .ok y := by
      have := h2 x (by simp)
      unfold pyIdx
      simp [List.getElem?_eq_getElem this]
    obtain ⟨y, hy⟩ := this
    cases classifier <;> simp [predict, hy]

/-- The cases that raise are the usual ones. -/
example : (none : Option (List ℕ)).getD vNet.V ≠ [] ∧ vNet.V ≠ [] ∧ (3 : ℕ) ≠ 0 ∧ ([[0, 1, 0], [1, 1, 0]] : List (List ℕ)) ≠ [] ∧ (∀ t ∈ (some 2 : Option ℕ), t < 3) ∧
    (∀ r ∈ ([[0, 1, 0], [1, 1, 0]] : List (List ℤ)), 2 < r.length) := by
  refine ⟨by decide, by decide, by decide, by decide, by simp, by decide⟩

end Broken
end PyBN
