import Verif.Proofs.RepeatSearch

/-!
# C263: repeated data and structure learning
-/

set_option linter.unusedSectionVars false

namespace PyBN
open Indep

/-- **C263** (1): with every row `k` times as often, in any order, the mutual information, the entropy and `mi_test(test=False)` of the data
are the same, for any number of columns (`mi_from_en` too, except on two columns, where it only works for a single row: C141). -/
theorem C263_information {k : ℕ} (hk : 0 < k) {rows rows' : List (List ℕ)} (h : rows'.Perm (List.replicate k rows).flatten) (n : ℕ) :
    (∀ cond, mutualInformation n rows' cond = mutualInformation n rows cond) ∧ entropy n rows' = entropy n rows ∧
    miTestMI n rows' = miTestMI n rows ∧ (n ≠ 2 → miFromEn n rows' = miFromEn n rows) :=
  have f := KF.of_perm h
  ⟨f.mutualInformation hk n, f.entropy hk n, f.miTestMI hk n, f.miFromEn hk n⟩

/-- **C263** (2): so `hc`, `tabu` and (with the same random draws) `hc_rr` return the same network. -/
theorem C263_searches {k : ℕ} (hk : 0 < k) {rows rows' : List (List ℕ)} (h : rows'.Perm (List.replicate k rows).flatten)
    (hE : HashOrder (ℕ × ℤ)) (hI : HashOrder ℤ) (ho : HashOrder ℕ) (fc : Dict ℕ (List ℕ) → ℕ → Bool) (hfc : FindsCycles fc) (ncol : ℕ)
    (hrect : ∀ r ∈ rows, r.length = ncol) (metric : String) (maxIter : ℤ) (debug : Bool) (restriction : Option (List (ℕ × ℕ))) :
    (hcCall hE hI ho fc ncol rows' metric maxIter debug restriction).map Prod.fst =
      (hcCall hE hI ho fc ncol rows metric maxIter debug restriction).map Prod.fst ∧
    (∀ t, (tabuCall hE hI ho fc ncol rows' t metric maxIter debug restriction).map Prod.fst =
      (tabuCall hE hI ho fc ncol rows t metric maxIter debug restriction).map Prod.fst) ∧
    ∀ M R ops draws, (hcRrCall hE hI ho fc ncol rows' M R metric maxIter debug restriction ops draws).map Prod.fst =
      (hcRrCall hE hI ho fc ncol rows M R metric maxIter debug restriction ops draws).map Prod.fst := by
  have f := KF.of_perm h
  by_cases hne : rows = []
  · have := (f.nil_iff hk).2 hne
    rw [hne, this]
    exact ⟨rfl, fun _ => rfl, fun _ _ _ _ => rfl⟩
  have hne' : rows' ≠ [] := fun e => hne ((f.nil_iff hk).1 e)
  have hrect' : ∀ r ∈ rows', r.length = ncol := fun r hr => hrect r ((f.mem hk r).1 hr)
  obtain ⟨-, -, a1, a2, a3, -⟩ := C210_searches_return hE hI ho fc hfc ncol rows hne hrect metric maxIter debug restriction
  obtain ⟨-, -, b1, b2, b3, -⟩ := C210_searches_return hE hI ho fc hfc ncol rows' hne' hrect' metric maxIter debug restriction
  have hk' : (0 : ℚ) < k := by exact_mod_cast hk
  have e : (⟨fc, dataScore rows', rows'.length, ncol, restriction, debug⟩ : HcArgs) =
      { (⟨fc, dataScore rows, rows.length, ncol, restriction, debug⟩ : HcArgs) with nrow := (k : ℚ) * rows.length } := by
    rw [f.dataScore hk, f.length]; push_cast; rfl
  have m : ∀ x : Py (BayesNet ℕ ℤ × List (Pass ℕ)), (x.map fun r => (r.1, r.2.map (Pass.scale (k : ℚ)))).map Prod.fst = x.map Prod.fst := by
    intro x; cases x <;> rfl
  refine ⟨?_, fun t => ?_, fun M R ops draws => ?_⟩
  · rw [a1, b1, e, hc_nrow _ _ _ _ hk', m]
  · rw [a2, b2, e, tabu_nrow _ _ _ _ hk', m]
  · rw [a3, b3, e, hcRr_nrow _ _ _ _ hk', m]

/-- The number of rows alone never decides a search: only the proportions of the scores do. -/
theorem C263_scale (A : Type) (h : HashOrder ℕ) (a : HcArgs) (c : ℚ) (hc0 : 0 < c) (maxIter : ℤ) :
    (hc A h { a with nrow := c * a.nrow } maxIter).map Prod.fst = (hc A h a maxIter).map Prod.fst := by
  rw [hc_nrow _ _ _ _ hc0]
  cases hc A h a maxIter <;> rfl

/-- A non-trivial case: four rows that contain each of two rows twice, mixed. -/
example : ([[0, 1], [1, 0], [0, 1], [1, 0]] : List (List ℕ)).Perm (List.replicate 2 [[1, 0], [0, 1]]).flatten ∧
    ∀ r ∈ ([[1, 0], [0, 1]] : List (List ℕ)), r.length = 2 := by decide

end PyBN
