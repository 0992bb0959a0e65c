import Verif.Model.LearnState
import Verif.Proofs.Learn2

/-!
# What `mle_estimator` leaves behind: proofs
-/

set_option linter.unusedSectionVars false

namespace PyBN

/-- A state with an exception as a result. -/
def outcome {α : Type _} (p : α × Option PyErr) : Py α :=
  match p.2 with
  | none => .ok p.1
  | some e => .error e

namespace BayesNet

theorem setValuesTo_outcome (data : Data) : ∀ (i : ℕ) (ns : List ℕ) (F : Dict ℕ (NodeData ℕ ℤ)), outcome (setValuesTo data i ns F) = setValues data i ns F
  | _, [], _ => rfl
  | i, n :: ns, F => by
    rw [setValuesTo, setValues]
    cases data.col i with
    | error e => rfl
    | ok c =>
      cases h : F.get n with
      | error e => simp only [Py.bind_ok, h]; rfl
      | ok d => simp only [Py.bind_ok, h]; exact setValuesTo_outcome data (i + 1) ns _

theorem setTablesTo_outcome (fill : ℕ → Py ℚ) : ∀ (rvs : List ℕ) (bn : BayesNet ℕ ℤ), outcome (setTablesTo fill rvs bn) = setTables fill rvs bn
  | [], _ => rfl
  | rv :: rvs, bn => by
    rw [setTablesTo, setTables]
    cases bn.parents rv with
    | error e => rfl
    | ok ps =>
      simp only [Py.bind_ok]
      cases pyMap bn.card ps with
      | error e => rfl
      | ok cs =>
        simp only [Py.bind_ok]
        cases bn.card rv with
        | error e => rfl
        | ok c =>
          simp only [Py.bind_ok]
          cases fill (cs.prod * c) with
          | error e => rfl
          | ok x =>
            simp only [Py.bind_ok]
            cases h : bn.F.get rv with
            | error e => rfl
            | ok d => simp only [Py.bind_ok]; exact setTablesTo_outcome fill rvs _

theorem setTablesTo_VE (fill : ℕ → Py ℚ) : ∀ (rvs : List ℕ) (bn : BayesNet ℕ ℤ), (setTablesTo fill rvs bn).1.V = bn.V ∧ (setTablesTo fill rvs bn).1.E = bn.E
  | [], _ => ⟨rfl, rfl⟩
  | rv :: rvs, bn => by
    rw [setTablesTo]
    split
    · exact ⟨rfl, rfl⟩
    · exact setTablesTo_VE fill rvs _

theorem prepareTo_VE (fill : ℕ → Py ℚ) (bn : BayesNet ℕ ℤ) (data : Data) (ns : List ℕ) :
    (prepareTo fill bn data ns).1.V = bn.V ∧ (prepareTo fill bn data ns).1.E = bn.E := by
  unfold prepareTo
  split
  · exact ⟨rfl, rfl⟩
  · exact setTablesTo_VE _ _ _

theorem prepareTo_outcome (fill : ℕ → Py ℚ) (bn : BayesNet ℕ ℤ) (data : Data) (ns : List ℕ) :
    outcome (prepareTo fill bn data ns) = (do let F1 ← setValues data 0 ns bn.F; setTables fill ns { bn with F := F1 }) := by
  unfold prepareTo
  rw [← setValuesTo_outcome]
  rcases setValuesTo data 0 ns bn.F with ⟨F1, _ | e⟩
  · exact setTablesTo_outcome fill ns _
  · rfl

theorem learn_eq (hE : HashOrder (ℕ × ℤ)) (hI : HashOrder ℤ) (fill : ℕ → Py ℚ) (bn : BayesNet ℕ ℤ) (data : Data) (ns : List ℕ) :
    learn hE hI fill bn data ns = (do
      let bn2 ← outcome (prepareTo fill bn data ns)
      let cnt ← (do
        let init ← pyMap (fun rv => do let c ← bn2.cpt rv; pure (rv, c)) ns
        countRows hE hI bn2 ns data.rows (Dict.ofPairs init))
      pure (bn2, cnt)) := by
  rw [prepareTo_outcome]
  unfold learn
  simp only [bind_assoc]

/-- Without `counts`, `mleAfter` has the result of `mleEstimator`. -/
theorem mleAfter_false (hE : HashOrder (ℕ × ℤ)) (hI : HashOrder ℤ) (bn : BayesNet ℕ ℤ) (data : Data) (nodes : Option (List ℕ)) :
    outcome (mleAfter hE hI bn data nodes false) = mleEstimator hE hI bn data nodes := by
  have hVE := prepareTo_VE (fun _ => .ok 0) bn data (nodes.getD bn.V)
  unfold mleAfter mleEstimator
  dsimp only
  rw [learn_eq]
  generalize prepareTo (fun _ => .ok 0) bn data (nodes.getD bn.V) = r at hVE ⊢
  rcases r with ⟨bn2, _ | e⟩
  · simp only [show outcome (bn2, (none : Option PyErr)) = .ok bn2 from rfl, Py.bind_ok]
    generalize (do
        let init ← pyMap (fun rv => do let c ← bn2.cpt rv; pure (rv, c)) (nodes.getD bn.V)
        countRows hE hI bn2 (nodes.getD bn.V) data.rows (Dict.ofPairs init) : Py (Dict ℕ (List ℚ))) = c
    rcases c with e | cnt
    · rfl
    · simp only [Py.bind_ok, Bool.false_eq_true, if_false, Py.pure_eq]
      dsimp only at hVE
      rw [hVE.2]
      generalize (pyMap _ (nodes.getD bn.V) : Py (List (ℕ × NodeData ℕ ℤ))) = m
      rcases m with e | F
      · rfl
      · show Except.ok _ = Except.ok _
        rw [hVE.1]
  · rfl

/-- With `counts`, the exception is that of the common part. -/
theorem mleAfter_true (hE : HashOrder (ℕ × ℤ)) (hI : HashOrder ℤ) (bn : BayesNet ℕ ℤ) (data : Data) (nodes : Option (List ℕ)) :
    outcome (mleAfter hE hI bn data nodes true) = (learn hE hI (fun _ => .ok 0) bn data (nodes.getD bn.V)).map (·.1) := by
  unfold mleAfter
  dsimp only
  rw [learn_eq]
  generalize prepareTo (fun _ => .ok 0) bn data (nodes.getD bn.V) = r
  rcases r with ⟨bn2, _ | e⟩
  · simp only [show outcome (bn2, (none : Option PyErr)) = .ok bn2 from rfl, Py.bind_ok]
    generalize (do
        let init ← pyMap (fun rv => do let c ← bn2.cpt rv; pure (rv, c)) (nodes.getD bn.V)
        countRows hE hI bn2 (nodes.getD bn.V) data.rows (Dict.ofPairs init) : Py (Dict ℕ (List ℚ))) = c
    rcases c with e | cnt
    · rfl
    · rfl
  · rfl

end BayesNet
end PyBN
