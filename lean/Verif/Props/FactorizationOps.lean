import Verif.Proofs.FactorizationOps
import Verif.Props.Inference

/-!
# The operators of a `Factorization`, in any order: C184 - C187
-/

set_option linter.unusedSectionVars false

namespace PyBN
open Factorization Classical
variable {N A : Type _} [DecidableEq N] [DecidableEq A]

/-- C184: whatever calls are made on `Factorization(bn, nodes)`, in whatever order and however many of them fail, each call raises exactly the
exception it should and the object always stands for the function those calls describe. -/
theorem C184_history (h : HashOrder N) (bn : BayesNet N A) (wb : bn.WF) (nn : bn.Nonneg) (nodes : Option (List N))
    (hn : ∀ v ∈ nodes.getD bn.V, v ∈ bn.V) (calls : List (Op N A)) :
    ∃ p, initNodes bn nodes = .ok p ∧
      (steps h bn p calls).2 = ((Meaning.start bn (nodes.getD bn.V)).steps bn calls).2 ∧
      Shows bn (steps h bn p calls).1 ((Meaning.start bn (nodes.getD bn.V)).steps bn calls).1 := by
  obtain ⟨phi, e, H⟩ := init_holds wb nn hn
  obtain ⟨h1, h2⟩ := steps_holds h wb nn calls H
  exact ⟨⟨phi, [], []⟩, by simp [initNodes, e], h1, h2.toShows⟩

/-- The default is the whole network: its function is the joint probability, of all nodes. -/
theorem C184_start (bn : BayesNet N A) (wb : bn.WF) : (Meaning.start bn bn.V).fn = bn.joint ∧ ∀ v, v ∈ (Meaning.start bn bn.V).vars ↔ v ∈ bn.V := by
  refine ⟨rfl, fun v => ?_⟩
  simp only [Meaning.start, List.mem_flatMap, BayesNet.fam, List.mem_cons]
  constructor
  · rintro ⟨u, hu, rfl | hv⟩
    · exact hu
    · exact wb.parents_mem u hu v hv
  · intro hv; exact ⟨v, hv, .inl rfl⟩

theorem steps_append (h : HashOrder N) (bn : BayesNet N A) : ∀ (os os' : List (Op N A)) (p : Factorization N A),
    steps h bn p (os ++ os') = ((steps h bn (steps h bn p os).1 os').1, (steps h bn p os).2 ++ (steps h bn (steps h bn p os).1 os').2) := by
  intro os
  induction os with
  | nil => intro os' p; rfl
  | cons o os ih => intro os' p; simp [steps, ih]

/-- C185 is false of the code: on an object built for some of the nodes, `refresh()` gives the object for all of them. -/
theorem C185_false : ¬ ∀ (h : HashOrder ℕ) (nodes : List ℕ), (∀ v ∈ nodes, v ∈ exNet.V) → ∀ p, initNodes exNet (some nodes) = .ok p →
    (step h exNet p .refresh).1 = p := by
  intro H
  obtain ⟨phi, e, r⟩ := initPhi_ok exNet_wf [0] (by decide)
  have e1 : initNodes exNet (some [0]) = .ok ⟨phi, [], []⟩ := by simp [initNodes, e]
  obtain ⟨phi', e', r'⟩ := initPhi_ok exNet_wf exNet.V (fun _ h => h)
  have h1 := H ⟨id, fun _ => List.Perm.refl _⟩ [0] (by decide) _ e1
  have h2 : step ⟨id, fun _ => List.Perm.refl _⟩ exNet (⟨phi, [], []⟩ : Factorization ℕ ℕ) .refresh = (⟨phi', [], []⟩, none) := by
    simp [step, initNodes, e']
  rw [h2] at h1
  have h3 : phi' = phi := by injection h1
  have l1 := r.length_eq
  have l2 := r'.length_eq
  rw [h3, ← l1] at l2
  exact absurd l2 (by decide)

/-- C185, the part that holds: on an object built for the whole network, after any calls, failed ones included, `refresh()` gives the newly
built object back, so everything that follows goes as if nothing had happened before. -/
theorem C185_refresh_partial (h : HashOrder N) (bn : BayesNet N A) (p : Factorization N A) (hp : initNodes bn none = .ok p)
    (calls later : List (Op N A)) :
    (steps h bn p (calls ++ [.refresh])).1 = p ∧
    (steps h bn p (calls ++ .refresh :: later)).1 = (steps h bn p later).1 ∧
    (steps h bn p (calls ++ .refresh :: later)).2 = (steps h bn p calls).2 ++ none :: (steps h bn p later).2 := by
  have hs : ∀ q, step h bn q .refresh = (p, none) := fun q => by simp [step, hp]
  refine ⟨by simp [steps_append, steps, hs], by simp [steps_append, steps, hs], by simp [steps_append, steps, hs]⟩

/-- C185, what `refresh()` does on any object: the object for the whole network. -/
theorem C185_refresh_subset (h : HashOrder N) (bn : BayesNet N A) (wb : bn.WF) (nn : bn.Nonneg) (p : Factorization N A) :
    (step h bn p .refresh).2 = none ∧ Shows bn (step h bn p .refresh).1 (Meaning.start bn bn.V) := by
  obtain ⟨phi, e, H⟩ := init_holds wb nn (nodes := bn.V) fun _ h => h
  have h1 : step h bn p .refresh = (⟨phi, [], []⟩, none) := by simp [step, initNodes, e]
  rw [h1]; exact ⟨rfl, H.toShows⟩

/-- C186 is false of the code: a reduction that raises has already recorded the impossible value in `map_assignment`. -/
theorem C186_false : ¬ ∀ (h : HashOrder ℕ) (p : Factorization ℕ ℕ), initNodes exNet none = .ok p → ∀ o : Op ℕ ℕ,
    (step h exNet p o).2 ≠ none → (step h exNet p o).1 = p := by
  intro H
  obtain ⟨p, e, _, _⟩ := C184_history ⟨id, fun _ => List.Perm.refl _⟩ exNet exNet_wf exNet_nonneg none (fun _ h => h) []
  obtain ⟨phi, e', H'⟩ := init_holds exNet_wf exNet_nonneg (nodes := exNet.V) fun _ h => h
  have e1 : initNodes exNet none = .ok ⟨phi, [], []⟩ := by simp [initNodes, e']
  have hr := reducePhiS_bad ⟨id, fun _ => List.Perm.refl _⟩ exNet_wf (rv := 0) (val := 9) (by decide) (by decide) H'.wf
    ((H'.vars 0).2 (by decide))
  have h1 := H ⟨id, fun _ => List.Perm.refl _⟩ _ e1 (.reduce 0 9) (by simp only [step, hr]; simp)
  simp only [step, hr] at h1
  have h2 : Dict.set ([] : Dict ℕ ℕ) 0 9 = [] := by injection h1
  cases h2

/-- C186, the part that holds: a call that raises leaves the factors and `map_factors` as they were - and, for `/` and `//`, the whole object. -/
theorem C186_failed_call_partial (h : HashOrder N) (bn : BayesNet N A) (wb : bn.WF) (nn : bn.Nonneg) (nodes : Option (List N))
    (hn : ∀ v ∈ nodes.getD bn.V, v ∈ bn.V) (calls : List (Op N A)) (p q : Factorization N A) (hp : initNodes bn nodes = .ok p)
    (hq : (steps h bn p calls).1 = q) (o : Op N A) (ho : (step h bn q o).2 ≠ none) :
    (step h bn q o).1.phi = q.phi ∧ (step h bn q o).1.mapFactors = q.mapFactors ∧
    ((∀ v x, o ≠ .reduce v x) → (step h bn q o).1 = q) ∧
    ∀ v x, o = .reduce v x → (step h bn q o).1.mapAssignment = q.mapAssignment.set v x := by
  obtain ⟨phi, e, H⟩ := init_holds wb nn hn
  have e1 : initNodes bn nodes = .ok ⟨phi, [], []⟩ := by simp [initNodes, e]
  rw [hp] at e1
  cases e1
  have H1 := (steps_holds h wb nn calls H).2
  rw [hq] at H1
  generalize (Meaning.start bn (nodes.getD bn.V)).steps bn calls = mm at H1
  cases o with
  | reduce v x =>
    have hb : reducePhiS h bn v x q.phi = (q.phi, some .valueError) := by
      by_cases hv : v ∈ mm.1.vars
      · by_cases hx : x ∈ bn.valuesOf v
        · obtain ⟨phi', e', _⟩ := reducePhi_ok h wb (H1.known v hv) hx q.phi H1.wf
          simp [step, reducePhiS_ok h e'] at ho
        · exact reducePhiS_bad h wb (H1.known v hv) hx H1.wf ((H1.vars v).2 hv)
      · simp [step, reducePhiS_none h (fun hm => hv ((H1.vars v).1 hm))] at ho
    simp only [step, hb]
    exact ⟨trivial, trivial, fun h0 => absurd rfl (h0 v x), fun v' x' h0 => by cases h0; rfl⟩
  | sumOut v =>
    have : (step h bn q (.sumOut v)).1 = q := by
      cases e : q.sumElim h v with
      | ok p' => simp [step, e] at ho
      | error x => simp [step, e]
    rw [this]; exact ⟨rfl, rfl, fun _ => rfl, fun v' x' h0 => by cases h0⟩
  | maxOut v =>
    have : (step h bn q (.maxOut v)).1 = q := by
      cases e : q.maxElim h v with
      | ok p' => simp [step, e] at ho
      | error x => simp [step, e]
    rw [this]; exact ⟨rfl, rfl, fun _ => rfl, fun v' x' h0 => by cases h0⟩
  | refresh => exact absurd (C185_refresh_subset h bn wb nn q).1 ho

/-! The hypotheses are met: a concrete history with a failing call in it. -/

example : (∀ v ∈ (none : Option (List ℕ)).getD exNet.V, v ∈ exNet.V) := fun _ h => h

/-- After `F - (0, 9)` (raises), `F / 0`, `F / 0` (raises) on the three-node example the variables left are 1 and 2. -/
example : ((Meaning.start exNet exNet.V).steps exNet [.reduce 0 9, .sumOut 0, .sumOut 0]).2 = [some .valueError, none, some .indexError] := by
  have h1 : (9 : ℕ) ∉ exNet.valuesOf 0 := by decide
  have h2 : (0 : ℕ) ∈ exNet.V.flatMap exNet.fam := by decide
  simp [Meaning.steps, Meaning.step, Meaning.start, h1, h2]

end PyBN
