import Verif.Proofs.Stale2
import Verif.Proofs.Sample

/-! Tables that are too short: no query returns.  Tables of a wrong length: no sampler returns. -/

set_option linter.unusedSectionVars false

namespace PyBN
variable {N A : Type _} [DecidableEq N] [DecidableEq A]
open Factor Factorization

variable {c : N → ℕ} {f g : Factor N} {rv : N}

/-- Fewer entries than the scope asks for. -/
def Short (c : N → ℕ) (f : Factor N) : Prop := f.cpt.length < f.size c

theorem mul_shape (h : HashOrder N) (w1 : f.Shape c) (w2 : g.Shape c) {r : Factor N × Factor N} (hr : f.mul h g = .ok r) :
    ¬ Short c f ∧ ¬ Short c g ∧ r.1.WF c ∧ ∀ v, v ∈ r.1.scope ↔ v ∈ f.scope ∨ v ∈ g.scope := by
  have cutWF : ∀ {k : Factor N}, k.Shape c → k.size c ≤ k.cpt.length → (k.recut (k.cpt.take (k.size c))).WF c := by
    intro k wk hk
    exact Shape.wf (f := k.recut _) wk (by show (k.cpt.take (k.size c)).length = k.size c; rw [List.length_take]; omega)
  have core : ∀ {f g : Factor N} {q}, f.Shape c → g.Shape c → mulCore h f g = .ok q → f.size c ≤ f.cpt.length →
      g.size c ≤ g.cpt.length → ∀ x : N, (⟨x, q.1, q.2.1, q.2.2.1, q.2.2.2⟩ : Factor N).WF c ∧
        ∀ v, v ∈ q.2.1 ↔ v ∈ f.scope ∨ v ∈ g.scope := by
    intro f g q w1 w2 hq h1 h2 x
    have e := mulCore_extra h (cutWF w1 h1) (cutWF w2 h2) (f.cpt.drop (f.size c)) (g.cpt.drop (g.size c))
    have e' : mulCore h f g = mulCore h (f.recut (f.cpt.take (f.size c))) (g.recut (g.cpt.take (g.size c))) := by
      rw [← e]
      show mulCore h f g = mulCore h (f.recut (f.cpt.take (f.size c) ++ f.cpt.drop (f.size c)))
        (g.recut (g.cpt.take (g.size c) ++ g.cpt.drop (g.size c)))
      rw [List.take_append_drop, List.take_append_drop]; rfl
    obtain ⟨psi, scope, card, stride, e1, e2, e3, _⟩ := mulCore_ok h (cutWF w1 h1) (cutWF w2 h2) x
    rw [e', e1] at hq
    cases hq
    exact ⟨e2, e3⟩
  unfold Factor.mul at hr
  split at hr
  · cases hq : mulCore h f g with
    | error e => rw [hq] at hr; cases hr
    | ok q =>
      rw [hq, Py.bind_ok] at hr
      obtain ⟨h1, h2⟩ := mulCore_reads h w1 w2 hq
      obtain ⟨k1, k2⟩ := core w1 w2 hq h1 h2 f.var
      cases hr
      exact ⟨not_lt.2 h1, not_lt.2 h2, k1, k2⟩
  · cases hq : mulCore h g f with
    | error e => rw [hq] at hr; cases hr
    | ok q =>
      rw [hq, Py.bind_ok] at hr
      obtain ⟨h1, h2⟩ := mulCore_reads h w2 w1 hq
      obtain ⟨k1, k2⟩ := core w2 w1 hq h1 h2 f.var
      cases hr
      exact ⟨not_lt.2 h2, not_lt.2 h1, k1, fun v => by rw [or_comm]; exact k2 v⟩

theorem WF.not_short (w : f.WF c) : ¬ Short c f := not_lt.2 w.cpt_len.ge

theorem mulAll_shape (h : HashOrder N) : ∀ (fs : List (Factor N)) {psi r : Factor N}, psi.Shape c → (∀ f ∈ fs, f.Shape c) →
    mulAll h psi fs = .ok r →
    r.Shape c ∧ (∀ v ∈ psi.scope, v ∈ r.scope) ∧ (fs ≠ [] → ¬ Short c psi ∧ ∀ f ∈ fs, ¬ Short c f) ∧ (fs = [] → r = psi)
  | [], psi, r, w, _, hr => by
      cases hr
      exact ⟨w, fun _ h => h, fun h => absurd rfl h, fun _ => rfl⟩
  | f :: fs, psi, r, w, hw, hr => by
      unfold Factorization.mulAll at hr
      cases e : psi.mul h f with
      | error e' => rw [e] at hr; cases hr
      | ok q =>
        rw [e, Py.bind_ok] at hr
        obtain ⟨h1, h2, h3, h4⟩ := mul_shape h w (hw f (by simp)) e
        obtain ⟨k1, k2, k3, k4⟩ := mulAll_shape h fs h3.shape (fun g hg => hw g (by simp [hg])) hr
        refine ⟨k1, fun v hv => k2 v ((h4 v).2 (.inl hv)), fun _ => ⟨h1, ?_⟩, fun h => by simp at h⟩
        intro g hg
        rcases List.mem_cons.1 hg with rfl | hg
        · exact h2
        · exact (k3 (List.ne_nil_of_mem hg)).2 g hg

theorem sumout_shape (h : HashOrder N) (w : f.Shape c) (hrv : rv ∈ f.scope) {r : Factor N} (hr : f.sumout h rv = .ok r) :
    r.Shape c ∧ (Short c f → Short c r) := by
  obtain ⟨P, Q, f0, R, he⟩ := w.sumout_eq h hrv
  have := he f.cpt
  rw [recut_self] at this
  rw [this] at hr
  cases e : elimLoop (fun k => sumC f.cpt P k (c rv) 0 0) (c rv) P (f.cpt.length / c rv) 0 with
  | error e' => rw [e] at hr; cases hr
  | ok l =>
    rw [e, Py.bind_ok] at hr
    cases hr
    refine ⟨R.shape, fun hs => ?_⟩
    have hl := elimLoop_length _ _ _ _ _ e
    show l.length < f0.size c
    rw [hl, R.size0]
    have : f.cpt.length < P * (c rv * Q) := by rw [← R.size_eq]; exact hs
    rw [Nat.div_lt_iff_lt_mul R.C_pos]
    calc f.cpt.length < P * (c rv * Q) := this
      _ = P * Q * c rv := by ring

theorem reduceLoop_exit (cpt : List ℚ) (C P E : ℕ) : ∀ (fuel i : ℕ) (acc : List ℚ) {r : List ℚ},
    reduceLoop cpt C P E fuel i acc = .ok r → cpt.length ≤ r.length * C
  | 0, i, acc, r, h => by
      simp only [reduceLoop] at h
      split at h
      · cases h
      · cases h; omega
  | fuel + 1, i, acc, r, h => by
      simp only [reduceLoop] at h
      split at h
      · split at h
        · cases h
        · split at h
          · cases h
          · exact reduceLoop_exit cpt C P E fuel _ _ h
      · cases h; omega

/-- A reduction that returns divides the length of the table by the number of values, exactly. -/
theorem reduce_shape (h : HashOrder N) (bn : BayesNet N A) (w : f.Shape c) (hrv : rv ∈ f.scope) {val : A} {r : Factor N}
    (hr : f.reduce h bn rv val = .ok r) :
    r.Shape c ∧ r.cpt.length * c rv = f.cpt.length ∧ r.size c * c rv = f.size c ∧ 0 < c rv ∧ r.scope = f.scope.erase rv := by
  obtain ⟨P, Q, f0, R, he⟩ := w.reduce_eq h bn hrv
  have := he f.cpt val
  rw [recut_self] at this
  rw [this] at hr
  cases e1 : bn.values rv with
  | error e' => rw [e1] at hr; cases hr
  | ok vals =>
    rw [e1, Py.bind_ok] at hr
    cases e2 : pyIndex vals val with
    | error e' => rw [e2] at hr; cases hr
    | ok x =>
      rw [e2, Py.bind_ok] at hr
      cases e : reduceLoop f.cpt (c rv) P (f.cpt.length / c rv) (f.cpt.length / c rv + 1) (x * P) [] with
      | error e' => rw [e] at hr; cases hr
      | ok l =>
        rw [e, Py.bind_ok] at hr
        cases hr
        have h1 := reduceLoop_length _ _ _ _ _ _ _ (Nat.zero_le _) e
        have h2 := reduceLoop_exit _ _ _ _ _ _ _ e
        have h3 : l.length * c rv ≤ f.cpt.length := (Nat.mul_le_mul_right _ h1).trans (Nat.div_mul_le_self _ _)
        refine ⟨R.shape, le_antisymm h3 h2, ?_, R.C_pos, R.scope⟩
        show f0.size c * c rv = _
        rw [R.size0, R.size_eq]; ring

/-! ### No query returns -/

/-- There are at least two factors and one is too short. -/
def StuckPhi (c : N → ℕ) (phi : List (Factor N)) : Prop :=
  (∀ f ∈ phi, f.Shape c) ∧ 2 ≤ phi.length ∧ ∃ f ∈ phi, Short c f

theorem StuckPhi.sumElim (h : HashOrder N) {p q : Factorization N A} (hp : StuckPhi c p.phi) (rv : N)
    (hq : p.sumElim h rv = .ok q) : StuckPhi c q.phi := by
  obtain ⟨hw, hlen, g, hg, hs⟩ := hp
  unfold Factorization.sumElim relProduct at hq
  have hsum : (relevant p.phi rv).length + (irrelevant p.phi rv).length = p.phi.length := length_filter_split _ _
  have hrw : ∀ f ∈ relevant p.phi rv, f.Shape c ∧ rv ∈ f.scope := fun f hf =>
    ⟨hw f (List.mem_filter.1 hf).1, by simpa using (List.mem_filter.1 hf).2⟩
  have hiw : ∀ f ∈ irrelevant p.phi rv, f.Shape c := fun f hf => hw f (List.mem_filter.1 hf).1
  have hsplit : g ∈ relevant p.phi rv ∨ g ∈ irrelevant p.phi rv := by
    by_cases h : rv ∈ g.scope
    · exact .inl (List.mem_filter.2 ⟨hg, by simpa using h⟩)
    · exact .inr (List.mem_filter.2 ⟨hg, by simpa using h⟩)
  revert hq hsum hrw hsplit
  generalize relevant p.phi rv = rs
  intro hq hsum hrw hsplit
  cases rs with
  | nil => cases hq
  | cons f fs =>
    dsimp only at hq
    cases e : mulAll h f fs with
    | error e' => rw [e] at hq; cases hq
    | ok psi =>
      rw [e, Py.bind_ok] at hq
      obtain ⟨k1, k2, k3, k4⟩ := mulAll_shape h fs (hrw f (by simp)).1 (fun x hx => (hrw x (by simp [hx])).1) e
      cases e2 : psi.sumout h rv with
      | error e' => rw [e2] at hq; cases hq
      | ok psi' =>
        rw [e2, Py.bind_ok] at hq
        obtain ⟨j1, j2⟩ := sumout_shape h k1 (k2 rv (hrw f (by simp)).2) e2
        cases hq
        have hall : ∀ x ∈ irrelevant p.phi rv ++ [psi'], x.Shape c := by
          intro x hx
          rcases List.mem_append.1 hx with hx | hx
          · exact hiw x hx
          · rw [List.mem_singleton.1 hx]; exact j1
        by_cases hfs : fs = []
        · subst hfs
          refine ⟨hall, ?_, ?_⟩
          · simp only [List.length_append, List.length_cons, List.length_nil] at hsum ⊢; omega
          · rcases hsplit with hgr | hgi
            · have : g = f := by simpa using hgr
              subst this
              rw [k4 rfl] at j2
              exact ⟨psi', by simp, j2 hs⟩
            · exact ⟨g, List.mem_append_left _ hgi, hs⟩
        · have hk := k3 hfs
          have hgi : g ∈ irrelevant p.phi rv := by
            rcases hsplit with hgr | hgi
            · rcases List.mem_cons.1 hgr with rfl | hgr
              · exact absurd hs hk.1
              · exact absurd hs (hk.2 g hgr)
            · exact hgi
          refine ⟨hall, ?_, g, List.mem_append_left _ hgi, hs⟩
          have := List.length_pos_of_mem hgi
          simp only [List.length_append, List.length_cons, List.length_nil]
          omega

theorem StuckPhi.sumElimAll (h : HashOrder N) : ∀ (order : List N) {p q : Factorization N A}, StuckPhi c p.phi →
    sumElimAll h order p = .ok q → StuckPhi c q.phi
  | [], p, q, hp, hq => by cases hq; exact hp
  | v :: vs, p, q, hp, hq => by
      unfold PyBN.sumElimAll at hq
      cases e : p.sumElim h v with
      | error e' => rw [e] at hq; cases hq
      | ok p1 =>
        rw [e, Py.bind_ok] at hq
        exact StuckPhi.sumElimAll h vs (hp.sumElim h v e) hq

theorem reducePhi_shape (h : HashOrder N) (bn : BayesNet N A) (rv : N) (val : A) : ∀ (phi : List (Factor N)) {phi' : List (Factor N)},
    (∀ f ∈ phi, f.Shape c) → reducePhi h bn rv val phi = .ok phi' →
    List.Forall₂ (fun f f' => f'.Shape c ∧ (Short c f → Short c f')) phi phi'
  | [], _, _, hr => by cases hr; exact .nil
  | f :: fs, phi', hw, hr => by
      unfold reducePhi at hr
      split at hr
      · rename_i hm
        cases e1 : f.reduce h bn rv val with
        | error e => rw [e1] at hr; cases hr
        | ok a =>
          rw [e1, Py.bind_ok] at hr
          cases e2 : reducePhi h bn rv val fs with
          | error e => rw [e2] at hr; cases hr
          | ok b =>
            rw [e2] at hr; cases hr
            obtain ⟨h1, h2, h3, h4, _⟩ := reduce_shape h bn (hw f (by simp)) hm e1
            refine .cons ⟨h1, fun hs => ?_⟩ (reducePhi_shape h bn rv val fs (fun g hg => hw g (by simp [hg])) e2)
            have : a.cpt.length * c rv < a.size c * c rv := by rw [h2, h3]; exact hs
            exact Nat.lt_of_mul_lt_mul_right this
      · cases e2 : reducePhi h bn rv val fs with
        | error e => rw [e2] at hr; cases hr
        | ok b =>
          rw [e2] at hr; cases hr
          exact .cons ⟨hw f (by simp), id⟩ (reducePhi_shape h bn rv val fs (fun g hg => hw g (by simp [hg])) e2)

theorem rel_left {α β : Type _} {R : α → β → Prop} {l : List α} {l' : List β} (h : List.Forall₂ R l l') :
    ∀ x ∈ l, ∃ y ∈ l', R x y := by
  induction h with
  | nil => simp
  | cons h1 _ ih =>
    intro x hx
    rcases List.mem_cons.1 hx with rfl | hx
    · exact ⟨_, by simp, h1⟩
    · obtain ⟨y, hy, hr⟩ := ih x hx
      exact ⟨y, by simp [hy], hr⟩

theorem StuckPhi.reduce {phi phi' : List (Factor N)} (hp : StuckPhi c phi)
    (h : List.Forall₂ (fun f f' => f'.Shape c ∧ (Short c f → Short c f')) phi phi') : StuckPhi c phi' := by
  obtain ⟨_, hl, g, hg, hs⟩ := hp
  obtain ⟨g', hg', hr⟩ := rel_left h g hg
  refine ⟨fun f hf => ?_, h.length_eq ▸ hl, g', hg', hr.2 hs⟩
  obtain ⟨_, _, hf⟩ := rel_left h.flip f hf
  exact hf.1

theorem StuckPhi.applyEvidence (h : HashOrder N) (bn : BayesNet N A) : ∀ (es : List (N × A)) {p : Factorization N A} {order : List N}
    {q : Factorization N A × List N}, StuckPhi c p.phi → applyEvidence h bn es p order = .ok q → StuckPhi c q.1.phi
  | [], p, order, q, hp, hq => by cases hq; exact hp
  | (v, x) :: es, p, order, q, hp, hq => by
      unfold PyBN.applyEvidence Factorization.sub at hq
      cases e1 : reducePhi h bn v x p.phi with
      | error e => rw [e1] at hq; cases hq
      | ok phi =>
        rw [e1] at hq
        simp only [Py.bind_ok, Py.pure_eq] at hq
        cases e2 : pyRemove order v with
        | error e => rw [e2] at hq; cases hq
        | ok o =>
          rw [e2, Py.bind_ok] at hq
          exact StuckPhi.applyEvidence h bn es (p := ⟨phi, p.mapFactors, p.mapAssignment.set v x⟩)
            (hp.reduce (reducePhi_shape h bn v x p.phi hp.1 e1)) hq

theorem StuckPhi.consolidate {p : Factorization N A} (hp : StuckPhi c p.phi) : p.consolidate = .error .nameError := by
  obtain ⟨_, hl, _⟩ := hp
  unfold Factorization.consolidate
  match hphi : p.phi with
  | [] => rw [hphi] at hl; simp at hl
  | [f] => rw [hphi] at hl; simp at hl
  | f :: g :: l => rfl

end PyBN
