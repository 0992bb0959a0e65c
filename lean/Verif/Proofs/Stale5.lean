import Verif.Proofs.Stale4

/-! `ve_map` on networks with a table that is too short. -/

set_option linter.unusedSectionVars false

namespace PyBN
variable {N A : Type _} [DecidableEq N] [DecidableEq A]
open Factor Factorization
variable {c : N → ℕ} {f : Factor N} {rv u : N}

theorem Factor.maxout_shape (w : f.Shape c) (hrv : rv ∈ f.scope) {r : Factor N} (hr : f.maxout rv = .ok r) :
    r.Shape c ∧ (Short c f → Short c r) ∧ r.scope = f.scope.erase rv := by
  obtain ⟨P, Q, f0, R, he⟩ := w.maxout_eq hrv
  have := he f.cpt
  rw [recut_self] at this
  rw [this] at hr
  cases e : elimLoop (fun k => maxC f.cpt P k (c rv) 0 0) (c rv) P (f.cpt.length / c rv) 0 with
  | error e' => rw [e] at hr; cases hr
  | ok l =>
    rw [e, Py.bind_ok] at hr
    cases hr
    refine ⟨R.shape, fun hs => ?_, R.scope⟩
    have hl := elimLoop_length _ _ _ _ _ e
    show l.length < f0.size c
    rw [hl, R.size0]
    have : f.cpt.length < P * (c rv * Q) := by rw [← R.size_eq]; exact hs
    rw [Nat.div_lt_iff_lt_mul R.C_pos]
    calc f.cpt.length < P * (c rv * Q) := this
      _ = P * Q * c rv := by ring

/-- The scope of a product that was computed. -/
theorem mulAll_scope (h : HashOrder N) : ∀ (fs : List (Factor N)) {psi r : Factor N}, psi.Shape c → (∀ f ∈ fs, f.Shape c) →
    mulAll h psi fs = .ok r → ∀ v, v ∈ r.scope ↔ v ∈ psi.scope ∨ ∃ f ∈ fs, v ∈ f.scope
  | [], psi, r, w, _, hr => by cases hr; simp
  | f :: fs, psi, r, w, hw, hr => by
      unfold Factorization.mulAll at hr
      cases e : psi.mul h f with
      | error e' => rw [e] at hr; cases hr
      | ok q =>
        rw [e, Py.bind_ok] at hr
        obtain ⟨h1, h2, h3, h4⟩ := mul_shape h w (hw f (by simp)) e
        intro v
        rw [mulAll_scope h fs h3.shape (fun g hg => hw g (by simp [hg])) hr v, h4]
        simp [or_assoc]

/-- What `F // rv` does if it returns: the new factor, and that no short factor was multiplied. -/
theorem maxElim_shape (h : HashOrder N) {p q : Factorization N A} (hw : ∀ f ∈ p.phi, f.Shape c) (rv : N) (hq : p.maxElim h rv = .ok q) :
    ∃ psi', q.phi = irrelevant p.phi rv ++ [psi'] ∧ psi'.Shape c ∧
      (∀ v, v ∈ psi'.scope ↔ v ≠ rv ∧ ∃ f ∈ relevant p.phi rv, v ∈ f.scope) ∧
      ∀ g ∈ relevant p.phi rv, Short c g → relevant p.phi rv = [g] ∧ Short c psi' := by
  unfold Factorization.maxElim relProduct at hq
  have hrw : ∀ f ∈ relevant p.phi rv, f.Shape c ∧ rv ∈ f.scope := fun f hf =>
    ⟨hw f (List.mem_filter.1 hf).1, by simpa using (List.mem_filter.1 hf).2⟩
  revert hq hrw
  generalize relevant p.phi rv = rs
  intro hq hrw
  cases rs with
  | nil => cases hq
  | cons f fs =>
    dsimp only at hq
    cases e : mulAll h f fs with
    | error e' => rw [e] at hq; cases hq
    | ok psi =>
      rw [e, Py.bind_ok] at hq
      obtain ⟨k1, k2, k3, k4⟩ := mulAll_shape h fs (hrw f (by simp)).1 (fun x hx => (hrw x (by simp [hx])).1) e
      have ksc := mulAll_scope h fs (hrw f (by simp)).1 (fun x hx => (hrw x (by simp [hx])).1) e
      cases e2 : psi.maxout rv with
      | error e' => rw [e2] at hq; cases hq
      | ok psi' =>
        rw [e2, Py.bind_ok] at hq
        obtain ⟨j1, j2, j3⟩ := maxout_shape k1 (k2 rv (hrw f (by simp)).2) e2
        cases hq
        refine ⟨psi', rfl, j1, fun v => ?_, fun g hg hs => ?_⟩
        · rw [j3, (show psi.scope.Nodup from k1.scope_nodup).mem_erase_iff, ksc]; simp
        · by_cases hfs : fs = []
          · subst hfs
            have : g = f := by simpa using hg
            subst this
            rw [k4 rfl] at j2
            exact ⟨rfl, j2 hs⟩
          · exfalso
            rcases List.mem_cons.1 hg with rfl | hg
            · exact (k3 hfs).1 hs
            · exact (k3 hfs).2 g hg hs

theorem mem_relevant {phi : List (Factor N)} {g : Factor N} : g ∈ relevant phi rv ↔ g ∈ phi ∧ rv ∈ g.scope := by simp [relevant]
theorem mem_irrelevant {phi : List (Factor N)} {g : Factor N} : g ∈ irrelevant phi rv ↔ g ∈ phi ∧ rv ∉ g.scope := by simp [irrelevant]

theorem StuckPhi.maxElim (h : HashOrder N) {p q : Factorization N A} (hp : StuckPhi c p.phi) (rv : N)
    (hq : p.maxElim h rv = .ok q) : StuckPhi c q.phi := by
  obtain ⟨hw, hlen, g, hg, hs⟩ := hp
  obtain ⟨psi', e, w', sc, hsh⟩ := maxElim_shape h hw rv hq
  have hsum : (relevant p.phi rv).length + (irrelevant p.phi rv).length = p.phi.length := length_filter_split _ _
  have hall : ∀ x ∈ q.phi, x.Shape c := by
    intro x hx
    rw [e] at hx
    rcases List.mem_append.1 hx with hx | hx
    · exact hw x (mem_irrelevant.1 hx).1
    · rw [List.mem_singleton.1 hx]; exact w'
  by_cases hgr : rv ∈ g.scope
  · obtain ⟨h1, h2⟩ := hsh g (mem_relevant.2 ⟨hg, hgr⟩) hs
    rw [h1, List.length_singleton] at hsum
    exact ⟨hall, by rw [e, List.length_append, List.length_singleton]; omega, psi', by rw [e]; simp, h2⟩
  · have hgi : g ∈ irrelevant p.phi rv := mem_irrelevant.2 ⟨hg, hgr⟩
    have := List.length_pos_of_mem hgi
    exact ⟨hall, by rw [e, List.length_append, List.length_singleton]; omega, g, by rw [e]; simp [hgi], hs⟩

theorem StuckPhi.maxElimAll (h : HashOrder N) : ∀ (order : List N) {p q : Factorization N A}, StuckPhi c p.phi →
    maxElimAll h order p = .ok q → StuckPhi c q.phi
  | [], p, q, hp, hq => by cases hq; exact hp
  | v :: vs, p, q, hp, hq => by
      unfold PyBN.maxElimAll at hq
      cases e : p.maxElim h v with
      | error e' => rw [e] at hq; cases hq
      | ok p1 =>
        rw [e, Py.bind_ok] at hq
        exact StuckPhi.maxElimAll h vs (hp.maxElim h v e) hq

theorem initPhi_stuck {bn : BayesNet N A} (s : bn.ShapeWF) (hl : 2 ≤ bn.V.length)
    {v : N} (hv : v ∈ bn.V) (hs : (bn.cptOf v).length < bn.tableSize v) :
    ∃ phi, initPhi bn bn.V = .ok phi ∧ StuckPhi bn.cardOf phi := by
  obtain ⟨phi, e1, hphi⟩ := initPhi_shape s bn.V fun _ h => h
  refine ⟨phi, e1, fun f hf => ?_, hphi.length_eq ▸ hl, ?_⟩
  · obtain ⟨_, _, hf⟩ := rel_left hphi.flip f hf
    exact hf.1
  · obtain ⟨f, hf, h1, h2, h3⟩ := rel_left hphi v hv
    exact ⟨f, hf, by unfold Short; rw [h2, h3]; exact hs⟩

/-- A table that is too short: `ve_map(prob=True)` never returns. -/
theorem veMapProb_stuck (h : HashOrder N) (hE : HashOrder (N × A)) {bn : BayesNet N A} (s : bn.ShapeWF) (hl : 2 ≤ bn.V.length)
    {v : N} (hv : v ∈ bn.V) (hs : (bn.cptOf v).length < bn.tableSize v) (ev : Dict N A) (r : ℚ × Dict N A) :
    veMapProb h hE bn ev ≠ .ok r := by
  intro hm
  obtain ⟨phi, e1, st⟩ := initPhi_stuck s hl hv hs
  unfold veMapProb veMapCore Factorization.init at hm
  rw [e1] at hm
  simp only [Py.bind_ok, Py.pure_eq] at hm
  cases e3 : PyBN.applyEvidence h bn (hE.iter ev) ⟨phi, [], []⟩ bn.V with
  | error e => rw [e3] at hm; cases hm
  | ok q =>
    rw [e3, Py.bind_ok] at hm
    have st2 := StuckPhi.applyEvidence h bn _ (p := ⟨phi, [], []⟩) st e3
    cases e4 : PyBN.maxElimAll h q.2 q.1 with
    | error e => rw [e4] at hm; cases hm
    | ok p =>
      rw [e4, Py.bind_ok] at hm
      cases e5 : traceback h bn p.mapAssignment p.mapFactors with
      | error e => rw [e5] at hm; cases hm
      | ok asg =>
        rw [e5] at hm
        simp only [Py.bind_ok, (StuckPhi.maxElimAll h _ st2 e4).consolidate] at hm
        cases hm

/-! ### An unobserved parent -/

/-- At least two factors mention `u`, one of which is too short. -/
def Blocked (c : N → ℕ) (u : N) (phi : List (Factor N)) : Prop :=
  (∀ f ∈ phi, f.Shape c) ∧ 2 ≤ (relevant phi u).length ∧ ∃ g ∈ phi, u ∈ g.scope ∧ Short c g

theorem Blocked.elim_self (h : HashOrder N) {p q : Factorization N A} (hp : Blocked c u p.phi) : p.maxElim h u ≠ .ok q := by
  intro hq
  obtain ⟨hw, hlen, g, hg, hu, hs⟩ := hp
  obtain ⟨psi', e, w', sc, hsh⟩ := maxElim_shape h hw u hq
  rw [(hsh g (mem_relevant.2 ⟨hg, hu⟩) hs).1] at hlen
  simp at hlen

theorem relevant_append (l l' : List (Factor N)) : relevant (l ++ l') u = relevant l u ++ relevant l' u := by simp [relevant]

theorem relevant_split (phi : List (Factor N)) (rv u : N) :
    (relevant phi u).length = (relevant (relevant phi rv) u).length + (relevant (irrelevant phi rv) u).length := by
  induction phi with
  | nil => rfl
  | cons f fs ih =>
    simp only [relevant, irrelevant, List.filter_cons] at ih ⊢
    by_cases h1 : u ∈ f.scope <;> by_cases h2 : rv ∈ f.scope <;> simp [h1, h2, List.filter_cons, ih] <;> omega

theorem Blocked.elim (h : HashOrder N) {p q : Factorization N A} (hp : Blocked c u p.phi) {rv : N} (hne : u ≠ rv)
    (hq : p.maxElim h rv = .ok q) : Blocked c u q.phi := by
  obtain ⟨hw, hlen, g, hg, hu, hs⟩ := hp
  obtain ⟨psi', e, w', sc, hsh⟩ := maxElim_shape h hw rv hq
  have hall : ∀ x ∈ q.phi, x.Shape c := by
    intro x hx
    rw [e] at hx
    rcases List.mem_append.1 hx with hx | hx
    · exact hw x (mem_irrelevant.1 hx).1
    · rw [List.mem_singleton.1 hx]; exact w'
  have hsp := relevant_split p.phi rv u
  by_cases hgr : rv ∈ g.scope
  · obtain ⟨h1, h2⟩ := hsh g (mem_relevant.2 ⟨hg, hgr⟩) hs
    have hu' : u ∈ psi'.scope := (sc u).2 ⟨hne, g, mem_relevant.2 ⟨hg, hgr⟩, hu⟩
    refine ⟨hall, ?_, psi', by rw [e]; simp, hu', h2⟩
    rw [h1] at hsp
    rw [e, relevant_append]
    simp [relevant, hu, hu'] at hsp ⊢
    simp [relevant] at hlen
    omega
  · have hgi : g ∈ irrelevant p.phi rv := mem_irrelevant.2 ⟨hg, hgr⟩
    refine ⟨hall, ?_, g, by rw [e]; simp [hgi], hu, hs⟩
    rw [e, relevant_append, List.length_append]
    have hpos : 0 < (relevant (irrelevant p.phi rv) u).length := List.length_pos_of_mem (mem_relevant.2 ⟨hgi, hu⟩)
    by_cases h0 : (relevant (relevant p.phi rv) u).length = 0
    · omega
    · obtain ⟨k, hk⟩ := List.exists_mem_of_length_pos (Nat.pos_of_ne_zero h0)
      rw [mem_relevant] at hk
      have hu' : u ∈ psi'.scope := (sc u).2 ⟨hne, k, hk⟩
      have : (relevant [psi'] u).length = 1 := by simp [relevant, hu']
      omega

theorem Blocked.maxElimAll (h : HashOrder N) : ∀ (order : List N) {p q : Factorization N A}, Blocked c u p.phi → u ∈ order →
    maxElimAll h order p ≠ .ok q
  | [], p, q, _, hu => by cases hu
  | v :: vs, p, q, hp, hu => by
      intro hq
      unfold PyBN.maxElimAll at hq
      cases e : p.maxElim h v with
      | error e' => rw [e] at hq; cases hq
      | ok p1 =>
        rw [e, Py.bind_ok] at hq
        by_cases huv : u = v
        · subst huv; exact hp.elim_self h e
        · exact Blocked.maxElimAll h vs (hp.elim h huv e) (by simpa [huv] using hu) hq

theorem reducePhi_scope (h : HashOrder N) (bn : BayesNet N A) (rv : N) (val : A) : ∀ (phi : List (Factor N)) {phi' : List (Factor N)},
    (∀ f ∈ phi, f.Shape c) → reducePhi h bn rv val phi = .ok phi' →
    List.Forall₂ (fun f f' => f'.Shape c ∧ (Short c f → Short c f') ∧ ∀ u, u ≠ rv → (u ∈ f'.scope ↔ u ∈ f.scope)) phi phi'
  | [], _, _, hr => by cases hr; exact .nil
  | f :: fs, phi', hw, hr => by
      unfold reducePhi at hr
      split at hr
      · rename_i hm
        cases e1 : f.reduce h bn rv val with
        | error e => rw [e1] at hr; cases hr
        | ok a =>
          rw [e1, Py.bind_ok] at hr
          cases e2 : reducePhi h bn rv val fs with
          | error e => rw [e2] at hr; cases hr
          | ok b =>
            rw [e2] at hr; cases hr
            have wf := hw f (by simp)
            obtain ⟨h1, h2, h3, h4, h5⟩ := reduce_shape h bn wf hm e1
            refine .cons ⟨h1, fun hs => ?_, fun u hu => ?_⟩ (reducePhi_scope h bn rv val fs (fun g hg => hw g (by simp [hg])) e2)
            · have : a.cpt.length * c rv < a.size c * c rv := by rw [h2, h3]; exact hs
              exact Nat.lt_of_mul_lt_mul_right this
            · rw [h5, List.mem_erase_of_ne hu]
      · cases e2 : reducePhi h bn rv val fs with
        | error e => rw [e2] at hr; cases hr
        | ok b =>
          rw [e2] at hr; cases hr
          exact .cons ⟨hw f (by simp), id, fun _ _ => Iff.rfl⟩ (reducePhi_scope h bn rv val fs (fun g hg => hw g (by simp [hg])) e2)

theorem Blocked.reduce {phi phi' : List (Factor N)} (hp : Blocked c u phi) (hne : u ≠ rv)
    (h : List.Forall₂ (fun f f' => f'.Shape c ∧ (Short c f → Short c f') ∧ ∀ u, u ≠ rv → (u ∈ f'.scope ↔ u ∈ f.scope)) phi phi') :
    Blocked c u phi' := by
  obtain ⟨hw0, hl, g, hg, hu, hs⟩ := hp
  obtain ⟨g', hg', hr⟩ := rel_left h g hg
  refine ⟨fun f hf => ?_, ?_, g', hg', (hr.2.2 u hne).2 hu, hr.2.1 hs⟩
  · obtain ⟨_, _, hf⟩ := rel_left h.flip f hf
    exact hf.1
  · have : (relevant phi' u).length = (relevant phi u).length := by
      clear hl hg hg' hw0
      induction h with
      | nil => rfl
      | @cons a b _ _ h1 _ ih =>
        have hk := h1.2.2 u hne
        simp only [relevant, List.filter_cons] at ih ⊢
        by_cases hu : u ∈ a.scope
        · simp only [hu, hk.2 hu, decide_true, if_true, List.length_cons]; exact congrArg (· + 1) ih
        · simp only [hu, mt hk.1 hu, decide_false, Bool.false_eq_true, if_false]; exact ih
    omega

theorem Blocked.applyEvidence (h : HashOrder N) (bn : BayesNet N A) : ∀ (es : List (N × A)) {p : Factorization N A} {order : List N}
    {q : Factorization N A × List N}, Blocked c u p.phi → u ∈ order → u ∉ es.map Prod.fst → applyEvidence h bn es p order = .ok q →
    Blocked c u q.1.phi ∧ u ∈ q.2
  | [], p, order, q, hp, ho, _, hq => by cases hq; exact ⟨hp, ho⟩
  | (v, x) :: es, p, order, q, hp, ho, hu, hq => by
      rw [List.map_cons, List.mem_cons, not_or] at hu
      unfold PyBN.applyEvidence Factorization.sub at hq
      cases e1 : reducePhi h bn v x p.phi with
      | error e => rw [e1] at hq; cases hq
      | ok phi =>
        rw [e1] at hq
        simp only [Py.bind_ok, Py.pure_eq] at hq
        cases e2 : pyRemove order v with
        | error e => rw [e2] at hq; cases hq
        | ok o =>
          rw [e2, Py.bind_ok] at hq
          have ho' : u ∈ o := by
            unfold pyRemove at e2
            split at e2
            · cases e2; rw [List.mem_erase_of_ne hu.1]; exact ho
            · cases e2
          exact Blocked.applyEvidence h bn es (hp.reduce hu.1 (reducePhi_scope h bn v x p.phi hp.1 e1)) ho' hu.2 hq

/-- A table that is too short, of a node with an unobserved parent: `ve_map` never returns. -/
theorem veMap_blocked (h : HashOrder N) (hE : HashOrder (N × A)) {bn : BayesNet N A} (s : bn.ShapeWF) {v : N} (hv : v ∈ bn.V)
    (hs : (bn.cptOf v).length < bn.tableSize v) (ev : Dict N A) (hu : u ∈ bn.parentsOf v) (hev : u ∉ ev.keys) (r : Dict N A) :
    veMap h hE bn ev ≠ .ok r := by
  intro hm
  have hphi : ∀ vs : List N, (∀ v ∈ vs, v ∈ bn.V) → ∃ phi, initPhi bn vs = .ok phi ∧
      List.Forall₂ (fun v (f : Factor N) => f.Shape bn.cardOf ∧ f.scope = bn.fam v ∧ (Short bn.cardOf f ↔ (bn.cptOf v).length < bn.tableSize v)) vs phi := by
    intro vs
    induction vs with
    | nil => intro _; exact ⟨[], rfl, .nil⟩
    | cons x vs ih =>
      intro hx
      obtain ⟨f, e1, h1, h2, h3, h4⟩ := init_shape s (hx x (by simp))
      obtain ⟨phi, e2, h5⟩ := ih fun y hy => hx y (by simp [hy])
      exact ⟨f :: phi, by simp [initPhi, e1, e2], .cons ⟨h1, h3, by unfold Short; rw [h2, h4]⟩ h5⟩
  obtain ⟨phi, e1, hphi⟩ := hphi bn.V fun _ h => h
  have hne : u ≠ v := by
    rintro rfl
    exact (List.nodup_cons.1 (s.fam_nodup u hv)).1 hu
  have huV := s.parents_mem v hv u hu
  have st : Blocked bn.cardOf u phi := by
    refine ⟨fun f hf => ?_, ?_, ?_⟩
    · obtain ⟨_, _, hf⟩ := rel_left hphi.flip f hf
      exact hf.1
    · have key : (relevant phi u).length = (bn.V.filter fun x => decide (u ∈ bn.fam x)).length := by
        clear e1 hm
        generalize bn.V = vs at hphi
        induction hphi with
        | nil => rfl
        | @cons a b _ _ h1 _ ih =>
          simp only [relevant, List.filter_cons] at ih ⊢
          rw [h1.2.1]
          by_cases hh : u ∈ bn.fam a
          · simp only [hh, decide_true, if_true, List.length_cons]; exact congrArg (· + 1) ih
          · simp only [hh, decide_false, Bool.false_eq_true, if_false]; exact ih
      rw [key]
      have hsub : [u, v].Subperm (bn.V.filter fun x => decide (u ∈ bn.fam x)) := by
        apply List.Nodup.subperm (by simp [hne])
        intro x hx
        simp only [List.mem_cons, List.not_mem_nil, or_false] at hx
        rcases hx with rfl | rfl
        · exact List.mem_filter.2 ⟨huV, by simp [BayesNet.fam]⟩
        · exact List.mem_filter.2 ⟨hv, by simp [BayesNet.fam, hu]⟩
      exact hsub.length_le
    · obtain ⟨f, hf, h1, h2, h3⟩ := rel_left hphi v hv
      exact ⟨f, hf, by rw [h2]; simp [BayesNet.fam, hu], h3.2 hs⟩
  unfold veMap veMapCore Factorization.init at hm
  rw [e1] at hm
  simp only [Py.bind_ok, Py.pure_eq] at hm
  cases e3 : PyBN.applyEvidence h bn (hE.iter ev) ⟨phi, [], []⟩ bn.V with
  | error e => rw [e3] at hm; cases hm
  | ok q =>
    rw [e3, Py.bind_ok] at hm
    have hk : u ∉ (hE.iter ev).map Prod.fst := fun hh => hev (((hE.perm ev).map Prod.fst).mem_iff.1 hh)
    have st2 := Blocked.applyEvidence h bn _ (p := ⟨phi, [], []⟩) st huV hk e3
    cases e4 : PyBN.maxElimAll h q.2 q.1 with
    | error e => rw [e4] at hm; cases hm
    | ok p => exact Blocked.maxElimAll h _ st2.1 st2.2 e4

/-! ### The added parent is observed -/

/-- `u` is the slowest variable of the table, and the table has no room for it. -/
structure NoRoom (c : N → ℕ) (u : N) (f : Factor N) : Prop where
  shape : f.Shape c
  last : ∃ o, (o ++ [u]).Perm f.scope ∧ ∀ a, f.pos a = enc c (o ++ [u]) a
  len : f.cpt.length * c u = f.size c
  pos : 0 < f.cpt.length

theorem pos_unit {f : Factor N} (hn : f.scope.Nodup) {v : N} (hv : v ∈ f.scope) : f.pos (Asg.upd (fun _ => 0) v 1) = f.strideOf v := by
  have := pos_upd (f := f) hn (fun _ => 0) v 1
  rw [if_pos hv] at this
  have h0 : f.pos (fun _ => 0) = 0 := by
    unfold Factor.pos; simp
  rw [h0] at this
  push_cast at this
  have h2 : (f.pos (Asg.upd (fun _ => 0) v 1) : ℤ) = (f.strideOf v : ℤ) := by rw [this]; ring
  exact_mod_cast h2

theorem enc_zero {c : N → ℕ} : ∀ o : List N, enc c o (fun _ => 0) = 0
  | [] => rfl
  | v :: o => by simp [enc, enc_zero o]

theorem layout_of_units {c s : N → ℕ} : ∀ (o : List N) (p : ℕ), o.Nodup →
    (∀ w ∈ o, s w = p * enc c o (Asg.upd (fun _ => 0) w 1)) → IsLayout c s o p
  | [], _, _, _ => trivial
  | v :: o, p, hn, h => by
      have hn' := List.nodup_cons.1 hn
      refine ⟨?_, layout_of_units o (p * c v) hn'.2 fun w hw => ?_⟩
      · rw [h v (by simp)]
        simp [enc, Asg.upd_self, enc_upd_notMem hn'.1, enc_zero]
      · have hwv : v ≠ w := by rintro rfl; exact hn'.1 hw
        rw [h w (by simp [hw])]
        simp only [enc]
        rw [Asg.upd_ne _ _ hwv]
        ring

theorem NoRoom.layout (b : NoRoom c u f) : ∃ o, (o ++ [u]).Perm f.scope ∧ IsLayout c f.strideOf (o ++ [u]) 1 := by
  obtain ⟨o, hp, he⟩ := b.last
  have hn : f.scope.Nodup := b.shape.scope_nodup
  refine ⟨o, hp, layout_of_units _ _ (hp.nodup_iff.2 hn) fun w hw => ?_⟩
  rw [one_mul, ← he, pos_unit hn (hp.subset hw)]

/-- Fixing the slowest variable of a table without room for it fails. -/
theorem NoRoom.reduce_self (h : HashOrder N) (bn : BayesNet N A) (b : NoRoom c u f) (hc : 2 ≤ c u) (x : A) (r : Factor N) :
    f.reduce h bn u x ≠ .ok r := by
  intro hr
  obtain ⟨o, hp, hl⟩ := b.layout
  have hu : u ∈ f.scope := hp.subset (by simp)
  have s : Split c (f.recut (List.replicate (f.size c) 0)) u o [] := ⟨hp, hl⟩
  have hP : f.strideOf u = (o.map c).prod := s.stride_rv
  have hsz : f.size c = (o.map c).prod * c u := by
    unfold Factor.size; rw [← (hp.map c).prod_eq]; simp
  have hlen : f.cpt.length = (o.map c).prod := by
    have := b.len; rw [hsz] at this
    exact Nat.eq_of_mul_eq_mul_right (by omega) this
  have e1 : f.card.get u = .ok (c u) := Dict.get_of_get? (WF.card_get (f := f.recut _) b.shape hu)
  have e2 : f.stride.get u = .ok (f.strideOf u) := Dict.get_of_get? (WF.stride_get (f := f.recut _) b.shape hu)
  unfold Factor.reduce at hr
  rw [e1] at hr
  simp only [Py.bind_ok, if_neg (show ¬ c u = 0 by omega)] at hr
  cases e3 : bn.values u with
  | error e => rw [e3] at hr; cases hr
  | ok vals =>
    rw [e3, Py.bind_ok] at hr
    cases e4 : pyIndex vals x with
    | error e => rw [e4] at hr; cases hr
    | ok i =>
      rw [e4, Py.bind_ok, e2, Py.bind_ok, hP, ← hlen] at hr
      have hb := b.pos
      have hfail : ∀ l, reduceLoop f.cpt (c u) f.cpt.length (f.cpt.length / c u) (f.cpt.length / c u + 1) (i * f.cpt.length) [] ≠ .ok l := by
        intro l hl
        rw [reduceLoop, if_pos (by simpa using hb)] at hl
        cases i with
        | zero =>
          have hsl : pySlice f.cpt (0 * f.cpt.length) (0 * f.cpt.length + f.cpt.length) = f.cpt := by simp [pySlice]
          simp only [hsl] at hl
          rw [if_neg (by cases hc : f.cpt <;> simp_all)] at hl
          rw [if_pos (by simp only [List.length_nil, zero_add]; exact Nat.div_lt_self hb (by omega))] at hl
          cases hl
        | succ i =>
          have hsl : pySlice f.cpt ((i + 1) * f.cpt.length) ((i + 1) * f.cpt.length + f.cpt.length) = [] := by
            unfold pySlice
            rw [List.drop_eq_nil_iff.2 (Nat.le_mul_of_pos_left _ (by omega))]
            simp
          simp only [hsl] at hl
          rw [if_pos (by rfl)] at hl
          cases hl
      cases e5 : reduceLoop f.cpt (c u) f.cpt.length (f.cpt.length / c u) (f.cpt.length / c u + 1) (i * f.cpt.length) [] with
      | error e => rw [e5] at hr; cases hr
      | ok l => exact hfail l e5

/-- Fixing another variable leaves no room either. -/
theorem NoRoom.reduce_other (h : HashOrder N) (bn : BayesNet N A) (b : NoRoom c u f) (hne : u ≠ rv) (hrv : rv ∈ f.scope) (x : A) {r : Factor N}
    (hr : f.reduce h bn rv x = .ok r) : NoRoom c u r := by
  obtain ⟨k1, k2, k3, k4, k5⟩ := reduce_shape h bn b.shape hrv hr
  refine ⟨k1, ?_, ?_, ?_⟩
  · obtain ⟨o, hp, hl⟩ := b.layout
    have ho : rv ∈ o := by
      have := hp.mem_iff.2 hrv
      simpa [Ne.symm hne] using this
    obtain ⟨o1, o2, rfl⟩ := List.append_of_mem ho
    have s : Split c (f.recut (List.replicate (f.size c) 0)) rv o1 (o2 ++ [u]) := by
      refine ⟨?_, ?_⟩
      · show (o1 ++ rv :: (o2 ++ [u])).Perm f.scope; simpa using hp
      · have : (o1 ++ rv :: o2) ++ [u] = o1 ++ rv :: (o2 ++ [u]) := by simp
        rw [this] at hl; exact hl
    obtain ⟨f', h4, h5, h6, h7, h8, h9⟩ := dropVar_ok s b.shape
      (newCpt := List.replicate ((o1.map c).prod * ((o2 ++ [u]).map c).prod) 0) (by simp)
    have e1 : f.card.get rv = .ok (c rv) := Dict.get_of_get? (WF.card_get (f := f.recut _) b.shape hrv)
    have e2 : f.stride.get rv = .ok (f.strideOf rv) := Dict.get_of_get? (WF.stride_get (f := f.recut _) b.shape hrv)
    have hd : ∀ l', dropVar f rv (c rv) (f.strideOf rv) l' = .ok (f'.recut l') := fun l' =>
      dropVar_recut (f.recut _) rv (c rv) _ _ l' h4 f.cpt
    unfold Factor.reduce at hr
    rw [e1] at hr
    simp only [Py.bind_ok, if_neg (show ¬ c rv = 0 by omega)] at hr
    cases e3 : bn.values rv with
    | error e => rw [e3] at hr; cases hr
    | ok vals =>
      rw [e3, Py.bind_ok] at hr
      cases e4 : pyIndex vals x with
      | error e => rw [e4] at hr; cases hr
      | ok i =>
        rw [e4, Py.bind_ok, e2, Py.bind_ok] at hr
        cases e5 : reduceLoop f.cpt (c rv) (f.strideOf rv) (f.cpt.length / c rv) (f.cpt.length / c rv + 1) (i * f.strideOf rv) [] with
        | error e => rw [e5] at hr; cases hr
        | ok l =>
          rw [e5, Py.bind_ok, hd, Py.bind_ok] at hr
          cases hr
          refine ⟨o1 ++ o2, ?_, fun a => ?_⟩
          · have := s.perm_erase
            show (o1 ++ o2 ++ [u]).Perm f'.scope
            rw [h7, List.append_assoc]; exact this
          · rw [List.append_assoc]; exact h9 a
  · have := b.len
    rw [← k2, ← k3] at this
    have h3 : r.cpt.length * c u * c rv = r.size c * c rv := by rw [← this]; ring
    exact Nat.eq_of_mul_eq_mul_right k4 h3
  · have := b.pos
    rw [← k2] at this
    exact Nat.pos_of_mul_pos_right this

theorem NoRoom.reducePhi (h : HashOrder N) (bn : BayesNet N A) (hc : 2 ≤ c u) (rv : N) (val : A) : ∀ (phi : List (Factor N)) {phi' : List (Factor N)},
    (∃ f ∈ phi, NoRoom c u f) → reducePhi h bn rv val phi = .ok phi' → u ≠ rv ∧ ∃ f ∈ phi', NoRoom c u f
  | [], _, ⟨f, hf, _⟩, _ => by cases hf
  | f :: fs, phi', ⟨g, hg, b⟩, hr => by
      unfold Factorization.reducePhi at hr
      have hug : ∀ {k : Factor N}, NoRoom c u k → u ∈ k.scope := fun {k} b => by
        obtain ⟨o, hp, _⟩ := b.last
        exact hp.subset (by simp)
      by_cases hm : rv ∈ f.scope
      · rw [if_pos hm] at hr
        cases e1 : f.reduce h bn rv val with
        | error e => rw [e1] at hr; cases hr
        | ok a =>
          rw [e1, Py.bind_ok] at hr
          cases e2 : Factorization.reducePhi h bn rv val fs with
          | error e => rw [e2] at hr; cases hr
          | ok b' =>
            rw [e2] at hr; cases hr
            rcases List.mem_cons.1 hg with rfl | hg
            · have hne : u ≠ rv := by
                rintro rfl
                exact b.reduce_self h bn hc val a e1
              exact ⟨hne, a, by simp, b.reduce_other h bn hne hm val e1⟩
            · obtain ⟨k1, k, k2, k3⟩ := NoRoom.reducePhi h bn hc rv val fs ⟨g, hg, b⟩ e2
              exact ⟨k1, k, by simp [k2], k3⟩
      · rw [if_neg hm] at hr
        cases e2 : Factorization.reducePhi h bn rv val fs with
        | error e => rw [e2] at hr; cases hr
        | ok b' =>
          rw [e2] at hr; cases hr
          rcases List.mem_cons.1 hg with rfl | hg
          · exact ⟨fun e => hm (e ▸ hug b), g, by simp, b⟩
          · obtain ⟨k1, k, k2, k3⟩ := NoRoom.reducePhi h bn hc rv val fs ⟨g, hg, b⟩ e2
            exact ⟨k1, k, by simp [k2], k3⟩

theorem NoRoom.applyEvidence (h : HashOrder N) (bn : BayesNet N A) (hc : 2 ≤ c u) : ∀ (es : List (N × A)) {p : Factorization N A} {order : List N}
    {q : Factorization N A × List N}, (∃ f ∈ p.phi, NoRoom c u f) → applyEvidence h bn es p order = .ok q → u ∉ es.map Prod.fst
  | [], _, _, _, _, _ => by simp
  | (v, x) :: es, p, order, q, hp, hq => by
      unfold PyBN.applyEvidence Factorization.sub at hq
      cases e1 : Factorization.reducePhi h bn v x p.phi with
      | error e => rw [e1] at hq; cases hq
      | ok phi =>
        rw [e1] at hq
        simp only [Py.bind_ok, Py.pure_eq] at hq
        obtain ⟨k1, k2⟩ := NoRoom.reducePhi h bn hc v x p.phi hp e1
        cases e2 : pyRemove order v with
        | error e => rw [e2] at hq; cases hq
        | ok o =>
          rw [e2, Py.bind_ok] at hq
          have := NoRoom.applyEvidence h bn hc es (p := ⟨phi, p.mapFactors, p.mapAssignment.set v x⟩) k2 hq
          rw [List.map_cons, List.mem_cons, not_or]
          exact ⟨k1, this⟩

theorem init_noRoom {bn : BayesNet N A} (s : bn.ShapeWF) {v : N} (hv : v ∈ bn.V) {ps : List N} (hps : bn.parentsOf v = ps ++ [u])
    (hlen : (bn.cptOf v).length * bn.cardOf u = bn.tableSize v) (hpos : 0 < (bn.cptOf v).length) :
    ∃ f, Factor.init bn v = .ok f ∧ NoRoom bn.cardOf u f := by
  have r := retab_spec bn fun v => List.replicate (bn.tableSize v) 0
  have w := r.wf s fun v _ => by simp
  have r' : Retab (retab bn fun v => List.replicate (bn.tableSize v) 0) bn bn.cptOf := by
    refine ⟨rfl, fun v => ?_⟩
    rw [r.2 v]
    unfold BayesNet.cptOf
    cases bn.F.get? v <;> rfl
  obtain ⟨f, e, wf, _, sc, _, hp⟩ := Factor.init_ok w (rv := v) hv
  rw [r.cardOf] at wf hp
  have e' := r'.init v
  rw [e, Py.bind_ok] at e'
  have hsc : f.scope = v :: bn.parentsOf v := by rw [sc, r.parentsOf]
  refine ⟨_, e', wf.shape, ⟨v :: ps, ?_, fun a => ?_⟩, ?_, hpos⟩
  · show (v :: ps ++ [u]).Perm f.scope
    rw [hsc, hps, List.cons_append]
  · show f.pos a = _
    rw [hp, r.parentsOf, hps, List.cons_append]
  · show (bn.cptOf v).length * bn.cardOf u = (f.scope.map bn.cardOf).prod
    rw [hsc, hlen]; rfl

theorem mem_initPhi {bn : BayesNet N A} {v : N} {f : Factor N} (hf : Factor.init bn v = .ok f) : ∀ {vs : List N} {phi : List (Factor N)},
    v ∈ vs → initPhi bn vs = .ok phi → f ∈ phi
  | [], _, hv, _ => by cases hv
  | x :: vs, phi, hv, hr => by
      unfold initPhi at hr
      cases e1 : Factor.init bn x with
      | error e => rw [e1] at hr; cases hr
      | ok a =>
        rw [e1, Py.bind_ok] at hr
        cases e2 : initPhi bn vs with
        | error e => rw [e2] at hr; cases hr
        | ok b =>
          rw [e2] at hr; cases hr
          rcases List.mem_cons.1 hv with rfl | hv
          · rw [hf] at e1; cases e1; simp
          · exact List.mem_cons_of_mem _ (mem_initPhi hf hv e2)

/-- The last parent came without a new table: `ve_map` never returns. -/
theorem veMap_noRoom (h : HashOrder N) (hE : HashOrder (N × A)) {bn : BayesNet N A} (s : bn.ShapeWF) {v : N} (hv : v ∈ bn.V) {ps : List N}
    (hps : bn.parentsOf v = ps ++ [u]) (hlen : (bn.cptOf v).length * bn.cardOf u = bn.tableSize v) (hpos : 0 < (bn.cptOf v).length)
    (hc : 2 ≤ bn.cardOf u) (ev : Dict N A) (r : Dict N A) : veMap h hE bn ev ≠ .ok r := by
  by_cases hev : u ∈ ev.keys
  · intro hm
    obtain ⟨f, e0, b⟩ := init_noRoom s hv hps hlen hpos
    unfold veMap veMapCore Factorization.init at hm
    cases e1 : initPhi bn bn.V with
    | error e => rw [e1] at hm; cases hm
    | ok phi =>
      rw [e1] at hm
      simp only [Py.bind_ok, Py.pure_eq] at hm
      cases e3 : PyBN.applyEvidence h bn (hE.iter ev) ⟨phi, [], []⟩ bn.V with
      | error e => rw [e3] at hm; cases hm
      | ok q =>
        have := NoRoom.applyEvidence h bn hc (hE.iter ev) (p := ⟨phi, [], []⟩) ⟨f, mem_initPhi e0 hv e1, b⟩ e3
        exact this (((hE.perm ev).map Prod.fst).mem_iff.2 hev)
  · refine veMap_blocked h hE s hv ?_ ev (u := u) (by rw [hps]; simp) hev r
    rw [← hlen]
    exact lt_mul_of_one_lt_right hpos (by omega)

end PyBN
