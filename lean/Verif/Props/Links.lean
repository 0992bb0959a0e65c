import Verif.Spec.Links
import Verif.Props.FactorizationOps
import Verif.Props.FillIn

/-!
# C241, C242: which variables share a factor after eliminating others, and the size of the tables
-/

set_option linter.unusedSectionVars false

namespace PyBN
open Factorization Classical
open Chordal (Via)
variable {N A : Type _} [DecidableEq N] [DecidableEq A]

/-- The invariant: sharing is walking through what was merged. -/
def Follows (bn : BayesNet N A) (p : Factorization N A) (m : Meaning N A) (t : Trail N) : Prop :=
  ∀ u w, u ∈ m.vars → w ∈ m.vars → (Share p u w ↔ Via (bn.Together t.nodes) (· ∈ t.merged) u w)

theorem elim_follows {bn : BayesNet N A} {p p' : Factorization N A} {m : Meaning N A} {t : Trail N} {v : N} {psi' : Factor N}
    (hv : v ∈ m.vars) (sh : ElimShape bn.cardOf p.phi v p'.phi psi') (F : Follows bn p m t) :
    ∀ u w, u ∈ m.vars.filter (· ≠ v) → w ∈ m.vars.filter (· ≠ v) →
      (Share p' u w ↔ Via (bn.Together t.nodes) (· ∈ t.merged ++ [v]) u w) := by
  intro u w hu hw
  simp only [List.mem_filter, ne_eq, decide_eq_true_eq] at hu hw
  have key : Share p' u w ↔ Share p u w ∨ (Share p u v ∧ Share p v w) := by
    unfold Share
    rw [sh.eq]
    constructor
    · rintro ⟨f, hf, h1, h2⟩
      rw [List.mem_append, List.mem_singleton] at hf
      rcases hf with hf | rfl
      · exact .inl ⟨f, List.mem_of_mem_filter hf, h1, h2⟩
      · obtain ⟨_, g, hg, hg1, hg2⟩ := (sh.scope u).1 h1
        obtain ⟨_, k, hk, hk1, hk2⟩ := (sh.scope w).1 h2
        exact .inr ⟨⟨g, hg, hg2, hg1⟩, ⟨k, hk, hk1, hk2⟩⟩
    · rintro (⟨f, hf, h1, h2⟩ | ⟨⟨g, hg, hg1, hg2⟩, ⟨k, hk, hk1, hk2⟩⟩)
      · by_cases hfv : v ∈ f.scope
        · exact ⟨psi', by simp, (sh.scope u).2 ⟨hu.2, f, hf, hfv, h1⟩, (sh.scope w).2 ⟨hw.2, f, hf, hfv, h2⟩⟩
        · exact ⟨f, by simp [irrelevant, hf, hfv], h1, h2⟩
      · exact ⟨psi', by simp, (sh.scope u).2 ⟨hu.2, g, hg, hg2, hg1⟩, (sh.scope w).2 ⟨hw.2, k, hk, hk1, hk2⟩⟩
  rw [key, F u w hu.1 hw.1, F u v hu.1 hv, F v w hv hw.1]
  constructor
  · rintro (h | ⟨h1, h2⟩)
    · exact h.mono (fun _ _ h => h) fun c hc => by simp [hc]
    · exact (h1.mono (fun _ _ h => h) fun c hc => by simp [hc]).trans (by simp) (h2.mono (fun _ _ h => h) fun c hc => by simp [hc])
  · intro h
    exact Via.split (P := (· ∈ t.merged)) (h.mono (fun _ _ h => h) fun c hc => by simpa using hc)

theorem start_follows {bn : BayesNet N A} (wb : bn.WF) {nodes : List N} (hn : ∀ v ∈ nodes, v ∈ bn.V) {phi : List (Factor N)}
    (e : initPhi bn nodes = .ok phi) : Follows bn (⟨phi, [], []⟩ : Factorization N A) (Meaning.start bn nodes) ⟨nodes, []⟩ := by
  obtain ⟨phi', e', r⟩ := initPhi_ok wb nodes hn
  rw [e] at e'; cases e'
  have key : ∀ u w, Share (⟨phi, [], []⟩ : Factorization N A) u w ↔ bn.Together nodes u w := by
    intro u w
    unfold Share BayesNet.Together
    clear e hn
    induction r with
    | nil => simp
    | cons hx _ ih =>
      simp only [List.mem_cons, exists_eq_or_imp] at ih ⊢
      rw [ih, hx.2.1]
  intro u w _ _
  rw [key]
  exact ⟨.edge, fun h => by cases h with | edge h => exact h | step _ hc _ => cases hc⟩

theorem step_follows (h : HashOrder N) {bn : BayesNet N A} (wb : bn.WF) {p : Factorization N A} {m : Meaning N A} {t : Trail N}
    (H : Holds bn p m) (F : Follows bn p m t) (o : Op N A) : Follows bn (step h bn p o).1 (m.step bn o).1 (t.step bn m o) := by
  cases o with
  | reduce v x =>
    by_cases hv : v ∈ m.vars
    · by_cases hx : x ∈ bn.valuesOf v
      · obtain ⟨phi', e, r⟩ := reducePhi_ok h wb (H.known v hv) hx p.phi H.wf
        have h1 : step h bn p (.reduce v x) = (⟨phi', p.mapFactors, p.mapAssignment.set v x⟩, none) := by
          simp [step, reducePhiS_ok h e]
        have h2 : (m.step bn (.reduce v x)).1.vars = m.vars.filter (· ≠ v) := by simp [Meaning.step, hv, hx]
        rw [h1]
        intro u w hu hw
        rw [h2, List.mem_filter] at hu hw
        rw [show t.step bn m (.reduce v x) = t from rfl, ← F u w hu.1 hw.1]
        have hu' : u ≠ v := by simpa using hu.2
        have hw' : w ≠ v := by simpa using hw.2
        unfold Share
        dsimp only
        clear e h1 h2 F H
        generalize p.phi = phi at r
        induction r with
        | nil => simp
        | cons hx _ ih =>
          simp only [List.mem_cons, exists_eq_or_imp] at ih ⊢
          exact or_congr (by simp [hx.2.1, hu', hw']) ih
      · have h1 := reducePhiS_bad h wb (rv := v) (val := x) (H.known v hv) hx H.wf ((H.vars v).2 hv)
        intro u w hu hw
        simp only [Meaning.step, if_pos hv, if_neg hx] at hu hw
        simp only [step, h1]
        exact F u w hu hw
    · have h1 := reducePhiS_none h (bn := bn) (val := x) (fun hm => hv ((H.vars v).1 hm))
      intro u w hu hw
      simp only [Meaning.step, if_neg hv] at hu hw
      simp only [step, h1]
      exact F u w hu hw
  | sumOut v =>
    by_cases hv : v ∈ m.vars
    · obtain ⟨p', psi', e, mf, ma, sh, pv⟩ := sumElim_ok h p H.wf ((H.vars v).2 hv)
      have := elim_follows hv sh F
      simpa [Follows, step, e, Meaning.step, Trail.step, hv] using this
    · have h1 := relProduct_bad h (phi := p.phi) (rv := v) (fun hm => hv ((H.vars v).1 hm))
      simpa [Follows, step, sumElim, h1, Meaning.step, Trail.step, hv] using F
  | maxOut v =>
    by_cases hv : v ∈ m.vars
    · obtain ⟨p', psi, psi', e, mf, ma, wpsi, rpsi, spsi, vpsi, sh, vpsi'⟩ := maxElim_ok h p H.wf ((H.vars v).2 hv)
      have := elim_follows hv sh F
      simpa [Follows, step, e, Meaning.step, Trail.step, hv] using this
    · have h1 := relProduct_bad h (phi := p.phi) (rv := v) (fun hm => hv ((H.vars v).1 hm))
      simpa [Follows, step, maxElim, h1, Meaning.step, Trail.step, hv] using F
  | refresh =>
    obtain ⟨phi, e, _⟩ := initPhi_ok wb bn.V (fun _ h => h)
    have h1 : step h bn p .refresh = (⟨phi, [], []⟩, none) := by simp [step, initNodes, e]
    rw [h1]
    exact start_follows wb (fun _ h => h) e

theorem steps_follows (h : HashOrder N) {bn : BayesNet N A} (wb : bn.WF) (nn : bn.Nonneg) : ∀ (os : List (Op N A)) {p : Factorization N A}
    {m : Meaning N A} {t : Trail N}, Holds bn p m → Follows bn p m t →
    Follows bn (steps h bn p os).1 (m.steps bn os).1 (t.steps bn m os) := by
  intro os
  induction os with
  | nil => intro p m t _ F; exact F
  | cons o os ih =>
    intro p m t H F
    exact ih (step_holds h wb nn H o).2 (step_follows h wb H F o)

/-- C241: after any calls on `Factorization(bn, nodes)` (exceptions being caught), two variables still there are mentioned by a common factor
exactly if one gets from one to the other by steps between members of a common family, passing only through variables that were summed or
maximised out; and a factor's table has one entry per combination of values of its scope. -/
theorem C241_share (h : HashOrder N) (bn : BayesNet N A) (wb : bn.WF) (nn : bn.Nonneg) (nodes : Option (List N))
    (hn : ∀ v ∈ nodes.getD bn.V, v ∈ bn.V) (calls : List (Op N A)) (p : Factorization N A) (hp : initNodes bn nodes = .ok p) :
    (∀ u w, Mentions (steps h bn p calls).1.phi u → Mentions (steps h bn p calls).1.phi w →
      (Share (steps h bn p calls).1 u w ↔
        Via (bn.Together (Trail.steps bn (Meaning.start bn (nodes.getD bn.V)) ⟨nodes.getD bn.V, []⟩ calls).nodes)
          (· ∈ (Trail.steps bn (Meaning.start bn (nodes.getD bn.V)) ⟨nodes.getD bn.V, []⟩ calls).merged) u w)) ∧
    ∀ f ∈ (steps h bn p calls).1.phi, f.scope.Nodup ∧ f.cpt.length = (f.scope.map bn.cardOf).prod := by
  obtain ⟨phi, e, H⟩ := init_holds wb nn hn
  have e1 : initNodes bn nodes = .ok ⟨phi, [], []⟩ := by simp [initNodes, e]
  rw [hp] at e1; cases e1
  have H' := (steps_holds h wb nn calls H).2
  have F := steps_follows h wb nn calls H (start_follows wb hn e)
  exact ⟨fun u w hu hw => F u w ((H'.vars u).1 hu) ((H'.vars w).1 hw), fun f hf => ⟨(H'.wf f hf).scope_nodup, (H'.wf f hf).cpt_len⟩⟩

/-- C242: eliminating one more variable `v` replaces the factors mentioning it by one, placed last, whose scope is exactly the variables that can be
reached from `v` through variables eliminated before. -/
theorem C242_new_factor (h : HashOrder N) (bn : BayesNet N A) (wb : bn.WF) (nn : bn.Nonneg) (nodes : Option (List N))
    (hn : ∀ v ∈ nodes.getD bn.V, v ∈ bn.V) (calls : List (Op N A)) (p : Factorization N A) (hp : initNodes bn nodes = .ok p)
    (v : N) (hv : Mentions (steps h bn p calls).1.phi v) (o : Op N A) (ho : o = .sumOut v ∨ o = .maxOut v) :
    ∃ psi, (step h bn (steps h bn p calls).1 o).1.phi = (steps h bn p calls).1.phi.filter (fun f => v ∉ f.scope) ++ [psi] ∧
      (∀ u, u ∈ psi.scope ↔ u ≠ v ∧ Mentions (steps h bn p calls).1.phi u ∧
        Via (bn.Together (Trail.steps bn (Meaning.start bn (nodes.getD bn.V)) ⟨nodes.getD bn.V, []⟩ calls).nodes)
          (· ∈ (Trail.steps bn (Meaning.start bn (nodes.getD bn.V)) ⟨nodes.getD bn.V, []⟩ calls).merged) v u) ∧
      psi.scope.Nodup ∧ psi.cpt.length = (psi.scope.map bn.cardOf).prod := by
  obtain ⟨phi, e, H⟩ := init_holds wb nn hn
  have e1 : initNodes bn nodes = .ok ⟨phi, [], []⟩ := by simp [initNodes, e]
  rw [hp] at e1; cases e1
  have H' := (steps_holds h wb nn calls H).2
  have F := steps_follows h wb nn calls H (start_follows wb hn e)
  revert H' F hv
  generalize (steps h bn (⟨phi, [], []⟩ : Factorization N A) calls).1 = q
  intro hv H' F
  have key : ∀ {phi' : List (Factor N)} {psi : Factor N}, ElimShape bn.cardOf q.phi v phi' psi →
      ∃ psi, phi' = q.phi.filter (fun f => v ∉ f.scope) ++ [psi] ∧
      (∀ u, u ∈ psi.scope ↔ u ≠ v ∧ Mentions q.phi u ∧
        Via (bn.Together (Trail.steps bn (Meaning.start bn (nodes.getD bn.V)) ⟨nodes.getD bn.V, []⟩ calls).nodes)
          (· ∈ (Trail.steps bn (Meaning.start bn (nodes.getD bn.V)) ⟨nodes.getD bn.V, []⟩ calls).merged) v u) ∧
      psi.scope.Nodup ∧ psi.cpt.length = (psi.scope.map bn.cardOf).prod := by
    intro phi' psi sh
    refine ⟨psi, by rw [sh.eq]; rfl, fun u => ?_, sh.wf.scope_nodup, sh.wf.cpt_len⟩
    rw [sh.scope]
    constructor
    · rintro ⟨h1, f, hf, h2, h3⟩
      exact ⟨h1, ⟨f, hf, h3⟩, (F v u ((H'.vars v).1 hv) ((H'.vars u).1 ⟨f, hf, h3⟩)).1 ⟨f, hf, h2, h3⟩⟩
    · rintro ⟨h1, h2, h3⟩
      obtain ⟨f, hf, k1, k2⟩ := (F v u ((H'.vars v).1 hv) ((H'.vars u).1 h2)).2 h3
      exact ⟨h1, f, hf, k1, k2⟩
  rcases ho with rfl | rfl
  · obtain ⟨p', psi', e, mf, ma, sh, pv⟩ := sumElim_ok h q H'.wf hv
    simpa [step, e] using key sh
  · obtain ⟨p', psi, psi', e, mf, ma, wpsi, rpsi, spsi, vpsi, sh, vpsi'⟩ := maxElim_ok h q H'.wf hv
    simpa [step, e] using key sh

/-! ## The elimination order and the chordal graph -/

theorem steps_sumOut (bn : BayesNet N A) : ∀ (l : List N) (m : Meaning N A) (t : Trail N), l.Nodup → (∀ v ∈ l, v ∈ m.vars) →
    (Trail.steps bn m t (l.map Op.sumOut)) = ⟨t.nodes, t.merged ++ l⟩ ∧
    ∀ u, u ∈ (m.steps bn (l.map Op.sumOut)).1.vars ↔ u ∈ m.vars ∧ u ∉ l := by
  intro l
  induction l with
  | nil => intro m t _ _; simp [Trail.steps, Meaning.steps]
  | cons v l ih =>
    intro m t hn hm
    have hv : v ∈ m.vars := hm v (by simp)
    have h1 : (m.step bn (.sumOut v)).1.vars = m.vars.filter (· ≠ v) := by simp [Meaning.step, hv]
    obtain ⟨k1, k2⟩ := ih (m.step bn (.sumOut v)).1 (t.step bn m (.sumOut v)) (List.nodup_cons.1 hn).2 fun u hu => by
      rw [h1]; simp only [List.mem_filter, hm u (by simp [hu]), ne_eq, true_and, decide_eq_true_eq]
      rintro rfl; exact (List.nodup_cons.1 hn).1 hu
    refine ⟨?_, fun u => ?_⟩
    · simp only [List.map_cons, Trail.steps]
      rw [k1]
      simp [Trail.step, hv]
    · simp only [List.map_cons, Meaning.steps]
      rw [k2, h1]
      simp [and_assoc]

theorem together_iff {bn : BayesNet N A} (wb : bn.WF) (a b : N) (hne : a ≠ b) : bn.Together bn.V a b ↔
    (a ∈ bn.parentsOf b ∨ b ∈ bn.parentsOf a ∨ (a ≠ b ∧ ∃ c, a ∈ bn.parentsOf c ∧ b ∈ bn.parentsOf c)) := by
  have hVof : ∀ a b, a ∈ bn.parentsOf b → b ∈ bn.V := by
    intro a b h
    rw [← wb.dom]
    unfold BayesNet.parentsOf at h
    cases hF : Dict.get? bn.F b with
    | none => rw [hF] at h; cases h
    | some d => rfl
  unfold BayesNet.Together BayesNet.fam
  constructor
  · rintro ⟨z, hz, h1, h2⟩
    rw [List.mem_cons] at h1 h2
    rcases h1 with rfl | h1 <;> rcases h2 with rfl | h2
    · exact absurd rfl hne
    · exact .inr (.inl h2)
    · exact .inl h1
    · exact .inr (.inr ⟨hne, z, h1, h2⟩)
  · rintro (h | h | ⟨_, c, h1, h2⟩)
    · exact ⟨b, hVof _ _ h, by simp [h], by simp⟩
    · exact ⟨a, hVof _ _ h, by simp, by simp [h]⟩
    · exact ⟨c, hVof _ _ h1, by simp [h1], by simp [h2]⟩

/-- A walk may be taken without standing still. -/
theorem Via.no_loops {E : N → N → Prop} {P : N → Prop} {a b : N} (hne : a ≠ b) (h : Via E P a b) : Via (fun x y => E x y ∧ x ≠ y) P a b := by
  induction h with
  | edge h => exact .edge ⟨h, hne⟩
  | step h hc _ ih =>
    rename_i a c b _
    by_cases hac : a = c
    · subst hac; exact ih hne
    · by_cases hcb : c = b
      · subst hcb; exact .edge ⟨h, hac⟩
      · exact .step ⟨h, hac⟩ hc (ih hcb)

/-- C242 in terms of `make_chordal`: summing the variables of a network out in the order `o`, the factor made for `v` mentions exactly the later
variables that the chordal graph `make_chordal(bn, o, moralized_edges)` joins to `v`. -/
theorem C242_chordal (h : HashOrder N) (isChordal : List (N × N) → Bool) (hC : HashOrder N) (hP : HashOrder (N × N)) (bn : BayesNet N A)
    (wb : bn.WF) (nn : bn.Nonneg) (l : List (N × N)) (hl : bn.moralizedEdges hP = .ok l) (hl0 : l ≠ []) (hch : isChordal l = false)
    (pre post : List N) (v : N) (hnd : (pre ++ v :: post).Nodup) (hall : ∀ u, u ∈ pre ++ v :: post ↔ u ∈ bn.V)
    (p : Factorization N A) (hp : initNodes bn none = .ok p) :
    ∃ g psi, Chordal.makeChordal isChordal hC hP bn (some (pre ++ v :: post, l)) = .ok g ∧
      (step h bn (steps h bn p (pre.map Op.sumOut)).1 (.sumOut v)).1.phi =
        (steps h bn p (pre.map Op.sumOut)).1.phi.filter (fun f => v ∉ f.scope) ++ [psi] ∧
      (∀ u, u ∈ psi.scope ↔ u ∈ post ∧ Chordal.Joined g v u) ∧
      psi.scope.Nodup ∧ psi.cpt.length = (psi.scope.map bn.cardOf).prod := by
  obtain ⟨g, hg, hJ⟩ := Chordal.C234_supplied isChordal hC hP bn wb (fun l' hl' => by rw [hl] at hl'; cases hl'; exact hch)
    (pre ++ v :: post) l (by simp) hl0 hnd
  have hvars := (C184_start bn wb).2
  have hpre : ∀ u ∈ pre, u ∈ (Meaning.start bn bn.V).vars := fun u hu => (hvars u).2 ((hall u).1 (by simp [hu]))
  have hndp : pre.Nodup := (List.nodup_append.1 hnd).1
  have hvpre : v ∉ pre := fun hh => (List.nodup_append.1 hnd).2.2 v hh v (by simp) rfl
  obtain ⟨k1, k2⟩ := steps_sumOut bn pre (Meaning.start bn bn.V) ⟨bn.V, []⟩ hndp hpre
  obtain ⟨q, hq, _, sh⟩ := C184_history h bn wb nn none (fun _ h => h) (pre.map Op.sumOut)
  rw [hp] at hq; cases hq
  have hment : ∀ u, Mentions (steps h bn p (pre.map Op.sumOut)).1.phi u ↔ u ∈ bn.V ∧ u ∉ pre := fun u => by
    rw [sh.vars, Option.getD_none, k2, hvars]
  obtain ⟨psi, h1, h2, h3, h4⟩ := C242_new_factor h bn wb nn none (fun _ h => h) (pre.map Op.sumOut) p hp v
    ((hment v).2 ⟨(hall v).1 (by simp), hvpre⟩) (.sumOut v) (.inl rfl)
  refine ⟨g, psi, hg, h1, fun u => ?_, h3, h4⟩
  rw [h2, hment, Option.getD_none, k1]
  simp only [List.nil_append]
  have hiv : (pre ++ v :: post).idxOf v = pre.length := by
    rw [List.idxOf_append_of_notMem hvpre]; simp
  have hlt : ∀ c, (pre ++ v :: post).idxOf c < pre.length ↔ c ∈ pre := fun c => by
    constructor
    · intro hc
      by_contra hcp
      rw [List.idxOf_append_of_notMem hcp] at hc
      omega
    · intro hc
      rw [List.idxOf_append_of_mem hc]
      exact List.idxOf_lt_length_of_mem hc
  obtain ⟨l', hl', -, hm, -⟩ := C21_moral_graph hP bn wb
  rw [hl] at hl'; cases hl'
  have hpost : u ≠ v ∧ (u ∈ bn.V ∧ u ∉ pre) ↔ u ∈ post := by
    rw [← hall]
    have := hnd
    simp only [List.mem_append, List.mem_cons]
    constructor
    · rintro ⟨h1, h2 | h2 | h2, h3⟩
      · exact absurd h2 h3
      · exact absurd h2 h1
      · exact h2
    · intro hu
      refine ⟨?_, .inr (.inr hu), fun hh => (List.nodup_append.1 hnd).2.2 u hh u (by simp [hu]) rfl⟩
      rintro rfl
      exact (List.nodup_cons.1 (List.nodup_append.1 hnd).2.1).1 hu
  rw [← and_assoc, hpost]
  refine and_congr_right fun hu => ?_
  have huv : u ≠ v := (hpost.2 hu).1
  have hup : u ∉ pre := (hpost.2 hu).2.2
  have hiu : pre.length < (pre ++ v :: post).idxOf u := by
    rw [List.idxOf_append_of_notMem hup]
    have : (v :: post).idxOf u ≠ 0 := by
      rw [List.idxOf_cons_ne _ (Ne.symm huv)]; omega
    omega
  rw [hJ v u (Ne.symm huv)]
  constructor
  · intro hW
    refine (Via.no_loops (Ne.symm huv) hW).mono (fun a b hab => ?_) fun c hc => ?_
    · exact (hm a b).2 ((together_iff wb a b hab.2).1 hab.1)
    · have := (hlt c).2 hc
      rw [hiv]; omega
  · intro hW
    refine hW.mono (fun a b hab => ?_) fun c hc => ?_
    · by_cases hne : a = b
      · subst hne
        rcases (hm a a).1 hab with h | h | h
        · exact absurd h (fun h => by
            have hV : a ∈ bn.V := by
              rw [← wb.dom]
              unfold BayesNet.parentsOf at h
              cases hF : Dict.get? bn.F a with
              | none => rw [hF] at h; cases h
              | some d => rfl
            exact (List.nodup_cons.1 (wb.fam_nodup a hV)).1 h)
        · exact absurd h (fun h => by
            have hV : a ∈ bn.V := by
              rw [← wb.dom]
              unfold BayesNet.parentsOf at h
              cases hF : Dict.get? bn.F a with
              | none => rw [hF] at h; cases h
              | some d => rfl
            exact (List.nodup_cons.1 (wb.fam_nodup a hV)).1 h)
        · exact absurd rfl h.1
      · exact (together_iff wb a b hne).2 ((hm a b).1 hab)
    · rw [hiv] at hc
      exact (hlt c).1 hc.1

/-! ## Concrete cases -/

/-- In the fork 0 → 1, 0 → 2 no factor mentions 1 and 2; summing out 0 puts them into one factor of four entries; fixing 0 instead does not. -/
example : ∃ p, initNodes exFork none = .ok p ∧ ¬ Share p 1 2 ∧ Share (steps .id exFork p [.sumOut 0]).1 1 2 ∧
    ¬ Share (steps .id exFork p [.reduce 0 10]).1 1 2 := by
  have hT : ¬ exFork.Together exFork.V 1 2 := by unfold BayesNet.Together; decide
  obtain ⟨p, hp, -, sh⟩ := C184_history .id exFork exFork_wf exFork_nonneg none (fun _ h => h) []
  obtain ⟨p1, hp1, -, sh1⟩ := C184_history .id exFork exFork_wf exFork_nonneg none (fun _ h => h) [.sumOut 0]
  obtain ⟨p2, hp2, -, sh2⟩ := C184_history .id exFork exFork_wf exFork_nonneg none (fun _ h => h) [.reduce 0 10]
  rw [hp] at hp1 hp2; cases hp1; cases hp2
  have h0 : (0 : ℕ) ∈ (Meaning.start exFork (none.getD exFork.V)).vars := by decide
  have hx : 10 ∈ exFork.valuesOf 0 := by decide
  have k0 := (C241_share .id exFork exFork_wf exFork_nonneg none (fun _ h => h) [] p hp).1 1 2 ((sh.vars 1).2 (by decide)) ((sh.vars 2).2 (by decide))
  have k1 := (C241_share .id exFork exFork_wf exFork_nonneg none (fun _ h => h) [.sumOut 0] p hp).1 1 2
    ((sh1.vars 1).2 (by simp [Meaning.steps, Meaning.step, if_pos h0]; decide)) ((sh1.vars 2).2 (by simp [Meaning.steps, Meaning.step, if_pos h0]; decide))
  have k2 := (C241_share .id exFork exFork_wf exFork_nonneg none (fun _ h => h) [.reduce 0 10] p hp).1 1 2
    ((sh2.vars 1).2 (by simp [Meaning.steps, Meaning.step, if_pos h0, if_pos hx]; decide))
    ((sh2.vars 2).2 (by simp [Meaning.steps, Meaning.step, if_pos h0, if_pos hx]; decide))
  refine ⟨p, hp, fun hs => ?_, k1.2 ?_, fun hs => ?_⟩
  · cases k0.1 hs with
    | edge h => exact hT h
    | step _ hc _ => cases hc
  · have e : Trail.steps exFork (Meaning.start exFork (none.getD exFork.V)) ⟨none.getD exFork.V, []⟩ [.sumOut 0] = ⟨exFork.V, [0]⟩ := by
      simp only [Trail.steps, Trail.step, if_pos h0]; rfl
    rw [e]
    exact .step (c := 0) ⟨1, by decide, by decide, by decide⟩ (by simp) (.edge ⟨2, by decide, by decide, by decide⟩)
  · cases k2.1 hs with
    | edge h => exact hT h
    | step _ hc _ => cases hc

/-- C242_chordal's hypotheses hold for the ring of C109, eliminating 4, 5, 6, 7 and then 0. -/
example : Chordal.ringNet.WF ∧ Chordal.ringNet.Nonneg ∧ ∃ l, Chordal.ringNet.moralizedEdges HashOrder.id = .ok l ∧ l ≠ [] ∧
    ([4, 5, 6, 7] ++ 0 :: [1, 2, 3, 8]).Nodup ∧ ∀ u, u ∈ [4, 5, 6, 7] ++ 0 :: [1, 2, 3, 8] ↔ u ∈ Chordal.ringNet.V := by
  obtain ⟨l, -, hl, hn, -⟩ := Chordal.C109_example
  refine ⟨Chordal.ringNet_wf, by unfold BayesNet.Nonneg; decide +kernel, l, hl, ?_, by decide, fun u => ?_⟩
  · rintro rfl
    exact hn fun n hn4 c _ hc => absurd (hc 0) (by simp [Chordal.Joined])
  · simp only [Chordal.ringNet, List.mem_append, List.mem_cons, List.not_mem_nil, or_false]; omega

end PyBN
