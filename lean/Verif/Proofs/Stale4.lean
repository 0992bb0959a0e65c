import Verif.Proofs.Stale3
import Verif.Proofs.Infer

/-! Networks in which tables are too long or too short. -/

set_option linter.unusedSectionVars false

namespace PyBN
variable {N A : Type _} [DecidableEq N] [DecidableEq A]
open Factor Factorization
open Obj (PyRel)

/-- `bn'` is `bn` with other tables. -/
def Retab (bn bn' : BayesNet N A) (T : N → List ℚ) : Prop :=
  bn'.V = bn.V ∧ ∀ v, bn'.F.get? v = (bn.F.get? v).map fun d => { d with cpt := T v }

section Retab
variable {bn bn' : BayesNet N A} {T : N → List ℚ}

theorem Retab.get (r : Retab bn bn' T) (v : N) :
    bn'.F.get v = (bn.F.get v >>= fun d => .ok { d with cpt := T v }) := by
  unfold Dict.get
  rw [r.2 v]
  cases bn.F.get? v <;> rfl

theorem Retab.parents (r : Retab bn bn' T) (v : N) : bn'.parents v = bn.parents v := by
  unfold BayesNet.parents; rw [r.get]; cases bn.F.get v <;> rfl
theorem Retab.values (r : Retab bn bn' T) (v : N) : bn'.values v = bn.values v := by
  unfold BayesNet.values; rw [r.get]; cases bn.F.get v <;> rfl
theorem Retab.scope (r : Retab bn bn' T) (v : N) : bn'.scope v = bn.scope v := by
  unfold BayesNet.scope; rw [r.get]; cases bn.F.get v <;> rfl
theorem Retab.card (r : Retab bn bn' T) (v : N) : bn'.card v = bn.card v := by
  unfold BayesNet.card; rw [r.get]; cases bn.F.get v <;> rfl
theorem Retab.cpt (r : Retab bn bn' T) (v : N) : bn'.cpt v = (bn.cpt v >>= fun _ => .ok (T v)) := by
  unfold BayesNet.cpt; rw [r.get]; cases bn.F.get v <;> rfl
theorem Retab.parentsOf (r : Retab bn bn' T) (v : N) : bn'.parentsOf v = bn.parentsOf v := by
  unfold BayesNet.parentsOf; rw [r.2]; cases bn.F.get? v <;> rfl
theorem Retab.valuesOf (r : Retab bn bn' T) (v : N) : bn'.valuesOf v = bn.valuesOf v := by
  unfold BayesNet.valuesOf; rw [r.2]; cases bn.F.get? v <;> rfl
theorem Retab.cardOf (r : Retab bn bn' T) : bn'.cardOf = bn.cardOf := by
  funext v; unfold BayesNet.cardOf; rw [r.2]; cases bn.F.get? v <;> rfl
theorem Retab.cptOf (r : Retab bn bn' T) {v : N} (hv : (bn.F.get? v).isSome) : bn'.cptOf v = T v := by
  unfold BayesNet.cptOf; rw [r.2]
  cases h : bn.F.get? v with
  | none => rw [h] at hv; cases hv
  | some d => rfl

theorem Retab.cardPairs (r : Retab bn bn' T) : ∀ l : List N, Factor.cardPairs bn' l = Factor.cardPairs bn l
  | [] => rfl
  | v :: l => by simp only [Factor.cardPairs, r.card, Retab.cardPairs r l]

theorem Retab.init (r : Retab bn bn' T) (v : N) :
    Factor.init bn' v = (Factor.init bn v >>= fun f => .ok (f.recut (T v))) := by
  unfold Factor.init
  rw [r.cpt, r.scope]
  cases bn.cpt v with
  | error e => rfl
  | ok t =>
    simp only [Py.bind_ok]
    cases bn.scope v with
    | error e => rfl
    | ok s =>
      simp only [Py.bind_ok, r.cardPairs]
      cases Factor.cardPairs bn s with
      | error e => rfl
      | ok p =>
        simp only [Py.bind_ok]
        cases Dict.get (Dict.ofPairs p) v with
        | error e => rfl
        | ok x =>
          simp only [Py.bind_ok, r.parents]
          cases bn.parents v with
          | error e => rfl
          | ok ps =>
            simp only [Py.bind_ok]
            cases Factor.initStride (Dict.ofPairs p) ps [(v, 1)] x with
            | error e => rfl
            | ok d => rfl

theorem Retab.reduce (r : Retab bn bn' T) (h : HashOrder N) (f : Factor N) (rv : N) (val : A) :
    f.reduce h bn' rv val = f.reduce h bn rv val := by
  unfold Factor.reduce; rw [r.values]

theorem Retab.reducePhi (r : Retab bn bn' T) (h : HashOrder N) (rv : N) (val : A) : ∀ phi : List (Factor N),
    Factorization.reducePhi h bn' rv val phi = Factorization.reducePhi h bn rv val phi
  | [] => rfl
  | f :: fs => by simp only [Factorization.reducePhi, r.reduce, Retab.reducePhi r h rv val fs]

theorem Retab.applyEvidence (r : Retab bn bn' T) (h : HashOrder N) : ∀ (es : List (N × A)) (p : Factorization N A) (o : List N),
    PyBN.applyEvidence h bn' es p o = PyBN.applyEvidence h bn es p o
  | [], _, _ => rfl
  | (v, x) :: es, p, o => by
      simp only [PyBN.applyEvidence, Factorization.sub, r.reducePhi, Retab.applyEvidence r h es]

end Retab

theorem get?_mapVal {V W : Type _} (d : Dict N V) (φ : N → V → W) (v : N) :
    Dict.get? (d.map fun kv => (kv.1, φ kv.1 kv.2)) v = (Dict.get? d v).map (φ v) := by
  induction d with
  | nil => rfl
  | cons kv d ih =>
    obtain ⟨k, x⟩ := kv
    simp only [List.map_cons, Dict.get?_cons]
    split_ifs with h
    · subst h; rfl
    · exact ih

/-- The network with all tables replaced. -/
def retab (bn : BayesNet N A) (T : N → List ℚ) : BayesNet N A :=
  { bn with F := bn.F.map fun kv => (kv.1, { kv.2 with cpt := T kv.1 }) }

theorem retab_spec (bn : BayesNet N A) (T : N → List ℚ) : Retab bn (retab bn T) T :=
  ⟨rfl, fun v => get?_mapVal bn.F (fun k (d : NodeData N A) => (⟨d.parents, d.values, T k⟩ : NodeData N A)) v⟩

theorem cut_spec (bn : BayesNet N A) : Retab bn bn.cut fun v => (bn.cptOf v).take (bn.tableSize v) := by
  refine ⟨rfl, fun v => ?_⟩
  refine (get?_mapVal bn.F (fun k (d : NodeData N A) => (⟨d.parents, d.values, d.cpt.take (bn.tableSize k)⟩ : NodeData N A)) v).trans ?_
  cases e : bn.F.get? v with
  | none => rfl
  | some d => simp [BayesNet.cptOf, e]

theorem Retab.wf {bn bn' : BayesNet N A} {T : N → List ℚ} (r : Retab bn bn' T) (s : bn.ShapeWF)
    (hT : ∀ v ∈ bn.V, (T v).length = bn.tableSize v) : bn'.WF where
  nodup := by rw [r.1]; exact s.nodup
  dom v := by rw [r.1, r.2, Option.isSome_map]; exact s.dom v
  fam_nodup v hv := by rw [r.parentsOf]; rw [r.1] at hv; exact s.fam_nodup v hv
  parents_mem v hv p hp := by rw [r.parentsOf] at hp; rw [r.1] at hv ⊢; exact s.parents_mem v hv p hp
  values_nodup v hv := by rw [r.valuesOf]; rw [r.1] at hv; exact s.values_nodup v hv
  values_ne v hv := by rw [r.valuesOf]; rw [r.1] at hv; exact s.values_ne v hv
  cpt_len v hv := by
    rw [r.1] at hv
    rw [r.cptOf ((s.dom v).2 hv), r.parentsOf, r.cardOf]; exact hT v hv

theorem BayesNet.WF.shapeWF {bn : BayesNet N A} (w : bn.WF) : bn.ShapeWF :=
  ⟨w.nodup, w.dom, w.fam_nodup, w.parents_mem, w.values_nodup, w.values_ne⟩

/-- The factor of a node, whatever the length of its table. -/
theorem init_shape {bn : BayesNet N A} (s : bn.ShapeWF) {v : N} (hv : v ∈ bn.V) :
    ∃ f, Factor.init bn v = .ok f ∧ f.Shape bn.cardOf ∧ f.cpt = bn.cptOf v ∧ f.scope = v :: bn.parentsOf v ∧
      f.size bn.cardOf = bn.tableSize v := by
  have r := retab_spec bn fun v => List.replicate (bn.tableSize v) 0
  have w := r.wf s fun v _ => by simp
  have r' : Retab (retab bn fun v => List.replicate (bn.tableSize v) 0) bn bn.cptOf := by
    refine ⟨rfl, fun v => ?_⟩
    rw [r.2 v]
    unfold BayesNet.cptOf
    cases bn.F.get? v <;> rfl
  obtain ⟨f, e, wf, _, sc, _, _⟩ := Factor.init_ok w (rv := v) hv
  rw [r.cardOf] at wf
  have e' := r'.init v
  rw [e, Py.bind_ok] at e'
  have hsc : f.scope = v :: bn.parentsOf v := by rw [sc, r.parentsOf]
  exact ⟨_, e', wf.shape, rfl, hsc, by show (f.scope.map bn.cardOf).prod = _; rw [hsc]; rfl⟩

theorem initPhi_shape {bn : BayesNet N A} (s : bn.ShapeWF) : ∀ (vs : List N), (∀ v ∈ vs, v ∈ bn.V) →
    ∃ phi, initPhi bn vs = .ok phi ∧
      List.Forall₂ (fun v (f : Factor N) => f.Shape bn.cardOf ∧ f.cpt = bn.cptOf v ∧ f.size bn.cardOf = bn.tableSize v) vs phi
  | [], _ => ⟨[], rfl, .nil⟩
  | v :: vs, hv => by
      obtain ⟨f, e1, h1, h2, _, h3⟩ := init_shape s (hv v (by simp))
      obtain ⟨phi, e2, h4⟩ := initPhi_shape s vs fun u hu => hv u (by simp [hu])
      exact ⟨f :: phi, by simp [initPhi, e1, e2], .cons ⟨h1, h2, h3⟩ h4⟩

/-- A table that is too short: no marginal query returns. -/
theorem marginalVE_stuck (h : HashOrder N) (hE : HashOrder (N × A)) {bn : BayesNet N A} (s : bn.ShapeWF) (hl : 2 ≤ bn.V.length)
    {v : N} (hv : v ∈ bn.V) (hs : (bn.cptOf v).length < bn.tableSize v) (target : N) (ev : Dict N A) (l : List ℚ) :
    marginalVE h hE bn target ev ≠ .ok l := by
  intro hm
  obtain ⟨phi, e1, hphi⟩ := initPhi_shape s bn.V fun _ h => h
  have st : StuckPhi bn.cardOf phi := by
    refine ⟨fun f hf => ?_, hphi.length_eq ▸ hl, ?_⟩
    · obtain ⟨_, _, hf⟩ := rel_left hphi.flip f hf
      exact hf.1
    · obtain ⟨f, hf, h1, h2, h3⟩ := rel_left hphi v hv
      exact ⟨f, hf, by unfold Short; rw [h2, h3]; exact hs⟩
  unfold marginalVE Factorization.init at hm
  rw [e1] at hm
  simp only [Py.bind_ok, Py.pure_eq] at hm
  cases e2 : pyRemove bn.V target with
  | error e => rw [e2] at hm; cases hm
  | ok o =>
    rw [e2, Py.bind_ok] at hm
    cases e3 : PyBN.applyEvidence h bn (hE.iter ev) ⟨phi, [], []⟩ o with
    | error e => rw [e3] at hm; cases hm
    | ok q =>
      rw [e3, Py.bind_ok] at hm
      have st2 := StuckPhi.applyEvidence h bn _ (p := ⟨phi, [], []⟩) st e3
      cases e4 : PyBN.sumElimAll h q.2 q.1 with
      | error e => rw [e4] at hm; cases hm
      | ok p =>
        rw [e4, Py.bind_ok, (StuckPhi.sumElimAll h _ st2 e4).consolidate] at hm
        cases hm

theorem initPhi_over {bn bn' : BayesNet N A} {T : N → List ℚ} (r : Retab bn bn' T) (w : bn.WF) : ∀ (vs : List N),
    (∀ v ∈ vs, v ∈ bn.V) → (∀ v ∈ vs, ∃ t m, 0 < m ∧ T v = bn.cptOf v ++ t ∧ (T v).length = (bn.cptOf v).length * m) →
    ∃ phi phi', initPhi bn vs = .ok phi ∧ initPhi bn' vs = .ok phi' ∧ List.Forall₂ (Over bn.cardOf) phi phi'
  | [], _, _ => ⟨[], [], rfl, rfl, .nil⟩
  | v :: vs, hv, hT => by
      obtain ⟨f, e1, wf, _, sc, hc, _⟩ := Factor.init_ok w (hv v (by simp))
      obtain ⟨phi, phi', e2, e3, h4⟩ := initPhi_over r w vs (fun u hu => hv u (by simp [hu])) fun u hu => hT u (by simp [hu])
      obtain ⟨t, m, hm, h5, h6⟩ := hT v (by simp)
      have e1' := r.init v
      rw [e1, Py.bind_ok] at e1'
      refine ⟨f :: phi, f.recut (T v) :: phi', by simp [initPhi, e1, e2], by simp [initPhi, e1', e3], .cons ⟨wf, t, m, hm, ?_, ?_⟩ h4⟩
      · rw [h5, hc]
      · rw [hc, ← h5, h6]

/-- Tables that are a whole number of times too long: the extra entries are ignored. -/
theorem marginalVE_over (h : HashOrder N) (hE : HashOrder (N × A)) {bn bn' : BayesNet N A} {T : N → List ℚ} (r : Retab bn bn' T)
    (w : bn.WF) (hT : ∀ v ∈ bn.V, ∃ t m, 0 < m ∧ T v = bn.cptOf v ++ t ∧ (T v).length = (bn.cptOf v).length * m)
    (hl : 2 ≤ bn.V.length) (target : N) (ev : Dict N A) : marginalVE h hE bn' target ev = marginalVE h hE bn target ev := by
  obtain ⟨phi, phi', e1, e2, hphi⟩ := initPhi_over r w bn.V (fun _ h => h) hT
  have hlen : phi.length = bn.V.length := by
    obtain ⟨phi0, e0, h0⟩ := initPhi_ok w bn.V fun _ h => h
    rw [e0] at e1; cases e1
    exact h0.length_eq.symm
  have hv : ∀ rv val vals x, bn.values rv = .ok vals → pyIndex vals val = .ok x → x < bn.cardOf rv := by
    intro rv val vals x h1 h2
    have hc : bn.cardOf rv = vals.length := by
      unfold BayesNet.values Dict.get at h1
      unfold BayesNet.cardOf
      cases e : bn.F.get? rv with
      | none => rw [e] at h1; cases h1
      | some d => rw [e] at h1; cases h1; rfl
    rw [hc]
    exact (List.getElem?_eq_some_iff.1 (pyIndex_ok.1 h2).1).1
  unfold marginalVE Factorization.init
  rw [r.1, e1, e2]
  simp only [Py.bind_ok, Py.pure_eq]
  cases pyRemove bn.V target with
  | error e => rfl
  | ok o =>
    simp only [Py.bind_ok]
    rw [r.applyEvidence h]
    have h3 := over_applyEvidence h bn hv (hE.iter ev) (p := ⟨phi, [], []⟩) (p' := ⟨phi', [], []⟩) o hphi
    have h4 : PyRel (fun a b : List ℚ => b = a)
        (PyBN.applyEvidence h bn (hE.iter ev) ⟨phi, [], []⟩ o >>= fun q => PyBN.sumElimAll h q.2 q.1 >>= fun p => p.consolidate >>= fun f =>
          Except.ok (f.cpt.map (roundEven 4)))
        (PyBN.applyEvidence h bn (hE.iter ev) ⟨phi', [], []⟩ o >>= fun q => PyBN.sumElimAll h q.2 q.1 >>= fun p => p.consolidate >>= fun f =>
          Except.ok (f.cpt.map (roundEven 4))) := by
      refine h3.bind fun q q' hq => ?_
      rw [← hq.2.2]
      have h5 : OverPhi bn.cardOf q.1.phi q'.1.phi := ⟨hq.1, .inl (by rw [hq.2.1]; simpa [hlen] using hl)⟩
      refine (h5.sumElimAll h q.2).bind fun p p' hp => ?_
      obtain ⟨k1, k2⟩ := hp
      have hcons : p'.consolidate = p.consolidate := by
        rcases k2 with k2 | k2
        · have k3 : 2 ≤ p'.phi.length := k1.length_eq ▸ k2
          have two : ∀ p : Factorization N A, 2 ≤ p.phi.length → p.consolidate = .error .nameError := by
            intro p hp
            unfold Factorization.consolidate
            match hphi : p.phi with
            | [] => rw [hphi] at hp; simp at hp
            | [f] => rw [hphi] at hp; simp at hp
            | f :: g :: l => rfl
          rw [two p k2, two p' k3]
        · unfold Factorization.consolidate; rw [k2]
      rw [hcons]
      cases p.consolidate with
      | error e => exact .err _
      | ok f => exact .ok rfl
    revert h4
    generalize (PyBN.applyEvidence h bn (hE.iter ev) ⟨phi, [], []⟩ o >>= fun q => PyBN.sumElimAll h q.2 q.1 >>= fun p => p.consolidate >>= fun f =>
          Except.ok (f.cpt.map (roundEven 4))) = x
    generalize (PyBN.applyEvidence h bn (hE.iter ev) ⟨phi', [], []⟩ o >>= fun q => PyBN.sumElimAll h q.2 q.1 >>= fun p => p.consolidate >>= fun f =>
          Except.ok (f.cpt.map (roundEven 4))) = y
    intro h4
    cases h4 with
    | err e => rfl
    | ok h => rw [h]

/-! ### Samplers -/

section
open Sampling
variable {K : Type} [Field K] [LinearOrder K]

theorem conditionOn_length (h : HashOrder N) (bn : BayesNet N A) (s : Dict N A) {c : N → ℕ} : ∀ (ps : List N) {f r : Factor N},
    f.Shape c → ps.Nodup → (∀ p ∈ ps, p ∈ f.scope) → conditionOn h bn s ps f = .ok r →
    r.cpt.length * (ps.map c).prod = f.cpt.length ∧ r.Shape c ∧ r.size c * (ps.map c).prod = f.size c
  | [], f, r, w, _, _, hr => by cases hr; simp [w]
  | p :: ps, f, r, w, hn, hp, hr => by
      unfold conditionOn at hr
      cases e1 : s.get p with
      | error e => rw [e1] at hr; cases hr
      | ok val =>
        rw [e1, Py.bind_ok] at hr
        cases e2 : f.reduce h bn p val with
        | error e => rw [e2] at hr; cases hr
        | ok f' =>
          rw [e2, Py.bind_ok] at hr
          obtain ⟨h1, h2, h3, h4, h5⟩ := reduce_shape h bn w (hp p (by simp)) e2
          rw [List.nodup_cons] at hn
          obtain ⟨k1, k2, k3⟩ := conditionOn_length h bn s ps h1 hn.2 (fun q hq => by
            rw [h5]
            have hne : q ≠ p := by rintro rfl; exact hn.1 hq
            exact (List.mem_erase_of_ne hne).2 (hp q (by simp [hq]))) hr
          refine ⟨?_, k2, ?_⟩
          · rw [List.map_cons, List.prod_cons, ← h2, ← k1]; ring
          · rw [List.map_cons, List.prod_cons, ← h3, ← k3]; ring

/-- The conditional row of a node, when the computation returns, is as much too long or too short as the table. -/
theorem conditional_length (h : HashOrder N) {bn : BayesNet N A} (sw : bn.ShapeWF) {v : N} (hv : v ∈ bn.V) (s : Dict N A) {l : List ℚ}
    (hl : conditional h bn s v = .ok l) : l.length * bn.tableSize v = (bn.cptOf v).length * bn.cardOf v := by
  obtain ⟨f, e1, h1, h2, h3, h4⟩ := init_shape sw hv
  have hnd := List.nodup_cons.1 (sw.fam_nodup v hv)
  have hps : bn.parents v = .ok (bn.parentsOf v) := by
    have := (sw.dom v).2 hv
    unfold BayesNet.parents BayesNet.parentsOf Dict.get
    cases e : bn.F.get? v with
    | none => rw [e] at this; cases this
    | some d => rfl
  unfold conditional at hl
  rw [e1, Py.bind_ok, hps, Py.bind_ok] at hl
  cases e2 : conditionOn h bn s (bn.parentsOf v) f with
  | error e => rw [e2] at hl; cases hl
  | ok r =>
    rw [e2] at hl; cases hl
    obtain ⟨k1, k2, k3⟩ := conditionOn_length h bn s (bn.parentsOf v) h1 hnd.2 (fun p hp => by rw [h3]; simp [hp]) e2
    rw [h2] at k1
    rw [← k1]
    show r.cpt.length * bn.tableSize v = _
    unfold BayesNet.tableSize
    rw [List.map_cons, List.prod_cons]; ring

theorem choice_length {tol : ℚ} {u : K} {vals : List A} {ps : List ℚ} {x : A} (h : choice tol u vals ps = .ok x) :
    ps.length = vals.length := by
  by_contra hne
  unfold choice at h
  rw [if_pos (.inr (.inl hne))] at h
  cases h

theorem values_ok_card {bn : BayesNet N A} {v : N} {vals : List A} (h : bn.values v = .ok vals) : vals.length = bn.cardOf v := by
  unfold BayesNet.values Dict.get at h
  unfold BayesNet.cardOf
  cases e : bn.F.get? v with
  | none => rw [e] at h; cases h
  | some d => rw [e] at h; cases h; rfl

theorem ShapeWF.card_pos {bn : BayesNet N A} (s : bn.ShapeWF) {v : N} (hv : v ∈ bn.V) : 0 < bn.cardOf v := by
  have h1 := s.values_ne v hv
  have : bn.cardOf v = (bn.valuesOf v).length := by
    unfold BayesNet.cardOf BayesNet.valuesOf; cases bn.F.get? v <;> rfl
  rw [this]; exact List.length_pos_of_ne_nil h1

/-- Drawing a node whose table has the wrong length never succeeds. -/
theorem draw_fails (h : HashOrder N) {bn : BayesNet N A} (sw : bn.ShapeWF) {v : N} (hv : v ∈ bn.V)
    (hw : (bn.cptOf v).length ≠ bn.tableSize v) (s : Dict N A) {l : List ℚ} {vals : List A} {tol : ℚ} {u : K} {x : A}
    (hl : conditional h bn s v = .ok l) (hvals : bn.values v = .ok vals) (hx : choice tol u vals l = .ok x) : False := by
  have h1 := conditional_length h sw hv s hl
  have h2 := choice_length hx
  rw [h2, values_ok_card hvals, mul_comm] at h1
  exact hw (Nat.eq_of_mul_eq_mul_right (ShapeWF.card_pos sw hv) h1).symm

theorem forwardNodes_stuck (tol : ℚ) (h : HashOrder N) {bn : BayesNet N A} (sw : bn.ShapeWF) {v : N} (hv : v ∈ bn.V)
    (hw : (bn.cptOf v).length ≠ bn.tableSize v) (U : ℕ → K) : ∀ (vs : List N) (k : ℕ) (s : Dict N A) (r : ℕ × Dict N A), v ∈ vs →
      forwardNodes tol h bn U vs k s ≠ .ok r
  | [], _, _, _, hm => by cases hm
  | w :: vs, k, s, r, hm => by
      intro hr
      unfold forwardNodes at hr
      cases e1 : conditional h bn s w with
      | error e => rw [e1] at hr; cases hr
      | ok l =>
        rw [e1, Py.bind_ok] at hr
        cases e2 : bn.values w with
        | error e => rw [e2] at hr; cases hr
        | ok vals =>
          rw [e2, Py.bind_ok] at hr
          cases e3 : choice tol (U k) vals l with
          | error e => rw [e3] at hr; cases hr
          | ok x =>
            rw [e3, Py.bind_ok] at hr
            by_cases hvw : v = w
            · subst hvw; exact draw_fails h sw hv hw s e1 e2 e3
            · exact forwardNodes_stuck tol h sw hv hw U vs (k + 1) _ r ((List.mem_cons.1 hm).resolve_left hvw) hr

theorem lwNodes_stuck (tol : ℚ) (h : HashOrder N) {bn : BayesNet N A} (sw : bn.ShapeWF) {v : N} (hv : v ∈ bn.V)
    (hw : (bn.cptOf v).length ≠ bn.tableSize v) (ev : Dict N A) (hev : ev.get? v = none) (U : ℕ → K) :
    ∀ (vs : List N) (k : ℕ) (s : Dict N A) (wt : ℚ) (r : ℕ × Dict N A × ℚ), v ∈ vs → lwNodes tol h bn ev U vs k s wt ≠ .ok r
  | [], _, _, _, _, hm => by cases hm
  | w :: vs, k, s, wt, r, hm => by
      intro hr
      unfold lwNodes at hr
      cases e1 : conditional h bn s w with
      | error e => rw [e1] at hr; cases hr
      | ok l =>
        rw [e1, Py.bind_ok] at hr
        cases e2 : bn.values w with
        | error e => rw [e2] at hr; cases hr
        | ok vals =>
          rw [e2, Py.bind_ok] at hr
          by_cases hvw : v = w
          · subst hvw
            rw [hev] at hr
            dsimp only at hr
            cases e3 : choice tol (U k) vals l with
            | error e => rw [e3] at hr; cases hr
            | ok x => exact draw_fails h sw hv hw s e1 e2 e3
          · have hm' := (List.mem_cons.1 hm).resolve_left hvw
            cases e4 : ev.get? w with
            | some val =>
              rw [e4] at hr
              dsimp only at hr
              cases e5 : pyIndex vals val with
              | error e => rw [e5] at hr; cases hr
              | ok i =>
                rw [e5, Py.bind_ok] at hr
                cases e6 : pyIdx l (i : ℤ) with
                | error e => rw [e6] at hr; cases hr
                | ok y =>
                  rw [e6, Py.bind_ok] at hr
                  exact lwNodes_stuck tol h sw hv hw ev hev U vs k _ _ r hm' hr
            | none =>
              rw [e4] at hr
              dsimp only at hr
              cases e3 : choice tol (U k) vals l with
              | error e => rw [e3] at hr; cases hr
              | ok x =>
                rw [e3, Py.bind_ok] at hr
                exact lwNodes_stuck tol h sw hv hw ev hev U vs (k + 1) _ _ r hm' hr

theorem gibbsNodes_stuck (tol : ℚ) (h : HashOrder N) {bn : BayesNet N A} (sw : bn.ShapeWF) {v : N} (hv : v ∈ bn.V)
    (hw : (bn.cptOf v).length ≠ bn.tableSize v) (U : ℕ → K) : ∀ (vs : List N) (k : ℕ) (s : Dict N A) (r : ℕ × Dict N A), v ∈ vs →
      gibbsNodes tol h bn U vs k s ≠ .ok r
  | [], _, _, _, hm => by cases hm
  | w :: vs, k, s, r, hm => by
      intro hr
      unfold gibbsNodes at hr
      cases e1 : gibbsProbs h bn s w with
      | error e => rw [e1] at hr; cases hr
      | ok l =>
        rw [e1, Py.bind_ok] at hr
        cases e2 : bn.values w with
        | error e => rw [e2] at hr; cases hr
        | ok vals =>
          rw [e2, Py.bind_ok] at hr
          cases e3 : choice tol (U k) vals l with
          | error e => rw [e3] at hr; cases hr
          | ok x =>
            rw [e3, Py.bind_ok] at hr
            by_cases hvw : v = w
            · subst hvw
              unfold gibbsProbs at e1
              cases e4 : bn.parents v with
              | error e => rw [e4] at e1; cases e1
              | ok ps =>
                rw [e4, Py.bind_ok] at e1
                split at e1
                · rename_i hps
                  subst hps
                  have hp : bn.parentsOf v = [] ∧ l = bn.cptOf v := by
                    unfold BayesNet.parents Dict.get at e4
                    unfold BayesNet.cpt Dict.get at e1
                    unfold BayesNet.parentsOf BayesNet.cptOf
                    cases e : bn.F.get? v with
                    | none => rw [e] at e4; cases e4
                    | some d =>
                      rw [e] at e1 e4
                      simp only [Py.bind_ok, Py.pure_eq, Except.ok.injEq] at e1 e4
                      exact ⟨e4, e1.symm⟩
                  apply hw
                  have := choice_length e3
                  rw [hp.2, values_ok_card e2] at this
                  rw [this]; unfold BayesNet.tableSize; rw [hp.1]; simp
                · exact draw_fails h sw hv hw s e1 e2 e3
            · exact gibbsNodes_stuck tol h sw hv hw U vs (k + 1) _ r ((List.mem_cons.1 hm).resolve_left hvw) hr

end

end PyBN
