import Verif.Proofs.Map
import Verif.Proofs.Classes
import Mathlib.Algebra.Order.Field.Rat
import Mathlib.Tactic.Linarith
import Mathlib.Tactic.FieldSimp

/-! Assembling the inference theorems. -/

set_option linter.unusedSectionVars false

namespace PyBN
open Factor Factorization
variable {N A : Type _} [DecidableEq N] [DecidableEq A]

theorem rintEven_close (x : ℚ) : |(rintEven x : ℚ) - x| ≤ 1 / 2 := by
  have h1 := Int.floor_le x
  have h2 := Int.lt_floor_add_one x
  unfold rintEven
  simp only
  split_ifs <;> rw [abs_le] <;> push_cast <;> constructor <;> linarith

theorem rintAway_close (x : ℚ) : |(rintAway x : ℚ) - x| ≤ 1 / 2 := by
  unfold rintAway
  split_ifs with h
  · have h1 := Int.floor_le (x + 1 / 2)
    have h2 := Int.lt_floor_add_one (x + 1 / 2)
    rw [abs_le]; constructor <;> linarith
  · have h1 := Int.floor_le (-x + 1 / 2)
    have h2 := Int.lt_floor_add_one (-x + 1 / 2)
    rw [abs_le]; push_cast; constructor <;> linarith

theorem scale_close {d : ℕ} {x : ℚ} {n : ℤ} (h : |(n : ℚ) - x * 10 ^ d| ≤ 1 / 2) :
    |(n : ℚ) / 10 ^ d - x| ≤ 1 / 2 / 10 ^ d := by
  have hp : (0 : ℚ) < 10 ^ d := by positivity
  have : (n : ℚ) / 10 ^ d - x = ((n : ℚ) - x * 10 ^ d) / 10 ^ d := by field_simp
  rw [this, abs_div, abs_of_pos hp]
  exact div_le_div_of_nonneg_right h hp.le

theorem roundEven_close (d : ℕ) (x : ℚ) : |roundEven d x - x| ≤ 1 / 2 / 10 ^ d := scale_close (rintEven_close _)
theorem roundAway_close (d : ℕ) (x : ℚ) : |roundAway d x - x| ≤ 1 / 2 / 10 ^ d := scale_close (rintAway_close _)

theorem pyIndex_ok_mem {α : Type _} [DecidableEq α] {l : List α} {x : α} {n : ℕ} (h : pyIndex l x = .ok n) : x ∈ l :=
  List.mem_of_getElem? (pyIndex_ok.1 h).1

/-- A successful `reduce` used a legal value. -/
theorem reduce_legal {h : HashOrder N} {bn : BayesNet N A} (wb : bn.WF) {f f' : Factor N} {rv : N} {val : A} (hV : rv ∈ bn.V)
    (he : f.reduce h bn rv val = .ok f') : val ∈ bn.valuesOf rv := by
  unfold Factor.reduce at he
  cases h1 : f.card.get rv with
  | error e => rw [h1] at he; simp at he
  | ok n =>
    rw [h1] at he
    simp only [Py.bind_ok] at he
    split at he
    · simp at he
    · rw [wb.values_ok hV] at he
      simp only [Py.bind_ok] at he
      cases h2 : pyIndex (bn.valuesOf rv) val with
      | error e => rw [h2] at he; simp at he
      | ok i => exact pyIndex_ok_mem h2

theorem reducePhi_legal {h : HashOrder N} {bn : BayesNet N A} (wb : bn.WF) {rv : N} {val : A} (hV : rv ∈ bn.V) :
    ∀ {phi phi' : List (Factor N)}, reducePhi h bn rv val phi = .ok phi' → Mentions phi rv → val ∈ bn.valuesOf rv := by
  intro phi
  induction phi with
  | nil => rintro phi' _ ⟨f, hf, _⟩; simp at hf
  | cons g gs ih =>
    intro phi' he hm
    simp only [reducePhi] at he
    split at he
    · cases h1 : g.reduce h bn rv val with
      | error e => rw [h1] at he; simp at he
      | ok g' => exact reduce_legal wb hV h1
    · rename_i hg
      cases h1 : reducePhi h bn rv val gs with
      | error e => rw [h1] at he; simp at he
      | ok r =>
        apply ih h1
        obtain ⟨f, hf, hr⟩ := hm
        rcases List.mem_cons.1 hf with rfl | hf
        · exact absurd hr hg
        · exact ⟨f, hf, hr⟩

theorem forall₂_mem_right {α β : Type _} {R : α → β → Prop} {l : List α} {m : List β} (h : List.Forall₂ R l m) {x : α}
    (hx : x ∈ l) : ∃ y ∈ m, R x y := by
  induction h with
  | nil => simp at hx
  | cons h1 _ ih =>
    rcases List.mem_cons.1 hx with rfl | hx
    · exact ⟨_, by simp, h1⟩
    · obtain ⟨y, hy, hr⟩ := ih hx; exact ⟨y, by simp [hy], hr⟩

theorem applyEvidence_legal {h : HashOrder N} {bn : BayesNet N A} (wb : bn.WF) : ∀ (es : List (N × A))
    {p p' : Factorization N A} {order order' : List N}, (∀ f ∈ p.phi, f.WF bn.cardOf) → (es.map Prod.fst).Nodup →
    (∀ v ∈ order, v ∈ bn.V) → (∀ e ∈ es, e.1 ∈ bn.V → Mentions p.phi e.1) →
    applyEvidence h bn es p order = .ok (p', order') → ∀ e ∈ es, e.1 ∈ order ∧ e.1 ∈ bn.V ∧ e.2 ∈ bn.valuesOf e.1 := by
  intro es
  induction es with
  | nil => intro _ _ _ _ _ _ _ _ _ e he; simp at he
  | cons e0 es ih =>
    obtain ⟨v, x⟩ := e0
    intro p p' order order' hw hn ho hm he
    simp only [List.map_cons, List.nodup_cons] at hn
    simp only [applyEvidence, sub] at he
    cases h1 : reducePhi h bn v x p.phi with
    | error e => rw [h1] at he; simp at he
    | ok phi1 =>
      rw [h1] at he
      simp only [Py.bind_ok, Py.pure_eq] at he
      by_cases hvo : v ∈ order
      · rw [pyRemove_of_mem hvo] at he
        simp only [Py.bind_ok] at he
        have hV := ho v hvo
        have hx := reducePhi_legal wb hV h1 (hm (v, x) (by simp) hV)
        obtain ⟨phi2, h2, r2⟩ := reducePhi_ok h wb hV hx p.phi hw
        rw [h1] at h2; cases h2
        have := ih (p := ⟨phi1, p.mapFactors, p.mapAssignment.set v x⟩) (forall₂_left_wf r2) hn.2
          (fun u hu => ho u (List.mem_of_mem_erase hu))
          (fun e hem heV => by
            obtain ⟨f, hf, hfe⟩ := hm e (by simp [hem]) heV
            obtain ⟨f', hf', hr⟩ := forall₂_mem_right r2 hf
            refine ⟨f', hf', (hr.2.1 e.1).2 ⟨hfe, ?_⟩⟩
            simp only [List.map_cons, List.map_nil, List.mem_singleton]
            intro hev
            exact hn.1 (hev ▸ List.mem_map.2 ⟨e, hem, rfl⟩)) he
        intro e hem
        rcases List.mem_cons.1 hem with rfl | hem
        · exact ⟨hvo, hV, hx⟩
        · obtain ⟨g1, g2, g3⟩ := this e hem
          exact ⟨List.mem_of_mem_erase g1, g2, g3⟩
      · simp [pyRemove, hvo] at he

theorem init_mentions {bn : BayesNet N A} (wb : bn.WF) : ∃ p0, Factorization.init bn = .ok p0 ∧
    (∀ f ∈ p0.phi, f.WF bn.cardOf) ∧ ∀ v ∈ bn.V, Mentions p0.phi v := by
  obtain ⟨phi, e1, r1⟩ := initPhi_ok wb bn.V fun _ h => h
  refine ⟨⟨phi, [], []⟩, by simp [Factorization.init, e1], ?_, ?_⟩
  · intro f hf
    obtain ⟨v, _, hv⟩ := forall₂_mem_right r1.flip hf
    exact hv.1
  · intro v hv
    obtain ⟨f, hf, hr⟩ := forall₂_mem_right r1 hv
    exact ⟨f, hf, by rw [hr.2.1]; simp [BayesNet.fam]⟩

theorem perm_legal {bn : BayesNet N A} {ev es : Dict N A} (hp : es.Perm ev) :
    bn.LegalEvidence ev → ((es.map Prod.fst).Nodup ∧ ∀ e ∈ es, e.1 ∈ bn.V ∧ e.2 ∈ bn.valuesOf e.1) := by
  rintro ⟨h1, h2⟩
  exact ⟨((hp.map Prod.fst).nodup_iff).2 h1, fun e he => h2 e (hp.subset he)⟩

theorem perm_agrees {bn : BayesNet N A} {ev es : Dict N A} (hp : es.Perm ev) {a : Asg N} : bn.Agrees es a ↔ bn.Agrees ev a :=
  ⟨fun h e he => h e (hp.symm.subset he), fun h e he => h e (hp.subset he)⟩

/-- Evidence that does not raise is legal (marginal). -/
theorem marginalVE_legal {h : HashOrder N} {hE : HashOrder (N × A)} {bn : BayesNet N A} (wb : bn.WF) {target : N}
    {ev : Dict N A} (hn : ev.keys.Nodup) {r : List ℚ} (hr : marginalVE h hE bn target ev = .ok r) :
    target ∈ bn.V ∧ target ∉ ev.keys ∧ bn.LegalEvidence ev := by
  obtain ⟨p0, e0, w0, m0⟩ := init_mentions wb
  unfold marginalVE at hr
  rw [e0] at hr
  simp only [Py.bind_ok] at hr
  by_cases ht : target ∈ bn.V
  · rw [pyRemove_of_mem ht] at hr
    simp only [Py.bind_ok] at hr
    cases h1 : applyEvidence h bn (hE.iter ev) p0 (bn.V.erase target) with
    | error e => rw [h1] at hr; simp at hr
    | ok po =>
      obtain ⟨p1, o1⟩ := po
      have hp := hE.perm ev
      have := applyEvidence_legal wb (hE.iter ev) w0 (((hp.map Prod.fst).nodup_iff).2 hn)
        (fun v hv => List.mem_of_mem_erase hv) (fun e _ heV => m0 _ heV) h1
      refine ⟨ht, ?_, hn, fun e he => (this e (hp.symm.subset he)).2⟩
      intro hk
      obtain ⟨e, he, rfl⟩ := List.mem_map.1 hk
      have := (this e (hp.symm.subset he)).1
      rw [wb.nodup.mem_erase_iff] at this
      exact this.1 rfl
  · simp [pyRemove, ht] at hr

/-- The final factorization of a legal marginal query. -/
theorem marginalVE_run (h : HashOrder N) (hE : HashOrder (N × A)) {bn : BayesNet N A} (wb : bn.WF) {target : N}
    {ev : Dict N A} (ht : target ∈ bn.V) (hte : target ∉ ev.keys) (hl : bn.LegalEvidence ev) :
    ∃ p : Factorization N A, (marginalVE h hE bn target ev = do
        let f ← p.consolidate
        pure (f.cpt.map (roundEven 4))) ∧
      p.phi ≠ [] ∧
      (p.phi.length = 1 ↔ ∀ u ∈ bn.V, ∀ v ∈ bn.V, bn.Linked (bn.V.filter fun v => v ≠ target ∧ v ∉ ev.keys) u v) ∧
      (∀ f ∈ p.phi, f.WF bn.cardOf) ∧ (∀ v, Mentions p.phi v ↔ v = target) ∧
      ∀ a, a target < bn.cardOf target → bn.Agrees ev a → prodVal p.phi a = bn.marginal target ev a := by
  have hp := hE.perm ev
  obtain ⟨hn, hlv⟩ := perm_legal hp hl
  set es := hE.iter ev with hes
  have hmemK : ∀ v, v ∈ es.map Prod.fst ↔ v ∈ ev.keys := fun v => (hp.map Prod.fst).mem_iff
  have hon : (bn.V.erase target).Nodup := wb.nodup.erase _
  obtain ⟨p0, p1, e0, e1, _, _, r1⟩ := start_ok h wb es (bn.V.erase target) hn hlv (fun e he => by
    rw [wb.nodup.mem_erase_iff]
    refine ⟨?_, (hlv e he).1⟩
    rintro rfl
    exact hte ((hmemK _).1 (List.mem_map.2 ⟨e, he, rfl⟩))) hon
  set O := bn.V.filter fun v => v ≠ target ∧ v ∉ ev.keys with hO
  have hord : (bn.V.erase target).filter (fun v => v ∉ es.map Prod.fst) = O := by
    rw [wb.nodup.erase_eq_filter, List.filter_filter, hO]
    apply List.filter_congr
    intro u _
    by_cases h1 : u = target <;> by_cases h2 : u ∈ ev.keys <;> simp only [hmemK] <;> simp [h1, h2]
  rw [hord] at e1
  have hOn : O.Nodup := wb.nodup.filter _
  have hm1 : ∀ u, Mentions p1.phi u ↔ u ∉ ev.keys ∧ u ∈ bn.V := by
    intro u
    rw [restr_mentions r1, hmemK]
    constructor
    · rintro ⟨h1, v, hv, hu⟩; exact ⟨h1, wb.fam_mem hv u hu⟩
    · rintro ⟨h1, hu⟩; exact ⟨h1, u, hu, by simp [BayesNet.fam]⟩
  have hOmem : ∀ u, u ∈ O ↔ u ∈ bn.V ∧ u ≠ target ∧ u ∉ ev.keys := by intro u; simp [hO]
  obtain ⟨p2, e2, ch, w2, m2, v2⟩ := sumElimAll_ok h O p1 (restr_wf r1) hOn fun v hv =>
    (hm1 v).2 ⟨((hOmem v).1 hv).2.2, ((hOmem v).1 hv).1⟩
  have hm2 : ∀ v, Mentions p2.phi v ↔ v = target := by
    intro v
    rw [m2, hm1, hOmem]
    constructor
    · rintro ⟨h1, h2, h3⟩; by_contra h4; exact h1 ⟨h3, h4, h2⟩
    · rintro rfl; exact ⟨fun h => h.2.1 rfl, hte, ht⟩
  obtain ⟨P, hP, I⟩ := ClsInv.start O r1
  obtain ⟨P', hP', I'⟩ := I.chain ch hP hOn fun v hv => by
    obtain ⟨g1, g2, g3⟩ := (hOmem v).1 hv
    exact ⟨hv, id, by rw [hmemK]; exact g3, (hm1 v).2 ⟨g3, g1⟩⟩
  obtain ⟨hne, hone⟩ := I'.single wb.nodup (fun v hv => .inr hv) (List.ne_nil_of_mem ht)
  have hlen : P'.length = p2.phi.length := by rw [← hP', List.length_map]
  refine ⟨p2, ?_, ?_, ?_, w2, hm2, ?_⟩
  · unfold marginalVE
    rw [e0]
    simp only [Py.bind_ok, pyRemove_of_mem ht]
    rw [← hes, e1]
    simp only [Py.bind_ok]
    rw [e2]
    rfl
  · intro h0; rw [h0] at hlen; exact hne (List.length_eq_zero_iff.1 hlen)
  · rw [← hlen]; exact hone
  · intro a hat hag
    rw [v2 a fun v hv => by rw [(hm2 v).1 hv]; exact hat]
    rw [sumAll_perm (List.reverse_perm O) _ (List.nodup_reverse.2 hOn)]
    unfold BayesNet.marginal
    rw [← hO]
    apply sumAll_congr _ hOn
    intro b hb hr
    have hbe : ∀ v, v ∈ ev.keys → b v = a v := fun v hv => hb v fun ho => ((hOmem v).1 ho).2.2 hv
    rw [restr_prod r1 b b]
    · rfl
    · intro u hu
      obtain ⟨g1, g2⟩ := (hm1 u).1 hu
      by_cases hut : u = target
      · rw [hut, hb target fun ho => ((hOmem target).1 ho).2.1 rfl]; exact hat
      · exact hr u ((hOmem u).2 ⟨g2, hut, g1⟩)
    · intros; rfl
    · intro e he
      rw [hbe e.1 ((hmemK _).1 (List.mem_map.2 ⟨e, he, rfl⟩))]
      exact (perm_agrees hp).2 hag e he

theorem consolidate_one {p : Factorization N A} {f : Factor N} (h : p.consolidate = .ok f) : p.phi = [f] := by
  unfold consolidate at h
  split at h
  · simp at h
  · rename_i g hg; rw [hg]; simpa using h
  · simp at h

theorem consolidate_of_one {p : Factorization N A} (h : p.phi.length = 1) : ∃ f, p.phi = [f] ∧ p.consolidate = .ok f := by
  obtain ⟨f, hf⟩ := List.length_eq_one_iff.1 h
  exact ⟨f, hf, by simp [consolidate, hf]⟩

theorem consolidate_many {p : Factorization N A} (h0 : p.phi ≠ []) (h : p.phi.length ≠ 1) : p.consolidate = .error .nameError := by
  unfold consolidate
  split
  · contradiction
  · rename_i g hg; simp [hg] at h
  · rfl

/-! ## the joint sums to one -/

theorem prob_congr {bn : BayesNet N A} {v : N} {a b : Asg N} (h : ∀ u ∈ bn.fam v, a u = b u) : bn.prob v a = bn.prob v b := by
  have := enc_congr (c := bn.cardOf) h
  unfold BayesNet.fam at this
  unfold BayesNet.prob
  rw [this]

theorem sumAll_topo {bn : BayesNet N A} (hno : bn.Normalised) : ∀ (o : List N), o.Nodup → (∀ v ∈ o, v ∈ bn.V) →
    (∀ o1 v o2, o = o1 ++ v :: o2 → ∀ p ∈ bn.parentsOf v, p ∈ o1) → ∀ a,
    sumAll bn.cardOf o (fun b => (o.map fun v => bn.prob v b).prod) a = 1 := by
  intro o
  induction o using List.reverseRecOn with
  | nil => intro _ _ _ a; simp [sumAll]
  | append_singleton o v ih =>
    intro hn hV ht a
    rw [List.nodup_append] at hn
    have hvo : v ∉ o := fun hv => hn.2.2 v hv v (by simp) rfl
    rw [sumAll_append]
    rw [← ih hn.1 (fun u hu => hV u (by simp [hu]))
      (fun o1 u o2 he p hp => ht o1 u (o2 ++ [v]) (by simp [he]) p hp) a]
    apply sumAll_congr _ hn.1
    intro b hb hr
    have hpar : ∀ p ∈ bn.parentsOf v, p ∈ o := fun p hp => ht o v [] (by simp) p hp
    have h1 : ∀ x, ((o.map fun u => bn.prob u (b.upd v x)).prod) = (o.map fun u => bn.prob u b).prod := by
      intro x
      congr 1
      apply List.map_congr_left
      intro u hu
      apply prob_congr
      intro w hw
      apply Asg.upd_ne
      rintro rfl
      rcases List.mem_cons.1 hw with rfl | hw
      · exact hvo hu
      · obtain ⟨o1, o2, rfl⟩ := List.append_of_mem hu
        exact hvo (by simp [ht o1 u (o2 ++ [w]) (by simp) w hw])
    simp only [sumAll, List.map_append, List.map_cons, List.map_nil, List.prod_append, List.prod_cons, List.prod_nil, mul_one]
    simp only [h1]
    rw [← Finset.mul_sum, hno v (hV v (by simp)) b (fun p hp => hr p (hpar p hp)), mul_one]

theorem joint_sum_one {bn : BayesNet N A} (wb : bn.WF) (hno : bn.Normalised) (hac : bn.Acyclic) (a : Asg N) :
    sumAll bn.cardOf bn.V bn.joint a = 1 := by
  obtain ⟨o, ho, ht⟩ := hac
  have hn : o.Nodup := ho.nodup_iff.2 wb.nodup
  rw [← sumAll_topo hno o hn (fun v hv => ho.subset hv) ht a, ← sumAll_perm ho _ hn]
  congr 1
  funext b
  unfold BayesNet.joint
  exact ((ho.map _).prod_eq).symm

theorem prob_nonneg {bn : BayesNet N A} (hnn : bn.Nonneg) {v : N} (hv : v ∈ bn.V) (a : Asg N) : 0 ≤ bn.prob v a := by
  unfold BayesNet.prob
  cases h : (bn.cptOf v)[enc bn.cardOf (v :: bn.parentsOf v) a]? with
  | none => simp
  | some x => exact hnn v hv x (List.mem_of_getElem? h)

theorem joint_nonneg {bn : BayesNet N A} (hnn : bn.Nonneg) (a : Asg N) : 0 ≤ bn.joint a := by
  unfold BayesNet.joint
  have : ∀ l : List N, (∀ v ∈ l, v ∈ bn.V) → 0 ≤ (l.map fun v => bn.prob v a).prod := by
    intro l
    induction l with
    | nil => simp
    | cons v l ih =>
      intro h
      simp only [List.map_cons, List.prod_cons]
      exact mul_nonneg (prob_nonneg hnn (h v (by simp)) a) (ih fun u hu => h u (by simp [hu]))
  exact this bn.V fun _ h => h

/-! ## MAP -/

theorem veMap_legal {h : HashOrder N} {hE : HashOrder (N × A)} {bn : BayesNet N A} (wb : bn.WF)
    {ev : Dict N A} (hn : ev.keys.Nodup) {r : Factorization N A × Dict N A} (hr : veMapCore h hE bn ev = .ok r) :
    bn.LegalEvidence ev := by
  obtain ⟨p0, e0, w0, m0⟩ := init_mentions wb
  unfold veMapCore at hr
  rw [e0] at hr
  simp only [Py.bind_ok] at hr
  cases h1 : applyEvidence h bn (hE.iter ev) p0 bn.V with
  | error e => rw [h1] at hr; simp at hr
  | ok po =>
    obtain ⟨p1, o1⟩ := po
    have hp := hE.perm ev
    have := applyEvidence_legal wb (hE.iter ev) w0 (((hp.map Prod.fst).nodup_iff).2 hn)
      (fun v hv => hv) (fun e _ heV => m0 _ heV) h1
    exact ⟨hn, fun e he => (this e (hp.symm.subset he)).2⟩

theorem veMapCore_run (h : HashOrder N) (hE : HashOrder (N × A)) {bn : BayesNet N A} (wb : bn.WF) (hnn : bn.Nonneg)
    {ev : Dict N A} (hl : bn.LegalEvidence ev) :
    ∃ (p : Factorization N A) (d : Dict N A) (x : Asg N), veMapCore h hE bn ev = .ok (p, d) ∧
      d.keys.Nodup ∧ (∀ v, v ∉ bn.V → d.get? v = none) ∧
      (∀ v ∈ bn.V, x v < bn.cardOf v ∧ d.get? v = (bn.valuesOf v)[x v]?) ∧ bn.Agrees ev x ∧
      (∀ b, InRange bn.cardOf bn.V b → bn.Agrees ev b → bn.joint b ≤ bn.joint x) ∧
      (∀ f ∈ p.phi, f.WF bn.cardOf) ∧ (∀ v, ¬ Mentions p.phi v) ∧ (∀ a, prodVal p.phi a = bn.joint x) ∧
      (bn.V ≠ [] → p.phi ≠ [] ∧ (p.phi.length = 1 ↔
        ∀ u ∈ bn.V, ∀ v ∈ bn.V, bn.Linked (bn.V.filter fun v => v ∉ ev.keys) u v)) := by
  have hp := hE.perm ev
  obtain ⟨hn, hlv⟩ := perm_legal hp hl
  set es := hE.iter ev with hes
  have hmemK : ∀ v, v ∈ es.map Prod.fst ↔ v ∈ ev.keys := fun v => (hp.map Prod.fst).mem_iff
  obtain ⟨p0, p1, e0, e1, mf1, ma1, r1⟩ := start_ok h wb es bn.V hn hlv (fun e he => (hlv e he).1) wb.nodup
  set O := bn.V.filter fun v => v ∉ ev.keys with hO
  have hord : bn.V.filter (fun v => v ∉ es.map Prod.fst) = O := by
    apply List.filter_congr; intro u _; simp only [hmemK]
  rw [hord] at e1
  have hOn : O.Nodup := wb.nodup.filter _
  have hOmem : ∀ u, u ∈ O ↔ u ∈ bn.V ∧ u ∉ ev.keys := by intro u; simp [hO]
  have hm1 : ∀ u, Mentions p1.phi u ↔ u ∈ O := by
    intro u
    rw [restr_mentions r1, hmemK, hOmem]
    constructor
    · rintro ⟨h1, v, hv, hu⟩; exact ⟨wb.fam_mem hv u hu, h1⟩
    · rintro ⟨h1, hu⟩; exact ⟨hu, u, h1, by simp [BayesNet.fam]⟩
  -- an index for every observed value
  have hidx : ∃ t : Asg N, bn.Agrees es t ∧ ∀ v ∈ es.map Prod.fst, t v < bn.cardOf v := by
    have hg : ∀ v : N, ∃ i : ℕ, ∀ e ∈ es, e.1 = v → (bn.valuesOf v)[i]? = some e.2 := by
      intro v
      by_cases hv : v ∈ es.map Prod.fst
      · obtain ⟨e, he, hev⟩ := List.mem_map.1 hv
        obtain ⟨i, hi, hi2⟩ := List.mem_iff_getElem.1 (hlv e he).2
        refine ⟨i, fun e' he' he1 => ?_⟩
        have : e' = e := by
          have h1 := Dict.get?_of_mem (d := es) hn (k := e.1) (v := e.2) he
          have h2 := Dict.get?_of_mem (d := es) hn (k := e'.1) (v := e'.2) he'
          rw [he1, ← hev, h1] at h2
          exact Prod.ext (he1.trans hev.symm) (Option.some.inj h2).symm
        subst this
        rw [← hev, List.getElem?_eq_getElem hi, hi2]
      · exact ⟨0, fun e he hev => absurd (List.mem_map.2 ⟨e, he, hev⟩) hv⟩
    choose t ht using hg
    refine ⟨t, fun e he => ht e.1 e he rfl, fun v hv => ?_⟩
    obtain ⟨e, he, rfl⟩ := List.mem_map.1 hv
    rw [wb.card_len (hlv e he).1]
    exact (List.getElem?_eq_some_iff.1 (ht e.1 e he rfl)).1
  obtain ⟨t, htag, htr⟩ := hidx
  let merge : Asg N → Asg N := fun a u => if u ∈ es.map Prod.fst then t u else a u
  have hmag : ∀ a, bn.Agrees es (merge a) := by
    intro a e he
    have hm : merge a e.1 = t e.1 := if_pos (List.mem_map.2 ⟨e, he, rfl⟩)
    rw [hm]; exact htag e he
  have hmoff : ∀ a u, u ∉ es.map Prod.fst → merge a u = a u := fun a u hu => if_neg hu
  have hnn1 : ∀ f ∈ p1.phi, VNonneg bn.cardOf f := by
    intro f hf a ha
    obtain ⟨v, hv, hr⟩ := forall₂_mem_right r1.flip hf
    rw [hr.2.2 a (merge a) ha (hmoff a) (hmag a)]
    exact prob_nonneg hnn hv _
  obtain ⟨p2, mf, e2, m2, ma2, k2, ch, w2, nm2, tb⟩ := maxElimAll_ok h wb O p1 (restr_wf r1) hnn1 hOn
    (fun v hv => ((hOmem v).1 hv).1) hm1 (fun v _ => by rw [mf1]; simp [Dict.keys])
  obtain ⟨d, x, t1, g1, xr, mx, cst, nd⟩ := tb p2.mapAssignment
  rw [mf1, List.nil_append] at m2
  have hjoint : ∀ a, InR bn.cardOf p1.phi a → prodVal p1.phi a = bn.joint (merge a) := fun a ha =>
    restr_prod r1 a (merge a) ha (hmoff a) (hmag a)
  have hxR : InR bn.cardOf p1.phi x := fun u hu => (xr u ((hm1 u).1 hu)).1
  have hasg : p2.mapAssignment = Dict.update [] es := by rw [ma2, ma1]
  have hget : ∀ v, p2.mapAssignment.get? v = Dict.get? es v := by
    intro v; rw [hasg, Dict.get?_update (e := es) hn]; cases Dict.get? es v <;> simp
  refine ⟨p2, d, merge x, ?_, ?_, ?_, ?_, (perm_agrees hp).1 (hmag x), ?_, w2, nm2, ?_, ?_⟩
  · unfold veMapCore
    rw [e0]
    simp only [Py.bind_ok]
    rw [← hes, e1]
    simp only [Py.bind_ok]
    rw [e2]
    simp only [Py.bind_ok]
    rw [m2, t1]
    rfl
  · exact nd (by rw [hasg]; exact Dict.nodup_keys_update (by simp [Dict.keys]))
  · intro v hv
    rw [g1 v fun ho => hv ((hOmem v).1 ho).1, hget, Dict.get?_eq_none_iff]
    intro hk
    obtain ⟨e, he, rfl⟩ := List.mem_map.1 hk
    exact hv (hlv e he).1
  · intro v hv
    by_cases hk : v ∈ es.map Prod.fst
    · have : merge x v = t v := if_pos hk
      rw [this]
      refine ⟨htr v hk, ?_⟩
      rw [g1 v fun ho => ((hOmem v).1 ho).2 ((hmemK v).1 hk), hget]
      obtain ⟨e, he, rfl⟩ := List.mem_map.1 hk
      rw [Dict.get?_of_mem (d := es) hn (k := e.1) (v := e.2) he]
      exact (htag e he).symm
    · rw [hmoff x v hk]
      exact xr v ((hOmem v).2 ⟨hv, fun h => hk ((hmemK v).2 h)⟩)
  · intro b hb hag
    have hbR : InR bn.cardOf p1.phi b := fun u hu => hb u ((hOmem u).1 ((hm1 u).1 hu)).1
    have h1 := mx b hbR
    rw [hjoint x hxR] at h1
    refine le_trans (le_of_eq ?_) h1
    exact (restr_prod r1 b b hbR (fun _ _ => rfl) ((perm_agrees hp).2 hag)).symm
  · intro a; rw [cst a, hjoint x hxR]
  · intro hVne
    obtain ⟨P, hP, I⟩ := ClsInv.start O r1
    obtain ⟨P', hP', I'⟩ := I.chain ch hP hOn fun v hv => by
      obtain ⟨g1, g2⟩ := (hOmem v).1 hv
      exact ⟨hv, id, by rw [hmemK]; exact g2, (hm1 v).2 hv⟩
    obtain ⟨hne, hone⟩ := I'.single wb.nodup (fun v hv => .inr hv) hVne
    have hlen : P'.length = p2.phi.length := by rw [← hP', List.length_map]
    refine ⟨fun h0 => ?_, by rw [← hlen]; exact hone⟩
    rw [h0] at hlen; exact hne (List.length_eq_zero_iff.1 hlen)

end PyBN
