import Verif.Proofs.FactorMore
import Verif.Spec.Inference

/-! Variable elimination: helper lemmas. -/

set_option linter.unusedSectionVars false

namespace PyBN
open Factor Factorization
variable {N A : Type _} [DecidableEq N] [DecidableEq A] {c : N → ℕ}

theorem val_of_entry {f : Factor N} {a : Asg N} {x : ℚ} (h : f.entry a = some x) : f.val a = x := by
  unfold Factor.val; rw [h]; rfl

/-- `a` is in range for every variable mentioned. -/
def InR (c : N → ℕ) (phi : List (Factor N)) (a : Asg N) : Prop := ∀ v, Mentions phi v → a v < c v

theorem mulAll_ok (h : HashOrder N) : ∀ (fs : List (Factor N)) {psi : Factor N}, psi.WF c → (∀ f ∈ fs, f.WF c) →
    ∃ psi', mulAll h psi fs = .ok psi' ∧ psi'.WF c ∧
      (∀ v, v ∈ psi'.scope ↔ v ∈ psi.scope ∨ ∃ f ∈ fs, v ∈ f.scope) ∧
      ∀ a, InRange c psi'.scope a → psi'.val a = psi.val a * prodVal fs a := by
  intro fs
  induction fs with
  | nil => intro psi w _; exact ⟨psi, rfl, w, by simp, by simp [prodVal]⟩
  | cons f fs ih =>
    intro psi w hw
    obtain ⟨p1, g1, e1, w1, _, s1, v1, _⟩ := mul_ok h w (hw f (by simp))
    obtain ⟨p2, e2, w2, s2, v2⟩ := ih w1 fun g hg => hw g (by simp [hg])
    refine ⟨p2, by simp [mulAll, e1, e2], w2, ?_, ?_⟩
    · intro v; rw [s2, s1]; simp [or_assoc]
    · intro a ha
      rw [v2 a ha, val_of_entry (v1 a fun v hv => ha v ((s2 v).2 (.inl hv)))]
      simp only [prodVal, List.map_cons, List.prod_cons]; ring

theorem prodVal_split (phi : List (Factor N)) (rv : N) (a : Asg N) :
    prodVal phi a = prodVal (relevant phi rv) a * prodVal (irrelevant phi rv) a := by
  induction phi with
  | nil => simp [prodVal, relevant, irrelevant]
  | cons f fs ih =>
    simp only [prodVal, relevant, irrelevant] at ih ⊢
    by_cases hf : rv ∈ f.scope
    · simp only [List.map_cons, List.prod_cons, List.filter_cons, hf, decide_true, if_true, not_true_eq_false,
        decide_false]
      rw [ih]; simp; ring
    · simp only [List.map_cons, List.prod_cons, List.filter_cons, hf, decide_true, if_true, not_false_eq_true,
        decide_false]
      rw [ih]; simp; ring

theorem relProduct_ok (h : HashOrder N) {phi : List (Factor N)} (hw : ∀ f ∈ phi, f.WF c) {rv : N} (hm : Mentions phi rv) :
    ∃ psi, relProduct h phi rv = .ok psi ∧ psi.WF c ∧ rv ∈ psi.scope ∧
      (∀ v, v ∈ psi.scope ↔ ∃ f ∈ phi, rv ∈ f.scope ∧ v ∈ f.scope) ∧
      ∀ a, InRange c psi.scope a → psi.val a = prodVal (relevant phi rv) a := by
  have hmem : ∀ f, f ∈ relevant phi rv ↔ f ∈ phi ∧ rv ∈ f.scope := by simp [relevant]
  unfold relProduct
  cases hr : relevant phi rv with
  | nil =>
    obtain ⟨f, hf, hfv⟩ := hm
    have := (hmem f).2 ⟨hf, hfv⟩
    rw [hr] at this; simp at this
  | cons f fs =>
    rw [hr] at hmem
    obtain ⟨psi, e, w, s, v⟩ := mulAll_ok h fs (hw f ((hmem f).1 (by simp)).1)
      fun g hg => hw g ((hmem g).1 (by simp [hg])).1
    have hs : ∀ v, v ∈ psi.scope ↔ ∃ f ∈ phi, rv ∈ f.scope ∧ v ∈ f.scope := by
      intro u
      rw [s]
      constructor
      · rintro (hu | ⟨g, hg, hu⟩)
        · exact ⟨f, ((hmem f).1 (by simp)).1, ((hmem f).1 (by simp)).2, hu⟩
        · exact ⟨g, ((hmem g).1 (by simp [hg])).1, ((hmem g).1 (by simp [hg])).2, hu⟩
      · rintro ⟨g, hg, hgr, hu⟩
        rcases List.mem_cons.1 ((hmem g).2 ⟨hg, hgr⟩) with rfl | hg'
        · exact .inl hu
        · exact .inr ⟨g, hg', hu⟩
    refine ⟨psi, e, w, ?_, hs, ?_⟩
    · obtain ⟨g, hg, hgr⟩ := hm; exact (hs rv).2 ⟨g, hg, hgr, hgr⟩
    · intro a ha
      rw [v a ha]; simp [prodVal]

/-- The shape of the factor list after an elimination. -/
structure ElimShape (c : N → ℕ) (phi : List (Factor N)) (rv : N) (phi' : List (Factor N)) (psi' : Factor N) : Prop where
  eq : phi' = irrelevant phi rv ++ [psi']
  wf : psi'.WF c
  scope : ∀ v, v ∈ psi'.scope ↔ v ≠ rv ∧ ∃ f ∈ phi, rv ∈ f.scope ∧ v ∈ f.scope

theorem ElimShape.all_wf {phi phi' : List (Factor N)} {rv : N} {psi' : Factor N} (s : ElimShape c phi rv phi' psi')
    (hw : ∀ f ∈ phi, f.WF c) : ∀ f ∈ phi', f.WF c := by
  intro f hf
  rw [s.eq, List.mem_append, List.mem_singleton] at hf
  rcases hf with hf | rfl
  · exact hw f (List.mem_of_mem_filter hf)
  · exact s.wf

theorem ElimShape.mentions {phi phi' : List (Factor N)} {rv : N} {psi' : Factor N} (s : ElimShape c phi rv phi' psi') (v : N) :
    Mentions phi' v ↔ v ≠ rv ∧ Mentions phi v := by
  unfold Mentions
  rw [s.eq]
  constructor
  · rintro ⟨f, hf, hv⟩
    rw [List.mem_append, List.mem_singleton] at hf
    rcases hf with hf | rfl
    · simp only [irrelevant, List.mem_filter, decide_eq_true_eq] at hf
      exact ⟨by rintro rfl; exact hf.2 hv, f, hf.1, hv⟩
    · obtain ⟨h1, g, hg, _, hgv⟩ := (s.scope v).1 hv
      exact ⟨h1, g, hg, hgv⟩
  · rintro ⟨hne, f, hf, hv⟩
    by_cases hr : rv ∈ f.scope
    · exact ⟨psi', by simp, (s.scope v).2 ⟨hne, f, hf, hr, hv⟩⟩
    · exact ⟨f, by simp [irrelevant, hf, hr], hv⟩

/-- A sequence of eliminations, as far as the scopes are concerned. -/
inductive ElimChain (c : N → ℕ) : List N → List (Factor N) → List (Factor N) → Prop
  | nil (phi : List (Factor N)) : ElimChain c [] phi phi
  | cons {v : N} {vs : List N} {phi phi1 phi2 : List (Factor N)} {psi : Factor N} :
      ElimShape c phi v phi1 psi → ElimChain c vs phi1 phi2 → ElimChain c (v :: vs) phi phi2

theorem InR.upd {phi phi' : List (Factor N)} {rv : N} {a : Asg N} {x : ℕ}
    (hm : ∀ v, Mentions phi' v ↔ v ≠ rv ∧ Mentions phi v) (ha : InR c phi' a) (hx : x < c rv) : InR c phi (a.upd rv x) := by
  intro v hv
  by_cases h : v = rv
  · subst h; rwa [Asg.upd_self]
  · rw [Asg.upd_ne _ _ h]; exact ha v ((hm v).2 ⟨h, hv⟩)

theorem prodVal_irrelevant_upd (phi : List (Factor N)) (rv : N) (a : Asg N) (x : ℕ) :
    prodVal (irrelevant phi rv) (a.upd rv x) = prodVal (irrelevant phi rv) a := by
  unfold prodVal; congr 1
  apply List.map_congr_left
  intro f hf
  simp only [irrelevant, List.mem_filter, decide_eq_true_eq] at hf
  exact val_congr fun v hv => Asg.upd_ne _ _ (by rintro rfl; exact hf.2 hv)

theorem sumElim_ok (h : HashOrder N) (p : Factorization N A) (hw : ∀ f ∈ p.phi, f.WF c) {rv : N} (hm : Mentions p.phi rv) :
    ∃ p' psi', p.sumElim h rv = .ok p' ∧ p'.mapFactors = p.mapFactors ∧ p'.mapAssignment = p.mapAssignment ∧
      ElimShape c p.phi rv p'.phi psi' ∧
      ∀ a, InR c p'.phi a → prodVal p'.phi a = ∑ x ∈ Finset.range (c rv), prodVal p.phi (a.upd rv x) := by
  obtain ⟨psi, e1, w1, r1, s1, v1⟩ := relProduct_ok h hw hm
  obtain ⟨psi', e2, w2, s2, v2⟩ := sumout_ok h w1 r1
  have sh : ElimShape c p.phi rv (irrelevant p.phi rv ++ [psi']) psi' :=
    ⟨rfl, w2, fun v => by rw [s2, w1.scope_nodup.mem_erase_iff, s1]⟩
  refine ⟨{ p with phi := irrelevant p.phi rv ++ [psi'] }, psi', by simp [sumElim, e1, e2], rfl, rfl, sh, ?_⟩
  intro a ha
  have ha' : InRange c psi'.scope a := fun v hv => ha v ⟨psi', by simp, hv⟩
  have : prodVal (irrelevant p.phi rv ++ [psi']) a = prodVal (irrelevant p.phi rv) a * psi'.val a := by
    simp [prodVal]
  rw [this, val_of_entry (v2 a ha'), list_sum_range, Finset.mul_sum]
  apply Finset.sum_congr rfl
  intro x hx
  have hx := Finset.mem_range.1 hx
  rw [prodVal_split p.phi rv, prodVal_irrelevant_upd, v1 _ fun v hv => ?_, mul_comm]
  by_cases h : v = rv
  · subst h; rwa [Asg.upd_self]
  · rw [Asg.upd_ne _ _ h]; exact ha' v ((sh.scope v).2 ⟨h, (s1 v).1 hv⟩)

theorem maxElim_ok (h : HashOrder N) (p : Factorization N A) (hw : ∀ f ∈ p.phi, f.WF c) {rv : N} (hm : Mentions p.phi rv) :
    ∃ p' psi psi', p.maxElim h rv = .ok p' ∧ p'.mapFactors = Dict.set p.mapFactors rv psi ∧
      p'.mapAssignment = p.mapAssignment ∧ psi.WF c ∧ rv ∈ psi.scope ∧
      (∀ v, v ∈ psi.scope ↔ ∃ f ∈ p.phi, rv ∈ f.scope ∧ v ∈ f.scope) ∧
      (∀ a, InRange c psi.scope a → psi.val a = prodVal (relevant p.phi rv) a) ∧
      ElimShape c p.phi rv p'.phi psi' ∧
      ∀ a, InRange c psi'.scope a →
        psi'.val a = ((List.range (c rv)).map fun x => psi.val (a.upd rv x)).foldl max 0 := by
  obtain ⟨psi, e1, w1, r1, s1, v1⟩ := relProduct_ok h hw hm
  obtain ⟨psi', e2, w2, s2, _, v2⟩ := maxout_ok w1 r1
  have sh : ElimShape c p.phi rv (irrelevant p.phi rv ++ [psi']) psi' :=
    ⟨rfl, w2, fun v => by rw [s2, w1.scope_nodup.mem_erase_iff, s1]⟩
  exact ⟨{ p with phi := irrelevant p.phi rv ++ [psi'], mapFactors := Dict.set p.mapFactors rv psi }, psi, psi',
    by simp [maxElim, e1, e2], rfl, rfl, w1, r1, s1, v1, sh, fun a ha => val_of_entry (v2 a ha)⟩

theorem sumElimAll_ok (h : HashOrder N) : ∀ (order : List N) (p : Factorization N A), (∀ f ∈ p.phi, f.WF c) → order.Nodup →
    (∀ v ∈ order, Mentions p.phi v) →
    ∃ p', sumElimAll h order p = .ok p' ∧ ElimChain c order p.phi p'.phi ∧ (∀ f ∈ p'.phi, f.WF c) ∧
      (∀ v, Mentions p'.phi v ↔ v ∉ order ∧ Mentions p.phi v) ∧
      ∀ a, InR c p'.phi a → prodVal p'.phi a = sumAll c order.reverse (prodVal p.phi) a := by
  intro order
  induction order with
  | nil => intro p hw _ _; exact ⟨p, rfl, .nil _, hw, by simp, fun a _ => rfl⟩
  | cons v vs ih =>
    intro p hw hn hm
    rw [List.nodup_cons] at hn
    obtain ⟨p1, psi', e1, _, _, sh, v1⟩ := sumElim_ok h p hw (hm v (by simp))
    have hm1 := sh.mentions
    obtain ⟨p2, e2, ch2, w2, m2, v2⟩ := ih p1 (sh.all_wf hw) hn.2 fun u hu =>
      (hm1 u).2 ⟨by rintro rfl; exact hn.1 hu, hm u (by simp [hu])⟩
    refine ⟨p2, by simp [sumElimAll, e1, e2], .cons sh ch2, w2, ?_, ?_⟩
    · intro u; rw [m2, hm1]; simp only [List.mem_cons, not_or]; tauto
    · intro a ha
      rw [v2 a ha, List.reverse_cons, sumAll_append]
      apply sumAll_congr _ (List.nodup_reverse.2 hn.2)
      intro b hb hr
      rw [v1 b]
      · simp [sumAll]
      · intro u hu
        by_cases hu' : u ∈ vs
        · exact hr u (List.mem_reverse.2 hu')
        · rw [hb u (by simpa using hu')]; exact ha u ((m2 u).2 ⟨hu', hu⟩)

/-! ## Initial factors and evidence -/

theorem initPhi_ok {bn : BayesNet N A} (wb : bn.WF) : ∀ (vs : List N), (∀ v ∈ vs, v ∈ bn.V) →
    ∃ phi, initPhi bn vs = .ok phi ∧
      List.Forall₂ (fun v (f : Factor N) => f.WF bn.cardOf ∧ f.scope = bn.fam v ∧
        ∀ a, f.val a = bn.prob v a) vs phi := by
  intro vs
  induction vs with
  | nil => intro _; exact ⟨[], rfl, .nil⟩
  | cons v vs ih =>
    intro hv
    obtain ⟨f, e1, w1, _, s1, c1, p1⟩ := init_ok wb (hv v (by simp))
    obtain ⟨phi, e2, h2⟩ := ih fun u hu => hv u (by simp [hu])
    refine ⟨f :: phi, by simp [initPhi, e1, e2], .cons ⟨w1, s1, fun a => ?_⟩ h2⟩
    unfold Factor.val Factor.entry BayesNet.prob; rw [c1, p1]

/-- How a factor is changed by evidence on `K`. -/
def Reduced (bn : BayesNet N A) (es : List (N × A)) (f f' : Factor N) : Prop :=
  f'.WF bn.cardOf ∧ (∀ v, v ∈ f'.scope ↔ v ∈ f.scope ∧ v ∉ es.map Prod.fst) ∧
    ∀ a b : Asg N, InRange bn.cardOf f'.scope a → (∀ v, v ∉ es.map Prod.fst → b v = a v) →
      bn.Agrees es b → f'.val a = f.val b

theorem reducePhi_ok (h : HashOrder N) {bn : BayesNet N A} (wb : bn.WF) {rv : N} {val : A} (hV : rv ∈ bn.V)
    (hval : val ∈ bn.valuesOf rv) : ∀ (phi : List (Factor N)), (∀ f ∈ phi, f.WF bn.cardOf) →
    ∃ phi', reducePhi h bn rv val phi = .ok phi' ∧ List.Forall₂ (Reduced bn [(rv, val)]) phi phi' := by
  obtain ⟨x, hx, hxl, hxe⟩ := pyIndex_of_mem hval
  have hxc : x < bn.cardOf rv := by rw [wb.card_len hV]; exact hxl
  intro phi
  induction phi with
  | nil => intro _; exact ⟨[], rfl, .nil⟩
  | cons f fs ih =>
    intro hw
    obtain ⟨r, er, hr⟩ := ih fun g hg => hw g (by simp [hg])
    have wf := hw f (by simp)
    by_cases hf : rv ∈ f.scope
    · obtain ⟨f', h1, h2, h3, h4⟩ := reduce_ok h bn wf hf (wb.values_ok hV) hx hxc
      refine ⟨f' :: r, by simp [reducePhi, hf, h1, er], .cons ⟨h2, fun v => ?_, ?_⟩ hr⟩
      · rw [h3, wf.scope_nodup.mem_erase_iff]; simp [and_comm]
      · intro a b ha hb hag
        rw [val_of_entry (h4 a ha)]
        apply val_congr
        intro v hv
        by_cases hvr : v = rv
        · subst hvr
          rw [Asg.upd_self]
          have := hag (v, val) (by simp)
          simp only at this
          obtain ⟨hb1, hb2⟩ := List.getElem?_eq_some_iff.1 this
          obtain ⟨hx1, hx2⟩ := List.getElem?_eq_some_iff.1 hxe
          exact (List.Nodup.getElem_inj_iff (wb.values_nodup v hV)).1 (hx2.trans hb2.symm)
        · rw [Asg.upd_ne _ _ hvr, hb v (by simpa using hvr)]
    · refine ⟨f :: r, by simp [reducePhi, hf, er], .cons ⟨wf, fun v => ?_, ?_⟩ hr⟩
      · simp only [List.map_cons, List.map_nil, List.mem_singleton]
        exact ⟨fun hv => ⟨hv, by rintro rfl; exact hf hv⟩, fun hv => hv.1⟩
      · intro a b _ hb _
        apply val_congr
        intro v hv
        rw [hb v (by simp only [List.map_cons, List.map_nil, List.mem_singleton]; rintro rfl; exact hf hv)]

theorem Reduced.trans {bn : BayesNet N A} (wb : bn.WF) {v : N} {x : A}
    {es : List (N × A)} (hes : ∀ e ∈ es, e.1 ∈ bn.V) {f g k : Factor N}
    (h1 : Reduced bn [(v, x)] f g) (h2 : Reduced bn es g k) : Reduced bn ((v, x) :: es) f k := by
  refine ⟨h2.1, fun u => ?_, ?_⟩
  · rw [h2.2.1, h1.2.1]; simp [and_assoc]
  · intro a b ha hb hag
    have hag2 : bn.Agrees es b := fun e he => hag e (List.mem_cons_of_mem _ he)
    -- the intermediate assignment: as b on es, as a elsewhere
    let m : Asg N := fun u => if u ∈ es.map Prod.fst then b u else a u
    have e2 : k.val a = g.val m := by
      apply h2.2.2 a m ha
      · intro u hu; simp only [m, hu, if_false]
      · intro e he
        have hm : m e.1 = b e.1 := if_pos (List.mem_map.2 ⟨e, he, rfl⟩)
        show (bn.valuesOf e.1)[m e.1]? = _
        rw [hm]; exact hag2 e he
    rw [e2]
    apply h1.2.2 m b
    · intro u hu
      by_cases hue : u ∈ es.map Prod.fst
      · simp only [m, hue, if_true]
        obtain ⟨e, he, rfl⟩ := List.mem_map.1 hue
        have := hag2 e he
        rw [wb.card_len (hes e he)]
        exact (List.getElem?_eq_some_iff.1 this).1
      · simp only [m, hue, if_false]
        exact ha u ((h2.2.1 u).2 ⟨hu, hue⟩)
    · intro u hu
      simp only [List.map_cons, List.map_nil, List.mem_singleton] at hu
      by_cases hue : u ∈ es.map Prod.fst
      · simp only [m, hue, if_true]
      · simp only [m, hue, if_false]
        exact hb u (by simpa [hu] using hue)
    · intro e he
      rw [List.mem_singleton] at he
      subst he
      exact hag _ (by simp)

theorem forall₂_left_wf {bn : BayesNet N A} {es : List (N × A)} {phi phi' : List (Factor N)}
    (h : List.Forall₂ (Reduced bn es) phi phi') : ∀ f ∈ phi', f.WF bn.cardOf := by
  induction h with
  | nil => simp
  | cons h1 _ ih => intro f hf; rcases List.mem_cons.1 hf with rfl | hf; exacts [h1.1, ih f hf]

theorem Reduced.refl {bn : BayesNet N A} {f : Factor N} (w : f.WF bn.cardOf) : Reduced bn [] f f :=
  ⟨w, by simp, fun a b _ hb _ => val_congr fun v _ => (hb v (by simp)).symm⟩

theorem forall₂_refl_of {α : Type _} {R : α → α → Prop} : ∀ {l : List α}, (∀ x ∈ l, R x x) → List.Forall₂ R l l
  | [], _ => .nil
  | x :: _, h => .cons (h x (by simp)) (forall₂_refl_of fun y hy => h y (by simp [hy]))

theorem forall₂_comp {α β γ : Type _} {R : α → β → Prop} {S : β → γ → Prop} {T : α → γ → Prop}
    (hT : ∀ a b c, R a b → S b c → T a c) : ∀ {l : List α} {m : List β} {n : List γ},
    List.Forall₂ R l m → List.Forall₂ S m n → List.Forall₂ T l n := by
  intro l m n h1
  induction h1 generalizing n with
  | nil => intro h2; cases h2; exact .nil
  | cons hr _ ih => intro h2; cases h2 with | cons hs hss => exact .cons (hT _ _ _ hr hs) (ih hss)

theorem applyEvidence_ok (h : HashOrder N) {bn : BayesNet N A} (wb : bn.WF) : ∀ (es : List (N × A)) (p : Factorization N A)
    (order : List N), (∀ f ∈ p.phi, f.WF bn.cardOf) → (es.map Prod.fst).Nodup →
    (∀ e ∈ es, e.1 ∈ bn.V ∧ e.2 ∈ bn.valuesOf e.1) → (∀ e ∈ es, e.1 ∈ order) → order.Nodup →
    ∃ p' order', applyEvidence h bn es p order = .ok (p', order') ∧ p'.mapFactors = p.mapFactors ∧
      p'.mapAssignment = p.mapAssignment.update es ∧
      List.Forall₂ (Reduced bn es) p.phi p'.phi ∧ order' = order.filter (fun v => v ∉ es.map Prod.fst) := by
  intro es
  induction es with
  | nil =>
    intro p order hw _ _ _ _
    exact ⟨p, order, rfl, rfl, rfl, forall₂_refl_of fun f hf => .refl (hw f hf), by simp⟩
  | cons e es ih =>
    obtain ⟨v, x⟩ := e
    intro p order hw hn hl ho hon
    simp only [List.map_cons, List.nodup_cons] at hn
    obtain ⟨hV, hx⟩ := hl (v, x) (by simp)
    obtain ⟨phi1, e1, r1⟩ := reducePhi_ok h wb hV hx p.phi hw
    have e2 : p.sub h bn v x = .ok ⟨phi1, p.mapFactors, p.mapAssignment.set v x⟩ := by simp [sub, e1]
    have hvo : v ∈ order := ho (v, x) (by simp)
    obtain ⟨p', order', e3, m1, m2, r2, o2⟩ := ih ⟨phi1, p.mapFactors, p.mapAssignment.set v x⟩ (order.erase v)
      (forall₂_left_wf r1) hn.2 (fun e he => hl e (by simp [he]))
      (fun e he => by
        rw [hon.mem_erase_iff]
        refine ⟨?_, ho e (by simp [he])⟩
        intro hev; exact hn.1 (hev ▸ List.mem_map.2 ⟨e, he, rfl⟩)) (hon.erase v)
    refine ⟨p', order', ?_, m1, by rw [m2]; rfl, ?_, ?_⟩
    · simp only [applyEvidence, e2, Py.bind_ok, pyRemove_of_mem hvo]; exact e3
    · exact forall₂_comp (fun a b c h1 h2 => h1.trans wb (fun e he => (hl e (by simp [he])).1) h2) r1 r2
    · rw [o2, hon.erase_eq_filter, List.filter_filter]
      apply List.filter_congr
      intro u _
      rw [List.map_cons]; by_cases h1 : u = v <;> simp [h1, bne, Bool.and_comm]

/-- After the evidence step: one factor per node, each the CPT restricted to the evidence. -/
def Restr (bn : BayesNet N A) (es : List (N × A)) (v : N) (f : Factor N) : Prop :=
  f.WF bn.cardOf ∧ (∀ u, u ∈ f.scope ↔ u ∈ bn.fam v ∧ u ∉ es.map Prod.fst) ∧
    ∀ a b : Asg N, InRange bn.cardOf f.scope a → (∀ u, u ∉ es.map Prod.fst → b u = a u) →
      bn.Agrees es b → f.val a = bn.prob v b

theorem start_ok (h : HashOrder N) {bn : BayesNet N A} (wb : bn.WF) (es : List (N × A)) (order : List N)
    (hn : (es.map Prod.fst).Nodup) (hl : ∀ e ∈ es, e.1 ∈ bn.V ∧ e.2 ∈ bn.valuesOf e.1) (ho : ∀ e ∈ es, e.1 ∈ order)
    (hon : order.Nodup) :
    ∃ p0 p', Factorization.init bn = .ok p0 ∧
      applyEvidence h bn es p0 order = .ok (p', order.filter (fun v => v ∉ es.map Prod.fst)) ∧
      p'.mapFactors = [] ∧ p'.mapAssignment = Dict.update [] es ∧ List.Forall₂ (Restr bn es) bn.V p'.phi := by
  obtain ⟨phi, e1, r1⟩ := initPhi_ok wb bn.V fun _ h => h
  have hw : ∀ f ∈ phi, f.WF bn.cardOf := by
    clear e1
    revert r1; generalize bn.V = vs
    intro r1
    induction r1 with
    | nil => simp
    | cons h1 _ ih => intro f hf; rcases List.mem_cons.1 hf with rfl | hf; exacts [h1.1, ih f hf]
  obtain ⟨p', order', e2, m1, m2, r2, o2⟩ := applyEvidence_ok h wb es ⟨phi, [], []⟩ order hw hn hl ho hon
  subst o2
  refine ⟨⟨phi, [], []⟩, p', by simp [Factorization.init, e1], e2, m1, m2, ?_⟩
  refine forall₂_comp (fun v f f' h1 h2 => ⟨h2.1, fun u => ?_, fun a b ha hb hag => ?_⟩) r1 r2
  · rw [h2.2.1, h1.2.1]
  · rw [h2.2.2 a b ha hb hag, h1.2.2]

theorem restr_prod {bn : BayesNet N A} {es : List (N × A)} {vs : List N} {phi : List (Factor N)}
    (r : List.Forall₂ (Restr bn es) vs phi) (a b : Asg N) (ha : InR bn.cardOf phi a)
    (hb : ∀ u, u ∉ es.map Prod.fst → b u = a u) (hag : bn.Agrees es b) :
    prodVal phi a = (vs.map fun v => bn.prob v b).prod := by
  induction r with
  | nil => rfl
  | @cons v f vs phi h1 _ ih =>
    simp only [prodVal, List.map_cons, List.prod_cons] at ih ⊢
    rw [h1.2.2 a b (fun u hu => ha u ⟨f, by simp, hu⟩) hb hag, ih]
    intro u hu
    obtain ⟨g, hg, hu⟩ := hu
    exact ha u ⟨g, by simp [hg], hu⟩

theorem restr_wf {bn : BayesNet N A} {es : List (N × A)} {vs : List N} {phi : List (Factor N)}
    (r : List.Forall₂ (Restr bn es) vs phi) : ∀ f ∈ phi, f.WF bn.cardOf := by
  induction r with
  | nil => simp
  | cons h1 _ ih => intro f hf; rcases List.mem_cons.1 hf with rfl | hf; exacts [h1.1, ih f hf]

theorem restr_mentions {bn : BayesNet N A} {es : List (N × A)} {vs : List N} {phi : List (Factor N)}
    (r : List.Forall₂ (Restr bn es) vs phi) (u : N) :
    Mentions phi u ↔ u ∉ es.map Prod.fst ∧ ∃ v ∈ vs, u ∈ bn.fam v := by
  induction r with
  | nil => simp [Mentions]
  | @cons v f vs phi h1 _ ih =>
    have : Mentions (f :: phi) u ↔ u ∈ f.scope ∨ Mentions phi u := by simp [Mentions]
    rw [this, ih, h1.2.1]
    simp only [List.mem_cons, exists_eq_or_imp]; tauto

end PyBN
