import Verif.Proofs.Stale
import Verif.Proofs.FactorObjects
import Verif.Spec.Stale

/-! Factorizations in which tables are too long or too short. -/

set_option linter.unusedSectionVars false

namespace PyBN
variable {N A : Type _} [DecidableEq N] [DecidableEq A]
open Factor Factorization
open Obj (PyRel)

variable {c : N → ℕ} {f g : Factor N} {rv : N}

/-! ### Too long -/

/-- `g` is the well-formed factor `f` with entries appended, a whole number of times as long. -/
def Over (c : N → ℕ) (f g : Factor N) : Prop :=
  f.WF c ∧ ∃ (t : List ℚ) (m : ℕ), 0 < m ∧ g = f.recut (f.cpt ++ t) ∧ (f.cpt ++ t).length = f.cpt.length * m

theorem Over.refl (w : f.WF c) : Over c f f := ⟨w, [], 1, by simp, by rw [List.append_nil]; rfl, by simp⟩

theorem Over.scope (o : Over c f g) : g.scope = f.scope := by obtain ⟨_, t, m, _, rfl, _⟩ := o; rfl

theorem over_of {f0 : Factor N} (w : f0.Shape c) {r t : List ℚ} {m : ℕ} (hm : 0 < m) (hr : r.length = f0.size c)
    (hlt : (r ++ t).length = f0.size c * m) : Over c (f0.recut r) (f0.recut (r ++ t)) :=
  ⟨Shape.wf (f := f0.recut r) w hr, t, m, hm, rfl, by
    show (r ++ t).length = r.length * m
    rw [hlt, hr]⟩

theorem Over.sumout (h : HashOrder N) (o : Over c f g) (hrv : rv ∈ f.scope) :
    PyRel (Over c) (f.sumout h rv) (g.sumout h rv) := by
  obtain ⟨w, t, m, hm, rfl, hlt⟩ := o
  obtain ⟨P, Q, f0, R, he⟩ := w.shape.sumout_eq h hrv
  have hl : f.cpt.length = P * (c rv * Q) := w.cpt_len.trans R.size_eq
  obtain ⟨r, t', e1, e2, e3, e4⟩ := elim_over (agg := fun l k => sumC l P k (c rv) 0 0) (op := List.sum) (t := t)
    R.P_pos R.C_pos hm hl (by rw [hlt, hl])
    (by
      intro l k hk
      rw [sumC_ok _ _ _ (fun y hy => by rw [zero_add]; exact hk y hy)]
      simp only [zero_add]; rfl)
  have h1 := he f.cpt
  rw [recut_self, e1, Py.bind_ok] at h1
  have h2 := he (f.cpt ++ t)
  rw [e2, Py.bind_ok] at h2
  rw [h1, h2]
  exact .ok (over_of R.shape hm (by rw [e3, R.size0]) (by rw [e4, R.size0]))

theorem Over.reduce (h : HashOrder N) (bn : BayesNet N A) (o : Over c f g) (hrv : rv ∈ f.scope) (val : A)
    (hv : ∀ vals x, bn.values rv = .ok vals → pyIndex vals val = .ok x → x < c rv) :
    PyRel (Over c) (f.reduce h bn rv val) (g.reduce h bn rv val) := by
  obtain ⟨w, t, m, hm, rfl, hlt⟩ := o
  obtain ⟨P, Q, f0, R, he⟩ := w.shape.reduce_eq h bn hrv
  have hl : f.cpt.length = P * (c rv * Q) := w.cpt_len.trans R.size_eq
  have h1 := he f.cpt val
  rw [recut_self] at h1
  have h2 := he (f.cpt ++ t) val
  rw [h1, h2]
  cases e : bn.values rv with
  | error e => exact .err _
  | ok vals =>
    rw [Py.bind_ok, Py.bind_ok]
    cases e' : pyIndex vals val with
    | error e => exact .err _
    | ok x =>
      rw [Py.bind_ok, Py.bind_ok]
      obtain ⟨r, t', e1, e2, e3, e4⟩ := reduce_over (t := t) R.P_pos (hv vals x e e') hm hl (by rw [hlt, hl])
      rw [e1, e2]
      exact .ok (over_of R.shape hm (by rw [e3, R.size0]) (by rw [e4, R.size0]))

theorem Over.mul (h : HashOrder N) {f' g' : Factor N} (o1 : Over c f f') (o2 : Over c g g') :
    PyRel (fun p q => p.1 = q.1 ∧ p.1.WF c) (f.mul h g) (f'.mul h g') := by
  obtain ⟨w1, t1, m1, _, rfl, _⟩ := o1
  obtain ⟨w2, t2, m2, _, rfl, _⟩ := o2
  unfold Factor.mul
  show PyRel _ (if f.scope.length ≥ g.scope.length then _ else _) (if f.scope.length ≥ g.scope.length then _ else _)
  split
  · rw [mulCore_extra h w1 w2]
    obtain ⟨psi, scope, card, stride, e1, e2, _⟩ := mulCore_ok h w1 w2 f.var
    rw [e1]
    exact .ok ⟨rfl, e2⟩
  · rw [mulCore_extra h w2 w1]
    obtain ⟨psi, scope, card, stride, e1, e2, _⟩ := mulCore_ok h w2 w1 f.var
    rw [e1]
    exact .ok ⟨rfl, e2⟩

theorem mulAll_same (h : HashOrder N) : ∀ {fs gs : List (Factor N)}, List.Forall₂ (Over c) fs gs → ∀ {psi : Factor N},
    psi.WF c → PyRel (fun a b => a = b ∧ a.WF c) (mulAll h psi fs) (mulAll h psi gs) := by
  intro fs gs hfg
  induction hfg with
  | nil => intro psi w; exact .ok ⟨rfl, w⟩
  | cons o1 hs ih =>
    intro psi w
    unfold Factorization.mulAll
    refine ((Over.refl w).mul h o1).bind ?_
    rintro ⟨a, _⟩ ⟨b, _⟩ ⟨hab, wa⟩
    simp only at hab wa
    subst hab
    exact ih wa

/-- A product of two or more factors does not depend on the extra entries. -/
theorem Over.mulAll (h : HashOrder N) {fs gs : List (Factor N)} (hs : List.Forall₂ (Over c) fs gs) {psi psi' : Factor N}
    (o : Over c psi psi') : PyRel (fun a b => Over c a b ∧ (fs ≠ [] → a = b)) (mulAll h psi fs) (mulAll h psi' gs) := by
  cases hs with
  | nil => exact .ok ⟨o, fun h => absurd rfl h⟩
  | cons o1 hs =>
    unfold Factorization.mulAll
    refine (o.mul h o1).bind ?_
    rintro ⟨a, _⟩ ⟨b, _⟩ ⟨hab, wa⟩
    simp only at hab wa
    subst hab
    exact (mulAll_same h hs wa).mono fun x y hxy => ⟨hxy.1 ▸ Over.refl hxy.2, fun _ => hxy.1⟩

theorem forall₂_filter_scope {R : Factor N → Factor N → Prop} (hR : ∀ f g, R f g → g.scope = f.scope) (p : List N → Bool) :
    ∀ {fs gs : List (Factor N)}, List.Forall₂ R fs gs →
      List.Forall₂ R (fs.filter fun f => p f.scope) (gs.filter fun f => p f.scope) := by
  intro fs gs h
  induction h with
  | nil => exact .nil
  | cons h1 _ ih =>
    rw [List.filter_cons, List.filter_cons, hR _ _ h1]
    split
    · exact .cons h1 ih
    · exact ih

/-- The two factorizations agree up to extra entries, and exactly once a single factor is left. -/
def OverPhi (c : N → ℕ) (phi phi' : List (Factor N)) : Prop :=
  List.Forall₂ (Over c) phi phi' ∧ (2 ≤ phi.length ∨ phi = phi')

theorem length_filter_split {α : Type _} (l : List α) (p : α → Prop) [DecidablePred p] :
    (l.filter fun x => p x).length + (l.filter fun x => ¬ p x).length = l.length := by
  induction l with
  | nil => rfl
  | cons a l ih => by_cases h : p a <;> simp [h] at ih ⊢ <;> omega

theorem OverPhi.sumElim (h : HashOrder N) {p p' : Factorization N A} (hp : OverPhi c p.phi p'.phi) (rv : N) :
    PyRel (fun q q' => OverPhi c q.phi q'.phi) (p.sumElim h rv) (p'.sumElim h rv) := by
  obtain ⟨hf, hlen⟩ := hp
  unfold Factorization.sumElim relProduct
  have hrel : List.Forall₂ (Over c) (relevant p.phi rv) (relevant p'.phi rv) :=
    forall₂_filter_scope (fun _ _ o => o.scope) (fun s => decide (rv ∈ s)) hf
  have hirr : List.Forall₂ (Over c) (irrelevant p.phi rv) (irrelevant p'.phi rv) :=
    forall₂_filter_scope (fun _ _ o => o.scope) (fun s => decide (rv ∉ s)) hf
  have hsum : (relevant p.phi rv).length + (irrelevant p.phi rv).length = p.phi.length := length_filter_split _ _
  rcases hlen with hlen | heq
  · have hmem : ∀ f ∈ relevant p.phi rv, rv ∈ f.scope := fun f hf => by
      simpa using (List.mem_filter.1 hf).2
    revert hrel hsum hmem
    generalize relevant p.phi rv = rs
    generalize relevant p'.phi rv = rs'
    intro hrel hsum hmem
    cases hrel with
    | nil => exact .err _
    | cons o1 hs =>
      rename_i f0 g0 fs gs
      have hm0 := hmem f0 (by simp)
      have hscope : ∀ a, Factorization.mulAll h f0 fs = .ok a → rv ∈ a.scope := by
        intro a ha
        obtain ⟨a', e, _, hsc, _⟩ := mulAll_ok h (c := c) fs o1.1 (fun f hf => by
          have : ∀ {l1 l2 : List (Factor N)}, List.Forall₂ (Over c) l1 l2 → ∀ f ∈ l1, f.WF c := by
            intro l1 l2 h
            induction h with
            | nil => simp
            | cons h1 _ ih => intro f hf; rcases List.mem_cons.1 hf with rfl | hf; exacts [h1.1, ih f hf]
          exact this hs f hf)
        rw [e] at ha; cases ha
        exact (hsc rv).2 (.inl hm0)
      show PyRel _ (Factorization.mulAll h f0 fs >>= _) (Factorization.mulAll h g0 gs >>= _)
      have hmul := o1.mulAll h hs
      revert hscope
      generalize Factorization.mulAll h f0 fs = x at hmul
      generalize Factorization.mulAll h g0 gs = y at hmul
      intro hscope
      cases hmul with
      | err e => exact .err _
      | ok hab =>
        rename_i a b
        have ha := hscope a rfl
        rw [Py.bind_ok, Py.bind_ok]
        have hso := hab.1.sumout h ha
        by_cases hfs : fs = []
        · refine hso.bind fun x y hxy => .ok ⟨?_, .inl ?_⟩
          · exact List.rel_append hirr (.cons hxy .nil)
          · subst hfs
            simp only [List.length_append, List.length_cons, List.length_nil] at hsum ⊢
            omega
        · have := hab.2 hfs
          subst this
          have hrefl : PyRel (fun x y => Over c x y ∧ x = y) (a.sumout h rv) (a.sumout h rv) := by
            generalize a.sumout h rv = z at hso
            cases hso with
            | err e => exact .err _
            | ok o => exact .ok ⟨o, rfl⟩
          refine hrefl.bind fun x y hxy => ?_
          obtain ⟨hxy, rfl⟩ := hxy
          refine .ok ⟨List.rel_append hirr (.cons hxy .nil), ?_⟩
          rcases Nat.lt_or_ge 0 (irrelevant p.phi rv).length with hi | hi
          · left
            simp only [List.length_append, List.length_cons, List.length_nil]
            omega
          · right
            have hi0 : irrelevant p.phi rv = [] := List.eq_nil_of_length_eq_zero (by omega)
            have hi1 : irrelevant p'.phi rv = [] := List.eq_nil_of_length_eq_zero (by rw [← hirr.length_eq, hi0]; rfl)
            rw [hi0, hi1]
  · rw [← heq] at hf hrel hirr ⊢
    have hw : ∀ f ∈ p.phi, f.WF c := by
      clear * - hf
      have : ∀ {l1 l2 : List (Factor N)}, List.Forall₂ (Over c) l1 l2 → ∀ f ∈ l1, f.WF c := by
        intro l1 l2 h
        induction h with
        | nil => simp
        | cons h1 _ ih => intro f hf; rcases List.mem_cons.1 hf with rfl | hf; exacts [h1.1, ih f hf]
      exact this hf
    by_cases hm : Mentions p.phi rv
    · obtain ⟨psi, e1, w1, r1, _, _⟩ := relProduct_ok h hw hm
      obtain ⟨psi', e2, w2, _, _⟩ := sumout_ok h w1 r1
      unfold relProduct at e1
      rw [e1, Py.bind_ok, Py.bind_ok, e2]
      exact .ok ⟨List.rel_append hirr (.cons (Over.refl w2) .nil), .inr rfl⟩
    · have : relevant p.phi rv = [] := by
        apply List.filter_eq_nil_iff.2
        intro f hf
        simp only [decide_eq_true_eq]
        exact fun hh => hm ⟨f, hf, hh⟩
      rw [this]
      exact .err _

theorem OverPhi.sumElimAll (h : HashOrder N) : ∀ (order : List N) {p p' : Factorization N A}, OverPhi c p.phi p'.phi →
    PyRel (fun q q' => OverPhi c q.phi q'.phi) (sumElimAll h order p) (sumElimAll h order p')
  | [], _, _, hp => .ok hp
  | v :: vs, _, _, hp => by
      unfold PyBN.sumElimAll
      exact (hp.sumElim h v).bind fun a b hab => OverPhi.sumElimAll h vs hab

theorem over_reducePhi (h : HashOrder N) (bn : BayesNet N A) (rv : N) (val : A)
    (hv : ∀ vals x, bn.values rv = .ok vals → pyIndex vals val = .ok x → x < c rv) :
    ∀ {phi phi' : List (Factor N)}, List.Forall₂ (Over c) phi phi' →
      PyRel (List.Forall₂ (Over c)) (reducePhi h bn rv val phi) (reducePhi h bn rv val phi') := by
  intro phi phi' hp
  induction hp with
  | nil => exact .ok .nil
  | cons o _ ih =>
    unfold reducePhi
    rw [o.scope]
    split
    · rename_i hm
      exact (o.reduce h bn hm val hv).bind fun a b hab => ih.bind fun x y hxy => .ok (.cons hab hxy)
    · exact ih.bind fun x y hxy => .ok (.cons o hxy)

theorem over_applyEvidence (h : HashOrder N) (bn : BayesNet N A)
    (hv : ∀ rv val vals x, bn.values rv = .ok vals → pyIndex vals val = .ok x → x < c rv) :
    ∀ (es : List (N × A)) {p p' : Factorization N A} (order : List N), List.Forall₂ (Over c) p.phi p'.phi →
      PyRel (fun q q' => List.Forall₂ (Over c) q.1.phi q'.1.phi ∧ q.1.phi.length = p.phi.length ∧ q.2 = q'.2)
        (applyEvidence h bn es p order) (applyEvidence h bn es p' order)
  | [], _, _, _, hp => .ok ⟨hp, rfl, rfl⟩
  | (v, x) :: es, p, p', order, hp => by
      unfold applyEvidence Factorization.sub
      have h1 := over_reducePhi h bn v x (hv v x) hp
      have hlen : ∀ r, reducePhi h bn v x p.phi = .ok r → r.length = p.phi.length := by
        generalize p.phi = l
        intro r
        induction l generalizing r with
        | nil => intro hr; cases hr; rfl
        | cons f fs ih =>
          intro hr
          unfold reducePhi at hr
          split at hr
          · cases e1 : f.reduce h bn v x with
            | error e => rw [e1] at hr; cases hr
            | ok a =>
              rw [e1, Py.bind_ok] at hr
              cases e2 : reducePhi h bn v x fs with
              | error e => rw [e2] at hr; cases hr
              | ok b => rw [e2] at hr; cases hr; simp [ih b e2]
          · cases e2 : reducePhi h bn v x fs with
            | error e => rw [e2] at hr; cases hr
            | ok b => rw [e2] at hr; cases hr; simp [ih b e2]
      revert hlen
      generalize reducePhi h bn v x p.phi = a at h1
      generalize reducePhi h bn v x p'.phi = b at h1
      intro hlen
      cases h1 with
      | err e => exact .err _
      | ok hab =>
        rename_i a b
        simp only [Py.bind_ok, Py.pure_eq]
        refine (PyRel.refl (pyRemove order v)).bind ?_
        rintro o _ rfl
        have := over_applyEvidence h bn hv es (p := ⟨a, p.mapFactors, p.mapAssignment.set v x⟩)
          (p' := ⟨b, p'.mapFactors, p'.mapAssignment.set v x⟩) o hab
        exact this.mono fun q q' hq => ⟨hq.1, hq.2.1.trans (hlen a rfl), hq.2.2⟩

end PyBN
