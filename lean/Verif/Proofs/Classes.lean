import Verif.Proofs.Elim

/-! How many factors are left after eliminating: connected components of the families. -/

set_option linter.unusedSectionVars false

namespace PyBN
open Factor Factorization
variable {N A : Type _} [DecidableEq N] [DecidableEq A]

theorem BayesNet.Linked.trans {bn : BayesNet N A} {O : List N} {u v w : N} (h1 : bn.Linked O u v) (h2 : bn.Linked O v w) :
    bn.Linked O u w := by
  induction h2 with
  | refl => exact h1
  | step _ hw hx hxv hxw ih => exact .step ih hw hx hxv hxw

theorem BayesNet.Linked.mem {bn : BayesNet N A} {O : List N} {u v : N} (h1 : bn.Linked O u v) (hu : u ∈ bn.V) : v ∈ bn.V := by
  cases h1 with
  | refl => exact hu
  | step _ hw => exact hw

/-- Ghost state: each factor carries the nodes whose CPTs were multiplied into it.
`K` evidence, `O` all variables to eliminate, `D` those eliminated so far. -/
structure ClsInv (bn : BayesNet N A) (K O : List N) (D : N → Prop) (P : List (Factor N × List N)) : Prop where
  perm : (P.map Prod.snd).flatten.Perm bn.V
  ne : ∀ p ∈ P, p.2 ≠ []
  scope : ∀ p ∈ P, ∀ v, v ∈ p.1.scope ↔ ¬ D v ∧ v ∉ K ∧ ∃ u ∈ p.2, v ∈ bn.fam u
  linked : ∀ p ∈ P, ∀ u ∈ p.2, ∀ u' ∈ p.2, bn.Linked O u u'
  merged : ∀ w, D w → ∃ p ∈ P, ∀ u ∈ bn.V, w ∈ bn.fam u → u ∈ p.2

theorem ClsInv.step {c : N → ℕ} {bn : BayesNet N A} {K O : List N} {D : N → Prop} {P : List (Factor N × List N)}
    (I : ClsInv bn K O D P) {rv : N} (hrv : rv ∈ O) (hD : ¬ D rv) (hK : rv ∉ K)
    {phi' : List (Factor N)} {psi : Factor N}
    (sh : ElimShape c (P.map Prod.fst) rv phi' psi) (hm : Mentions (P.map Prod.fst) rv) :
    ∃ P', P'.map Prod.fst = phi' ∧ ClsInv bn K O (fun v => D v ∨ v = rv) P' := by
  let Pr := P.filter fun p => rv ∈ p.1.scope
  let Pi := P.filter fun p => rv ∉ p.1.scope
  have hPr : ∀ p, p ∈ Pr ↔ p ∈ P ∧ rv ∈ p.1.scope := by simp [Pr]
  have hPi : ∀ p, p ∈ Pi ↔ p ∈ P ∧ rv ∉ p.1.scope := by simp [Pi]
  let cls := (Pr.map Prod.snd).flatten
  have hcls : ∀ u, u ∈ cls ↔ ∃ p ∈ P, rv ∈ p.1.scope ∧ u ∈ p.2 := by
    intro u
    simp only [cls, List.mem_flatten, List.mem_map]
    constructor
    · rintro ⟨l, ⟨p, hp, rfl⟩, hu⟩; exact ⟨p, ((hPr p).1 hp).1, ((hPr p).1 hp).2, hu⟩
    · rintro ⟨p, hp, hr, hu⟩; exact ⟨p.2, ⟨p, (hPr p).2 ⟨hp, hr⟩, rfl⟩, hu⟩
  have hV : ∀ p ∈ P, ∀ u ∈ p.2, u ∈ bn.V := fun p hp u hu =>
    I.perm.subset (List.mem_flatten.2 ⟨p.2, List.mem_map.2 ⟨p, hp, rfl⟩, hu⟩)
  -- every node whose family contains rv is in the new class
  have hrvcls : ∀ u ∈ bn.V, rv ∈ bn.fam u → u ∈ cls := by
    intro u hu hru
    have : u ∈ (P.map Prod.snd).flatten := I.perm.mem_iff.2 hu
    obtain ⟨l, hl, hul⟩ := List.mem_flatten.1 this
    obtain ⟨p, hp, rfl⟩ := List.mem_map.1 hl
    exact (hcls u).2 ⟨p, hp, (I.scope p hp rv).2 ⟨hD, hK, u, hul, hru⟩, hul⟩
  refine ⟨Pi ++ [(psi, cls)], ?_, ?_, ?_, ?_, ?_, ?_⟩
  · rw [sh.eq, List.map_append]
    congr 1
    simp only [Pi, irrelevant, List.filter_map, Function.comp_def]
  · rw [List.map_append, List.flatten_append]
    simp only [List.map_cons, List.map_nil, List.flatten_cons, List.flatten_nil, List.append_nil]
    refine List.Perm.trans ?_ I.perm
    have h1 : ((Pi.map Prod.snd).flatten ++ (Pr.map Prod.snd).flatten).Perm (P.map Prod.snd).flatten := by
      rw [← List.flatten_append, ← List.map_append]
      apply List.Perm.flatten
      apply List.Perm.map
      have := List.filter_append_perm (fun p : Factor N × List N => decide (rv ∉ p.1.scope)) P
      refine List.Perm.trans (List.Perm.append_left _ ?_) this
      apply List.Perm.of_eq
      apply List.filter_congr
      intro p _
      by_cases h : rv ∈ p.1.scope <;> simp [h]
    exact h1
  · intro p hp
    rcases List.mem_append.1 hp with hp | hp
    · exact I.ne p ((hPi p).1 hp).1
    · rw [List.mem_singleton] at hp
      subst hp
      obtain ⟨f, hf, hr⟩ := hm
      obtain ⟨q, hq, rfl⟩ := List.mem_map.1 hf
      obtain ⟨u, hu⟩ := List.exists_mem_of_ne_nil _ (I.ne q hq)
      exact List.ne_nil_of_mem ((hcls u).2 ⟨q, hq, hr, hu⟩)
  · intro p hp v
    rcases List.mem_append.1 hp with hp | hp
    · obtain ⟨hp', hr⟩ := (hPi p).1 hp
      rw [I.scope p hp']
      constructor
      · rintro ⟨h1, h2, h3⟩
        refine ⟨?_, h2, h3⟩
        rintro (h | h)
        · exact h1 h
        · exact hr (h ▸ (I.scope p hp' v).2 ⟨h1, h2, h3⟩)
      · rintro ⟨h1, h2, h3⟩; exact ⟨fun h => h1 (.inl h), h2, h3⟩
    · rw [List.mem_singleton] at hp
      subst hp
      simp only
      rw [sh.scope]
      constructor
      · rintro ⟨hne, f, hf, hr, hv⟩
        obtain ⟨q, hq, rfl⟩ := List.mem_map.1 hf
        obtain ⟨h1, h2, u, hu, hvu⟩ := (I.scope q hq v).1 hv
        exact ⟨by rintro (h | h); exacts [h1 h, hne h], h2, u, (hcls u).2 ⟨q, hq, hr, hu⟩, hvu⟩
      · rintro ⟨h1, h2, u, hu, hvu⟩
        obtain ⟨q, hq, hr, hu⟩ := (hcls u).1 hu
        exact ⟨fun h => h1 (.inr h), q.1, List.mem_map.2 ⟨q, hq, rfl⟩, hr,
          (I.scope q hq v).2 ⟨fun h => h1 (.inl h), h2, u, hu, hvu⟩⟩
  · intro p hp u hu u' hu'
    rcases List.mem_append.1 hp with hp | hp
    · exact I.linked p ((hPi p).1 hp).1 u hu u' hu'
    · rw [List.mem_singleton] at hp
      subst hp
      simp only at hu hu'
      obtain ⟨q, hq, hr, hu⟩ := (hcls u).1 hu
      obtain ⟨q', hq', hr', hu'⟩ := (hcls u').1 hu'
      obtain ⟨_, _, t, ht, hrt⟩ := (I.scope q hq rv).1 hr
      obtain ⟨_, _, t', ht', hrt'⟩ := (I.scope q' hq' rv).1 hr'
      have l1 := I.linked q hq u hu t ht
      have l2 := I.linked q' hq' t' ht' u' hu'
      exact (BayesNet.Linked.step l1 (hV q' hq' t' ht') hrv hrt hrt').trans l2
  · rintro w (hw | rfl)
    · obtain ⟨p, hp, hpw⟩ := I.merged w hw
      by_cases hr : rv ∈ p.1.scope
      · exact ⟨(psi, cls), by simp, fun u hu hwu => (hcls u).2 ⟨p, hp, hr, hpw u hu hwu⟩⟩
      · exact ⟨p, List.mem_append_left _ ((hPi p).2 ⟨hp, hr⟩), hpw⟩
    · exact ⟨(psi, cls), by simp, hrvcls⟩

theorem ClsInv.chain {c : N → ℕ} {bn : BayesNet N A} {K O : List N} : ∀ {order : List N} {phi phi' : List (Factor N)},
    ElimChain c order phi phi' → ∀ {D : N → Prop} {P : List (Factor N × List N)}, P.map Prod.fst = phi →
    ClsInv bn K O D P → order.Nodup → (∀ v ∈ order, v ∈ O ∧ ¬ D v ∧ v ∉ K ∧ Mentions phi v) →
    ∃ P', P'.map Prod.fst = phi' ∧ ClsInv bn K O (fun v => D v ∨ v ∈ order) P' := by
  intro order phi phi' ch
  induction ch with
  | nil phi =>
    intro D P hP I _ _
    exact ⟨P, hP, by simpa using I⟩
  | @cons v vs phi phi1 phi2 psi sh _ ih =>
    intro D P hP I hn ho
    rw [List.nodup_cons] at hn
    subst hP
    obtain ⟨h1, h2, h3, h4⟩ := ho v (by simp)
    obtain ⟨P1, hP1, I1⟩ := I.step h1 h2 h3 sh h4
    obtain ⟨P2, hP2, I2⟩ := ih hP1 I1 hn.2 fun u hu => by
      obtain ⟨g1, g2, g3, g4⟩ := ho u (by simp [hu])
      have hne : u ≠ v := by rintro rfl; exact hn.1 hu
      exact ⟨g1, by rintro (h | h); exacts [g2 h, hne h], g3, (sh.mentions u).2 ⟨hne, g4⟩⟩
    refine ⟨P2, hP2, ?_⟩
    have : (fun u => (D u ∨ u = v) ∨ u ∈ vs) = fun u => D u ∨ u ∈ v :: vs := by
      funext u; simp [or_assoc]
    rwa [this] at I2

/-- At the end: there is a single factor exactly when all families are linked. -/
theorem ClsInv.single {bn : BayesNet N A} (hn : bn.V.Nodup) {K O : List N} {D : N → Prop} {P : List (Factor N × List N)}
    (I : ClsInv bn K O D P) (hO : ∀ v ∈ O, D v) (hV : bn.V ≠ []) :
    P ≠ [] ∧ (P.length = 1 ↔ ∀ u ∈ bn.V, ∀ v ∈ bn.V, bn.Linked O u v) := by
  have hfn : (P.map Prod.snd).flatten.Nodup := I.perm.nodup_iff.2 hn
  have hmem : ∀ u ∈ bn.V, ∃ p ∈ P, u ∈ p.2 := by
    intro u hu
    obtain ⟨l, hl, hul⟩ := List.mem_flatten.1 (I.perm.mem_iff.2 hu)
    obtain ⟨p, hp, rfl⟩ := List.mem_map.1 hl
    exact ⟨p, hp, hul⟩
  have hPne : P ≠ [] := by
    obtain ⟨u, hu⟩ := List.exists_mem_of_ne_nil _ hV
    obtain ⟨p, hp, _⟩ := hmem u hu
    exact List.ne_nil_of_mem hp
  -- uniqueness of the class
  have huniq : ∀ (Q : List (Factor N × List N)), (Q.map Prod.snd).flatten.Nodup → ∀ p ∈ Q, ∀ q ∈ Q, ∀ u, u ∈ p.2 → u ∈ q.2 → p = q := by
    intro Q
    induction Q with
    | nil => intro _ p hp; simp at hp
    | cons r Q ih =>
      intro hq p hp q hq' u hup huq
      simp only [List.map_cons, List.flatten_cons] at hq
      rw [List.nodup_append] at hq
      have hd : ∀ s ∈ Q, u ∈ s.2 → u ∉ r.2 := by
        intro s hs hus hur
        exact hq.2.2 u hur u (List.mem_flatten.2 ⟨s.2, List.mem_map.2 ⟨s, hs, rfl⟩, hus⟩) rfl
      rcases List.mem_cons.1 hp with h1 | h1
      · rcases List.mem_cons.1 hq' with h2 | h2
        · rw [h1, h2]
        · exact absurd (h1 ▸ hup) (hd q h2 huq)
      · rcases List.mem_cons.1 hq' with h2 | h2
        · exact absurd (h2 ▸ huq) (hd p h1 hup)
        · exact ih hq.2.1 p h1 q h2 u hup huq
  have hsame : ∀ u v, bn.Linked O u v → u ∈ bn.V → ∀ p ∈ P, u ∈ p.2 → v ∈ p.2 := by
    intro u v hl hu p hp hup
    induction hl with
    | refl => exact hup
    | @step v w x hl hw hx hxv hxw ih =>
      obtain ⟨q, hq, hqx⟩ := I.merged x (hO x hx)
      have hvV := hl.mem hu
      have := huniq P hfn p hp q hq v ih (hqx v hvV hxv)
      subst this
      exact hqx w hw hxw
  refine ⟨hPne, ?_, ?_⟩
  · intro hlen u hu v hv
    obtain ⟨p, hp⟩ := List.length_eq_one_iff.1 hlen
    subst hp
    obtain ⟨q, hq, huq⟩ := hmem u hu
    obtain ⟨q', hq', hvq⟩ := hmem v hv
    rw [List.mem_singleton] at hq hq'
    subst hq; subst hq'
    exact I.linked _ (by simp) u huq v hvq
  · intro hl
    match P, hPne, I, hfn, huniq, hsame with
    | [p], _, _, _, _, _ => rfl
    | p :: q :: Q, _, I, hfn, _, hsame =>
      exfalso
      obtain ⟨u, hu⟩ := List.exists_mem_of_ne_nil _ (I.ne p (by simp))
      obtain ⟨v, hv⟩ := List.exists_mem_of_ne_nil _ (I.ne q (by simp))
      have huV : u ∈ bn.V := I.perm.subset (List.mem_flatten.2 ⟨p.2, by simp, hu⟩)
      have hvV : v ∈ bn.V := I.perm.subset (List.mem_flatten.2 ⟨q.2, by simp, hv⟩)
      have hvp := hsame u v (hl u huV v hvV) huV p (by simp) hu
      simp only [List.map_cons, List.flatten_cons] at hfn
      rw [List.nodup_append] at hfn
      exact hfn.2.2 v hvp v (List.mem_append_left _ hv) rfl

/-- The ghost state right after the evidence step. -/
theorem ClsInv.start {bn : BayesNet N A} {es : List (N × A)} {phi : List (Factor N)} (O : List N)
    (r : List.Forall₂ (Restr bn es) bn.V phi) :
    ∃ P, P.map Prod.fst = phi ∧ ClsInv bn (es.map Prod.fst) O (fun _ => False) P := by
  have key : ∀ (vs : List N) (phi : List (Factor N)), List.Forall₂ (Restr bn es) vs phi →
      ∃ P : List (Factor N × List N), P.map Prod.fst = phi ∧ (P.map Prod.snd).flatten = vs ∧
        ∀ p ∈ P, ∃ v, p.2 = [v] ∧ Restr bn es v p.1 := by
    intro vs phi r
    induction r with
    | nil => exact ⟨[], rfl, rfl, by simp⟩
    | @cons v f vs phi h1 _ ih =>
      obtain ⟨P, h2, h3, h4⟩ := ih
      refine ⟨(f, [v]) :: P, by simp [h2], by simp [h3], ?_⟩
      intro p hp
      rcases List.mem_cons.1 hp with rfl | hp
      · exact ⟨v, rfl, h1⟩
      · exact h4 p hp
  obtain ⟨P, h1, h2, h3⟩ := key bn.V phi r
  refine ⟨P, h1, List.Perm.of_eq h2, ?_, ?_, ?_, fun w h => h.elim⟩
  · intro p hp; obtain ⟨v, hv, _⟩ := h3 p hp; rw [hv]; simp
  · intro p hp u; obtain ⟨v, hv, hr⟩ := h3 p hp; rw [hr.2.1, hv]; simp [and_comm]
  · intro p hp u hu u' hu'
    obtain ⟨v, hv, _⟩ := h3 p hp
    rw [hv, List.mem_singleton] at hu hu'
    subst hu; subst hu'; exact .refl _

end PyBN
