import Verif.Spec.FactorizationOps
import Verif.Proofs.Map
import Verif.Proofs.Infer
import Verif.Proofs.Ilp

set_option linter.unusedSectionVars false

namespace PyBN
open Factorization Classical Factor
variable {N A : Type _} [DecidableEq N] [DecidableEq A]

/-- The invariant behind `Shows`. -/
structure Holds (bn : BayesNet N A) (p : Factorization N A) (m : Meaning N A) : Prop extends Shows bn p m where
  wf : ∀ f ∈ p.phi, f.WF bn.cardOf
  nonneg : ∀ f ∈ p.phi, VNonneg bn.cardOf f
  known : ∀ v ∈ m.vars, v ∈ bn.V
  fresh : ∀ v ∈ m.vars, v ∉ m.maxed

theorem prob_eq_or {bn : BayesNet N A} (nn : bn.Nonneg) {v : N} (hv : v ∈ bn.V) (a : Asg N) : 0 ≤ bn.prob v a := by
  unfold BayesNet.prob
  cases h : (bn.cptOf v)[enc bn.cardOf (v :: bn.parentsOf v) a]? with
  | none => simp
  | some x => simpa using nn v hv x (List.mem_of_getElem? h)

theorem init_holds {bn : BayesNet N A} (wb : bn.WF) (nn : bn.Nonneg) {nodes : List N} (hn : ∀ v ∈ nodes, v ∈ bn.V) :
    ∃ phi, initPhi bn nodes = .ok phi ∧ Holds bn ⟨phi, [], []⟩ (Meaning.start bn nodes) := by
  obtain ⟨phi, e, r⟩ := initPhi_ok wb nodes hn
  refine ⟨phi, e, ⟨⟨?_, ?_, fun v => rfl, rfl⟩, ?_, ?_, ?_, ?_⟩⟩
  · intro v
    clear e
    show Mentions phi v ↔ v ∈ nodes.flatMap bn.fam
    induction r with
    | nil => simp [Mentions]
    | @cons u f us fs h1 _ ih =>
      have := ih fun w hw => hn w (by simp [hw])
      rw [List.flatMap_cons, List.mem_append, ← this, ← h1.2.1]
      simp [Mentions]
  · intro a ha
    clear e ha
    show prodVal phi a = (nodes.map fun v => bn.prob v a).prod
    induction r with
    | nil => rfl
    | @cons u f us fs h1 _ ih =>
      have := ih fun w hw => hn w (by simp [hw])
      simp only [prodVal, List.map_cons, List.prod_cons] at this ⊢
      rw [this, h1.2.2]
  · intro f hf
    obtain ⟨v, hv, h⟩ := forall₂_right r f hf
    exact h.1
  · intro f hf a _
    obtain ⟨v, hv, h⟩ := forall₂_right r f hf
    rw [h.2.2]; exact prob_eq_or nn (hn v hv) a
  · intro v hv
    obtain ⟨u, hu, hv⟩ := List.mem_flatMap.1 hv
    rcases List.mem_cons.1 hv with rfl | hv
    · exact hn _ hu
    · exact wb.parents_mem u (hn u hu) v hv
  · intro v _; simp [Meaning.start]

theorem pyIndex_bad {x : A} : ∀ {l : List A}, x ∉ l → pyIndex l x = .error .valueError
  | [], _ => rfl
  | y :: l, h => by
    rw [List.mem_cons, not_or] at h
    simp [pyIndex, Ne.symm h.1, pyIndex_bad h.2]

theorem reduce_bad (h : HashOrder N) {bn : BayesNet N A} (wb : bn.WF) {f : Factor N} (w : f.WF bn.cardOf) {v : N} {x : A}
    (hv : v ∈ f.scope) (hV : v ∈ bn.V) (hx : x ∉ bn.valuesOf v) : f.reduce h bn v x = .error .valueError := by
  have h1 : f.card.get v = .ok (bn.cardOf v) := Dict.get_of_get? (by rw [w.card_eq, if_pos hv])
  have h2 := w.card_pos v hv
  simp [Factor.reduce, h1, Nat.pos_iff_ne_zero.1 h2, wb.values_ok hV, pyIndex_bad hx]

theorem reducePhiS_ok (h : HashOrder N) {bn : BayesNet N A} {rv : N} {val : A} : ∀ {phi phi' : List (Factor N)},
    reducePhi h bn rv val phi = .ok phi' → reducePhiS h bn rv val phi = (phi', none) := by
  intro phi
  induction phi with
  | nil => intro phi' e; cases e; rfl
  | cons f fs ih =>
    intro phi' e
    by_cases hf : rv ∈ f.scope
    · rw [reducePhi, if_pos hf] at e
      cases e1 : f.reduce h bn rv val with
      | error x => rw [e1] at e; cases e
      | ok f' =>
        cases e2 : reducePhi h bn rv val fs with
        | error x => rw [e1, e2] at e; cases e
        | ok r => rw [e1, e2] at e; cases e; simp [reducePhiS, hf, e1, ih e2]
    · rw [reducePhi, if_neg hf] at e
      cases e2 : reducePhi h bn rv val fs with
      | error x => rw [e2] at e; cases e
      | ok r => rw [e2] at e; cases e; simp [reducePhiS, hf, ih e2]

theorem reducePhiS_none (h : HashOrder N) {bn : BayesNet N A} {rv : N} {val : A} : ∀ {phi : List (Factor N)},
    ¬ Mentions phi rv → reducePhiS h bn rv val phi = (phi, none) := by
  intro phi
  induction phi with
  | nil => intro _; rfl
  | cons f fs ih =>
    intro hm
    have hf : rv ∉ f.scope := fun hf => hm ⟨f, by simp, hf⟩
    have := ih fun ⟨g, hg, hv⟩ => hm ⟨g, by simp [hg], hv⟩
    simp [reducePhiS, hf, this]

theorem reducePhiS_bad (h : HashOrder N) {bn : BayesNet N A} (wb : bn.WF) {rv : N} {val : A} (hV : rv ∈ bn.V)
    (hx : val ∉ bn.valuesOf rv) : ∀ {phi : List (Factor N)}, (∀ f ∈ phi, f.WF bn.cardOf) → Mentions phi rv →
    reducePhiS h bn rv val phi = (phi, some .valueError) := by
  intro phi
  induction phi with
  | nil => rintro _ ⟨f, hf, _⟩; simp at hf
  | cons f fs ih =>
    intro hw hm
    by_cases hf : rv ∈ f.scope
    · simp [reducePhiS, hf, reduce_bad h wb (hw f (by simp)) hf hV hx]
    · obtain ⟨g, hg, hgv⟩ := hm
      have hg' : g ∈ fs := by
        rcases List.mem_cons.1 hg with rfl | hg
        · exact absurd hgv hf
        · exact hg
      have := ih (fun k hk => hw k (by simp [hk])) ⟨g, hg', hgv⟩
      simp [reducePhiS, hf, this]

theorem relProduct_bad (h : HashOrder N) {phi : List (Factor N)} {rv : N} (hm : ¬ Mentions phi rv) :
    relProduct h phi rv = .error .indexError := by
  have : relevant phi rv = [] := by
    rw [relevant, List.filter_eq_nil_iff]
    intro f hf hv
    exact hm ⟨f, hf, by simpa using hv⟩
  simp [relProduct, this]

theorem inR_of_vars {bn : BayesNet N A} {p : Factorization N A} {vs : List N} (hv : ∀ v, Mentions p.phi v ↔ v ∈ vs) {a : Asg N} :
    InR bn.cardOf p.phi a ↔ InRange bn.cardOf vs a :=
  ⟨fun h v hm => h v ((hv v).2 hm), fun h v hm => h v ((hv v).1 hm)⟩

theorem inRange_upd {c : N → ℕ} {vs : List N} {v : N} {a : Asg N} {x : ℕ} (ha : InRange c (vs.filter (· ≠ v)) a) (hx : x < c v) :
    InRange c vs (a.upd v x) := by
  intro u hu
  by_cases h : u = v
  · subst h; rwa [Asg.upd_self]
  · rw [Asg.upd_ne _ _ h]; exact ha u (by simp [hu, h])

theorem relProduct_nonneg {c : N → ℕ} {phi : List (Factor N)} (hnn : ∀ f ∈ phi, VNonneg c f) {v : N} {psi : Factor N}
    (spsi : ∀ u, u ∈ psi.scope ↔ ∃ f ∈ phi, v ∈ f.scope ∧ u ∈ f.scope)
    (vpsi : ∀ a, InRange c psi.scope a → psi.val a = prodVal (relevant phi v) a) : VNonneg c psi := by
  intro a ha
  rw [vpsi a ha]
  apply prodVal_nonneg (c := c) fun f hf => hnn f (List.mem_of_mem_filter hf)
  rintro u ⟨f, hf, hu⟩
  have hf' := hf
  simp only [relevant, List.mem_filter, decide_eq_true_eq] at hf'
  exact ha u ((spsi u).2 ⟨f, hf'.1, hf'.2, hu⟩)

theorem sumElim_holds (h : HashOrder N) {bn : BayesNet N A} {p : Factorization N A} {m : Meaning N A} (H : Holds bn p m) {v : N}
    (hv : v ∈ m.vars) : ∃ p', p.sumElim h v = .ok p' ∧ Holds bn p' (m.step bn (.sumOut v)).1 := by
  have hm := (H.vars v).2 hv
  obtain ⟨p', psi', e, mf, ma, sh, pv⟩ := sumElim_ok h p H.wf hm
  have hvars : ∀ u, Mentions p'.phi u ↔ u ∈ m.vars.filter (· ≠ v) := by
    intro u; rw [sh.mentions, H.vars]; simp [and_comm]
  have hnn : VNonneg bn.cardOf psi' := by
    obtain ⟨psi, e1, w1, r1, s1, v1⟩ := relProduct_ok h H.wf hm
    obtain ⟨g, e2, w2, s2, v2⟩ := sumout_ok h w1 r1
    have hg : psi' = g := by
      have h1 : p.sumElim h v = .ok { p with phi := irrelevant p.phi v ++ [g] } := by simp [sumElim, e1, e2]
      rw [e] at h1
      have h2 : p'.phi = irrelevant p.phi v ++ [g] := by cases h1; rfl
      rw [sh.eq] at h2
      simpa using h2
    subst hg
    intro a ha
    rw [val_of_entry (v2 a ha)]
    apply List.sum_nonneg
    intro y hy
    obtain ⟨x, hx, rfl⟩ := List.mem_map.1 hy
    refine relProduct_nonneg H.nonneg s1 v1 _ fun u hu => ?_
    by_cases huv : u = v
    · subst huv; rw [Asg.upd_self]; simpa using hx
    · rw [Asg.upd_ne _ _ huv]; exact ha u (by rw [s2, w1.scope_nodup.mem_erase_iff]; exact ⟨huv, hu⟩)
  refine ⟨p', e, ?_⟩
  simp only [Meaning.step, if_pos hv]
  refine ⟨⟨hvars, ?_, fun u => by rw [ma]; exact H.observed u, by rw [mf]; exact H.maxed⟩, sh.all_wf H.wf, ?_, ?_, ?_⟩
  · intro a ha
    rw [pv a ((inR_of_vars hvars).2 ha)]
    exact Finset.sum_congr rfl fun x hx => H.value _ (inRange_upd ha (Finset.mem_range.1 hx))
  · intro f hf
    rw [sh.eq, List.mem_append, List.mem_singleton] at hf
    rcases hf with hf | rfl
    · exact H.nonneg f (List.mem_of_mem_filter hf)
    · exact hnn
  · intro u hu; exact H.known u (List.mem_of_mem_filter hu)
  · intro u hu; exact H.fresh u (List.mem_of_mem_filter hu)

theorem max?_scale {l : List ℚ} {k : ℚ} (hk : 0 ≤ k) (hne : l ≠ []) (hn : ∀ x ∈ l, 0 ≤ x) :
    ((l.map (· * k)).max?).getD 0 = l.foldl max 0 * k := by
  cases hx : (l.map (· * k)).max? with
  | none => rw [List.max?_eq_none_iff, List.map_eq_nil_iff] at hx; exact absurd hx hne
  | some z =>
    rw [List.max?_eq_some_iff] at hx
    obtain ⟨hz, hz2⟩ := hx
    have hle : ∀ x ∈ l, x ≤ l.foldl max 0 := (foldl_max_ge l 0).2
    have hmem : l.foldl max 0 ∈ l := by
      rcases foldl_max_mem l 0 with h1 | h1
      · obtain ⟨y, hy⟩ := List.exists_mem_of_ne_nil l hne
        have h2 := hle y hy
        rw [h1] at h2 ⊢
        rwa [← le_antisymm h2 (hn y hy)]
      · exact h1
    rw [Option.getD_some]
    apply le_antisymm
    · obtain ⟨y, hy, rfl⟩ := List.mem_map.1 hz
      exact mul_le_mul_of_nonneg_right (hle y hy) hk
    · exact hz2 _ (List.mem_map.2 ⟨_, hmem, rfl⟩)

theorem set_fresh {K V : Type _} [DecidableEq K] {d : Dict K V} {k : K} {x : V} (h : k ∉ d.map Prod.fst) : Dict.set d k x = d ++ [(k, x)] := by
  induction d with
  | nil => rfl
  | cons kv d ih =>
    obtain ⟨k', w⟩ := kv
    simp only [List.map_cons, List.mem_cons, not_or] at h
    simp only [Dict.set, if_neg (Ne.symm h.1), List.cons_append]
    rw [ih h.2]

theorem maxElim_holds (h : HashOrder N) {bn : BayesNet N A} {p : Factorization N A} {m : Meaning N A} (H : Holds bn p m) {v : N}
    (hv : v ∈ m.vars) : ∃ p', p.maxElim h v = .ok p' ∧ Holds bn p' (m.step bn (.maxOut v)).1 := by
  have hm := (H.vars v).2 hv
  obtain ⟨p', psi, psi', e, mf, ma, wpsi, rpsi, spsi, vpsi, sh, vpsi'⟩ := maxElim_ok h p H.wf hm
  have hvars : ∀ u, Mentions p'.phi u ↔ u ∈ m.vars.filter (· ≠ v) := by
    intro u; rw [sh.mentions, H.vars]; simp [and_comm]
  have hpos : 0 < bn.cardOf v := wpsi.card_pos v rpsi
  have hpn := relProduct_nonneg H.nonneg spsi vpsi
  refine ⟨p', e, ?_⟩
  simp only [Meaning.step, if_pos hv]
  refine ⟨⟨hvars, ?_, fun u => by rw [ma]; exact H.observed u, ?_⟩, sh.all_wf H.wf, ?_, ?_, ?_⟩
  · intro a ha
    have hpsi : ∀ x < bn.cardOf v, InRange bn.cardOf psi.scope (a.upd v x) := by
      intro x hx u hu
      by_cases huv : u = v
      · subst huv; rwa [Asg.upd_self]
      · rw [Asg.upd_ne _ _ huv]
        obtain ⟨f, hf, _, hu⟩ := (spsi u).1 hu
        exact ha u (List.mem_filter.2 ⟨(H.vars u).1 ⟨f, hf, hu⟩, by simpa using huv⟩)
    have ha' : InRange bn.cardOf psi'.scope a := by
      intro u hu
      obtain ⟨huv, f, hf, _, hu⟩ := (sh.scope u).1 hu
      exact ha u (List.mem_filter.2 ⟨(H.vars u).1 ⟨f, hf, hu⟩, by simpa using huv⟩)
    have hk : 0 ≤ prodVal (irrelevant p.phi v) a := by
      apply prodVal_nonneg (c := bn.cardOf) fun f hf => H.nonneg f (List.mem_of_mem_filter hf)
      rintro u ⟨f, hf, hu⟩
      have hf' := hf
      simp only [irrelevant, List.mem_filter, decide_eq_true_eq] at hf'
      exact ha u (List.mem_filter.2 ⟨(H.vars u).1 ⟨f, hf'.1, hu⟩, by simpa using fun h0 : u = v => hf'.2 (h0 ▸ hu)⟩)
    have h1 : prodVal p'.phi a = ((List.range (bn.cardOf v)).map fun x => psi.val (a.upd v x)).foldl max 0 * prodVal (irrelevant p.phi v) a := by
      rw [sh.eq, ← vpsi' a ha']
      simp [prodVal, mul_comm]
    rw [h1, ← max?_scale hk (by simpa using Nat.pos_iff_ne_zero.1 hpos), List.map_map]
    · congr 2
      apply List.map_congr_left
      intro x hx
      have hx := List.mem_range.1 hx
      rw [Function.comp, ← H.value _ (inRange_upd ha hx), prodVal_split p.phi v, prodVal_irrelevant_upd, vpsi _ (hpsi x hx)]
    · intro y hy
      obtain ⟨x, hx, rfl⟩ := List.mem_map.1 hy
      exact hpn _ (hpsi x (List.mem_range.1 hx))
  · rw [mf, set_fresh (by rw [H.maxed]; exact H.fresh v hv), List.map_append, H.maxed]; rfl
  · intro f hf
    rw [sh.eq, List.mem_append, List.mem_singleton] at hf
    rcases hf with hf | rfl
    · exact H.nonneg f (List.mem_of_mem_filter hf)
    · intro a ha; rw [vpsi' a ha]; exact (foldl_max_ge _ _).1
  · intro u hu; exact H.known u (List.mem_of_mem_filter hu)
  · intro u hu
    have h1 := List.mem_filter.1 hu
    rw [List.mem_append, List.mem_singleton, not_or]
    exact ⟨H.fresh u h1.1, by simpa using h1.2⟩

theorem reduce_holds (h : HashOrder N) {bn : BayesNet N A} (wb : bn.WF) {p : Factorization N A} {m : Meaning N A} (H : Holds bn p m) (v : N)
    (x : A) : (step h bn p (.reduce v x)).2 = (m.step bn (.reduce v x)).2 ∧
      Holds bn (step h bn p (.reduce v x)).1 (m.step bn (.reduce v x)).1 := by
  have hobs : ∀ u, Dict.get? (p.mapAssignment.set v x) u = if u = v then some x else m.observed u := by
    intro u
    rw [Dict.get?_set, ← H.observed]
    by_cases hu : u = v
    · subst hu; simp
    · simp [hu, Ne.symm hu]
  by_cases hv : v ∈ m.vars
  · have hV := H.known v hv
    by_cases hx : x ∈ bn.valuesOf v
    · obtain ⟨phi', e, r⟩ := reducePhi_ok h wb hV hx p.phi H.wf
      have hi : (bn.valuesOf v).idxOf x < (bn.valuesOf v).length := List.idxOf_lt_length_iff.2 hx
      have hi2 : (bn.valuesOf v)[(bn.valuesOf v).idxOf x]? = some x := by
        rw [List.getElem?_eq_getElem hi, List.getElem_idxOf]
      have hval : ∀ (f f' : Factor N), Reduced bn [(v, x)] f f' → ∀ a, InRange bn.cardOf f'.scope a →
          f'.val a = f.val (a.upd v ((bn.valuesOf v).idxOf x)) := by
        intro f f' hr a ha
        refine hr.2.2 a _ ha (fun u hu => Asg.upd_ne _ _ (by simpa using hu)) fun e he => ?_
        rw [List.mem_singleton] at he
        subst he
        simpa [Asg.upd_self] using hi2
      have hvars : ∀ u, Mentions phi' u ↔ u ∈ m.vars.filter (· ≠ v) := by
        intro u
        rw [List.mem_filter, ← H.vars]
        clear e
        constructor
        · rintro ⟨f', hf', hu⟩
          obtain ⟨f, hf, hr⟩ := forall₂_right r f' hf'
          have := (hr.2.1 u).1 hu
          exact ⟨⟨f, hf, this.1⟩, by simpa using this.2⟩
        · rintro ⟨⟨f, hf, hu⟩, huv⟩
          obtain ⟨f', hf', hr⟩ := forall₂_left r f hf
          exact ⟨f', hf', (hr.2.1 u).2 ⟨hu, by simpa using huv⟩⟩
      have hscope : ∀ f' ∈ phi', ∀ u ∈ f'.scope, u ∈ m.vars.filter (· ≠ v) := fun f' hf' u hu => (hvars u).1 ⟨f', hf', hu⟩
      simp only [step, reducePhiS_ok h e, Meaning.step, if_pos hv, if_pos hx]
      refine ⟨trivial, ⟨hvars, ?_, hobs, H.maxed⟩, forall₂_left_wf r, ?_, ?_, ?_⟩
      · intro a ha
        have h2 := H.value _ (inRange_upd ha (by rw [wb.card_len hV]; exact hi))
        show prodVal phi' a = m.fn _
        rw [← h2]
        clear h2 e hvars
        generalize p.phi = phi at r
        induction r with
        | nil => rfl
        | @cons f f' fs fs' h1 _ ih =>
          have := ih fun g hg => hscope g (by simp [hg])
          simp only [prodVal, List.map_cons, List.prod_cons] at this ⊢
          rw [this, hval f f' h1 a fun u hu => ha u (hscope f' (by simp) u hu)]
      · intro f' hf' a ha
        obtain ⟨f, hf, hr⟩ := forall₂_right r f' hf'
        rw [hval f f' hr a ha]
        refine H.nonneg f hf _ fun u hu => ?_
        by_cases huv : u = v
        · subst huv; rw [Asg.upd_self, wb.card_len hV]; exact hi
        · rw [Asg.upd_ne _ _ huv]; exact ha u ((hr.2.1 u).2 ⟨hu, by simpa using huv⟩)
      · intro u hu; exact H.known u (List.mem_of_mem_filter hu)
      · intro u hu; exact H.fresh u (List.mem_of_mem_filter hu)
    · simp only [step, reducePhiS_bad h wb hV hx H.wf ((H.vars v).2 hv), Meaning.step, if_pos hv, if_neg hx]
      exact ⟨trivial, ⟨H.vars, H.value, hobs, H.maxed⟩, H.wf, H.nonneg, H.known, H.fresh⟩
  · simp only [step, reducePhiS_none h (fun hm => hv ((H.vars v).1 hm)), Meaning.step, if_neg hv]
    exact ⟨trivial, ⟨H.vars, H.value, hobs, H.maxed⟩, H.wf, H.nonneg, H.known, H.fresh⟩

theorem step_holds (h : HashOrder N) {bn : BayesNet N A} (wb : bn.WF) (nn : bn.Nonneg) {p : Factorization N A} {m : Meaning N A}
    (H : Holds bn p m) (o : Op N A) : (step h bn p o).2 = (m.step bn o).2 ∧ Holds bn (step h bn p o).1 (m.step bn o).1 := by
  cases o with
  | reduce v x => exact reduce_holds h wb H v x
  | sumOut v =>
    by_cases hv : v ∈ m.vars
    · obtain ⟨p', e, H'⟩ := sumElim_holds h H hv
      have h1 : step h bn p (.sumOut v) = (p', none) := by simp [step, e]
      rw [h1]; exact ⟨by simp [Meaning.step, hv], H'⟩
    · have e : p.sumElim h v = .error .indexError := by
        simp [sumElim, relProduct_bad h (fun hm => hv ((H.vars v).1 hm))]
      simp only [step, e, Meaning.step, if_neg hv]
      exact ⟨trivial, H⟩
  | maxOut v =>
    by_cases hv : v ∈ m.vars
    · obtain ⟨p', e, H'⟩ := maxElim_holds h H hv
      have h1 : step h bn p (.maxOut v) = (p', none) := by simp [step, e]
      rw [h1]; exact ⟨by simp [Meaning.step, hv], H'⟩
    · have e : p.maxElim h v = .error .indexError := by
        simp [maxElim, relProduct_bad h (fun hm => hv ((H.vars v).1 hm))]
      simp only [step, e, Meaning.step, if_neg hv]
      exact ⟨trivial, H⟩
  | refresh =>
    obtain ⟨phi, e, H'⟩ := init_holds wb nn (nodes := bn.V) fun _ h => h
    have h1 : step h bn p .refresh = (⟨phi, [], []⟩, none) := by simp [step, initNodes, e]
    rw [h1]; exact ⟨rfl, H'⟩

theorem steps_holds (h : HashOrder N) {bn : BayesNet N A} (wb : bn.WF) (nn : bn.Nonneg) : ∀ (os : List (Op N A)) {p : Factorization N A}
    {m : Meaning N A}, Holds bn p m → (steps h bn p os).2 = (m.steps bn os).2 ∧ Holds bn (steps h bn p os).1 (m.steps bn os).1 := by
  intro os
  induction os with
  | nil => intro p m H; exact ⟨rfl, H⟩
  | cons o os ih =>
    intro p m H
    obtain ⟨h1, h2⟩ := step_holds h wb nn H o
    obtain ⟨h3, h4⟩ := ih h2
    exact ⟨by simp [steps, Meaning.steps, h1, h3], h4⟩

end PyBN
