import Verif.Proofs.CliqueHeap
import Verif.Spec.Clique

/-!
# Potentials of the cliques
-/

set_option linter.unusedSectionVars false
namespace PyBN
namespace Clq
variable {N A : Type _} [DecidableEq N] [DecidableEq A]
open Factor BayesNet

/-- The factor of one variable. -/
structure IsCpt (bn : BayesNet N A) (v : N) (f : Factor N) : Prop where
  wf : f.WF bn.cardOf
  scope : f.scope = v :: bn.parentsOf v
  cpt : f.cpt = bn.cptOf v
  val : ∀ a, f.val a = bn.prob v a

theorem init_isCpt {bn : BayesNet N A} (w : bn.WF) {v : N} (hv : v ∈ bn.V) : ∃ f, Factor.init bn v = .ok f ∧ IsCpt bn v f := by
  obtain ⟨f, h1, h2, h3, h4, h5, h6⟩ := Factor.init_ok w hv
  refine ⟨f, h1, h2, h4, h5, fun a => ?_⟩
  unfold Factor.val Factor.entry BayesNet.prob
  rw [h6, h5]

theorem alloc_spec (H : Heap N) (f : Factor N) : Valid (H.alloc f).1 (H.alloc f).2 ∧ (H.alloc f).1.get (H.alloc f).2 = f ∧
    ∀ q, Valid H q → Same H (H.alloc f).1 q ∧ Disj q (H.alloc f).2 := by
  refine ⟨⟨by simp [Heap.alloc], by simp [Heap.alloc], by simp [Heap.alloc], by simp [Heap.alloc]⟩, by simp [Heap.alloc, Heap.get], ?_⟩
  intro q vq
  obtain ⟨q1, q2, q3, q4⟩ := vq
  refine ⟨⟨⟨?_, ?_, ?_, q4⟩, ?_⟩, ?_⟩
  · simp [Heap.alloc]; omega
  · simp [Heap.alloc]; omega
  · simp [Heap.alloc]; omega
  · simp only [Heap.get, Heap.alloc]
    rw [List.getElem?_append_left q1, List.getElem?_append_left q2, List.getElem?_append_left q3]
  · simp only [Disj, Heap.alloc]; omega

theorem newFactors_spec {bn : BayesNet N A} (w : bn.WF) : ∀ (vs : List N) (H : Heap N), (∀ v ∈ vs, v ∈ bn.V) →
    ∃ H' os, newFactors bn H vs = .ok (H', os) ∧ List.Forall₂ (fun v o => Valid H' o ∧ IsCpt bn v (H'.get o)) vs os ∧ os.Pairwise Disj ∧
      ∀ q, Valid H q → Same H H' q ∧ ∀ o ∈ os, Disj q o := by
  intro vs
  induction vs with
  | nil => intro H _; exact ⟨H, [], rfl, .nil, .nil, fun q vq => ⟨⟨vq, rfl⟩, by simp⟩⟩
  | cons v vs ih =>
    intro H hV
    obtain ⟨f, f1, f2⟩ := init_isCpt w (hV v (by simp))
    obtain ⟨b1, b2, b3⟩ := alloc_spec H f
    obtain ⟨H', os, c1, c2, c3, c4⟩ := ih (H.alloc f).1 fun u hu => hV u (by simp [hu])
    obtain ⟨d1, d2⟩ := c4 _ b1
    refine ⟨H', (H.alloc f).2 :: os, ?_, .cons ⟨d1.1, by rw [d1.2, b2]; exact f2⟩ c2, List.pairwise_cons.2 ⟨d2, c3⟩, ?_⟩
    · unfold newFactors
      rw [f1, Py.bind_ok]; simp only []
      rw [c1, Py.bind_ok]; rfl
    · intro q vq
      obtain ⟨e1, e2⟩ := b3 q vq
      obtain ⟨g1, g2⟩ := c4 q e1.1
      refine ⟨e1.trans g1, fun o ho => ?_⟩
      rcases List.mem_cons.1 ho with rfl | ho
      · exact e2
      · exact g2 o ho

/-- What a clique looks like after its factors have been made. -/
structure CliqueRaw (bn : BayesNet N A) (scopeOf : ℕ → List N) (H : Heap N) (p : ℕ × List N) (c : ℕ × Clique N) : Prop where
  idx : c.1 = p.1
  scope : c.2.scope = (scopeOf p.1).dedup
  msgs : c.2.msgs = []
  F : List.Forall₂ (fun v o => Valid H o ∧ IsCpt bn v (H.get o)) p.2 c.2.F

theorem makeCliques_spec {bn : BayesNet N A} (w : bn.WF) (scopeOf : ℕ → List N) : ∀ (l : List (ℕ × List N)) (H : Heap N), (∀ p ∈ l, ∀ v ∈ p.2, v ∈ bn.V) →
    ∃ H' C, makeCliques bn scopeOf H l = .ok (H', C) ∧ List.Forall₂ (CliqueRaw bn scopeOf H') l C ∧ (C.flatMap fun c => c.2.F).Pairwise Disj ∧
      ∀ q, Valid H q → Same H H' q ∧ ∀ o ∈ C.flatMap (fun c => c.2.F), Disj q o := by
  intro l
  induction l with
  | nil => intro H _; exact ⟨H, [], rfl, .nil, .nil, fun q vq => ⟨⟨vq, rfl⟩, by simp⟩⟩
  | cons p l ih =>
    obtain ⟨i, vs⟩ := p
    intro H hV
    obtain ⟨H1, os, a1, a2, a3, a4⟩ := newFactors_spec w vs H (hV (i, vs) (by simp))
    obtain ⟨H', C, b1, b2, b3, b4⟩ := ih H1 fun p hp => hV p (by simp [hp])
    have hos : ∀ o ∈ os, Valid H1 o := by
      intro o ho
      obtain ⟨k, hk, rfl⟩ := List.mem_iff_getElem.1 ho
      have hk' : k < vs.length := by rw [a2.length_eq]; exact hk
      exact (List.forall₂_iff_get.1 a2).2 k hk' hk |>.1
    refine ⟨H', (i, { Clique.new (scopeOf i) with F := os }) :: C, ?_, .cons ⟨rfl, rfl, rfl, ?_⟩ b2, ?_, ?_⟩
    · unfold makeCliques
      rw [a1, Py.bind_ok]; simp only []
      rw [b1, Py.bind_ok]; rfl
    · rw [List.forall₂_iff_get] at a2 ⊢
      refine ⟨a2.1, fun k h1 h2 => ?_⟩
      obtain ⟨q1, q2⟩ := a2.2 k h1 h2
      obtain ⟨e1, -⟩ := b4 _ q1
      exact ⟨e1.1, by rw [e1.2]; exact q2⟩
    · rw [List.flatMap_cons, List.pairwise_append]
      exact ⟨a3, b3, fun o ho o' ho' => (b4 o (hos o ho)).2 o' ho'⟩
    · intro q vq
      obtain ⟨e1, e2⟩ := a4 q vq
      obtain ⟨g1, g2⟩ := b4 q e1.1
      refine ⟨e1.trans g1, fun o ho => ?_⟩
      rw [List.flatMap_cons, List.mem_append] at ho
      rcases ho with ho | ho
      · exact e2 o ho
      · exact g2 o ho

/-! ## initialize_psi -/

theorem longest_spec : ∀ (fs pre : List (FObj N)) (best len : ℕ), FirstLargest (pre.map fun f => f.cpt.length) best →
    ((pre.map fun f => f.cpt.length)[best]? = some len) →
    FirstLargest ((pre ++ fs).map fun f => f.cpt.length) (longest fs pre.length best len) := by
  intro fs
  induction fs with
  | nil => intro pre best len h _; simpa [longest] using h
  | cons f fs ih =>
    intro pre best len h hl
    obtain ⟨x, hx, hmax, hfirst⟩ := h
    have hxl : x = len := by rw [hl] at hx; exact (Option.some.inj hx).symm
    subst hxl
    have hb : best < (pre.map fun f => f.cpt.length).length := (List.getElem?_eq_some_iff.1 hl).1
    rw [List.length_map] at hb
    unfold longest
    rw [show pre ++ f :: fs = (pre ++ [f]) ++ fs by simp]
    have hlen : pre.length + 1 = (pre ++ [f]).length := by simp
    split_ifs with hc
    · rw [hlen]
      refine ih (pre ++ [f]) pre.length f.cpt.length ⟨f.cpt.length, by simp, ?_, ?_⟩ (by simp)
      · intro y hy
        rw [List.map_append, List.mem_append] at hy
        rcases hy with hy | hy
        · exact le_of_lt (lt_of_le_of_lt (hmax y hy) hc)
        · simp at hy; omega
      · intro k hk y hy
        rw [List.map_append, List.getElem?_append_left (by simpa using hk)] at hy
        exact lt_of_le_of_lt (hmax y (List.mem_of_getElem? hy)) hc
    · rw [hlen]
      have hget : ((pre ++ [f]).map fun f => f.cpt.length)[best]? = some x := by
        rw [List.map_append, List.getElem?_append_left (by simpa using hb)]; exact hl
      refine ih (pre ++ [f]) best x ⟨x, hget, ?_, ?_⟩ hget
      · intro y hy
        rw [List.map_append, List.mem_append] at hy
        rcases hy with hy | hy
        · exact hmax y hy
        · simp at hy; omega
      · intro k hk y hy
        rw [List.map_append, List.getElem?_append_left (by rw [List.length_map]; omega)] at hy
        exact hfirst k hk y hy

theorem psiLoop_after (h : HashOrder N) (m : ℕ) : ∀ (l : List (FObj N)) (H : Heap N) (p : FObj N) (i : ℕ), m < i → psiLoop h m H p l i = H.mulAll h p l := by
  intro l
  induction l with
  | nil => intros; rfl
  | cons f l ih =>
    intro H p i hi
    unfold psiLoop Heap.mulAll
    rw [if_neg (by omega)]
    congr 1
    funext r
    exact ih _ _ _ (by omega)

theorem psiLoop_before (h : HashOrder N) (m : ℕ) : ∀ (l l' : List (FObj N)) (H : Heap N) (p : FObj N) (i : ℕ), i + l.length ≤ m →
    psiLoop h m H p (l ++ l') i = (H.mulAll h p l >>= fun r => psiLoop h m r.1 r.2 l' (i + l.length)) := by
  intro l
  induction l with
  | nil => intros; rfl
  | cons f l ih =>
    intro l' H p i hi
    rw [List.length_cons] at hi ⊢
    rw [List.cons_append, psiLoop, Heap.mulAll, if_neg (by omega)]
    cases hm : H.mul h p f with
    | error e => rfl
    | ok r =>
      rw [Py.bind_ok, Py.bind_ok, ih l' r.1 r.2 (i + 1) (by omega)]
      rw [show i + (l.length + 1) = i + 1 + l.length by omega]

/-- The loop of `initialize_psi`, started with the factor `p` which stands between `l1` and `l2`. -/
theorem psiLoop_spec (h : HashOrder N) {c : N → ℕ} {H : Heap N} {p : FObj N} {l1 l2 : List (FObj N)} (vp : Valid H p) (wp : (H.get p).WF c)
    (hl : ∀ o ∈ l1 ++ l2, Valid H o ∧ (H.get o).WF c ∧ Disj o p) (hpw : (l1 ++ l2).Pairwise Disj) :
    ∃ H' p', psiLoop h l1.length H p (l1 ++ p :: l2) 0 = .ok (H', p') ∧ Valid H' p' ∧ (H'.get p').WF c ∧
      (∀ v, v ∈ (H'.get p').scope ↔ v ∈ (H.get p).scope ∨ ∃ o ∈ l1 ++ l2, v ∈ (H.get o).scope) ∧
      (∀ a, InRange c (H'.get p').scope a →
        (H'.get p').val a = (prodVal (l1.map H.get) a * (H.get p).val a) ^ 2 * prodVal (l2.map H.get) a) ∧
      ∀ q, Valid H q → Disj q p → (∀ o ∈ l1 ++ l2, Disj q o) → Same H H' q ∧ Disj q p' := by
  rw [List.pairwise_append] at hpw
  obtain ⟨H1, p1, a1, a2, a3, a4, a5, a6⟩ := mulAll_spec h l1 vp wp (fun o ho => hl o (List.mem_append_left _ ho)) hpw.1
  obtain ⟨H2, p2, b1, b2, b3, b4, b5, b6⟩ := mul_spec h a2 a2 a3 a3
  have hl2 : ∀ o ∈ l2, Same H H2 o ∧ Disj o p2 := by
    intro o ho
    obtain ⟨q1, q2, q3⟩ := hl o (List.mem_append_right _ ho)
    obtain ⟨r1, r2⟩ := a6 o q1 q3 fun m hm => (hpw.2.2 m hm o ho).symm
    obtain ⟨s1, s2⟩ := b6 o r1.1 r2 r2
    exact ⟨r1.trans s1, s2⟩
  obtain ⟨H3, p3, c1, c2, c3, c4, c5, c6⟩ := mulAll_spec h l2 b2 b3 (fun o ho => ⟨(hl2 o ho).1.1, by
    rw [(hl2 o ho).1.2]; exact (hl o (List.mem_append_right _ ho)).2.1, (hl2 o ho).2⟩) hpw.2.1
  have hmap : l2.map H2.get = l2.map H.get := List.map_congr_left fun o ho => (hl2 o ho).1.2
  refine ⟨H3, p3, ?_, c2, c3, ?_, ?_, ?_⟩
  · rw [psiLoop_before h _ l1 _ H p 0 (by omega), a1, Py.bind_ok]
    unfold psiLoop
    rw [if_pos (by omega), b1, Py.bind_ok, psiLoop_after h _ _ _ _ _ (by omega), c1]
  · intro v
    rw [c4, b4, a4]
    constructor
    · rintro (((h | ⟨o, ho, h⟩) | (h | ⟨o, ho, h⟩)) | ⟨o, ho, h⟩)
      · exact Or.inl h
      · exact Or.inr ⟨o, List.mem_append_left _ ho, h⟩
      · exact Or.inl h
      · exact Or.inr ⟨o, List.mem_append_left _ ho, h⟩
      · exact Or.inr ⟨o, List.mem_append_right _ ho, by rwa [(hl2 o ho).1.2] at h⟩
    · rintro (h | ⟨o, ho, h⟩)
      · exact Or.inl (Or.inl (Or.inl h))
      · rcases List.mem_append.1 ho with ho | ho
        · exact Or.inl (Or.inl (Or.inr ⟨o, ho, h⟩))
        · exact Or.inr ⟨o, ho, by rwa [(hl2 o ho).1.2]⟩
  · intro a ha
    have ha2 : InRange c (H2.get p2).scope a := fun v hv => ha v ((c4 v).2 (Or.inl hv))
    have ha1 : InRange c (H1.get p1).scope a := fun v hv => ha2 v ((b4 v).2 (Or.inl hv))
    rw [c5 a ha, b5 a ha2, a5 a ha1, hmap]
    ring
  · intro q vq d dl
    obtain ⟨r1, r2⟩ := a6 q vq d fun m hm => dl m (List.mem_append_left _ hm)
    obtain ⟨s1, s2⟩ := b6 q r1.1 r2 r2
    obtain ⟨t1, t2⟩ := c6 q s1.1 s2 fun m hm => dl m (List.mem_append_right _ hm)
    exact ⟨(r1.trans s1).trans t1, t2⟩

theorem initializePsi_spec (h : HashOrder N) {bn : BayesNet N A} {H : Heap N} {c : Clique N} {vs : List N} (hF : List.Forall₂ (fun v o => Valid H o ∧ IsCpt bn v (H.get o)) vs c.F)
    (hpw : c.F.Pairwise Disj) (hne : vs ≠ []) :
    ∃ H' p, initializePsi h H c = .ok (H', { c with psi := some p, belief := some p }) ∧ Valid H' p ∧ PsiSpec bn vs (H'.get p) ∧
      ∀ q, Valid H q → (∀ o ∈ c.F, Disj q o) → Same H H' q ∧ Disj q p := by
  obtain ⟨sc, F, psi, belief, msgs, ready⟩ := c
  simp only at hF hpw ⊢
  have hval : ∀ o ∈ F, Valid H o ∧ (H.get o).WF bn.cardOf := by
    intro o ho
    obtain ⟨k, hk, rfl⟩ := List.mem_iff_getElem.1 ho
    have hk' : k < vs.length := by rw [hF.length_eq]; exact hk
    have := (List.forall₂_iff_get.1 hF).2 k hk' hk
    exact ⟨this.1, this.2.wf⟩
  match F, hF, hpw, hval with
  | [], hF, _, _ => cases hF; exact absurd rfl hne
  | [f], hF, hpw, hval =>
    cases hF with
    | @cons v _ vs' _ hf hr =>
    cases hr
    refine ⟨H, f, rfl, hf.1, ⟨hf.2.wf, ?_, ?_, ?_⟩, fun q vq d => ⟨⟨vq, rfl⟩, d f (by simp)⟩⟩
    · intro x; rw [hf.2.scope]; simp
    · intro u hu a ha
      rw [hf.2.wf.entry_eq ha, hf.2.val, (List.cons.inj hu).1]
    · intro h2; simp at h2
  | f :: g :: fs, hF, hpw, hval =>
    have hFL : FirstLargest ((f :: g :: fs).map fun f => f.cpt.length) (longest (g :: fs) 1 0 f.cpt.length) := by
      have := longest_spec (g :: fs) [f] 0 f.cpt.length ⟨f.cpt.length, rfl, by simp, by simp⟩ rfl
      simpa using this
    set m := longest (g :: fs) 1 0 f.cpt.length with hm
    set F := f :: g :: fs with hFd
    have hmlt : m < F.length := by
      obtain ⟨x, hx, -⟩ := hFL
      simpa using (List.getElem?_eq_some_iff.1 hx).1
    have hsplit : F = F.take m ++ F[m] :: F.drop (m + 1) := by
      rw [List.cons_getElem_drop_succ, List.take_append_drop]
    have hlen1 : (F.take m).length = m := by rw [List.length_take]; omega
    rw [hsplit, List.pairwise_append, List.pairwise_cons] at hpw
    have hpw' : (F.take m ++ F.drop (m + 1)).Pairwise Disj :=
      List.pairwise_append.2 ⟨hpw.1, hpw.2.1.2, fun x hx y hy => hpw.2.2 x hx y (List.mem_cons_of_mem _ hy)⟩
    have hin : ∀ o ∈ F.take m ++ F.drop (m + 1), o ∈ F ∧ Disj o F[m] := by
      intro o ho
      rcases List.mem_append.1 ho with ho | ho
      · exact ⟨List.mem_of_mem_take ho, hpw.2.2 o ho _ List.mem_cons_self⟩
      · exact ⟨List.mem_of_mem_drop ho, (hpw.2.1.1 o ho).symm⟩
    obtain ⟨H', p, e1, e2, e3, e4, e5, e6⟩ := psiLoop_spec h (hval F[m] (List.getElem_mem _)).1 (hval F[m] (List.getElem_mem _)).2
      (fun o ho => ⟨(hval o (hin o ho).1).1, (hval o (hin o ho).1).2, (hin o ho).2⟩) hpw'
    rw [hlen1, ← hsplit] at e1
    have hl : vs.length = F.length := hF.length_eq
    have hget := (List.forall₂_iff_get.1 hF).2
    have hprod : ∀ a, (H.get F[m]).val a = bn.prob (vs[m]'(by omega)) a := fun a => (hget m (by omega) hmlt).2.val a
    have hmapv : ∀ a, F.map (fun o => (H.get o).val a) = vs.map fun v => bn.prob v a := by
      intro a
      refine List.ext_getElem (by simp [hl]) fun k h1 h2 => ?_
      rw [List.getElem_map, List.getElem_map]
      exact (hget k (by simpa using h2) (by simpa using h1)).2.val a
    refine ⟨H', p, ?_, e2, ⟨e3, ?_, ?_, ?_⟩, ?_⟩
    · show (psiLoop h m H (((f :: g :: fs)[m]?).getD f) (f :: g :: fs) 0 >>= _) = _
      rw [List.getElem?_eq_getElem hmlt, ← hFd, Option.getD_some, e1, Py.bind_ok]; rfl
    · intro x
      rw [e4]
      have hall : (x ∈ (H.get F[m]).scope ∨ ∃ o ∈ F.take m ++ F.drop (m + 1), x ∈ (H.get o).scope) ↔ ∃ o ∈ F, x ∈ (H.get o).scope := by
        constructor
        · rintro (h | ⟨o, ho, h⟩)
          · exact ⟨_, List.getElem_mem _, h⟩
          · exact ⟨o, (hin o ho).1, h⟩
        · rintro ⟨o, ho, h⟩
          rw [hsplit, List.mem_append, List.mem_cons] at ho
          rcases ho with ho | rfl | ho
          · exact Or.inr ⟨o, List.mem_append_left _ ho, h⟩
          · exact Or.inl h
          · exact Or.inr ⟨o, List.mem_append_right _ ho, h⟩
      rw [hall]
      constructor
      · rintro ⟨o, ho, h⟩
        obtain ⟨k, hk, rfl⟩ := List.mem_iff_getElem.1 ho
        exact ⟨vs[k]'(by omega), List.getElem_mem _, by
          have := (hget k (by omega) hk).2.scope
          simp only [List.get_eq_getElem] at this
          rw [← this]; exact h⟩
      · rintro ⟨v, hv, h⟩
        obtain ⟨k, hk, rfl⟩ := List.mem_iff_getElem.1 hv
        exact ⟨F[k]'(by omega), List.getElem_mem _, by
          have := (hget k hk (by omega)).2.scope
          simp only [List.get_eq_getElem] at this
          rw [this]; exact h⟩
    · intro v hv
      rw [hv] at hl
      simp [hFd] at hl
    · intro _
      refine ⟨m, ?_, fun a ha => ?_⟩
      · have : (F.map fun f => f.cpt.length) = vs.map fun v => (bn.cptOf v).length := by
          refine List.ext_getElem (by simp [hl]) fun k h1 h2 => ?_
          rw [List.getElem_map, List.getElem_map]
          exact congrArg List.length (hget k (by simpa using h2) (by simpa using h1)).2.cpt
        rwa [← this]
      · rw [e3.entry_eq ha, e5 a ha]
        congr 1
        have h1 : prodVal ((F.take m).map H.get) a * (H.get F[m]).val a = ((vs.take (m + 1)).map fun v => bn.prob v a).prod := by
          rw [List.map_take (l := vs), ← hmapv a, ← List.map_take, List.take_succ_eq_append_getElem hmlt, List.map_append, List.prod_append]
          simp [prodVal, List.map_map, Function.comp_def]
        have h2 : prodVal ((F.drop (m + 1)).map H.get) a = ((vs.drop (m + 1)).map fun v => bn.prob v a).prod := by
          rw [List.map_drop (l := vs), ← hmapv a, ← List.map_drop]
          simp [prodVal, List.map_map, Function.comp_def]
        rw [h1, h2]
    · intro q vq d
      exact e6 q vq (d _ (List.getElem_mem _)) fun o ho => d o (hin o ho).1

/-- A clique of a finished tree. -/
structure CliqueDone (bn : BayesNet N A) (scopeOf : ℕ → List N) (H : Heap N) (p : ℕ × List N) (c : ℕ × Clique N) (o : FObj N) : Prop where
  idx : c.1 = p.1
  scope : c.2.scope = (scopeOf p.1).dedup
  msgs : c.2.msgs = []
  psi : c.2.psi = some o
  belief : c.2.belief = some o
  valid : Valid H o
  spec : PsiSpec bn p.2 (H.get o)

theorem psiAll_spec (h : HashOrder N) {bn : BayesNet N A} (scopeOf : ℕ → List N) {E : Dict ℕ (List ℕ)} {V : List ℕ}
    (hE : ∀ i, ∃ r, Tree.parents E i V = .ok r) :
    ∀ (l : List (ℕ × List N)) (C : List (ℕ × Clique N)) (H : Heap N), (∀ p ∈ l, p.2 ≠ []) → List.Forall₂ (CliqueRaw bn scopeOf H) l C →
      (C.flatMap fun c => c.2.F).Pairwise Disj →
      ∃ (H' : Heap N) (C' : List (ℕ × Clique N)) (os : List (FObj N)), psiAll h E V H C = .ok (H', C') ∧ C'.length = l.length ∧ os.length = l.length ∧
        (∀ k (h1 : k < l.length) (h2 : k < C'.length) (h3 : k < os.length), CliqueDone bn scopeOf H' l[k] C'[k] os[k]) ∧ os.Pairwise Disj ∧
        ∀ q, Valid H q → (∀ o ∈ C.flatMap (fun c => c.2.F), Disj q o) → Same H H' q ∧ ∀ o ∈ os, Disj q o := by
  intro l
  induction l with
  | nil =>
    intro C H _ hC _
    cases hC
    exact ⟨H, [], [], rfl, rfl, rfl, by simp, .nil, fun q vq _ => ⟨⟨vq, rfl⟩, by simp⟩⟩
  | cons p l ih =>
    intro C H hne hC hpw
    cases hC with
    | @cons _ c _ C hc hC =>
    obtain ⟨i, c⟩ := c
    obtain ⟨r, hr⟩ := hE i
    rw [List.flatMap_cons, List.pairwise_append] at hpw
    obtain ⟨H1, o, a1, a2, a3, a4⟩ := initializePsi_spec h (c := { c with ready := r.isEmpty }) hc.F hpw.1 (hne p (by simp))
    have hC1 : List.Forall₂ (CliqueRaw bn scopeOf H1) l C := by
      rw [List.forall₂_iff_get] at hC ⊢
      refine ⟨hC.1, fun k h1 h2 => ?_⟩
      obtain ⟨q1, q2, q3, q4⟩ := hC.2 k h1 h2
      refine ⟨q1, q2, q3, ?_⟩
      rw [List.forall₂_iff_get] at q4 ⊢
      refine ⟨q4.1, fun j j1 j2 => ?_⟩
      obtain ⟨s1, s2⟩ := q4.2 j j1 j2
      have := (a4 _ s1 fun o' ho' => (hpw.2.2 o' ho' _ (List.mem_flatMap.2 ⟨C.get ⟨k, h2⟩, List.get_mem _ _, List.get_mem _ _⟩)).symm).1
      exact ⟨this.1, by rw [this.2]; exact s2⟩
    obtain ⟨H', C', os, b1, b2, b3, b4, b5, b6⟩ := ih C H1 (fun p hp => hne p (by simp [hp])) hC1 hpw.2.1
    have hval : ∀ x ∈ C.flatMap (fun c => c.2.F), Valid H x := by
      intro x hx
      obtain ⟨c', hc', hx'⟩ := List.mem_flatMap.1 hx
      obtain ⟨k, hk, rfl⟩ := List.mem_iff_getElem.1 hc'
      obtain ⟨j, hj, rfl⟩ := List.mem_iff_getElem.1 hx'
      rw [List.forall₂_iff_get] at hC
      have hk' : k < l.length := by rw [hC.1]; exact hk
      have := (hC.2 k hk' hk).F
      rw [List.forall₂_iff_get] at this
      exact (this.2 j (by rw [this.1]; exact hj) hj).1
    have hdo : ∀ x ∈ C.flatMap (fun c => c.2.F), Disj o x := fun x hx =>
      (a4 x (hval x hx) fun o' ho' => (hpw.2.2 o' ho' x hx).symm).2.symm
    obtain ⟨d1, d2⟩ := b6 o a2 hdo
    refine ⟨H', (i, { c with ready := r.isEmpty, psi := some o, belief := some o }) :: C', o :: os, ?_, by simp [b2], by simp [b3], ?_,
      List.pairwise_cons.2 ⟨d2, b5⟩, ?_⟩
    · unfold psiAll
      rw [hr, Py.bind_ok]
      rw [a1, Py.bind_ok]; simp only []
      rw [b1, Py.bind_ok]; rfl
    · intro k h1 h2 h3
      cases k with
      | zero => exact ⟨hc.idx, hc.scope, hc.msgs, rfl, rfl, d1.1, by show PsiSpec bn p.2 (H'.get o); rw [d1.2]; exact a3⟩
      | succ k =>
        exact b4 k (by simpa using h1) (by simpa using h2) (by simpa using h3)
    · intro q vq dq
      rw [List.flatMap_cons] at dq
      obtain ⟨e1, e2⟩ := a4 q vq fun o' ho' => dq o' (List.mem_append_left _ ho')
      obtain ⟨g1, g2⟩ := b6 q e1.1 fun o' ho' => dq o' (List.mem_append_right _ ho')
      refine ⟨e1.trans g1, fun x hx => ?_⟩
      rcases List.mem_cons.1 hx with rfl | hx
      · exact e2
      · exact g2 x hx

/-- A clique without factors: `AssertionError`. -/
theorem psiAll_assert (h : HashOrder N) {bn : BayesNet N A} (scopeOf : ℕ → List N) {E : Dict ℕ (List ℕ)} {V : List ℕ}
    (hE : ∀ i, ∃ r, Tree.parents E i V = .ok r) :
    ∀ (l : List (ℕ × List N)) (C : List (ℕ × Clique N)) (H : Heap N), (∃ p ∈ l, p.2 = []) → List.Forall₂ (CliqueRaw bn scopeOf H) l C →
      (C.flatMap fun c => c.2.F).Pairwise Disj → psiAll h E V H C = .error .assertionError := by
  intro l
  induction l with
  | nil => intro C H hex; simp at hex
  | cons p l ih =>
    intro C H hex hC hpw
    cases hC with
    | @cons _ c _ C hc hC =>
    obtain ⟨i, c⟩ := c
    obtain ⟨r, hr⟩ := hE i
    rw [List.flatMap_cons, List.pairwise_append] at hpw
    unfold psiAll
    rw [hr, Py.bind_ok]
    by_cases hp : p.2 = []
    · have hF : c.F = [] := by
        have := hc.F
        rw [hp] at this
        exact List.length_eq_zero_iff.1 (by rw [← this.length_eq]; rfl)
      have : initializePsi h H { c with ready := r.isEmpty } = .error .assertionError := by
        unfold initializePsi; simp only [hF]
      rw [this]; rfl
    · obtain ⟨H1, o, a1, a2, a3, a4⟩ := initializePsi_spec h (c := { c with ready := r.isEmpty }) hc.F hpw.1 hp
      have hC1 : List.Forall₂ (CliqueRaw bn scopeOf H1) l C := by
        rw [List.forall₂_iff_get] at hC ⊢
        refine ⟨hC.1, fun k h1 h2 => ?_⟩
        obtain ⟨q1, q2, q3, q4⟩ := hC.2 k h1 h2
        refine ⟨q1, q2, q3, ?_⟩
        rw [List.forall₂_iff_get] at q4 ⊢
        refine ⟨q4.1, fun j j1 j2 => ?_⟩
        obtain ⟨s1, s2⟩ := q4.2 j j1 j2
        have := (a4 _ s1 fun o' ho' => (hpw.2.2 o' ho' _ (List.mem_flatMap.2 ⟨C.get ⟨k, h2⟩, List.get_mem _ _, List.get_mem _ _⟩)).symm).1
        exact ⟨this.1, by rw [this.2]; exact s2⟩
      rw [a1, Py.bind_ok]; simp only []
      rw [ih C H1 (by
        obtain ⟨p', hp', he⟩ := hex
        rcases List.mem_cons.1 hp' with rfl | hp'
        · exact absurd he hp
        · exact ⟨p', hp', he⟩) hC1 hpw.2.1]
      rfl

end Clq
end PyBN
