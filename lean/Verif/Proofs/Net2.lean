import Verif.Proofs.Net
import Verif.Proofs.Graph
import Mathlib.Algebra.BigOperators.Group.List.Basic
import Mathlib.Data.List.Perm.Subperm

/-! Lemmas for counting queries, moral graphs and `set_structure`. -/

set_option linter.unusedSectionVars false

namespace PyBN
variable {N A : Type _} [DecidableEq N] [DecidableEq A]

/-- The length of a duplicate-free sublist of names, as a count over all nodes. -/
theorem length_eq_count {V l : List N} (hV : V.Nodup) (hl : l.Nodup) (h : ∀ x ∈ l, x ∈ V) :
    l.length = (V.map fun v => if v ∈ l then 1 else 0).sum := by
  have hp : l.Perm (V.filter fun v => v ∈ l) := by
    rw [List.perm_ext_iff_of_nodup hl (hV.filter _)]
    intro x
    simp only [List.mem_filter, decide_eq_true_eq]
    exact ⟨fun hx => ⟨h x hx, hx⟩, fun hx => hx.2⟩
  rw [hp.length_eq]
  clear hp h hl hV
  induction V with
  | nil => rfl
  | cons v V ih =>
    rw [List.filter_cons, List.map_cons, List.sum_cons, ← ih]
    by_cases hv : v ∈ l
    · simp [hv]; omega
    · simp [hv]

/-- Exchange of two finite sums over lists. -/
theorem list_sum_comm (V W : List N) (f : N → N → ℕ) :
    (V.map fun u => (W.map fun v => f u v).sum).sum = (W.map fun v => (V.map fun u => f u v).sum).sum := by
  induction V with
  | nil => simp
  | cons u V ih =>
    simp only [List.map_cons, List.sum_cons, ih]
    rw [← List.sum_map_add]

namespace BayesNet

theorem edges_ok {bn : BayesNet N A} (we : bn.EdgeWF) :
    bn.edges = .ok (bn.V.flatMap fun u => (bn.childrenOf u).map fun v => (u, v)) := by
  unfold edges
  rw [pyMap_ok (g := fun u => (bn.childrenOf u).map fun v => (u, v)) fun u hu => by
    rw [Dict.get_of_get? (we.get hu)]; rfl]
  rfl

theorem children_mem {bn : BayesNet N A} (w : bn.WF) (we : bn.EdgeWF) {u v : N} (h : v ∈ bn.childrenOf u) : v ∈ bn.V ∧ u ∈ bn.V := by
  have hp := (we.iff u v).1 h
  have hv : v ∈ bn.V := by
    rw [← w.dom]
    unfold parentsOf at hp
    cases hF : Dict.get? bn.F v with
    | none => rw [hF] at hp; cases hp
    | some d => rfl
  exact ⟨hv, w.parents_mem v hv u hp⟩

theorem mem_setAdd {α : Type _} [DecidableEq α] {s : List α} {x y : α} : x ∈ setAdd s y ↔ x ∈ s ∨ x = y := by
  unfold setAdd
  split_ifs with h
  · constructor
    · exact .inl
    · rintro (h' | rfl)
      · exact h'
      · exact h
  · simp

theorem nodup_setAdd {α : Type _} [DecidableEq α] {s : List α} {y : α} (h : s.Nodup) : (setAdd s y).Nodup := by
  unfold setAdd
  split_ifs with hy
  · exact h
  · rw [List.nodup_append]; refine ⟨h, by simp, ?_⟩
    intro a ha b hb hab; simp at hb; subst hb hab; exact hy ha

/-- A property preserved by the two kinds of insertion survives the loops. -/
theorem moral_induct {I : List (N × N) → Prop} {u : N} {ps : List N}
    (h1 : ∀ e p1 p2, I e → p1 ∈ ps → p2 ∈ ps → p1 ≠ p2 → (p2, p1) ∉ e → I (setAdd e (p1, p2)))
    (h2 : ∀ e p1, I e → p1 ∈ ps → I (setAdd e (p1, u))) :
    ∀ (rest : List N) (e : List (N × N)), (∀ p ∈ rest, p ∈ ps) → I e → I (moralNode u ps e rest) := by
  have inner : ∀ (p1 : N), p1 ∈ ps → ∀ (qs : List N) (e : List (N × N)), (∀ p ∈ qs, p ∈ ps) → I e → I (moralInner p1 e qs) := by
    intro p1 hp1 qs
    induction qs with
    | nil => intro e _ h; exact h
    | cons q qs ih =>
      intro e hq h
      simp only [moralInner]
      refine ih _ (fun p hp => hq p (by simp [hp])) ?_
      split_ifs with hc
      · exact h1 e p1 q h hp1 (hq q (by simp)) hc.1 hc.2
      · exact h
  intro rest
  induction rest with
  | nil => intro e _ h; exact h
  | cons p rest ih =>
    intro e hp h
    simp only [moralNode]
    exact ih _ (fun q hq => hp q (by simp [hq])) (inner p (hp p (by simp)) ps _ (fun q hq => hq) (h2 e p h (hp p (by simp))))

theorem moralInner_sub (p1 : N) : ∀ (qs : List N) (e : List (N × N)),
    (∀ x ∈ e, x ∈ moralInner p1 e qs) ∧
    (∀ q ∈ qs, p1 ≠ q → (p1, q) ∈ moralInner p1 e qs ∨ (q, p1) ∈ moralInner p1 e qs) := by
  intro qs
  induction qs with
  | nil => intro e; exact ⟨fun x h => h, by simp⟩
  | cons q qs ih =>
    intro e
    simp only [moralInner]
    set e1 := if p1 ≠ q ∧ (q, p1) ∉ e then setAdd e (p1, q) else e with he1
    have hsub : ∀ x ∈ e, x ∈ e1 := by
      intro x hx
      rw [he1]; split_ifs
      · exact mem_setAdd.2 (.inl hx)
      · exact hx
    obtain ⟨i1, i2⟩ := ih e1
    refine ⟨fun x hx => i1 x (hsub x hx), fun r hr hne => ?_⟩
    rcases List.mem_cons.1 hr with hr | hr
    · subst hr
      by_cases hc : (r, p1) ∈ e
      · exact .inr (i1 _ (hsub _ hc))
      · refine .inl (i1 _ ?_)
        rw [he1, if_pos ⟨hne, hc⟩]
        exact mem_setAdd.2 (.inr rfl)
    · exact i2 r hr hne

theorem moralNode_sub (u : N) (ps : List N) : ∀ (rest : List N) (e : List (N × N)),
    (∀ x ∈ e, x ∈ moralNode u ps e rest) ∧
    (∀ p ∈ rest, (p, u) ∈ moralNode u ps e rest ∧
      ∀ q ∈ ps, p ≠ q → (p, q) ∈ moralNode u ps e rest ∨ (q, p) ∈ moralNode u ps e rest) := by
  intro rest
  induction rest with
  | nil => intro e; exact ⟨fun x h => h, by simp⟩
  | cons p rest ih =>
    intro e
    simp only [moralNode]
    obtain ⟨a1, a2⟩ := moralInner_sub p ps (setAdd e (p, u))
    obtain ⟨i1, i2⟩ := ih (moralInner p (setAdd e (p, u)) ps)
    refine ⟨fun x hx => i1 x (a1 x (mem_setAdd.2 (.inl hx))), fun r hr => ?_⟩
    rcases List.mem_cons.1 hr with hr | hr
    · subst hr
      exact ⟨i1 _ (a1 _ (mem_setAdd.2 (.inr rfl))), fun q hq hne => (a2 q hq hne).imp (i1 _) (i1 _)⟩
    · exact i2 r hr

theorem moralLoop_ok {bn : BayesNet N A} (w : bn.WF) : ∀ (us : List N) (e : List (N × N)), (∀ u ∈ us, u ∈ bn.V) → e.Nodup →
    (∀ a b, (a, b) ∈ e → a ∈ bn.parentsOf b ∨ (a ≠ b ∧ ∃ c, a ∈ bn.parentsOf c ∧ b ∈ bn.parentsOf c)) →
    (∀ a b, (a, b) ∈ e → (b, a) ∈ e → a ∈ bn.parentsOf b ∨ b ∈ bn.parentsOf a) →
    ∃ r, moralLoop bn e us = .ok r ∧ r.Nodup ∧ (∀ x ∈ e, x ∈ r) ∧
      (∀ a b, (a, b) ∈ r → a ∈ bn.parentsOf b ∨ (a ≠ b ∧ ∃ c, a ∈ bn.parentsOf c ∧ b ∈ bn.parentsOf c)) ∧
      (∀ a b, (a, b) ∈ r → (b, a) ∈ r → a ∈ bn.parentsOf b ∨ b ∈ bn.parentsOf a) ∧
      (∀ u ∈ us, ∀ p ∈ bn.parentsOf u, (p, u) ∈ r ∧ ∀ q ∈ bn.parentsOf u, p ≠ q → (p, q) ∈ r ∨ (q, p) ∈ r) := by
  intro us
  induction us with
  | nil => intro e _ hn h1 h2; exact ⟨e, rfl, hn, fun x h => h, h1, h2, by simp⟩
  | cons u us ih =>
    intro e hus hn h1 h2
    set ps := bn.parentsOf u with hps
    obtain ⟨n1, n2⟩ := moralNode_sub u ps ps e
    have hn' : (moralNode u ps e ps).Nodup := moral_induct (I := List.Nodup) (fun e p1 p2 h _ _ _ _ => nodup_setAdd h)
      (fun e p1 h _ => nodup_setAdd h) ps e (fun p h => h) hn
    have hs' := moral_induct (u := u) (ps := ps)
      (I := fun e => ∀ a b, (a, b) ∈ e → a ∈ bn.parentsOf b ∨ (a ≠ b ∧ ∃ c, a ∈ bn.parentsOf c ∧ b ∈ bn.parentsOf c))
      (fun e p1 p2 h hp1 hp2 hne _ a b hab => by
        rcases mem_setAdd.1 hab with hab | hab
        · exact h a b hab
        · cases hab; exact .inr ⟨hne, u, hp1, hp2⟩)
      (fun e p1 h hp1 a b hab => by
        rcases mem_setAdd.1 hab with hab | hab
        · exact h a b hab
        · cases hab; exact .inl hp1) ps e (fun p h => h) h1
    have hb' := moral_induct (u := u) (ps := ps)
      (I := fun e => ∀ a b, (a, b) ∈ e → (b, a) ∈ e → a ∈ bn.parentsOf b ∨ b ∈ bn.parentsOf a)
      (fun e p1 p2 h hp1 hp2 hne hnot a b hab hba => by
        rcases mem_setAdd.1 hab with hab | hab <;> rcases mem_setAdd.1 hba with hba | hba
        · exact h a b hab hba
        · cases hba; exact absurd hab hnot
        · cases hab; exact absurd hba hnot
        · cases hab; cases hba; exact absurd rfl hne)
      (fun e p1 h hp1 a b hab hba => by
        rcases mem_setAdd.1 hab with hab | hab <;> rcases mem_setAdd.1 hba with hba | hba
        · exact h a b hab hba
        · cases hba; exact .inr hp1
        · cases hab; exact .inl hp1
        · cases hab; exact .inl hp1) ps e (fun p h => h) h2
    obtain ⟨r, r1, r2, r3, r4, r5, r6⟩ := ih (moralNode u ps e ps) (fun x hx => hus x (by simp [hx])) hn' hs' hb'
    refine ⟨r, ?_, r2, fun x hx => r3 x (n1 x hx), r4, r5, fun v hv => ?_⟩
    · simp only [moralLoop, w.parents_ok (hus u (by simp)), Py.bind_ok, ← hps]; exact r1
    · rcases List.mem_cons.1 hv with hv | hv
      · subst hv
        intro p hp
        obtain ⟨m1, m2⟩ := n2 p hp
        exact ⟨r3 _ m1, fun q hq hne => (m2 q hq hne).imp (r3 _) (r3 _)⟩
      · exact r6 v hv

theorem parentList_ok {V : List N} {E : Dict N (List N)} (hV : ∀ v ∈ V, v ∈ E.keys) (rv : N) :
    ∃ l, parentList V E rv = .ok l ∧ List.Sublist l V ∧ ∀ p, p ∈ l ↔ p ∈ V ∧ Arc E p rv := by
  unfold parentList
  rw [pyMap_ok (g := fun p => if rv ∈ (Dict.get? E p).getD [] then [p] else []) fun p hp => by
    obtain ⟨l, hl⟩ := get_of_mem_keys (hV p hp)
    rw [Dict.get_of_get? hl, hl]; rfl]
  refine ⟨_, rfl, ?_, ?_⟩
  · clear hV
    induction V with
    | nil => exact List.Sublist.refl _
    | cons v V ih =>
      rw [List.map_cons, List.flatten_cons]
      split_ifs
      · exact ih.cons_cons v
      · exact ih.cons v
  · intro p
    simp only [List.mem_flatten, List.mem_map]
    constructor
    · rintro ⟨l, ⟨q, hq, rfl⟩, hp⟩
      split_ifs at hp with h
      · rw [List.mem_singleton.1 hp]
        refine ⟨hq, ?_⟩
        obtain ⟨l, hl⟩ := get_of_mem_keys (hV q hq)
        rw [hl] at h
        exact ⟨l, hl, h⟩
      · cases hp
    · rintro ⟨hp, l, hl, hrv⟩
      refine ⟨[p], ⟨p, hp, ?_⟩, by simp⟩
      rw [hl]; exact if_pos hrv

end BayesNet
end PyBN
