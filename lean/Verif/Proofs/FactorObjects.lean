import Verif.Spec.FactorObjects
import Verif.Proofs.CliqueHeap

/-!
# Exact inference on objects does what exact inference on values does
-/

set_option linter.unusedSectionVars false
namespace PyBN
namespace Obj
variable {N A : Type _} [DecidableEq N] [DecidableEq A]
open Clq (Heap FObj Valid Disj)

/-- Two computations raise the same exception, or both succeed with related results. -/
inductive PyRel {α β : Type _} (R : α → β → Prop) : Py α → Py β → Prop
  | ok {a : α} {b : β} : R a b → PyRel R (.ok a) (.ok b)
  | err (e : PyErr) : PyRel R (.error e) (.error e)

theorem PyRel.bind {α β γ δ : Type _} {R : α → β → Prop} {S : γ → δ → Prop} {x : Py α} {y : Py β} {f : α → Py γ} {g : β → Py δ}
    (h : PyRel R x y) (hf : ∀ a b, R a b → PyRel S (f a) (g b)) : PyRel S (x >>= f) (y >>= g) := by
  cases h with
  | ok h => exact hf _ _ h
  | err e => exact .err e

theorem PyRel.mono {α β : Type _} {R S : α → β → Prop} {x : Py α} {y : Py β} (h : PyRel R x y) (hf : ∀ a b, R a b → S a b) : PyRel S x y := by
  cases h with
  | ok h => exact .ok (hf _ _ h)
  | err e => exact .err e

theorem PyRel.refl {α : Type _} (x : Py α) : PyRel (fun a b => a = b) x x := by
  cases x with
  | ok a => exact .ok rfl
  | error e => exact .err e

/-- The objects `L` were made after `s0`, share nothing with one another or with anything of `s0`, and all of `s0` is as it was. -/
structure Own (s0 s : Store N) (L : Set ℕ) : Prop where
  lens : s0.objs.length ≤ s.objs.length ∧ s0.heap.scopes.length ≤ s.heap.scopes.length ∧ s0.heap.dicts.length ≤ s.heap.dicts.length
  objs : ∀ r < s0.objs.length, s.objs[r]? = s0.objs[r]?
  scopes : ∀ r < s0.heap.scopes.length, s.heap.scopes[r]? = s0.heap.scopes[r]?
  dicts : ∀ r < s0.heap.dicts.length, s.heap.dicts[r]? = s0.heap.dicts[r]?
  obj : ∀ r ∈ L, s0.objs.length ≤ r ∧ ∃ o, s.objs[r]? = some o ∧ Valid s.heap o ∧
    s0.heap.scopes.length ≤ o.scope ∧ s0.heap.dicts.length ≤ o.card ∧ s0.heap.dicts.length ≤ o.stride
  disj : ∀ r ∈ L, ∀ q ∈ L, r ≠ q → ∀ o p, s.objs[r]? = some o → s.objs[q]? = some p → Disj o p
  sound : s0.Sound → s.Sound

theorem Own.mono {s0 s : Store N} {L M : Set ℕ} (h : Own s0 s L) (hm : M ⊆ L) : Own s0 s M :=
  ⟨h.lens, h.objs, h.scopes, h.dicts, fun r hr => h.obj r (hm hr), fun r hr q hq => h.disj r (hm hr) q (hm hq), h.sound⟩

theorem Own.start (s : Store N) : Own s s ∅ :=
  ⟨⟨le_rfl, le_rfl, le_rfl⟩, fun _ _ => rfl, fun _ _ => rfl, fun _ _ => rfl, fun _ h => h.elim, fun _ h => h.elim, id⟩

theorem view_some {s : Store N} {r : ℕ} {o : FObj N} (h : s.objs[r]? = some o) : s.view r = some (s.heap.get o) := by
  unfold Store.view; rw [h]; rfl

theorem obj_some {s : Store N} {r : ℕ} {o : FObj N} (h : s.objs[r]? = some o) : s.obj r = .ok o := by
  unfold Store.obj; rw [h]

theorem Own.lt {s0 s : Store N} {L : Set ℕ} (w : Own s0 s L) {r : ℕ} (hr : r ∈ L) : r < s.objs.length := by
  obtain ⟨-, o, ho, -⟩ := w.obj r hr
  exact (List.getElem?_eq_some_iff.1 ho).1

theorem write_sound {s : Store N} (hs : s.Sound) {r : ℕ} {o : FObj N} (ho : s.objs[r]? = some o) (f : Factor N) : (s.write r o f).Sound := by
  intro p hp
  simp only [Store.write, List.length_set] at hp ⊢
  rcases List.mem_or_eq_of_mem_set hp with hp | rfl
  · exact hs p hp
  · exact hs o (List.mem_of_getElem? ho)

theorem new_sound {s : Store N} (hs : s.Sound) (f : Factor N) : (s.new f).1.Sound := by
  intro p hp
  simp only [Store.new, List.mem_append, List.mem_singleton] at hp
  simp only [Store.new, Heap.alloc, List.length_append, List.length_cons, List.length_nil]
  rcases hp with hp | rfl
  · obtain ⟨h1, h2, h3, h4⟩ := hs p hp
    exact ⟨by omega, by omega, by omega, h4⟩
  · simp only [Heap.alloc]
    omega

theorem mul_sound (h : HashOrder N) {s s' : Store N} (hs : s.Sound) {r q : ℕ} (hm : s.mul h r q = .ok s') : s'.Sound := by
  unfold Store.mul Store.obj at hm
  cases ho : s.objs[r]? with
  | none => rw [ho] at hm; cases hm
  | some o =>
    cases hp : s.objs[q]? with
    | none => rw [ho, hp] at hm; cases hm
    | some p =>
      rw [ho, hp] at hm
      simp only [Py.bind_ok] at hm
      unfold Heap.mul at hm
      cases hf : Factor.mul h (s.heap.get o) (s.heap.get p) with
      | error e => rw [hf] at hm; cases hm
      | ok fg =>
        rw [hf] at hm
        simp only [Py.bind_ok, Py.pure_eq, Except.ok.injEq] at hm
        subst hm
        obtain ⟨a1, a2, a3, a4⟩ := hs o (List.mem_of_getElem? ho)
        obtain ⟨b1, b2, b3, b4⟩ := hs p (List.mem_of_getElem? hp)
        intro u hu
        simp only [List.length_append, List.length_set, List.length_cons, List.length_nil] at hu ⊢
        rcases List.mem_or_eq_of_mem_set hu with hu | rfl
        · obtain ⟨h1, h2, h3, h4⟩ := hs u hu
          exact ⟨by omega, by omega, by omega, h4⟩
        · simp only
          split_ifs <;> exact ⟨by omega, by omega, by omega, by omega⟩

/-- Changing one of the objects in place. -/
theorem write_own {s0 s : Store N} {L : Set ℕ} (w : Own s0 s L) {r : ℕ} (hr : r ∈ L) {o : FObj N} (ho : s.objs[r]? = some o) (f : Factor N) :
    Own s0 (s.write r o f) L ∧ (s.write r o f).view r = some f ∧ ∀ q ∈ L, q ≠ r → (s.write r o f).view q = s.view q := by
  obtain ⟨h0, o', ho', vo, b1, b2, b3⟩ := w.obj r hr
  rw [ho] at ho'
  cases ho'
  have hlt := w.lt hr
  have hself : (s.write r o f).objs[r]? = some ⟨f.var, f.cpt, o.scope, o.card, o.stride⟩ := by
    simp only [Store.write]; rw [List.getElem?_set_self hlt]
  have hne : ∀ q, q ≠ r → (s.write r o f).objs[q]? = s.objs[q]? := by
    intro q hq
    simp only [Store.write]; rw [List.getElem?_set_ne hq.symm]
  have hvalid : ∀ p : FObj N, Valid s.heap p → Valid (s.write r o f).heap p := by
    intro p hp
    refine ⟨?_, ?_, ?_, hp.2.2.2⟩ <;> simp only [Store.write, List.length_set]
    exacts [hp.1, hp.2.1, hp.2.2.1]
  refine ⟨⟨?_, ?_, ?_, ?_, ?_, ?_, fun h => write_sound (w.sound h) ho f⟩, ?_, ?_⟩
  · simpa [Store.write] using w.lens
  · intro q hq; rw [hne q (by omega), w.objs q hq]
  · intro a ha
    simp only [Store.write]; rw [List.getElem?_set_ne (by omega), w.scopes a ha]
  · intro a ha
    simp only [Store.write]; rw [List.getElem?_set_ne (by omega), List.getElem?_set_ne (by omega), w.dicts a ha]
  · intro q hq
    obtain ⟨g0, p, hp, vp, c1, c2, c3⟩ := w.obj q hq
    refine ⟨g0, ?_⟩
    by_cases hqr : q = r
    · subst hqr
      exact ⟨_, hself, hvalid _ vo, b1, b2, b3⟩
    · exact ⟨p, by rw [hne q hqr, hp], hvalid _ vp, c1, c2, c3⟩
  · intro q hq t ht hqt o1 o2 h1 h2
    by_cases hqr : q = r
    · subst hqr
      rw [hself] at h1; cases h1
      rw [hne t (Ne.symm hqt)] at h2
      exact w.disj q hq t ht hqt o o2 ho h2
    · rw [hne q hqr] at h1
      by_cases htr : t = r
      · subst htr
        rw [hself] at h2; cases h2
        exact w.disj q hq t ht hqt o1 o h1 ho
      · rw [hne t htr] at h2
        exact w.disj q hq t ht hqt o1 o2 h1 h2
  · rw [view_some hself]
    simp only [Heap.get, Store.write]
    rw [List.getElem?_set_self vo.1, List.getElem?_set_ne vo.2.2.2.symm, List.getElem?_set_self vo.2.1,
      List.getElem?_set_self (by rw [List.length_set]; exact vo.2.2.1)]
    rfl
  · intro q hq hqr
    obtain ⟨-, p, hp, vp, -⟩ := w.obj q hq
    have d := w.disj q hq r hr hqr p o hp ho
    rw [view_some hp, view_some ((hne q hqr).trans hp)]
    simp only [Heap.get, Store.write]
    rw [List.getElem?_set_ne d.1.symm, List.getElem?_set_ne d.2.2.1.symm, List.getElem?_set_ne d.2.1.symm, List.getElem?_set_ne d.2.2.2.2.symm,
      List.getElem?_set_ne d.2.2.2.1.symm]

/-- A new object. -/
theorem new_own {s0 s : Store N} {L : Set ℕ} (w : Own s0 s L) (f : Factor N) :
    Own s0 (s.new f).1 (insert (s.new f).2 L) ∧ (s.new f).1.view (s.new f).2 = some f ∧ ∀ q ∈ L, (s.new f).1.view q = s.view q := by
  have hself : (s.new f).1.objs[s.objs.length]? = some (s.heap.alloc f).2 := by simp [Store.new]
  have hold : ∀ q < s.objs.length, (s.new f).1.objs[q]? = s.objs[q]? := by
    intro q hq; simp only [Store.new]; rw [List.getElem?_append_left hq]
  have hheap : (s.new f).1.heap = (s.heap.alloc f).1 := rfl
  have hvalid : ∀ p : FObj N, Valid s.heap p → Valid (s.new f).1.heap p := by
    intro p hp
    refine ⟨?_, ?_, ?_, hp.2.2.2⟩ <;> simp only [hheap, Heap.alloc, List.length_append, List.length_cons, List.length_nil]
    exacts [by have := hp.1; omega, by have := hp.2.1; omega, by have := hp.2.2.1; omega]
  have hv : ∀ p : FObj N, Valid s.heap p → (s.new f).1.heap.get p = s.heap.get p := by
    intro p hp
    simp only [hheap, Heap.alloc, Heap.get]
    rw [List.getElem?_append_left hp.1, List.getElem?_append_left hp.2.1, List.getElem?_append_left hp.2.2.1]
  have hd : ∀ p : FObj N, Valid s.heap p → Disj p (s.heap.alloc f).2 := by
    intro p hp
    have h1 := hp.1; have h2 := hp.2.1; have h3 := hp.2.2.1
    refine ⟨?_, ?_, ?_, ?_, ?_⟩ <;> simp only [Heap.alloc] <;> omega
  obtain ⟨l1, l2, l3⟩ := w.lens
  refine ⟨⟨?_, ?_, ?_, ?_, ?_, ?_, fun h => new_sound (w.sound h) f⟩, ?_, ?_⟩
  · refine ⟨?_, ?_, ?_⟩ <;> simp only [Store.new, Heap.alloc, List.length_append, List.length_cons, List.length_nil] <;> omega
  · intro q hq; rw [hold q (by omega), w.objs q hq]
  · intro a ha
    simp only [hheap, Heap.alloc]; rw [List.getElem?_append_left (by omega), w.scopes a ha]
  · intro a ha
    simp only [hheap, Heap.alloc]; rw [List.getElem?_append_left (by omega), w.dicts a ha]
  · intro q hq
    rcases hq with hq | hq
    · rw [hq]
      refine ⟨l1, _, hself, ?_, l2, l3, ?_⟩
      · refine ⟨?_, ?_, ?_, ?_⟩ <;> simp only [hheap, Heap.alloc, List.length_append, List.length_cons, List.length_nil] <;> omega
      · simp only [Heap.alloc]; omega
    · obtain ⟨g0, p, hp, vp, c⟩ := w.obj q hq
      exact ⟨g0, p, by rw [hold q (w.lt hq), hp], hvalid p vp, c⟩
  · intro q hq t ht hqt o1 o2 h1 h2
    rcases hq with hq | hq
    · rcases ht with ht | ht
      · exact absurd (hq.trans ht.symm) hqt
      · obtain ⟨-, p, hp, vp, -⟩ := w.obj t ht
        have hq' : q = s.objs.length := hq
        rw [hq', hself] at h1; cases h1
        rw [hold t (w.lt ht), hp] at h2; cases h2
        exact (hd _ vp).symm
    · obtain ⟨-, p, hp, vp, -⟩ := w.obj q hq
      rw [hold q (w.lt hq), hp] at h1; cases h1
      rcases ht with ht | ht
      · have ht' : t = s.objs.length := ht
        rw [ht', hself] at h2; cases h2
        exact hd _ vp
      · rw [hold t (w.lt ht)] at h2
        exact w.disj q hq t ht hqt _ o2 hp h2
  · rw [show (s.new f).2 = s.objs.length from rfl, view_some hself]
    simp only [hheap, Heap.alloc, Heap.get]
    simp
  · intro q hq
    obtain ⟨-, p, hp, vp, -⟩ := w.obj q hq
    rw [view_some hp, view_some ((hold q (w.lt hq)).trans hp), hv p vp]

theorem new_fresh {s0 s : Store N} {L : Set ℕ} (w : Own s0 s L) (f : Factor N) : (s.new f).2 ∉ L := fun h => absurd (w.lt h) (lt_irrefl _)

/-- Multiplying one object by another one; the latter is given up. -/
theorem mul_own (h : HashOrder N) {s0 s : Store N} {L : Set ℕ} (w : Own s0 s L) {r q : ℕ} (hr : r ∈ L) (hq : q ∈ L) (hrq : r ≠ q) {f g : Factor N}
    (hf : s.view r = some f) (hg : s.view q = some g) :
    PyRel (fun s' fg => Own s0 s' (L \ {q}) ∧ s'.view r = some fg.1 ∧ ∀ t ∈ L, t ≠ r → t ≠ q → s'.view t = s.view t) (s.mul h r q) (f.mul h g) := by
  obtain ⟨g0, o, ho, vo, b1, b2, b3⟩ := w.obj r hr
  obtain ⟨g1, p, hp, vp, c1, c2, c3⟩ := w.obj q hq
  have hlt := w.lt hr
  rw [view_some ho] at hf; cases hf
  rw [view_some hp] at hg; cases hg
  unfold Store.mul
  rw [obj_some ho, Py.bind_ok, obj_some hp, Py.bind_ok]
  unfold Heap.mul
  cases hm : Factor.mul h (s.heap.get o) (s.heap.get p) with
  | error e => exact .err e
  | ok fg =>
    set k := if (s.heap.get o).scope.length ≥ (s.heap.get p).scope.length then o.card else p.card with hk
    have hkl : k < s.heap.dicts.length := by rw [hk]; split_ifs; exacts [vo.2.1, vp.2.1]
    have hk0 : s0.heap.dicts.length ≤ k := by rw [hk]; split_ifs; exacts [b2, c2]
    set s' : Store N := ⟨⟨s.heap.scopes ++ [fg.1.scope], s.heap.dicts.set k fg.1.card ++ [fg.1.stride]⟩,
      s.objs.set r ⟨fg.1.var, fg.1.cpt, s.heap.scopes.length, k, s.heap.dicts.length⟩⟩ with hs'
    obtain ⟨l1, l2, l3⟩ := w.lens
    have hself : s'.objs[r]? = some ⟨fg.1.var, fg.1.cpt, s.heap.scopes.length, k, s.heap.dicts.length⟩ := by
      rw [hs']; simp only; rw [List.getElem?_set_self hlt]
    have hne : ∀ t, t ≠ r → s'.objs[t]? = s.objs[t]? := by
      intro t ht; rw [hs']; simp only; rw [List.getElem?_set_ne ht.symm]
    have hvalid : ∀ p : FObj N, Valid s.heap p → Valid s'.heap p := by
      intro p hp
      have h1 := hp.1; have h2 := hp.2.1; have h3 := hp.2.2.1
      refine ⟨?_, ?_, ?_, hp.2.2.2⟩ <;> simp only [hs', List.length_append, List.length_set, List.length_cons, List.length_nil] <;> omega
    have hfree : ∀ t ∈ L, t ≠ r → t ≠ q → ∀ u, s.objs[t]? = some u → u.card ≠ k ∧ u.stride ≠ k := by
      intro t ht h1 h2 u hu
      have d1 := w.disj t ht r hr h1 u o hu ho
      have d2 := w.disj t ht q hq h2 u p hu hp
      rw [hk]
      split_ifs
      · exact ⟨d1.2.1, d1.2.2.2.1⟩
      · exact ⟨d2.2.1, d2.2.2.2.1⟩
    have hD : ∀ t ∈ L, t ≠ r → t ≠ q → ∀ u, s.objs[t]? = some u →
        Disj u ⟨fg.1.var, fg.1.cpt, s.heap.scopes.length, k, s.heap.dicts.length⟩ := by
      intro t ht h1 h2 u hu
      obtain ⟨-, u', hu', vu, -⟩ := w.obj t ht
      rw [hu] at hu'; cases hu'
      exact ⟨Nat.ne_of_lt vu.1, (hfree t ht h1 h2 u hu).1, Nat.ne_of_lt vu.2.1, (hfree t ht h1 h2 u hu).2, Nat.ne_of_lt vu.2.2.1⟩
    have hms : s.mul h r q = .ok s' := by
      unfold Store.mul
      rw [obj_some ho, Py.bind_ok, obj_some hp, Py.bind_ok]
      unfold Heap.mul
      rw [hm]; rfl
    refine PyRel.ok (a := s') ⟨⟨?_, ?_, ?_, ?_, ?_, ?_, fun hsd => mul_sound h (w.sound hsd) hms⟩, ?_, ?_⟩
    · refine ⟨?_, ?_, ?_⟩ <;> simp only [hs', List.length_append, List.length_set] <;> omega
    · intro t ht; rw [hne t (by omega), w.objs t ht]
    · intro a ha
      simp only [hs']; rw [List.getElem?_append_left (by omega), w.scopes a ha]
    · intro a ha
      simp only [hs']
      rw [List.getElem?_append_left (by rw [List.length_set]; omega), List.getElem?_set_ne (by omega), w.dicts a ha]
    · rintro t ⟨ht, htq⟩
      obtain ⟨e0, u, hu, vu, e⟩ := w.obj t ht
      refine ⟨e0, ?_⟩
      by_cases htr : t = r
      · subst htr
        refine ⟨_, hself, ?_, l2, hk0, l3⟩
        refine ⟨?_, ?_, ?_, ?_⟩ <;> simp only [hs', List.length_append, List.length_set, List.length_cons, List.length_nil] <;> omega
      · exact ⟨u, by rw [hne t htr, hu], hvalid u vu, e⟩
    · rintro t ⟨ht, htq⟩ v ⟨hv, hvq⟩ htv o1 o2 h1 h2
      by_cases htr : t = r
      · subst htr
        rw [hself] at h1; cases h1
        rw [hne v (Ne.symm htv)] at h2
        exact (hD v hv (Ne.symm htv) hvq o2 h2).symm
      · rw [hne t htr] at h1
        by_cases hvr : v = r
        · subst hvr
          rw [hself] at h2; cases h2
          exact hD t ht htr htq o1 h1
        · rw [hne v hvr] at h2
          exact w.disj t ht v hv htv o1 o2 h1 h2
    · rw [view_some hself]
      simp only [Heap.get, hs']
      rw [List.getElem?_append_right le_rfl, List.getElem?_append_left (by rw [List.length_set]; exact hkl), List.getElem?_append_right (by rw [List.length_set])]
      simp [hkl]
    · intro t ht h1 h2
      obtain ⟨-, u, hu, vu, -⟩ := w.obj t ht
      rw [view_some hu, view_some ((hne t h1).trans hu)]
      have hf := hfree t ht h1 h2 u hu
      simp only [Heap.get, hs']
      rw [List.getElem?_append_left vu.1, List.getElem?_append_left (by rw [List.length_set]; exact vu.2.1),
        List.getElem?_append_left (by rw [List.length_set]; exact vu.2.2.1), List.getElem?_set_ne hf.1.symm, List.getElem?_set_ne hf.2.symm]

/-- What the methods that change one object in place do. -/
def Wrote (s0 s : Store N) (L : Set ℕ) (r : ℕ) (s' : Store N) (f : Factor N) : Prop :=
  Own s0 s' L ∧ s'.view r = some f ∧ ∀ t ∈ L, t ≠ r → s'.view t = s.view t

theorem wrote_of {s0 s : Store N} {L : Set ℕ} (w : Own s0 s L) {r : ℕ} (hr : r ∈ L) {f : Factor N} (hf : s.view r = some f) (m : Factor N → Py (Factor N)) :
    PyRel (Wrote s0 s L r) (do let o ← s.obj r; let f ← m (s.heap.get o); pure (s.write r o f)) (m f) := by
  obtain ⟨-, o, ho, -⟩ := w.obj r hr
  rw [view_some ho] at hf; cases hf
  rw [obj_some ho, Py.bind_ok]
  cases m (s.heap.get o) with
  | error e => exact .err e
  | ok f => exact .ok (write_own w hr ho f)

theorem sumout_own (h : HashOrder N) {s0 s : Store N} {L : Set ℕ} (w : Own s0 s L) {r : ℕ} (hr : r ∈ L) {f : Factor N} (hf : s.view r = some f) (rv : N) :
    PyRel (Wrote s0 s L r) (s.sumout h r rv) (f.sumout h rv) := wrote_of w hr hf fun f => f.sumout h rv

theorem maxout_own {s0 s : Store N} {L : Set ℕ} (w : Own s0 s L) {r : ℕ} (hr : r ∈ L) {f : Factor N} (hf : s.view r = some f) (rv : N) :
    PyRel (Wrote s0 s L r) (s.maxout r rv) (f.maxout rv) := wrote_of w hr hf fun f => f.maxout rv

theorem reduce_own (h : HashOrder N) (bn : BayesNet N A) {s0 s : Store N} {L : Set ℕ} (w : Own s0 s L) {r : ℕ} (hr : r ∈ L) {f : Factor N}
    (hf : s.view r = some f) (rv : N) (val : A) :
    PyRel (Wrote s0 s L r) (s.reduce h bn r rv val) (f.reduce h bn rv val) := wrote_of w hr hf fun f => f.reduce h bn rv val

theorem mentions_some {s : Store N} {r : ℕ} {f : Factor N} (hf : s.view r = some f) (rv : N) : mentions s rv r = decide (rv ∈ f.scope) := by
  unfold mentions; rw [hf]

theorem initPhi_own (bn : BayesNet N A) {s0 : Store N} : ∀ (vs : List N) {s : Store N} {L : Set ℕ}, Own s0 s L →
    PyRel (fun sr fs => Own s0 sr.1 (L ∪ {x | x ∈ sr.2}) ∧ sr.2.Nodup ∧ (∀ x ∈ sr.2, s.objs.length ≤ x) ∧ sr.2.map sr.1.view = fs.map some ∧
      ∀ q ∈ L, sr.1.view q = s.view q) (initPhi bn s vs) (Factorization.initPhi bn vs) := by
  intro vs
  induction vs with
  | nil =>
    intro s L w
    exact .ok ⟨w.mono (by simp), List.nodup_nil, by simp, rfl, fun _ _ => rfl⟩
  | cons v vs ih =>
    intro s L w
    unfold initPhi Factorization.initPhi
    refine (PyRel.refl _).bind ?_
    rintro f - rfl
    obtain ⟨w1, v1, u1⟩ := new_own w f
    refine (ih w1).bind ?_
    rintro ⟨s2, rs⟩ fs ⟨w2, nd, lo, vw, un⟩
    have hlen : (s.new f).1.objs.length = s.objs.length + 1 := by simp [Store.new]
    refine .ok ⟨w2.mono ?_, List.nodup_cons.2 ⟨fun hm => ?_, nd⟩, ?_, ?_, ?_⟩
    · rintro x (hx | hx)
      · exact Or.inl (Or.inr hx)
      · rcases List.mem_cons.1 hx with rfl | hx
        · exact Or.inl (Or.inl rfl)
        · exact Or.inr hx
    · have := lo _ hm
      rw [hlen] at this
      simp only [Store.new] at this
      omega
    · intro x hx
      rcases List.mem_cons.1 hx with rfl | hx
      · exact le_rfl
      · have := lo x hx; omega
    · simp only [List.map_cons]
      rw [vw, un _ (Or.inl rfl), v1]
    · intro q hq
      rw [un q (Or.inr hq), u1 q hq]

theorem reducePhi_own (h : HashOrder N) (bn : BayesNet N A) (rv : N) (val : A) {s0 : Store N} : ∀ (rs : List ℕ) (fs : List (Factor N)) {s : Store N} {L : Set ℕ},
    Own s0 s L → (∀ r ∈ rs, r ∈ L) → rs.Nodup → rs.map s.view = fs.map some →
    PyRel (fun s' fs' => Own s0 s' L ∧ rs.map s'.view = fs'.map some ∧ ∀ q ∈ L, q ∉ rs → s'.view q = s.view q)
      (reducePhi h bn rv val s rs) (Factorization.reducePhi h bn rv val fs) := by
  intro rs
  induction rs with
  | nil =>
    intro fs s L w _ _ hv
    cases fs with
    | nil => exact .ok ⟨w, rfl, fun _ _ _ => rfl⟩
    | cons => simp at hv
  | cons r rs ih =>
    intro fs s L w hL nd hv
    cases fs with
    | nil => simp at hv
    | cons f fs =>
      simp only [List.map_cons, List.cons.injEq] at hv
      rw [List.nodup_cons] at nd
      unfold reducePhi Factorization.reducePhi
      rw [mentions_some hv.1]
      have hrL := hL r (by simp)
      have hL' : ∀ q ∈ rs, q ∈ L := fun q hq => hL q (by simp [hq])
      by_cases hm : rv ∈ f.scope
      · simp only [hm, decide_true, if_true]
        refine (reduce_own h bn w hrL hv.1 rv val).bind ?_
        rintro s1 f1 ⟨w1, v1, u1⟩
        have hmap : rs.map s1.view = fs.map some := by
          rw [← hv.2]
          exact List.map_congr_left fun q hq => u1 q (hL' q hq) fun e => nd.1 (e ▸ hq)
        have e : (reducePhi h bn rv val s1 rs) = (reducePhi h bn rv val s1 rs >>= pure) := by rw [bind_pure]
        rw [e]
        refine (ih fs w1 hL' nd.2 hmap).bind ?_
        rintro s2 fs2 ⟨w2, v2, u2⟩
        refine .ok ⟨w2, ?_, ?_⟩
        · simp only [List.map_cons]
          rw [v2, u2 r hrL nd.1, v1]
        · intro q hq hqr
          rw [List.mem_cons, not_or] at hqr
          rw [u2 q hq hqr.2, u1 q hq hqr.1]
      · simp only [hm, decide_false, if_false, Bool.false_eq_true]
        have e : (reducePhi h bn rv val s rs) = (reducePhi h bn rv val s rs >>= pure) := by rw [bind_pure]
        rw [e]
        refine (ih fs w hL' nd.2 hv.2).bind ?_
        rintro s2 fs2 ⟨w2, v2, u2⟩
        refine .ok ⟨w2, ?_, ?_⟩
        · simp only [List.map_cons]
          rw [v2, u2 r hrL nd.1, hv.1]
        · intro q hq hqr
          rw [List.mem_cons, not_or] at hqr
          exact u2 q hq hqr.2

theorem mulAll_own (h : HashOrder N) {s0 : Store N} : ∀ (rs : List ℕ) (fs : List (Factor N)) {s : Store N} {L : Set ℕ} {psi : ℕ} {f : Factor N},
    Own s0 s L → psi ∈ L → (∀ r ∈ rs, r ∈ L) → (psi :: rs).Nodup → s.view psi = some f → rs.map s.view = fs.map some →
    PyRel (fun s' f' => Own s0 s' (L \ {x | x ∈ rs}) ∧ s'.view psi = some f' ∧ ∀ q ∈ L, q ≠ psi → q ∉ rs → s'.view q = s.view q)
      (mulAll h s psi rs) (Factorization.mulAll h f fs) := by
  intro rs
  induction rs with
  | nil =>
    intro fs s L psi f w _ _ _ hf hv
    cases fs with
    | nil => exact .ok ⟨w.mono Set.sdiff_subset, hf, fun _ _ _ _ => rfl⟩
    | cons => simp at hv
  | cons r rs ih =>
    intro fs s L psi f w hp hL nd hf hv
    cases fs with
    | nil => simp at hv
    | cons g fs =>
      simp only [List.map_cons, List.cons.injEq] at hv
      rw [List.nodup_cons, List.nodup_cons, List.mem_cons, not_or] at nd
      obtain ⟨⟨n1, n2⟩, n3, n4⟩ := nd
      unfold mulAll Factorization.mulAll
      refine (mul_own h w hp (hL r (by simp)) n1 hf hv.1).bind ?_
      rintro s1 ⟨f1, g1⟩ ⟨w1, v1, u1⟩
      have hrs : ∀ q ∈ rs, q ∈ L ∧ q ≠ r ∧ q ≠ psi := fun q hq => ⟨hL q (by simp [hq]), fun e => n3 (e ▸ hq), fun e => n2 (e ▸ hq)⟩
      have hmap : rs.map s1.view = fs.map some := by
        rw [← hv.2]
        exact List.map_congr_left fun q hq => u1 q (hrs q hq).1 (hrs q hq).2.2 (hrs q hq).2.1
      refine (ih fs w1 ⟨hp, n1⟩ (fun q hq => ⟨(hrs q hq).1, (hrs q hq).2.1⟩) (List.nodup_cons.2 ⟨n2, n4⟩) v1 hmap).mono ?_
      rintro s2 f2 ⟨w2, v2, u2⟩
      refine ⟨w2.mono ?_, v2, ?_⟩
      · rintro x ⟨hx, hxr⟩
        have hxr' : ¬ (x ∈ r :: rs) := hxr
        rw [List.mem_cons, not_or] at hxr'
        exact ⟨⟨hx, hxr'.1⟩, hxr'.2⟩
      · intro q hq h1 h2
        rw [List.mem_cons, not_or] at h2
        rw [u2 q ⟨hq, h2.1⟩ h1 h2.2, u1 q hq h1 h2.1]

/-- Splitting a list of references by what their objects mention. -/
theorem filter_view {s : Store N} (t : Factor N → Bool) (u : ℕ → Bool) : ∀ (rs : List ℕ) (fs : List (Factor N)), rs.map s.view = fs.map some →
    (∀ r f, s.view r = some f → u r = t f) → (rs.filter u).map s.view = (fs.filter t).map some := by
  intro rs
  induction rs with
  | nil =>
    intro fs hv _
    cases fs with
    | nil => rfl
    | cons => simp at hv
  | cons r rs ih =>
    intro fs hv hu
    cases fs with
    | nil => simp at hv
    | cons f fs =>
      simp only [List.map_cons, List.cons.injEq] at hv
      rw [List.filter_cons, List.filter_cons, hu r f hv.1]
      by_cases ht : t f = true
      · simp only [ht, if_true, List.map_cons, hv.1, ih fs hv.2 hu]
      · simp only [ht, if_false, ih fs hv.2 hu, Bool.false_eq_true]

theorem relProduct_own (h : HashOrder N) {s0 s : Store N} {L : Set ℕ} (w : Own s0 s L) (rs : List ℕ) (fs : List (Factor N)) (hL : ∀ r ∈ rs, r ∈ L) (nd : rs.Nodup)
    (hv : rs.map s.view = fs.map some) (rv : N) :
    PyRel (fun sr f => sr.2 ∈ rs ∧ mentions s rv sr.2 = true ∧ Own s0 sr.1 {x | x ∈ L ∧ (x ∈ rs → mentions s rv x = true → x = sr.2)} ∧ sr.1.view sr.2 = some f ∧
        ∀ q ∈ L, (q ∈ rs → mentions s rv q = false) → sr.1.view q = s.view q)
      (relProduct h s rs rv) (Factorization.relProduct h fs rv) := by
  have hfil := filter_view (fun f => decide (rv ∈ f.scope)) (mentions s rv) rs fs hv fun r f hf => mentions_some hf rv
  unfold relProduct Factorization.relProduct Factorization.relevant
  have nd' : (rs.filter (mentions s rv)).Nodup := nd.filter _
  have hmem : ∀ q, q ∈ rs.filter (mentions s rv) ↔ q ∈ rs ∧ mentions s rv q = true := fun q => List.mem_filter
  revert hfil nd' hmem
  generalize rs.filter (mentions s rv) = rs'
  generalize fs.filter (fun f => decide (rv ∈ f.scope)) = fs'
  intro hfil nd' hmem
  cases rs' with
  | nil =>
    cases fs' with
    | nil => exact .err _
    | cons => simp at hfil
  | cons r rs' =>
    cases fs' with
    | nil => simp at hfil
    | cons f fs' =>
      simp only [List.map_cons, List.cons.injEq] at hfil
      have hr := (hmem r).1 (by simp)
      simp only
      have e : Factorization.mulAll h f fs' = (Factorization.mulAll h f fs' >>= pure) := by rw [bind_pure]
      rw [e]
      refine (mulAll_own h rs' fs' w (hL r hr.1) (fun q hq => hL q ((hmem q).1 (by simp [hq])).1) nd' hfil.1 hfil.2).bind ?_
      rintro s1 f1 ⟨w1, v1, u1⟩
      refine .ok ⟨hr.1, hr.2, w1.mono ?_, v1, ?_⟩
      · rintro x ⟨hx, hx'⟩
        refine ⟨hx, fun hxr => ?_⟩
        have hxm := (hmem x).1 (by simp [show x ∈ rs' from hxr])
        have hxe := hx' hxm.1 hxm.2
        rw [List.nodup_cons] at nd'
        simp only at hxe
        rw [hxe] at hxr
        exact nd'.1 hxr
      · intro q hq hq'
        refine u1 q hq ?_ ?_
        · rintro rfl
          rw [hq' hr.1] at hr
          exact Bool.false_ne_true hr.2
        · intro hqr
          have := (hmem q).1 (by simp [hqr])
          rw [hq' this.1] at this
          exact Bool.false_ne_true this.2

/-- The references a factorization holds. -/
def Fzn.refs (p : Fzn N A) : Set ℕ := {r | r ∈ p.phi ∨ r ∈ p.mapFactors.map Prod.snd}

/-- The factorization object `p` in the store `s` reads as the value `v`; nothing it holds is shared, neither inside nor with what `s0` had nor with
the objects `K`. -/
structure Rep (s0 : Store N) (K : Set ℕ) (s : Store N) (p : Fzn N A) (v : Factorization N A) : Prop where
  own : Own s0 s (p.refs ∪ K)
  sep : ∀ r ∈ p.refs, r ∉ K
  nodup : p.phi.Nodup ∧ (p.mapFactors.map Prod.snd).Nodup
  apart : ∀ r ∈ p.phi, r ∉ p.mapFactors.map Prod.snd
  phi : p.phi.map s.view = v.phi.map some
  maps : p.mapFactors.map (fun kv => (kv.1, s.view kv.2)) = v.mapFactors.map (fun kv => (kv.1, some kv.2))
  asg : p.mapAssignment = v.mapAssignment

/-- After a call that started in `s`: the factorization reads as `v`, and the objects `K` read as before. -/
def Reps (s0 : Store N) (K : Set ℕ) (s : Store N) (sp : Store N × Fzn N A) (v : Factorization N A) : Prop :=
  Rep s0 K sp.1 sp.2 v ∧ ∀ k ∈ K, sp.1.view k = s.view k

theorem init_rep (bn : BayesNet N A) {s0 s : Store N} {K : Set ℕ} (w : Own s0 s K) : PyRel (Reps s0 K s) (init bn s) (Factorization.init bn) := by
  unfold init Factorization.init
  refine (initPhi_own bn bn.V w).bind ?_
  rintro ⟨s1, rs⟩ fs ⟨w1, nd, lo, vw, un⟩
  refine .ok ⟨⟨w1.mono ?_, ?_, ⟨nd, List.nodup_nil⟩, by simp, vw, rfl, rfl⟩, un⟩
  · rintro x ((hx | hx) | hx)
    · exact Or.inr hx
    · simp at hx
    · exact Or.inl hx
  · rintro x (hx | hx) hk
    · have h1 := lo x hx
      have h2 := w.lt hk
      omega
    · simp at hx

theorem sub_rep (h : HashOrder N) (bn : BayesNet N A) {s0 s : Store N} {K : Set ℕ} {p : Fzn N A} {v : Factorization N A} (w : Rep s0 K s p v) (rv : N) (val : A) :
    PyRel (Reps s0 K s) (sub h bn s p rv val) (v.sub h bn rv val) := by
  unfold sub Factorization.sub
  refine (reducePhi_own h bn rv val p.phi v.phi w.own (fun r hr => Or.inl (Or.inl hr)) w.nodup.1 w.phi).bind ?_
  rintro s1 fs ⟨w1, v1, u1⟩
  refine .ok ⟨⟨w1, w.sep, w.nodup, w.apart, v1, ?_, by simp only [w.asg]⟩, fun k hk => u1 k (Or.inr hk) fun hp => w.sep k (Or.inl hp) hk⟩
  refine Eq.trans (List.map_congr_left fun kv hkv => ?_) w.maps
  have hm : kv.2 ∈ p.mapFactors.map Prod.snd := List.mem_map_of_mem hkv
  rw [u1 kv.2 (Or.inl (Or.inr hm)) fun hp => w.apart _ hp hm]

theorem irrel_view {s : Store N} (rv : N) {rs : List ℕ} {fs : List (Factor N)} (hv : rs.map s.view = fs.map some) :
    (rs.filter (fun q => !mentions s rv q)).map s.view = (Factorization.irrelevant fs rv).map some := by
  refine filter_view _ _ rs fs hv ?_
  intro r f hf
  rw [mentions_some hf]; simp

theorem sumElim_rep (h : HashOrder N) {s0 s : Store N} {K : Set ℕ} {p : Fzn N A} {v : Factorization N A} (w : Rep s0 K s p v) (rv : N) :
    PyRel (Reps s0 K s) (sumElim h s p rv) (v.sumElim h rv) := by
  unfold sumElim Factorization.sumElim
  refine (relProduct_own h w.own p.phi v.phi (fun r hr => Or.inl (Or.inl hr)) w.nodup.1 w.phi rv).bind ?_
  rintro ⟨s1, r⟩ f ⟨hr, hm, w1, v1, u1⟩
  simp only at hr hm w1 v1 u1 ⊢
  have hrL : r ∈ {x | x ∈ p.refs ∪ K ∧ (x ∈ p.phi → mentions s rv x = true → x = r)} := ⟨Or.inl (Or.inl hr), fun _ _ => rfl⟩
  refine (sumout_own h w1 hrL v1 rv).bind ?_
  rintro s2 f2 ⟨w2, v2, u2⟩
  have hirr : ∀ q ∈ p.phi.filter (fun q => !mentions s rv q), q ∈ p.phi ∧ mentions s rv q = false := by
    intro q hq
    have := List.mem_filter.1 hq
    exact ⟨this.1, by simpa using this.2⟩
  have hne : ∀ q ∈ p.phi.filter (fun q => !mentions s rv q), q ≠ r := by
    rintro q hq rfl
    rw [(hirr q hq).2] at hm
    exact Bool.false_ne_true hm
  have hmr : ∀ q ∈ p.mapFactors.map Prod.snd, q ∉ p.phi := fun q hq hp => w.apart q hp hq
  have hkp : ∀ q ∈ K, q ∉ p.phi := fun q hq hp => w.sep q (Or.inl hp) hq
  refine .ok ⟨⟨w2.mono ?_, ?_, ⟨?_, w.nodup.2⟩, ?_, ?_, ?_, w.asg⟩, ?_⟩
  · rintro x ((hx | hx) | hx)
    · simp only [List.mem_append, List.mem_singleton] at hx
      rcases hx with hx | rfl
      · exact ⟨Or.inl (Or.inl (hirr x hx).1), fun _ h => by rw [(hirr x hx).2] at h; exact absurd h Bool.false_ne_true⟩
      · exact hrL
    · exact ⟨Or.inl (Or.inr hx), fun h => absurd h (hmr x hx)⟩
    · exact ⟨Or.inr hx, fun h => absurd h (hkp x hx)⟩
  · rintro x (hx | hx)
    · simp only [List.mem_append, List.mem_singleton] at hx
      rcases hx with hx | rfl
      · exact w.sep x (Or.inl (hirr x hx).1)
      · exact w.sep x (Or.inl hr)
    · exact w.sep x (Or.inr hx)
  · simp only
    rw [List.nodup_append]
    refine ⟨w.nodup.1.filter _, List.nodup_singleton _, ?_⟩
    intro a ha b hb
    rw [List.mem_singleton] at hb
    rw [hb]; exact hne a ha
  · intro q hq
    simp only [List.mem_append, List.mem_singleton] at hq
    rcases hq with hq | rfl
    · exact w.apart q (hirr q hq).1
    · exact w.apart q hr
  · simp only [List.map_append, List.map_cons, List.map_nil]
    rw [v2, ← irrel_view rv w.phi]
    congr 1
    refine List.map_congr_left fun q hq => ?_
    rw [u2 q ⟨Or.inl (Or.inl (hirr q hq).1), fun _ h => by rw [(hirr q hq).2] at h; exact absurd h Bool.false_ne_true⟩ (hne q hq),
      u1 q (Or.inl (Or.inl (hirr q hq).1)) fun _ => (hirr q hq).2]
  · refine Eq.trans (List.map_congr_left fun kv hkv => ?_) w.maps
    have hk : kv.2 ∈ p.mapFactors.map Prod.snd := List.mem_map_of_mem hkv
    rw [u2 kv.2 ⟨Or.inl (Or.inr hk), fun h => absurd h (hmr _ hk)⟩ (fun e => hmr _ hk (e ▸ hr)), u1 kv.2 (Or.inl (Or.inr hk)) fun h => absurd h (hmr _ hk)]
  · intro k hk
    rw [u2 k ⟨Or.inr hk, fun h => absurd h (hkp k hk)⟩ (fun e => hkp k hk (e ▸ hr)), u1 k (Or.inr hk) fun h => absurd h (hkp k hk)]

theorem mem_set_snd {β : Type _} (d : List (N × β)) (k : N) (v : β) : ∀ x ∈ (Dict.set d k v).map Prod.snd, x = v ∨ x ∈ d.map Prod.snd := by
  induction d with
  | nil => intro x hx; simp [Dict.set] at hx; exact Or.inl hx
  | cons kv d ih =>
    obtain ⟨k', v'⟩ := kv
    intro x hx
    unfold Dict.set at hx
    split_ifs at hx
    · simp only [List.map_cons, List.mem_cons] at hx ⊢
      rcases hx with hx | hx
      · exact Or.inl hx
      · exact Or.inr (Or.inr hx)
    · simp only [List.map_cons, List.mem_cons] at hx ⊢
      rcases hx with hx | hx
      · exact Or.inr (Or.inl hx)
      · rcases ih x hx with hx | hx
        · exact Or.inl hx
        · exact Or.inr (Or.inr hx)

theorem nodup_set_snd {β : Type _} (d : List (N × β)) (k : N) (v : β) (hv : v ∉ d.map Prod.snd) (nd : (d.map Prod.snd).Nodup) :
    ((Dict.set d k v).map Prod.snd).Nodup := by
  induction d with
  | nil => simp [Dict.set]
  | cons kv d ih =>
    obtain ⟨k', v'⟩ := kv
    simp only [List.map_cons, List.mem_cons, not_or, List.nodup_cons] at hv nd
    unfold Dict.set
    split_ifs
    · simp only [List.map_cons, List.nodup_cons]
      exact ⟨hv.2, nd.2⟩
    · simp only [List.map_cons, List.nodup_cons]
      refine ⟨fun hm => ?_, ih hv.2 nd.2⟩
      rcases mem_set_snd d k v v' hm with h | h
      · exact hv.1 h.symm
      · exact nd.1 h

theorem map_set_snd {β γ : Type _} (g : β → γ) (k : N) (v : β) : ∀ (d : List (N × β)),
    (Dict.set d k v).map (fun kv => (kv.1, g kv.2)) = Dict.set (d.map fun kv => (kv.1, g kv.2)) k (g v) := by
  intro d
  induction d with
  | nil => rfl
  | cons kv d ih =>
    obtain ⟨k', v'⟩ := kv
    simp only [Dict.set, List.map_cons]
    split_ifs
    · simp
    · simp [ih]

theorem maxElim_rep (h : HashOrder N) {s0 s : Store N} {K : Set ℕ} {p : Fzn N A} {v : Factorization N A} (w : Rep s0 K s p v) (rv : N) :
    PyRel (Reps s0 K s) (maxElim h s p rv) (v.maxElim h rv) := by
  unfold maxElim Factorization.maxElim
  refine (relProduct_own h w.own p.phi v.phi (fun r hr => Or.inl (Or.inl hr)) w.nodup.1 w.phi rv).bind ?_
  rintro ⟨s1, r⟩ f ⟨hr, hm, w1, v1, u1⟩
  simp only at hr hm w1 v1 u1 ⊢
  have hrL : r ∈ {x | x ∈ p.refs ∪ K ∧ (x ∈ p.phi → mentions s rv x = true → x = r)} := ⟨Or.inl (Or.inl hr), fun _ _ => rfl⟩
  obtain ⟨-, o, ho, -⟩ := w1.obj r hrL
  have hget : s1.heap.get o = f := by rw [view_some ho] at v1; exact Option.some.inj v1
  have hdc : s1.deepcopy r = .ok (s1.new f) := by
    unfold Store.deepcopy
    rw [obj_some ho, Py.bind_ok, hget]; rfl
  rw [hdc, Py.bind_ok]
  obtain ⟨w1', v1', u1'⟩ := new_own w1 f
  have hfresh := new_fresh w1 f
  set c := s1.new f with hc
  refine (maxout_own w1' (Or.inr hrL) ((u1' r hrL).trans v1) rv).bind ?_
  rintro s2 f2 ⟨w2, v2, u2⟩
  have hirr : ∀ q ∈ p.phi.filter (fun q => !mentions s rv q), q ∈ p.phi ∧ mentions s rv q = false := by
    intro q hq
    have := List.mem_filter.1 hq
    exact ⟨this.1, by simpa using this.2⟩
  have hne : ∀ q ∈ p.phi.filter (fun q => !mentions s rv q), q ≠ r := by
    rintro q hq rfl
    rw [(hirr q hq).2] at hm
    exact Bool.false_ne_true hm
  have hmr : ∀ q ∈ p.mapFactors.map Prod.snd, q ∉ p.phi := fun q hq hp => w.apart q hp hq
  have hkp : ∀ q ∈ K, q ∉ p.phi := fun q hq hp => w.sep q (Or.inl hp) hq
  have hI : ∀ q ∈ p.phi.filter (fun q => !mentions s rv q), q ∈ {x | x ∈ p.refs ∪ K ∧ (x ∈ p.phi → mentions s rv x = true → x = r)} := fun q hq =>
    ⟨Or.inl (Or.inl (hirr q hq).1), fun _ h => by rw [(hirr q hq).2] at h; exact absurd h Bool.false_ne_true⟩
  have hM : ∀ q ∈ p.mapFactors.map Prod.snd, q ∈ {x | x ∈ p.refs ∪ K ∧ (x ∈ p.phi → mentions s rv x = true → x = r)} := fun q hq =>
    ⟨Or.inl (Or.inr hq), fun h => absurd h (hmr q hq)⟩
  have hK : ∀ q ∈ K, q ∈ {x | x ∈ p.refs ∪ K ∧ (x ∈ p.phi → mentions s rv x = true → x = r)} := fun q hq =>
    ⟨Or.inr hq, fun h => absurd h (hkp q hq)⟩
  have hcr : c.2 ≠ r := fun e => hfresh (e ▸ hrL)
  refine .ok ⟨⟨w2.mono ?_, ?_, ⟨?_, ?_⟩, ?_, ?_, ?_, w.asg⟩, ?_⟩
  · rintro x ((hx | hx) | hx)
    · simp only [List.mem_append, List.mem_singleton] at hx
      rcases hx with hx | rfl
      · exact Or.inr (hI x hx)
      · exact Or.inr hrL
    · rcases mem_set_snd _ _ _ x hx with rfl | hx
      · exact Or.inl rfl
      · exact Or.inr (hM x hx)
    · exact Or.inr (hK x hx)
  · rintro x (hx | hx)
    · simp only [List.mem_append, List.mem_singleton] at hx
      rcases hx with hx | rfl
      · exact w.sep x (Or.inl (hirr x hx).1)
      · exact w.sep x (Or.inl hr)
    · rcases mem_set_snd _ _ _ x hx with rfl | hx
      · exact fun hk => hfresh (hK _ hk)
      · exact w.sep x (Or.inr hx)
  · simp only
    rw [List.nodup_append]
    refine ⟨w.nodup.1.filter _, List.nodup_singleton _, ?_⟩
    intro a ha b hb
    rw [List.mem_singleton] at hb
    rw [hb]; exact hne a ha
  · exact nodup_set_snd _ _ _ (fun hx => hfresh (hM _ hx)) w.nodup.2
  · intro q hq hq'
    have hqL : q ∈ p.phi ∧ q ∈ {x | x ∈ p.refs ∪ K ∧ (x ∈ p.phi → mentions s rv x = true → x = r)} := by
      simp only [List.mem_append, List.mem_singleton] at hq
      rcases hq with hq | rfl
      · exact ⟨(hirr q hq).1, hI q hq⟩
      · exact ⟨hr, hrL⟩
    rcases mem_set_snd _ _ _ q hq' with rfl | hx
    · exact hfresh hqL.2
    · exact w.apart q hqL.1 hx
  · simp only [List.map_append, List.map_cons, List.map_nil]
    rw [v2, ← irrel_view rv w.phi]
    congr 1
    refine List.map_congr_left fun q hq => ?_
    rw [u2 q (Or.inr (hI q hq)) (hne q hq), u1' q (hI q hq), u1 q (Or.inl (Or.inl (hirr q hq).1)) fun _ => (hirr q hq).2]
  · simp only
    have hold : p.mapFactors.map (fun kv => (kv.1, s2.view kv.2)) = v.mapFactors.map (fun kv => (kv.1, some kv.2)) := by
      refine Eq.trans (List.map_congr_left fun kv hkv => ?_) w.maps
      have hk : kv.2 ∈ p.mapFactors.map Prod.snd := List.mem_map_of_mem hkv
      rw [u2 kv.2 (Or.inr (hM _ hk)) (fun e => hmr _ hk (e ▸ hr)), u1' _ (hM _ hk), u1 kv.2 (Or.inl (Or.inr hk)) fun h => absurd h (hmr _ hk)]
    rw [map_set_snd s2.view, hold, map_set_snd (some : Factor N → Option (Factor N)), u2 c.2 (Or.inl rfl) hcr, v1']
  · intro k hk
    rw [u2 k (Or.inr (hK k hk)) (fun e => hkp k hk (e ▸ hr)), u1' k (hK k hk), u1 k (Or.inr hk) fun h => absurd h (hkp k hk)]

theorem reduceUpstream_own (h : HashOrder N) (bn : BayesNet N A) (asg : Dict N A) {s0 : Store N} : ∀ (vs : List N) {s : Store N} {L : Set ℕ} {r : ℕ} {f : Factor N},
    Own s0 s L → r ∈ L → s.view r = some f →
    PyRel (Wrote s0 s L r) (reduceUpstream h bn asg s vs r) (Factorization.reduceUpstream h bn asg vs f) := by
  intro vs
  induction vs with
  | nil =>
    intro s L r f w hr hf
    exact .ok ⟨w, hf, fun _ _ _ => rfl⟩
  | cons v vs ih =>
    intro s L r f w hr hf
    unfold reduceUpstream Factorization.reduceUpstream
    rw [mentions_some hf]
    by_cases hm : v ∈ f.scope
    · simp only [hm, decide_true, if_true]
      refine (PyRel.refl _).bind ?_
      rintro x - rfl
      refine (reduce_own h bn w hr hf v x).bind ?_
      rintro s1 f1 ⟨w1, v1, u1⟩
      refine (ih w1 hr v1).mono ?_
      rintro s2 f2 ⟨w2, v2, u2⟩
      exact ⟨w2, v2, fun t ht htr => (u2 t ht htr).trans (u1 t ht htr)⟩
    · simp only [hm, decide_false, if_false, Bool.false_eq_true]
      exact ih w hr hf

theorem view_cpt {s : Store N} {r : ℕ} {o : FObj N} {f : Factor N} (ho : s.objs[r]? = some o) (hf : s.view r = some f) : o.cpt = f.cpt := by
  rw [view_some ho] at hf
  rw [← Option.some.inj hf]; rfl

theorem traceback_own (h : HashOrder N) (bn : BayesNet N A) (asg : Dict N A) {s0 : Store N} : ∀ (rs : List (N × ℕ)) (fs : List (N × Factor N)) {s : Store N} {L : Set ℕ},
    Own s0 s L → (∀ r ∈ rs.map Prod.snd, r ∈ L) → (rs.map Prod.snd).Nodup →
    rs.map (fun kv => (kv.1, s.view kv.2)) = fs.map (fun kv => (kv.1, some kv.2)) →
    PyRel (fun sa a => sa.2 = a ∧ Own s0 sa.1 L ∧ ∀ q ∈ L, q ∉ rs.map Prod.snd → sa.1.view q = s.view q)
      (traceback h bn asg s rs) (Factorization.traceback h bn asg fs) := by
  intro rs
  induction rs with
  | nil =>
    intro fs s L w _ _ hv
    cases fs with
    | nil => exact .ok ⟨rfl, w, fun _ _ _ => rfl⟩
    | cons => simp at hv
  | cons kr rs ih =>
    intro fs s L w hL nd hv
    obtain ⟨k, r⟩ := kr
    cases fs with
    | nil => simp at hv
    | cons kf fs =>
      obtain ⟨k', f⟩ := kf
      simp only [List.map_cons, List.cons.injEq, Prod.mk.injEq] at hv
      obtain ⟨⟨rfl, hf⟩, hv⟩ := hv
      simp only [List.map_cons, List.nodup_cons] at nd
      simp only [List.map_cons, List.mem_cons, forall_eq_or_imp] at hL
      have hkeys : rs.map Prod.fst = fs.map Prod.fst := by
        have := congrArg (List.map Prod.fst) hv
        simpa [List.map_map, Function.comp_def] using this
      unfold traceback Factorization.traceback
      refine (ih fs w hL.2 nd.2 hv).bind ?_
      rintro ⟨s1, a1⟩ a ⟨ha, w1, u1⟩
      simp only at ha w1 u1
      subst ha
      have hf1 : s1.view r = some f := by rw [u1 r hL.1 nd.1, hf]
      rw [hkeys]
      refine (reduceUpstream_own h bn a1 (fs.map Prod.fst) w1 hL.1 hf1).bind ?_
      rintro s2 f2 ⟨w2, v2, u2⟩
      refine (PyRel.refl _).bind ?_
      rintro vals - rfl
      obtain ⟨-, o, ho, -⟩ := w2.obj r hL.1
      rw [obj_some ho, Py.bind_ok, view_cpt ho v2]
      refine (PyRel.refl _).bind ?_
      rintro i - rfl
      refine (PyRel.refl _).bind ?_
      rintro x - rfl
      refine .ok ⟨rfl, w2, ?_⟩
      intro q hq hqr
      simp only [List.map_cons, List.mem_cons, not_or] at hqr
      rw [u2 q hq hqr.1, u1 q hq hqr.2]

theorem applyEvidence_rep (h : HashOrder N) (bn : BayesNet N A) {s0 : Store N} : ∀ (es : List (N × A)) {K : Set ℕ} {s : Store N} {p : Fzn N A} {v : Factorization N A} (order : List N),
    Rep s0 K s p v → PyRel (fun a b => Rep s0 K a.1 a.2.1 b.1 ∧ a.2.2 = b.2) (applyEvidence h bn es s p order) (PyBN.applyEvidence h bn es v order) := by
  intro es
  induction es with
  | nil => intro K s p v order w; exact .ok ⟨w, rfl⟩
  | cons e es ih =>
    intro K s p v order w
    obtain ⟨k, x⟩ := e
    unfold applyEvidence PyBN.applyEvidence
    refine (sub_rep h bn w k x).bind ?_
    rintro ⟨s1, p1⟩ v1 ⟨w1, -⟩
    refine (PyRel.refl _).bind ?_
    rintro o - rfl
    exact ih o w1

theorem sumElimAll_rep (h : HashOrder N) {s0 : Store N} : ∀ (vs : List N) {K : Set ℕ} {s : Store N} {p : Fzn N A} {v : Factorization N A},
    Rep s0 K s p v → PyRel (fun a b => Rep s0 K a.1 a.2 b) (sumElimAll h vs s p) (PyBN.sumElimAll h vs v) := by
  intro vs
  induction vs with
  | nil => intro K s p v w; exact .ok w
  | cons k vs ih =>
    intro K s p v w
    unfold sumElimAll PyBN.sumElimAll
    refine (sumElim_rep h w k).bind ?_
    rintro ⟨s1, p1⟩ v1 ⟨w1, -⟩
    exact ih w1

theorem maxElimAll_rep (h : HashOrder N) {s0 : Store N} : ∀ (vs : List N) {K : Set ℕ} {s : Store N} {p : Fzn N A} {v : Factorization N A},
    Rep s0 K s p v → PyRel (fun a b => Rep s0 K a.1 a.2 b) (maxElimAll h vs s p) (PyBN.maxElimAll h vs v) := by
  intro vs
  induction vs with
  | nil => intro K s p v w; exact .ok w
  | cons k vs ih =>
    intro K s p v w
    unfold maxElimAll PyBN.maxElimAll
    refine (maxElim_rep h w k).bind ?_
    rintro ⟨s1, p1⟩ v1 ⟨w1, -⟩
    exact ih w1

theorem consolidate_rep {s0 s : Store N} {K : Set ℕ} {p : Fzn N A} {v : Factorization N A} (w : Rep s0 K s p v) :
    PyRel (fun r f => r ∈ p.phi ∧ s.view r = some f) (consolidate p) v.consolidate := by
  have hv := w.phi
  unfold consolidate Factorization.consolidate
  rcases hp : p.phi with _ | ⟨r, _ | ⟨r', rs⟩⟩ <;> rcases hq : v.phi with _ | ⟨f, _ | ⟨f', fs⟩⟩ <;> rw [hp, hq] at hv <;> simp at hv
  · exact .err _
  · exact .ok ⟨by simp, hv⟩
  · exact .err _

/-- `marginal_ve_e` on objects, started in any store. -/
theorem marginalVE_rel (h : HashOrder N) (hE : HashOrder (N × A)) (bn : BayesNet N A) (target : N) (ev : Dict N A) (s : Store N) :
    PyRel (fun a b => a.2 = b ∧ Own s a.1 ∅) (marginalVE h hE bn target ev s) (PyBN.marginalVE h hE bn target ev) := by
  unfold marginalVE PyBN.marginalVE
  refine (init_rep bn (Own.start s)).bind ?_
  rintro ⟨s1, p1⟩ v1 ⟨w1, -⟩
  refine (PyRel.refl _).bind ?_
  rintro o - rfl
  refine (applyEvidence_rep h bn _ o w1).bind ?_
  rintro ⟨s2, p2, o2⟩ ⟨v2, o2'⟩ ⟨w2, rfl⟩
  refine (sumElimAll_rep h o2 w2).bind ?_
  rintro ⟨s3, p3⟩ v3 w3
  refine (consolidate_rep w3).bind ?_
  rintro r f ⟨hr, hf⟩
  obtain ⟨-, ob, ho, -⟩ := w3.own.obj r (Or.inl (Or.inl hr))
  rw [obj_some ho, Py.bind_ok, view_cpt ho hf]
  exact .ok ⟨rfl, w3.own.mono (Set.empty_subset _)⟩

theorem veMapCore_rel (h : HashOrder N) (hE : HashOrder (N × A)) (bn : BayesNet N A) (ev : Dict N A) (s : Store N) :
    PyRel (fun a b => a.2.2 = b.2 ∧ Own s a.1 {r | r ∈ a.2.1.phi} ∧ a.2.1.phi.map a.1.view = b.1.phi.map some)
      (veMapCore h hE bn ev s) (PyBN.veMapCore h hE bn ev) := by
  unfold veMapCore PyBN.veMapCore
  refine (init_rep bn (Own.start s)).bind ?_
  rintro ⟨s1, p1⟩ v1 ⟨w1, -⟩
  refine (applyEvidence_rep h bn _ bn.V w1).bind ?_
  rintro ⟨s2, p2, o2⟩ ⟨v2, o2'⟩ ⟨w2, rfl⟩
  refine (maxElimAll_rep h o2 w2).bind ?_
  rintro ⟨s3, p3⟩ v3 w3
  simp only
  rw [show p3.mapAssignment = v3.mapAssignment from w3.asg]
  refine (traceback_own h bn _ p3.mapFactors v3.mapFactors w3.own (fun r hr => Or.inl (Or.inr hr)) w3.nodup.2 w3.maps).bind ?_
  rintro ⟨s4, a4⟩ a ⟨ha, w4, u4⟩
  refine .ok ⟨ha, w4.mono fun r hr => Or.inl (Or.inl hr), ?_⟩
  rw [← w3.phi]
  exact List.map_congr_left fun q hq => u4 q (Or.inl (Or.inl hq)) (w3.apart q hq)

theorem veMap_rel (h : HashOrder N) (hE : HashOrder (N × A)) (bn : BayesNet N A) (ev : Dict N A) (s : Store N) :
    PyRel (fun a b => a.2 = b ∧ Own s a.1 ∅) (veMap h hE bn ev s) (PyBN.veMap h hE bn ev) := by
  unfold veMap PyBN.veMap
  refine (veMapCore_rel h hE bn ev s).bind ?_
  rintro ⟨s1, p1, a1⟩ ⟨v1, a⟩ ⟨ha, w1, -⟩
  exact .ok ⟨ha, w1.mono (Set.empty_subset _)⟩

theorem veMapProb_rel (h : HashOrder N) (hE : HashOrder (N × A)) (bn : BayesNet N A) (ev : Dict N A) (s : Store N) :
    PyRel (fun a b => a.2 = b ∧ Own s a.1 ∅) (veMapProb h hE bn ev s) (PyBN.veMapProb h hE bn ev) := by
  unfold veMapProb PyBN.veMapProb
  refine (veMapCore_rel h hE bn ev s).bind ?_
  rintro ⟨s1, p1, a1⟩ ⟨v1, a⟩ ⟨ha, w1, hv⟩
  simp only at ha w1 hv ⊢
  subst ha
  unfold consolidate Factorization.consolidate
  rcases hp : p1.phi with _ | ⟨r, _ | ⟨r', rs⟩⟩ <;> rcases hq : v1.phi with _ | ⟨f, _ | ⟨f', fs⟩⟩ <;> rw [hp, hq] at hv <;> simp at hv
  · exact .err _
  · obtain ⟨-, ob, ho, -⟩ := w1.obj r (by simp [hp])
    simp only [Py.bind_ok]
    rw [obj_some ho, Py.bind_ok, view_cpt ho hv]
    refine (PyRel.refl _).bind ?_
    rintro x - rfl
    exact .ok ⟨rfl, w1.mono (Set.empty_subset _)⟩
  · exact .err _

/-- All of `s` is as it was. -/
theorem Own.undisturbed {s s' : Store N} {L : Set ℕ} (w : Own s s' L) (hs : s.Sound) : Undisturbed s s' := by
  intro r f hf
  unfold Store.view at hf
  cases ho : s.objs[r]? with
  | none => rw [ho] at hf; cases hf
  | some o =>
    rw [ho] at hf
    obtain ⟨hr, -⟩ := List.getElem?_eq_some_iff.1 ho
    obtain ⟨h1, h2, h3, -⟩ := hs o (List.mem_of_getElem? ho)
    rw [view_some ((w.objs r hr).trans ho), ← hf]
    simp only [Clq.Heap.get, Option.map_some]
    rw [w.scopes _ h1, w.dicts _ h2, w.dicts _ h3]

theorem step_rep (h : HashOrder N) (bn : BayesNet N A) {s0 s : Store N} {K : Set ℕ} {p : Fzn N A} {v : Factorization N A} (w : Rep s0 K s p v) (o : Factorization.Op N A)
    {r : Store N × Fzn N A} (hr : step h bn s p o = .ok r) : ∃ v', Factorization.step h bn v o = (v', none) ∧ Reps s0 K s r v' := by
  cases o with
  | reduce rv val =>
    have e := sub_rep h bn w rv val
    rw [show sub h bn s p rv val = .ok r from hr] at e
    generalize hv : v.sub h bn rv val = x at e
    cases e with
    | ok e =>
      refine ⟨_, ?_, e⟩
      have key : ∀ (fs : List (Factor N)) (gs), Factorization.reducePhi h bn rv val fs = .ok gs → Factorization.reducePhiS h bn rv val fs = (gs, none) := by
        intro fs
        induction fs with
        | nil => intro gs hg; cases hg; rfl
        | cons f fs ih =>
          intro gs hg
          unfold Factorization.reducePhi at hg
          unfold Factorization.reducePhiS
          by_cases hm : rv ∈ f.scope
          · simp only [hm, if_true] at hg ⊢
            cases hf : f.reduce h bn rv val with
            | error e => rw [hf] at hg; cases hg
            | ok f' =>
              rw [hf, Py.bind_ok] at hg
              cases hg' : Factorization.reducePhi h bn rv val fs with
              | error e => rw [hg'] at hg; cases hg
              | ok gs' =>
                rw [hg', Py.bind_ok] at hg
                cases hg
                simp only [ih gs' hg']
          · simp only [hm, if_false] at hg ⊢
            cases hg' : Factorization.reducePhi h bn rv val fs with
            | error e => rw [hg'] at hg; cases hg
            | ok gs' =>
              rw [hg', Py.bind_ok] at hg
              cases hg
              simp only [ih gs' hg']
      unfold Factorization.sub at hv
      cases hp : Factorization.reducePhi h bn rv val v.phi with
      | error e => rw [hp] at hv; cases hv
      | ok gs =>
        rw [hp, Py.bind_ok] at hv
        cases hv
        simp only [Factorization.step, key _ _ hp]
  | sumOut rv =>
    have e := sumElim_rep h w rv
    rw [show sumElim h s p rv = .ok r from hr] at e
    generalize hv : v.sumElim h rv = x at e
    cases e with
    | ok e => exact ⟨_, by simp only [Factorization.step, hv], e⟩
  | maxOut rv =>
    have e := maxElim_rep h w rv
    rw [show maxElim h s p rv = .ok r from hr] at e
    generalize hv : v.maxElim h rv = x at e
    cases e with
    | ok e => exact ⟨_, by simp only [Factorization.step, hv], e⟩
  | refresh =>
    have e := init_rep bn (s := s) (K := K) (w.own.mono fun _ hx => Or.inr hx)
    rw [show init bn s = .ok r from hr] at e
    generalize hv : Factorization.init bn = x at e
    cases e with
    | ok e =>
      refine ⟨_, ?_, e⟩
      have hn : Factorization.initNodes bn none = Factorization.init bn := rfl
      simp only [Factorization.step, hn, hv]

/-- The references held by the other factorizations. -/
def others (ps : List (BayesNet N A × Fzn N A)) (i : ℕ) : Set ℕ := {r | ∃ j bp, j ≠ i ∧ ps[j]? = some bp ∧ r ∈ bp.2.refs}

/-- All the factorizations of a program read as the values `vs`, and none shares anything with another. -/
def Inv (s0 s : Store N) (ps : List (BayesNet N A × Fzn N A)) (vs : List (Factorization N A)) : Prop :=
  vs.length = ps.length ∧ Own s0 s {r | ∃ (j : ℕ) (bp : BayesNet N A × Fzn N A), ps[j]? = some bp ∧ r ∈ bp.2.refs} ∧
    ∀ (i : ℕ) bp v, ps[i]? = some bp → vs[i]? = some v → Rep s0 (others ps i) s bp.2 v

theorem Rep.frame {s0 s s' : Store N} {K K' : Set ℕ} {p : Fzn N A} {v : Factorization N A} (w : Rep s0 K s p v) (o : Own s0 s' (p.refs ∪ K'))
    (sp : ∀ r ∈ p.refs, r ∉ K') (vw : ∀ r ∈ p.refs, s'.view r = s.view r) : Rep s0 K' s' p v :=
  ⟨o, sp, w.nodup, w.apart, (List.map_congr_left fun r hr => vw r (Or.inl hr)).trans w.phi,
    (List.map_congr_left fun kv hkv => by rw [vw kv.2 (Or.inr (List.mem_map_of_mem hkv))]).trans w.maps, w.asg⟩

theorem inv_make (bn : BayesNet N A) {s0 s : Store N} {ps : List (BayesNet N A × Fzn N A)} {vs : List (Factorization N A)} (hi : Inv s0 s ps vs)
    {r : Store N × Fzn N A} (hr : init bn s = .ok r) : ∃ v, Factorization.init bn = .ok v ∧ Inv s0 r.1 (ps ++ [(bn, r.2)]) (vs ++ [v]) := by
  obtain ⟨hl, ho, hv⟩ := hi
  have e := init_rep bn ho
  rw [hr] at e
  generalize hx : Factorization.init bn = x at e
  cases e with
  | ok e =>
    rename_i v
    obtain ⟨w1, u1⟩ := e
    have hat : ∀ (j : ℕ) (bp : BayesNet N A × Fzn N A), (ps ++ [(bn, r.2)])[j]? = some bp → (ps[j]? = some bp ∧ j < ps.length) ∨ (j = ps.length ∧ bp = (bn, r.2)) := by
      intro j bp hj
      rcases lt_trichotomy j ps.length with h | h | h
      · rw [List.getElem?_append_left h] at hj; exact Or.inl ⟨hj, h⟩
      · subst h; simp at hj; exact Or.inr ⟨rfl, hj.symm⟩
      · rw [List.getElem?_eq_none (by simp; omega)] at hj; cases hj
    have hown : Own s0 r.1 {x | ∃ (j : ℕ) (bp : BayesNet N A × Fzn N A), (ps ++ [(bn, r.2)])[j]? = some bp ∧ x ∈ bp.2.refs} := by
      refine w1.own.mono ?_
      rintro x ⟨j, bp, hj, hx⟩
      rcases hat j bp hj with ⟨hj, -⟩ | ⟨-, rfl⟩
      · exact Or.inr ⟨j, bp, hj, hx⟩
      · exact Or.inl hx
    refine ⟨v, rfl, by simp [hl], hown, ?_⟩
    intro i bp v' hi hvi
    rcases hat i bp hi with ⟨hi, hlt⟩ | ⟨rfl, rfl⟩
    · rw [List.getElem?_append_left (by omega)] at hvi
      refine (hv i bp v' hi hvi).frame (hown.mono ?_) ?_ ?_
      · rintro x (hx | ⟨j, bp', -, hj, hx⟩)
        · exact ⟨i, bp, by rw [List.getElem?_append_left hlt, hi], hx⟩
        · exact ⟨j, bp', hj, hx⟩
      · rintro x hx ⟨j, bp', hji, hj, hx'⟩
        rcases hat j bp' hj with ⟨hj, -⟩ | ⟨-, rfl⟩
        · exact (hv i bp v' hi hvi).sep x hx ⟨j, bp', hji, hj, hx'⟩
        · exact w1.sep x hx' ⟨i, bp, hi, hx⟩
      · exact fun x hx => u1 x ⟨i, bp, hi, hx⟩
    · rw [← hl] at hvi
      simp at hvi
      subst hvi
      refine w1.frame (hown.mono ?_) ?_ fun _ _ => rfl
      · rintro x (hx | ⟨j, bp', -, hj, hx⟩)
        · exact ⟨ps.length, (bn, r.2), by simp, hx⟩
        · exact ⟨j, bp', hj, hx⟩
      · rintro x hx ⟨j, bp', hji, hj, hx'⟩
        rcases hat j bp' hj with ⟨hj, -⟩ | ⟨rfl, -⟩
        · exact w1.sep x hx ⟨j, bp', hj, hx'⟩
        · exact hji rfl

theorem inv_call (h : HashOrder N) {s0 s : Store N} {ps : List (BayesNet N A × Fzn N A)} {vs : List (Factorization N A)} (hi : Inv s0 s ps vs)
    {i : ℕ} {bp : BayesNet N A × Fzn N A} (hb : ps[i]? = some bp) (o : Factorization.Op N A) {r : Store N × Fzn N A} (hr : step h bp.1 s bp.2 o = .ok r) :
    ∃ v v', vs[i]? = some v ∧ Factorization.step h bp.1 v o = (v', none) ∧ Inv s0 r.1 (ps.set i (bp.1, r.2)) (vs.set i v') := by
  obtain ⟨hl, ho, hv⟩ := hi
  obtain ⟨hlt, -⟩ := List.getElem?_eq_some_iff.1 hb
  have hvi : vs[i]? = some (vs[i]'(by omega)) := List.getElem?_eq_getElem _
  set v := vs[i]'(by omega) with hv0
  obtain ⟨v', e1, w1, u1⟩ := step_rep h bp.1 (hv i bp v hb hvi) o hr
  have hat : ∀ (j : ℕ) (b : BayesNet N A × Fzn N A), (ps.set i (bp.1, r.2))[j]? = some b → (j ≠ i ∧ ps[j]? = some b) ∨ (j = i ∧ b = (bp.1, r.2)) := by
    intro j b hj
    by_cases hji : j = i
    · subst hji
      rw [List.getElem?_set_self hlt] at hj
      exact Or.inr ⟨rfl, (Option.some.inj hj).symm⟩
    · rw [List.getElem?_set_ne (Ne.symm hji)] at hj
      exact Or.inl ⟨hji, hj⟩
  have hown : Own s0 r.1 {x | ∃ (j : ℕ) (b : BayesNet N A × Fzn N A), (ps.set i (bp.1, r.2))[j]? = some b ∧ x ∈ b.2.refs} := by
    refine w1.own.mono ?_
    rintro x ⟨j, b, hj, hx⟩
    rcases hat j b hj with ⟨hji, hj⟩ | ⟨rfl, rfl⟩
    · exact Or.inr ⟨j, b, hji, hj, hx⟩
    · exact Or.inl hx
  refine ⟨v, v', hvi, e1, by simp [hl], hown, ?_⟩
  intro k b u hk hu
  have hall : ∀ x, x ∈ others (ps.set i (bp.1, r.2)) k → x ∈ {x | ∃ (j : ℕ) (b : BayesNet N A × Fzn N A), (ps.set i (bp.1, r.2))[j]? = some b ∧ x ∈ b.2.refs} := by
    rintro x ⟨j, b', -, hj, hx⟩
    exact ⟨j, b', hj, hx⟩
  rcases hat k b hk with ⟨hki, hk'⟩ | ⟨rfl, rfl⟩
  · rw [List.getElem?_set_ne (Ne.symm hki)] at hu
    have wk := hv k b u hk' hu
    refine wk.frame (hown.mono ?_) ?_ ?_
    · rintro x (hx | hx)
      · exact ⟨k, b, hk, hx⟩
      · exact hall x hx
    · rintro x hx ⟨j, b', hjk, hj, hx'⟩
      rcases hat j b' hj with ⟨-, hj⟩ | ⟨rfl, rfl⟩
      · exact wk.sep x hx ⟨j, b', hjk, hj, hx'⟩
      · exact w1.sep x hx' ⟨k, b, hki, hk', hx⟩
    · exact fun x hx => u1 x ⟨k, b, hki, hk', hx⟩
  · rw [List.getElem?_set_self (by omega)] at hu
    cases hu
    refine w1.frame (hown.mono ?_) ?_ fun _ _ => rfl
    · rintro x (hx | hx)
      · exact ⟨k, _, hk, hx⟩
      · exact hall x hx
    · rintro x hx ⟨j, b', hjk, hj, hx'⟩
      rcases hat j b' hj with ⟨-, hj⟩ | ⟨rfl, -⟩
      · exact w1.sep x hx ⟨j, b', hjk, hj, hx'⟩
      · exact hjk rfl

theorem runCmds_inv (h : HashOrder N) {s0 : Store N} : ∀ (cs : List (Cmd N A)) {s : Store N} {ps : List (BayesNet N A × Fzn N A)} {vs : List (Factorization N A)}
    {r : Store N × List (BayesNet N A × Fzn N A)}, Inv s0 s ps vs → runCmds h s ps cs = .ok r →
    Own s0 r.1 ∅ ∧ ∀ (i : ℕ) bn p', r.2[i]? = some (bn, p') → ∃ v v', ((∃ p, ps[i]? = some (bn, p) ∧ vs[i]? = some v) ∨ (ps.length ≤ i ∧ Factorization.init bn = .ok v)) ∧
      Factorization.steps h bn v (callsOn i cs) = (v', List.replicate (callsOn i cs).length none) ∧ Reads r.1 p' v' := by
  intro cs
  induction cs with
  | nil =>
    intro s ps vs r hi hr
    cases hr
    refine ⟨hi.2.1.mono (Set.empty_subset _), fun i bn p' hp => ?_⟩
    obtain ⟨hlt, -⟩ := List.getElem?_eq_some_iff.1 hp
    have hvi : vs[i]? = some (vs[i]'(by rw [hi.1]; exact hlt)) := List.getElem?_eq_getElem _
    have w := hi.2.2 i _ _ hp hvi
    exact ⟨_, _, Or.inl ⟨p', hp, hvi⟩, rfl, w.phi, w.maps, w.asg⟩
  | cons c cs ih =>
    intro s ps vs r hi hr
    cases c with
    | make bn =>
      unfold runCmds at hr
      cases hm : init bn s with
      | error e => rw [hm] at hr; cases hr
      | ok m =>
        rw [hm, Py.bind_ok] at hr
        obtain ⟨v0, e0, hi'⟩ := inv_make bn hi hm
        obtain ⟨o, hall⟩ := ih hi' hr
        refine ⟨o, fun i b p' hp => ?_⟩
        obtain ⟨v, v', hv, hs, hrd⟩ := hall i b p' hp
        refine ⟨v, v', ?_, hs, hrd⟩
        rcases hv with ⟨p, hp, hv⟩ | ⟨hv, hb⟩
        · rcases lt_trichotomy i ps.length with hlt | heq | hgt
          · rw [List.getElem?_append_left hlt] at hp
            rw [List.getElem?_append_left (by rw [hi.1]; exact hlt)] at hv
            exact Or.inl ⟨p, hp, hv⟩
          · right
            have hl := hi.1
            rw [List.getElem?_append_right (by omega), show i - ps.length = 0 by omega] at hp
            rw [List.getElem?_append_right (by omega), show i - vs.length = 0 by omega] at hv
            simp at hp hv
            subst hv
            rw [← hp.1]
            exact ⟨by omega, e0⟩
          · rw [List.getElem?_eq_none (by simp; omega)] at hp; cases hp
        · rw [List.length_append] at hv
          exact Or.inr ⟨by omega, hb⟩
    | call j o =>
      unfold runCmds at hr
      cases hj : ps[j]? with
      | none => rw [hj] at hr; cases hr
      | some bp =>
        rw [hj] at hr
        simp only [Py.bind_ok] at hr
        cases hm : step h bp.1 s bp.2 o with
        | error e => rw [hm] at hr; cases hr
        | ok m =>
          rw [hm, Py.bind_ok] at hr
          obtain ⟨hlt, -⟩ := List.getElem?_eq_some_iff.1 hj
          obtain ⟨v0, v1, hv0, e0, hi'⟩ := inv_call h hi hj o hm
          obtain ⟨ow, hall⟩ := ih hi' hr
          refine ⟨ow, fun i b p' hp => ?_⟩
          obtain ⟨v, v', hv, hs, hrd⟩ := hall i b p' hp
          unfold callsOn
          by_cases hji : j = i
          · subst hji
            rw [if_pos rfl]
            rcases hv with ⟨p, hp, hv⟩ | ⟨hv, -⟩
            · rw [List.getElem?_set_self hlt] at hp
              rw [List.getElem?_set_self (by rw [hi.1]; exact hlt)] at hv
              cases hp; cases hv
              refine ⟨v0, v', Or.inl ⟨bp.2, hj, hv0⟩, ?_, hrd⟩
              simp only [Factorization.steps, e0, hs, List.length_cons, List.replicate_succ]
            · rw [List.length_set] at hv; omega
          · rw [if_neg hji]
            refine ⟨v, v', ?_, hs, hrd⟩
            rcases hv with ⟨p, hp, hv⟩ | ⟨hv, hb⟩
            · rw [List.getElem?_set_ne hji] at hp hv
              exact Or.inl ⟨p, hp, hv⟩
            · rw [List.length_set] at hv; exact Or.inr ⟨hv, hb⟩

theorem runCmds_start (h : HashOrder N) (s : Store N) (cs : List (Cmd N A)) {r : Store N × List (BayesNet N A × Fzn N A)} (hr : runCmds h s [] cs = .ok r) :
    Own s r.1 ∅ ∧ ∀ (i : ℕ) bn p, r.2[i]? = some (bn, p) → ∃ v v', Factorization.init bn = .ok v ∧
      Factorization.steps h bn v (callsOn i cs) = (v', List.replicate (callsOn i cs).length none) ∧ Reads r.1 p v' := by
  have hi : Inv s s ([] : List (BayesNet N A × Fzn N A)) [] :=
    ⟨rfl, (Own.start s).mono (by rintro x ⟨j, bp, hj, -⟩; simp at hj), fun i bp v hb _ => by simp at hb⟩
  obtain ⟨o, hall⟩ := runCmds_inv h cs hi hr
  refine ⟨o, fun i bn p hp => ?_⟩
  obtain ⟨v, v', hv, hs, hrd⟩ := hall i bn p hp
  rcases hv with ⟨q, hq, -⟩ | ⟨-, hb⟩
  · simp at hq
  · exact ⟨v, v', hb, hs, hrd⟩

end Obj
end PyBN
