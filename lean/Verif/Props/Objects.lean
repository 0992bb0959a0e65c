import Verif.Proofs.FactorObjects
import Verif.Props.Inference
import Verif.Props.FactorizationOps

/-!
# C226–C230: exact inference and factor operators on real (mutable, shareable) objects
-/

set_option linter.unusedSectionVars false
namespace PyBN
namespace Obj
variable {N A : Type _} [DecidableEq N] [DecidableEq A]

theorem PyRel.ok_left {α β : Type _} {R : α → β → Prop} {a : α} {y : Py β} (h : PyRel R (.ok a) y) : ∃ b, y = .ok b ∧ R a b := by
  cases h with
  | ok h => exact ⟨_, rfl, h⟩

theorem PyRel.ok_right {α β : Type _} {R : α → β → Prop} {x : Py α} {b : β} (h : PyRel R x (.ok b)) : ∃ a, x = .ok a ∧ R a b := by
  cases h with
  | ok h => exact ⟨_, rfl, h⟩

theorem PyRel.map_eq {α β : Type _} {s : Prop} {S : α → Prop} {x : Py (α × β)} {y : Py β} (h : PyRel (fun a b => a.2 = b ∧ S a.1) x y) : x.map Prod.snd = y := by
  cases h with
  | ok h => exact congrArg Except.ok h.1
  | err e => rfl

/-! ## C226 -/

/-- C226: with all operators changing their operands in place and `card` dictionaries coming to be shared, `marginal_ve_e` and `ve_map` return or raise exactly
what they would if every operation made a new factor, whatever factor objects the program already has. -/
theorem C226_as_values (h : HashOrder N) (hE : HashOrder (N × A)) (bn : BayesNet N A) (target : N) (ev : Dict N A) (s : Store N) :
    (marginalVE h hE bn target ev s).map Prod.snd = PyBN.marginalVE h hE bn target ev ∧
    (veMap h hE bn ev s).map Prod.snd = PyBN.veMap h hE bn ev ∧
    (veMapProb h hE bn ev s).map Prod.snd = PyBN.veMapProb h hE bn ev :=
  ⟨(marginalVE_rel h hE bn target ev s).map_eq (s := True) (S := fun a => Own s a ∅), (veMap_rel h hE bn ev s).map_eq (s := True) (S := fun a => Own s a ∅),
    (veMapProb_rel h hE bn ev s).map_eq (s := True) (S := fun a => Own s a ∅)⟩

/-- C226: whenever `marginal_ve_e`, run on objects, returns, each entry is the rounded sum of the joint. -/
theorem C226_marginal_exact (h : HashOrder N) (hE : HashOrder (N × A)) (bn : BayesNet N A) (wb : bn.WF) (target : N) (ev : Dict N A) (hn : ev.keys.Nodup)
    (s s' : Store N) (r : List ℚ) (hr : marginalVE h hE bn target ev s = .ok (s', r)) :
    target ∈ bn.V ∧ target ∉ ev.keys ∧ bn.LegalEvidence ev ∧ r.length = bn.cardOf target ∧
      ∀ a, a target < bn.cardOf target → bn.Agrees ev a → r[a target]? = some (roundEven 4 (bn.marginal target ev a)) := by
  refine C13_marginal_exact h hE bn wb target ev hn r ?_
  rw [← (C226_as_values h hE bn target ev s).1, hr]; rfl

/-- C226: `ve_map`, run on objects, never raises on legal evidence and returns a most probable assignment. -/
theorem C226_map_exact (h : HashOrder N) (hE : HashOrder (N × A)) (bn : BayesNet N A) (wb : bn.WF) (hnn : bn.Nonneg) (ev : Dict N A) (hl : bn.LegalEvidence ev)
    (s : Store N) :
    ∃ (s' : Store N) (d : Dict N A) (x : Asg N), veMap h hE bn ev s = .ok (s', d) ∧ d.keys.Nodup ∧ (∀ v, v ∉ bn.V → d.get? v = none) ∧
      (∀ v ∈ bn.V, x v < bn.cardOf v ∧ d.get? v = (bn.valuesOf v)[x v]?) ∧
      (∀ e ∈ ev, d.get? e.1 = some e.2) ∧ bn.Agrees ev x ∧
      ∀ b, InRange bn.cardOf bn.V b → bn.Agrees ev b → bn.joint b ≤ bn.joint x := by
  obtain ⟨d, x, e, rest⟩ := C16_map_is_most_probable h hE bn wb hnn ev hl
  have hrel := veMap_rel h hE bn ev s
  rw [e] at hrel
  obtain ⟨⟨s', d'⟩, e', hd, -⟩ := hrel.ok_right
  simp only at hd
  subst hd
  exact ⟨s', d', x, e', rest⟩

/-! ## C227 -/

/-- C227: `marginal_ve_e` and `ve_map` leave every factor object the program had reading as before — also those shared between several owners — and the store
as sound as it was (so the claim applies again to the next call). -/
theorem C227_undisturbed (h : HashOrder N) (hE : HashOrder (N × A)) (bn : BayesNet N A) (target : N) (ev : Dict N A) (s : Store N) (hs : s.Sound) :
    (∀ s' r, marginalVE h hE bn target ev s = .ok (s', r) → Undisturbed s s' ∧ s'.Sound) ∧
    (∀ s' r, veMap h hE bn ev s = .ok (s', r) → Undisturbed s s' ∧ s'.Sound) ∧
    (∀ s' r, veMapProb h hE bn ev s = .ok (s', r) → Undisturbed s s' ∧ s'.Sound) := by
  refine ⟨fun s' r hr => ?_, fun s' r hr => ?_, fun s' r hr => ?_⟩
  · have := marginalVE_rel h hE bn target ev s
    rw [hr] at this
    obtain ⟨b, -, -, w⟩ := this.ok_left
    exact ⟨w.undisturbed hs, w.sound hs⟩
  · have := veMap_rel h hE bn ev s
    rw [hr] at this
    obtain ⟨b, -, -, w⟩ := this.ok_left
    exact ⟨w.undisturbed hs, w.sound hs⟩
  · have := veMapProb_rel h hE bn ev s
    rw [hr] at this
    obtain ⟨b, -, -, w⟩ := this.ok_left
    exact ⟨w.undisturbed hs, w.sound hs⟩

/-! ## C228 -/

/-- C228: in a program that makes any number of factorizations (of one network or several) and calls their operators in any interleaving without exception,
each one reads at the end exactly as if its own calls had been made alone, on values; and no other factor object of the program is disturbed. -/
theorem C228_interleaved (h : HashOrder N) (s : Store N) (hs : s.Sound) (cs : List (Cmd N A)) (s' : Store N) (ps : List (BayesNet N A × Fzn N A))
    (hr : runCmds h s [] cs = .ok (s', ps)) :
    Undisturbed s s' ∧ ∀ (i : ℕ) (bn : BayesNet N A) (p : Fzn N A), ps[i]? = some (bn, p) →
      ∃ v v' : Factorization N A, Factorization.init bn = .ok v ∧
        Factorization.steps h bn v (callsOn i cs) = (v', List.replicate (callsOn i cs).length none) ∧ Reads s' p v' := by
  obtain ⟨w, hall⟩ := runCmds_start h s cs hr
  exact ⟨w.undisturbed hs, hall⟩

/-! ## C229, C230: the operators of `Factor` -/

/-- Two objects that share no list or dictionary. -/
def Apart (s : Store N) (r q : ℕ) : Prop :=
  ∀ o p, s.objs[r]? = some o → s.objs[q]? = some p →
    o.scope ≠ p.scope ∧ o.card ≠ p.card ∧ o.card ≠ p.stride ∧ o.stride ≠ p.card ∧ o.stride ≠ p.stride

theorem op_spec (h : HashOrder N) (bn : BayesNet N A) {s s' : Store N} (hs : s.Sound) {r r' : ℕ} {f : Factor N} (hf : s.view r = some f) (x : FOp N A)
    (hx : s.op h bn r x = .ok (s', r')) :
    r' = r ∧ s'.Sound ∧ (∃ f', methodOf h bn s f x = .ok f' ∧ s'.view r = some f') ∧
      ∀ t, t ≠ r → Apart s t r → (∀ q, x = .mul q → Apart s t q) → s'.view t = s.view t := by
  obtain ⟨o, ho, rfl⟩ : ∃ o, s.objs[r]? = some o ∧ s.heap.get o = f := by
    unfold Store.view at hf
    cases ho : s.objs[r]? with
    | none => rw [ho] at hf; cases hf
    | some o => rw [ho] at hf; exact ⟨o, rfl, Option.some.inj hf⟩
  have vo := hs o (List.mem_of_getElem? ho)
  have hlt : r < s.objs.length := (List.getElem?_eq_some_iff.1 ho).1
  have hwr : ∀ f' : Factor N, (s.write r o f').view r = some f' ∧ ∀ t, t ≠ r → Apart s t r → (s.write r o f').view t = s.view t := by
    intro f'
    have hself : (s.write r o f').objs[r]? = some ⟨f'.var, f'.cpt, o.scope, o.card, o.stride⟩ := by
      simp only [Store.write]; rw [List.getElem?_set_self hlt]
    refine ⟨?_, fun t ht ha => ?_⟩
    · rw [view_some hself]
      simp only [Clq.Heap.get, Store.write]
      rw [List.getElem?_set_self vo.1, List.getElem?_set_ne vo.2.2.2.symm, List.getElem?_set_self vo.2.1,
        List.getElem?_set_self (by rw [List.length_set]; exact vo.2.2.1)]
      rfl
    · have hne : (s.write r o f').objs[t]? = s.objs[t]? := by simp only [Store.write]; rw [List.getElem?_set_ne ht.symm]
      cases hp : s.objs[t]? with
      | none => unfold Store.view; rw [hne, hp]; rfl
      | some p =>
        have d := ha p o hp ho
        rw [view_some hp, view_some (hne.trans hp)]
        simp only [Clq.Heap.get, Store.write]
        rw [List.getElem?_set_ne d.1.symm, List.getElem?_set_ne d.2.2.1.symm, List.getElem?_set_ne d.2.1.symm, List.getElem?_set_ne d.2.2.2.2.symm,
          List.getElem?_set_ne d.2.2.2.1.symm]
  have hw : ∀ m : Factor N → Py (Factor N), (do let s1 ← (do let o ← s.obj r; let f ← m (s.heap.get o); pure (s.write r o f)); pure (s1, r)) = (.ok (s', r') : Py (Store N × ℕ)) →
      r' = r ∧ s'.Sound ∧ (∃ f', m (s.heap.get o) = .ok f' ∧ s'.view r = some f') ∧ ∀ t, t ≠ r → Apart s t r → s'.view t = s.view t := by
    intro m hm
    rw [obj_some ho, Py.bind_ok] at hm
    cases hg : m (s.heap.get o) with
    | error e => rw [hg] at hm; cases hm
    | ok f' =>
      rw [hg] at hm
      cases hm
      exact ⟨rfl, write_sound hs ho f', ⟨f', rfl, (hwr f').1⟩, (hwr f').2⟩
  cases x with
  | mul q =>
    simp only [Store.op] at hx
    cases hm : s.mul h r q with
    | error e => rw [hm] at hx; cases hx
    | ok s1 =>
      rw [hm] at hx
      cases hx
      refine ⟨rfl, mul_sound h hs hm, ?_⟩
      unfold Store.mul at hm
      rw [obj_some ho, Py.bind_ok] at hm
      cases hp : s.objs[q]? with
      | none => unfold Store.obj at hm; rw [hp] at hm; cases hm
      | some p =>
        rw [obj_some hp, Py.bind_ok] at hm
        have vp := hs p (List.mem_of_getElem? hp)
        unfold Clq.Heap.mul at hm
        cases hfm : Factor.mul h (s.heap.get o) (s.heap.get p) with
        | error e => rw [hfm] at hm; cases hm
        | ok fg =>
          rw [hfm] at hm
          simp only [Py.bind_ok, Py.pure_eq, Except.ok.injEq] at hm
          subst hm
          set k := if (s.heap.get o).scope.length ≥ (s.heap.get p).scope.length then o.card else p.card with hk
          have hkl : k < s.heap.dicts.length := by rw [hk]; split_ifs; exacts [vo.2.1, vp.2.1]
          refine ⟨⟨fg.1, ?_, ?_⟩, ?_⟩
          · simp only [methodOf, view_some hp, hfm]; rfl
          · have hself : (s.objs.set r (⟨fg.1.var, fg.1.cpt, s.heap.scopes.length, k, s.heap.dicts.length⟩ : Clq.FObj N))[r]? =
                some ⟨fg.1.var, fg.1.cpt, s.heap.scopes.length, k, s.heap.dicts.length⟩ := by rw [List.getElem?_set_self hlt]
            unfold Store.view
            simp only [hself, Option.map_some, Clq.Heap.get]
            rw [List.getElem?_append_right le_rfl, List.getElem?_append_left (by rw [List.length_set]; exact hkl), List.getElem?_append_right (by rw [List.length_set])]
            simp [hkl]
          · intro t ht ha haq
            have hne : (s.objs.set r (⟨fg.1.var, fg.1.cpt, s.heap.scopes.length, k, s.heap.dicts.length⟩ : Clq.FObj N))[t]? = s.objs[t]? := by
              rw [List.getElem?_set_ne ht.symm]
            cases hu : s.objs[t]? with
            | none => unfold Store.view; simp only [hne, hu, Option.map_none]
            | some u =>
              have vu := hs u (List.mem_of_getElem? hu)
              have d1 := ha u o hu ho
              have d2 := haq q rfl u p hu hp
              have hqk : u.card ≠ k ∧ u.stride ≠ k := by
                rw [hk]
                split_ifs
                · exact ⟨d1.2.1, d1.2.2.2.1⟩
                · exact ⟨d2.2.1, d2.2.2.2.1⟩
              unfold Store.view
              simp only [hne, hu, Option.map_some, Clq.Heap.get]
              rw [List.getElem?_append_left vu.1, List.getElem?_append_left (by rw [List.length_set]; exact vu.2.1),
                List.getElem?_append_left (by rw [List.length_set]; exact vu.2.2.1), List.getElem?_set_ne hqk.1.symm, List.getElem?_set_ne hqk.2.symm]
  | sub rv val =>
    obtain ⟨a, b, c, d⟩ := hw (fun f => f.reduce h bn rv val) hx
    exact ⟨a, b, c, fun t ht ha _ => d t ht ha⟩
  | div rv =>
    obtain ⟨a, b, c, d⟩ := hw (fun f => f.sumout h rv) hx
    exact ⟨a, b, c, fun t ht ha _ => d t ht ha⟩
  | floordiv rv =>
    obtain ⟨a, b, c, d⟩ := hw (fun f => f.maxout rv) hx
    exact ⟨a, b, c, fun t ht ha _ => d t ht ha⟩

/-- The empty program state with the factors of the fork's nodes 1 and 2 in it. -/
def exStore : Py (Store ℕ) := do
  let f ← Factor.init exFork 1
  let g ← Factor.init exFork 2
  pure (((⟨⟨[], []⟩, []⟩ : Store ℕ).new f).1.new g).1

theorem sound_of {s : Store N} (h : decide (∀ o ∈ s.objs, o.scope < s.heap.scopes.length ∧ o.card < s.heap.dicts.length ∧ o.stride < s.heap.dicts.length ∧ o.card ≠ o.stride) = true) :
    s.Sound := by
  unfold Store.Sound
  exact of_decide_eq_true h

/-- C229 in full: evaluating `f * g`, `f - (rv, val)`, `f / rv` or `f // rv` leaves `f` reading as before.  It is false: every one of the four changes `f`. -/
theorem C229_false : ∃ s : Store ℕ, s.Sound ∧ ∀ x ∈ ([.mul 1, .sub 0 10, .div 0, .floordiv 0] : List (FOp ℕ ℕ)),
    ∃ s' r', s.op .id exFork 0 x = .ok (s', r') ∧ s'.view 0 ≠ s.view 0 := by
  have hd : (exStore.okAnd fun s => decide (∀ o ∈ s.objs, o.scope < s.heap.scopes.length ∧ o.card < s.heap.dicts.length ∧ o.stride < s.heap.dicts.length ∧ o.card ≠ o.stride) &&
      ([.mul 1, .sub 0 10, .div 0, .floordiv 0] : List (FOp ℕ ℕ)).all fun x => (s.op .id exFork 0 x).okAnd fun r => decide (r.1.view 0 ≠ s.view 0)) = true := by decide +kernel
  obtain ⟨s, -, h1⟩ := Py.of_okAnd hd
  rw [Bool.and_eq_true] at h1
  refine ⟨s, sound_of h1.1, fun x hx => ?_⟩
  obtain ⟨r, e, hr⟩ := Py.of_okAnd (List.all_eq_true.1 h1.2 x hx)
  exact ⟨r.1, r.2, e, of_decide_eq_true hr⟩

/-- C229, what holds of it: objects other than the left operand that share no list or dictionary with it (nor, for a product, with the right operand) read as
before. -/
theorem C229_others_partial (h : HashOrder N) (bn : BayesNet N A) (s s' : Store N) (hs : s.Sound) (r r' : ℕ) (f : Factor N) (hf : s.view r = some f) (x : FOp N A)
    (hx : s.op h bn r x = .ok (s', r')) (t : ℕ) (ht : t ≠ r) (ha : Apart s t r) (haq : ∀ q, x = .mul q → Apart s t q) : s'.view t = s.view t :=
  (op_spec h bn hs hf x hx).2.2.2 t ht ha haq

/-- C230: an operator application is a call of the method on its left operand: the value of the expression is the left operand itself, and it afterwards reads as
the method's result. -/
theorem C230_operators_mutate (h : HashOrder N) (bn : BayesNet N A) (s s' : Store N) (hs : s.Sound) (r r' : ℕ) (f : Factor N) (hf : s.view r = some f) (x : FOp N A)
    (hx : s.op h bn r x = .ok (s', r')) : r' = r ∧ s'.Sound ∧ ∃ f', methodOf h bn s f x = .ok f' ∧ s'.view r' = some f' := by
  obtain ⟨rfl, h2, h3, -⟩ := op_spec h bn hs hf x hx
  exact ⟨rfl, h2, h3⟩

/-! ## Witnesses -/

/-- Witness for C226, C227: a query in a program that already has two factors sharing a `card` dictionary. -/
example : ∃ s s' r, s.Sound ∧ s.objs.length = 2 ∧ marginalVE .rev .rev exFork 2 [(1, 20)] s = .ok (s', r) ∧ 2 < s'.objs.length := by
  have hd : ((do let s ← exStore; let s1 ← s.mul .id 1 0; pure s1 : Py (Store ℕ)).okAnd fun s =>
      decide (∀ o ∈ s.objs, o.scope < s.heap.scopes.length ∧ o.card < s.heap.dicts.length ∧ o.stride < s.heap.dicts.length ∧ o.card ≠ o.stride) && decide (s.objs.length = 2) &&
      (marginalVE .rev .rev exFork 2 [(1, 20)] s).okAnd fun r => decide (2 < r.1.objs.length)) = true := by decide +kernel
  obtain ⟨s, -, h1⟩ := Py.of_okAnd hd
  rw [Bool.and_eq_true, Bool.and_eq_true] at h1
  obtain ⟨r, e, hr⟩ := Py.of_okAnd h1.2
  exact ⟨s, r.1, r.2, sound_of h1.1.1, of_decide_eq_true h1.1.2, e, of_decide_eq_true hr⟩

/-- Witness for C228: two factorizations of one network, with interleaved calls. -/
example : ∃ r, runCmds .id (⟨⟨[], []⟩, []⟩ : Store ℕ) []
    [.make exFork, .make exFork, .call 0 (.reduce 1 20), .call 1 (.sumOut 0), .call 0 (.maxOut 2), .call 1 (.maxOut 1), .call 0 .refresh] = .ok r ∧ r.2.length = 2 := by
  have hd : ((runCmds .id (⟨⟨[], []⟩, []⟩ : Store ℕ) []
    [.make exFork, .make exFork, .call 0 (.reduce 1 20), .call 1 (.sumOut 0), .call 0 (.maxOut 2), .call 1 (.maxOut 1), .call 0 .refresh]).okAnd fun r => decide (r.2.length = 2)) = true := by
    decide +kernel
  obtain ⟨r, e, hr⟩ := Py.of_okAnd hd
  exact ⟨r, e, of_decide_eq_true hr⟩

example : (⟨⟨[], []⟩, []⟩ : Store ℕ).Sound := by intro o ho; cases ho

end Obj
end PyBN
