import Verif.Model.Fitness
import Verif.Props.Indep2
import Mathlib.Tactic.Linarith
import Mathlib.Algebra.Order.BigOperators.Group.Finset

/-!
# C149-C151: `mb_fitness`
-/

namespace PyBN
namespace Indep
open Finset

/-- The variables compared with `t`: the nodes under evaluation other than `t` and outside its blanket `mb`. -/
def outsiders (nodes mb : List ℕ) (t : ℕ) : Finset ℕ := (nodes.filter fun x => x ∉ mb ∧ x ≠ t).toFinset

/-- One over a p-value, `inf` counting as infinitely large. -/
noncomputable def oneOver : PFloat → ℝ
  | .fin x => 1 / x
  | _ => 0

/-- What the inner loop of `mb_fitness` computes from the value `acc` on. -/
theorem fitLoop_run {rows : List (List ℕ)} {mb : List ℕ} {t : ℕ} {p : ℕ → PFloat} :
    ∀ (xs : List ℕ) (acc : ℝ), (∀ x ∈ xs, miTest (2 + mb.length) (select (t :: x :: mb) rows) = .ok (p x)) →
      ((∃ x ∈ xs, p x = .fin 0) → fitLoop rows mb t xs (.fin acc) = .error .zeroDivision) ∧
      ((∃ x ∈ xs, p x = .fin 0) → fitLoop rows mb t xs .nan = .error .zeroDivision) ∧
      ((∀ x ∈ xs, p x ≠ .fin 0) → fitLoop rows mb t xs .nan = .ok .nan) ∧
      ((∀ x ∈ xs, p x ≠ .fin 0) → (∃ x ∈ xs, p x = .nan) → fitLoop rows mb t xs (.fin acc) = .ok .nan) ∧
      ((∀ x ∈ xs, p x ≠ .fin 0) → (∀ x ∈ xs, p x ≠ .nan) → fitLoop rows mb t xs (.fin acc) = .ok (.fin (acc + (xs.map fun x => oneOver (p x)).sum)))
  | [], acc, _ => by simp [fitLoop]
  | x :: xs, acc, h => by
    have hx := h x (by simp)
    have hs : ∀ y ∈ xs, miTest (2 + mb.length) (select (t :: y :: mb) rows) = .ok (p y) := fun y hy => h y (by simp [hy])
    have step : ∀ a, fitLoop rows mb t (x :: xs) a = (p x).recip.bind fun q => fitLoop rows mb t xs (a.add q) := by
      intro a; simp only [fitLoop, hx]; rfl
    simp only [step]
    rcases hp : p x with _ | _ | z
    · obtain ⟨_, h2, h3, _, _⟩ := fitLoop_run xs acc hs
      simp only [PFloat.recip, Except.bind, PFloat.add, List.mem_cons, exists_eq_or_imp, forall_eq_or_imp, hp]
      refine ⟨fun h => h2 (h.resolve_left (by simp)), fun h => h2 (h.resolve_left (by simp)), fun h => h3 h.2, fun h _ => h3 h.2, fun _ h => absurd rfl h.1⟩
    · obtain ⟨h1, h2, h3, h4, h5⟩ := fitLoop_run xs acc hs
      simp only [PFloat.recip, Except.bind, PFloat.add, List.mem_cons, exists_eq_or_imp, forall_eq_or_imp, hp, add_zero, List.map_cons, List.sum_cons, oneOver, zero_add]
      exact ⟨fun h => h1 (h.resolve_left (by simp)), fun h => h2 (h.resolve_left (by simp)), fun h => h3 h.2, fun h h' => h4 h.2 (h'.resolve_left (by simp)), fun h h' => h5 h.2 h'.2⟩
    · by_cases hz : z = 0
      · subst hz
        simp [PFloat.recip, Except.bind, hp]
      · obtain ⟨h1, h2, h3, h4, h5⟩ := fitLoop_run xs (acc + 1 / z) hs
        simp only [PFloat.recip, if_neg hz, Except.bind, PFloat.add, List.mem_cons, exists_eq_or_imp, forall_eq_or_imp, hp, List.map_cons, List.sum_cons, oneOver, ← add_assoc]
        exact ⟨fun h => h1 (h.resolve_left (by simpa using hz)), fun h => h2 (h.resolve_left (by simpa using hz)), fun h => h3 h.2, fun h h' => h4 h.2 (h'.resolve_left (by simp)), fun h h' => h5 h.2 h'.2⟩

/-- The outer loop, when every blanket is present and every inner loop returns. -/
theorem fitNodes_ok {ho : HashOrder ℕ} {rows : List (List ℕ)} {Mb : Dict ℕ (List ℕ)} {nodes : List ℕ} {v : ℕ → PFloat} :
    ∀ (ts : List ℕ) (d : Dict ℕ PFloat), (∀ t ∈ ts, ∃ mb, Mb.get? t = some mb ∧ fitLoop rows mb t (ho.iter (nodes.filter fun x => x ∉ mb ∧ x ≠ t)) (.fin 0) = .ok (v t)) →
      ∃ d', fitNodes ho rows Mb nodes ts d = .ok d' ∧ (∀ t, Dict.get? d' t = if t ∈ ts then some (v t) else Dict.get? d t) ∧ ∀ k, k ∈ d'.keys ↔ k ∈ d.keys ∨ k ∈ ts
  | [], d, _ => ⟨d, rfl, by simp⟩
  | t :: ts, d, h => by
    obtain ⟨mb, hm, hl⟩ := h t (by simp)
    obtain ⟨d', he, hg, hk⟩ := fitNodes_ok ts (d.set t (v t)) fun t' ht' => h t' (by simp [ht'])
    refine ⟨d', ?_, fun t' => ?_, fun k => ?_⟩
    · simp only [fitNodes, Dict.get_of_get? hm, hl, Py.bind_ok]; exact he
    · rw [hg]
      by_cases h1 : t' ∈ ts
      · simp [h1]
      · by_cases h2 : t' = t
        · subst h2; simp [h1, Dict.get?_set_self]
        · simp [h1, h2, Dict.get?_set_ne d (v t) (Ne.symm h2)]
    · rw [hk, Dict.mem_keys_set, List.mem_cons]; tauto

/-- The outer loop, when some inner loop divides by zero and every other one returns. -/
theorem fitNodes_error {ho : HashOrder ℕ} {rows : List (List ℕ)} {Mb : Dict ℕ (List ℕ)} {nodes : List ℕ} :
    ∀ (ts : List ℕ) (d : Dict ℕ PFloat), (∀ t ∈ ts, ∃ mb, Mb.get? t = some mb ∧ ((∃ v, fitLoop rows mb t (ho.iter (nodes.filter fun x => x ∉ mb ∧ x ≠ t)) (.fin 0) = .ok v) ∨
        fitLoop rows mb t (ho.iter (nodes.filter fun x => x ∉ mb ∧ x ≠ t)) (.fin 0) = .error .zeroDivision)) →
      (∃ t ∈ ts, ∃ mb, Mb.get? t = some mb ∧ fitLoop rows mb t (ho.iter (nodes.filter fun x => x ∉ mb ∧ x ≠ t)) (.fin 0) = .error .zeroDivision) →
      fitNodes ho rows Mb nodes ts d = .error .zeroDivision
  | [], d, _, h => by simp at h
  | t :: ts, d, h, h' => by
    obtain ⟨mb, hm, hl⟩ := h t (by simp)
    rcases hl with ⟨v, hl⟩ | hl
    · simp only [fitNodes, Dict.get_of_get? hm, hl, Py.bind_ok]
      refine fitNodes_error ts _ (fun t' ht' => h t' (by simp [ht'])) ?_
      obtain ⟨t', ht', mb', hm', he⟩ := h'
      rcases List.mem_cons.1 ht' with rfl | ht'
      · rw [hm] at hm'; cases hm'; rw [hl] at he; cases he
      · exact ⟨t', ht', mb', hm', he⟩
    · simp only [fitNodes, Dict.get_of_get? hm, hl, Py.bind_ok]; rfl

/-- A node without a blanket ends the loop with an exception. -/
theorem fitNodes_missing {ho : HashOrder ℕ} {rows : List (List ℕ)} {Mb : Dict ℕ (List ℕ)} {nodes : List ℕ} :
    ∀ (ts : List ℕ) (d : Dict ℕ PFloat), (∃ t ∈ ts, Mb.get? t = none) → ∃ e, fitNodes ho rows Mb nodes ts d = .error e
  | [], d, h => by simp at h
  | t :: ts, d, h => by
    rcases hm : Mb.get? t with _ | mb
    · exact ⟨.keyError, by simp only [fitNodes, Dict.get_of_none hm]; rfl⟩
    · have h' : ∃ t ∈ ts, Mb.get? t = none := by
        obtain ⟨t', ht', he⟩ := h
        rcases List.mem_cons.1 ht' with rfl | ht'
        · rw [hm] at he; cases he
        · exact ⟨t', ht', he⟩
      rcases hl : fitLoop rows mb t (ho.iter (nodes.filter fun x => x ∉ mb ∧ x ≠ t)) (.fin 0) with e | v
      · exact ⟨e, by simp only [fitNodes, Dict.get_of_get? hm, hl, Py.bind_ok]; rfl⟩
      · obtain ⟨e, he⟩ := fitNodes_missing ts (d.set t v) h'
        exact ⟨e, by simp only [fitNodes, Dict.get_of_get? hm, hl, Py.bind_ok]; exact he⟩

/-- C149: `mb_fitness(data, Mb, t)` for a single column `t` looks at no other column: the result is `{t: 0}` whatever the data and the blanket are
(`KeyError` if `Mb` has no blanket for `t`). -/
theorem C149_single_target (ho : HashOrder ℕ) (rows : List (List ℕ)) (Mb : Dict ℕ (List ℕ)) (t : ℕ) :
    (t ∈ Mb.keys → mbFitness ho rows Mb (.one t) = .ok [(t, .fin 0)]) ∧ (t ∉ Mb.keys → mbFitness ho rows Mb (.one t) = .error .keyError) := by
  have hi : ho.iter [t] = [t] := List.perm_singleton.1 (ho.perm [t])
  constructor
  · intro h
    obtain ⟨mb, hm⟩ := Option.isSome_iff_exists.1 (Dict.mem_keys_iff.1 h)
    have hf : ([t].filter fun x => decide (x ∉ mb ∧ x ≠ t)) = [] := by simp
    have hn : ho.iter [] = ([] : List ℕ) := List.perm_nil.1 (ho.perm [])
    simp only [mbFitness, targetNodes, hi, fitNodes, Dict.get_of_get? hm, Py.bind_ok, hf, hn, fitLoop, List.map_cons, List.map_nil]
    simp [Dict.set]
  · intro h
    have hm := (Dict.get?_eq_none_iff).2 h
    simp only [mbFitness, targetNodes, hi, fitNodes, Dict.get_of_none hm]
    rfl

/-- C150: with several targets (or none given, then all keys of `Mb`), whatever the iteration order of the sets: if every node evaluated has a blanket, the
fitness of `t` is the sum, over the other nodes evaluated outside the blanket of `t`, of one over the p-value of `mi_test` on `t`, the node, and the
blanket; it is `nan` if one of these p-values is; if one of the p-values of any node rounds to 0, `ZeroDivisionError` is raised.  A node without a blanket
raises.  With at least two degrees of freedom in every test, each summand is at least 1, so the fitness is at least the number of nodes outside the blanket. -/
theorem C150_fitness (ho : HashOrder ℕ) (rows : List (List ℕ)) (hne : rows ≠ []) (Mb : Dict ℕ (List ℕ)) (target : Target) (nodes : List ℕ)
    (hn : nodes.Nodup) (hT : (target = .none ∧ ∀ x, x ∈ nodes ↔ x ∈ Mb.keys) ∨ ∃ ts, target = .many ts ∧ ∀ x, x ∈ nodes ↔ x ∈ ts)
    (p : ℕ → ℕ → PFloat) (hp : ∀ t mb, Mb.get? t = some mb → ∀ x, miTest (2 + mb.length) (select (t :: x :: mb) rows) = .ok (p t x)) :
    ((∃ t ∈ nodes, t ∉ Mb.keys) → ∃ e, mbFitness ho rows Mb target = .error e) ∧
    ((∀ t ∈ nodes, t ∈ Mb.keys) →
      ((∃ t mb, t ∈ nodes ∧ Mb.get? t = some mb ∧ ∃ x ∈ outsiders nodes mb t, p t x = .fin 0) → mbFitness ho rows Mb target = .error .zeroDivision) ∧
      ((¬ ∃ t mb, t ∈ nodes ∧ Mb.get? t = some mb ∧ ∃ x ∈ outsiders nodes mb t, p t x = .fin 0) →
        ∃ d, mbFitness ho rows Mb target = .ok d ∧ (∀ t, t ∈ d.keys ↔ t ∈ nodes) ∧ ∀ t mb, t ∈ nodes → Mb.get? t = some mb →
          ((∃ x ∈ outsiders nodes mb t, p t x = .nan) → d.get? t = some .nan) ∧
          ((∀ x ∈ outsiders nodes mb t, p t x ≠ .nan) → d.get? t = some (.fin (∑ x ∈ outsiders nodes mb t, oneOver (p t x)))) ∧
          ((∀ r ∈ rows, ∀ x ∈ r, x < 10) → (∀ x ∈ outsiders nodes mb t, 2 ≤ degrees (2 + mb.length) (select (t :: x :: mb) rows)) →
            ∃ v : ℝ, d.get? t = some (.fin v) ∧ (outsiders nodes mb t).card ≤ v))) := by
  obtain ⟨L, hL, hLn, hLm⟩ : ∃ L, targetNodes Mb target = L ∧ L.Nodup ∧ ∀ x, x ∈ L ↔ x ∈ nodes := by
    rcases hT with ⟨rfl, h⟩ | ⟨ts, rfl, h⟩
    · exact ⟨_, rfl, List.nodup_dedup _, fun x => by rw [h x]; exact List.mem_dedup⟩
    · exact ⟨_, rfl, List.nodup_dedup _, fun x => by rw [h x]; exact List.mem_dedup⟩
  have hit : ∀ x, x ∈ ho.iter L ↔ x ∈ nodes := fun x => by rw [(ho.perm L).mem_iff, hLm]
  have hin : ∀ t mb x, x ∈ ho.iter (L.filter fun x => decide (x ∉ mb ∧ x ≠ t)) ↔ x ∈ outsiders nodes mb t := by
    intro t mb x
    rw [(ho.perm _).mem_iff]; simp [outsiders, hLm]
  have hsum : ∀ t mb, ((ho.iter (L.filter fun x => decide (x ∉ mb ∧ x ≠ t))).map fun x => oneOver (p t x)).sum = ∑ x ∈ outsiders nodes mb t, oneOver (p t x) := by
    intro t mb
    have hnd : (ho.iter (L.filter fun x => decide (x ∉ mb ∧ x ≠ t))).Nodup := (ho.perm _).nodup_iff.2 (hLn.filter _)
    rw [← List.sum_toFinset _ hnd]
    congr 1
    ext x
    rw [List.mem_toFinset, hin]
  have hrun : mbFitness ho rows Mb target = fitNodes ho rows Mb L (ho.iter L) ((ho.iter L).map fun t => (t, .fin 0)) := by rw [mbFitness, hL]
  rw [hrun]
  have hk0 : ∀ k, k ∈ Dict.keys ((ho.iter L).map fun t => (t, PFloat.fin 0)) ↔ k ∈ ho.iter L := by intro k; simp [Dict.keys]
  refine ⟨fun ⟨t, ht, hm⟩ => fitNodes_missing _ _ ⟨t, (hit t).2 ht, Dict.get?_eq_none_iff.2 hm⟩, fun hkeys => ?_⟩
  have hget : ∀ t ∈ nodes, ∃ mb, Mb.get? t = some mb := fun t ht => Option.isSome_iff_exists.1 (Dict.mem_keys_iff.1 (hkeys t ht))
  have hloop : ∀ t mb, Mb.get? t = some mb → _ := fun t mb hm =>
    fitLoop_run (rows := rows) (mb := mb) (t := t) (p := p t) (ho.iter (L.filter fun x => decide (x ∉ mb ∧ x ≠ t))) 0 fun x _ => hp t mb hm x
  simp only [hin, hsum, zero_add] at hloop
  constructor
  · rintro ⟨t, mb, ht, hm, hx⟩
    refine fitNodes_error _ _ (fun t' ht' => ?_) ⟨t, (hit t).2 ht, mb, hm, (hloop t mb hm).1 hx⟩
    obtain ⟨mb', hm'⟩ := hget t' ((hit t').1 ht')
    refine ⟨mb', hm', ?_⟩
    obtain ⟨h1, -, -, h4, h5⟩ := hloop t' mb' hm'
    by_cases hz : ∃ x ∈ outsiders nodes mb' t', p t' x = .fin 0
    · exact Or.inr (h1 hz)
    · push Not at hz
      by_cases hq : ∃ x ∈ outsiders nodes mb' t', p t' x = .nan
      · exact Or.inl ⟨_, h4 hz hq⟩
      · push Not at hq
        exact Or.inl ⟨_, h5 hz hq⟩
  · intro hz
    classical
    have hval : ∀ t mb, t ∈ nodes → Mb.get? t = some mb → fitLoop rows mb t (ho.iter (L.filter fun x => decide (x ∉ mb ∧ x ≠ t))) (.fin 0) =
        .ok (if ∃ x ∈ outsiders nodes mb t, p t x = .nan then .nan else .fin (∑ x ∈ outsiders nodes mb t, oneOver (p t x))) := by
      intro t mb ht hm
      obtain ⟨-, -, -, h4, h5⟩ := hloop t mb hm
      have hz' : ∀ x ∈ outsiders nodes mb t, p t x ≠ .fin 0 := fun x hx e => hz ⟨t, mb, ht, hm, x, hx, e⟩
      split_ifs with hq
      · exact h4 hz' hq
      · push Not at hq
        exact h5 hz' hq
    obtain ⟨d, hd, hg, hk⟩ := fitNodes_ok (ho := ho) (rows := rows) (Mb := Mb) (nodes := L)
      (v := fun t => if ∃ x ∈ outsiders nodes ((Mb.get? t).getD []) t, p t x = .nan then .nan else .fin (∑ x ∈ outsiders nodes ((Mb.get? t).getD []) t, oneOver (p t x)))
      (ho.iter L) ((ho.iter L).map fun t => (t, .fin 0)) fun t ht => by
        obtain ⟨mb, hm⟩ := hget t ((hit t).1 ht)
        exact ⟨mb, hm, by rw [hval t mb ((hit t).1 ht) hm, hm]; rfl⟩
    refine ⟨d, hd, fun t => by rw [hk, hk0, or_self, hit], fun t mb ht hm => ?_⟩
    have hgt := hg t
    rw [if_pos ((hit t).2 ht), hm, Option.getD_some] at hgt
    have hfin : (∀ x ∈ outsiders nodes mb t, p t x ≠ .nan) → d.get? t = some (.fin (∑ x ∈ outsiders nodes mb t, oneOver (p t x))) := fun hq => by
      rw [hgt, if_neg (by push Not; exact hq)]
    refine ⟨fun hq => by rw [hgt, if_pos hq], hfin, fun hten hdeg => ?_⟩
    have hone : ∀ x ∈ outsiders nodes mb t, ∃ q : ℝ, p t x = .fin q ∧ 0 < q ∧ q ≤ 1 := by
      intro x hx
      obtain ⟨q, hq, h0, h1⟩ := (C93_range_partial (2 + mb.length) (select (t :: x :: mb) rows) (by omega) (by simpa [select] using hne)
        (by intro r hr; simp only [select, List.mem_map] at hr; obtain ⟨r', -, rfl⟩ := hr; simp; omega)
        (by
          intro _ r hr y hy
          simp only [select, List.mem_map] at hr
          obtain ⟨r', hr', rfl⟩ := hr
          simp only [List.mem_map] at hy
          obtain ⟨c, -, rfl⟩ := hy
          rw [List.getD_eq_getElem?_getD]
          rcases he : r'[c]? with _ | z
          · simp
          · exact hten r' hr' z (List.mem_of_getElem? he))).1 (hdeg x hx)
      rw [hp t mb hm x] at hq
      cases hq' : p t x with
      | nan => rw [hq'] at hq; cases hq
      | inf => rw [hq'] at hq; cases hq
      | fin z =>
        rw [hq'] at hq; cases hq
        refine ⟨_, rfl, lt_of_le_of_ne h0 fun e => hz ⟨t, mb, ht, hm, x, hx, by rw [hq', ← e]⟩, h1⟩
    refine ⟨_, hfin (fun x hx e => by obtain ⟨q, hq, -⟩ := hone x hx; rw [e] at hq; cases hq), ?_⟩
    have : (outsiders nodes mb t).card • (1 : ℝ) ≤ ∑ x ∈ outsiders nodes mb t, oneOver (p t x) := by
      refine Finset.card_nsmul_le_sum _ _ _ fun x hx => ?_
      obtain ⟨q, hq, h0, h1⟩ := hone x hx
      rw [hq]
      exact (one_le_div h0).2 h1
    simpa using this

/-- C151 is false of the code: columns 0 (two values) and 1 (three values) are exactly independent, so the empty blankets are exact, yet the fitness is 1 each; with
two columns of three values each it raises `ZeroDivisionError`. -/
theorem C151_false (ho : HashOrder ℕ) :
    EmpIndep [[0, 0], [0, 1], [0, 2], [1, 0], [1, 1], [1, 2]] ∧
    (∃ d, mbFitness ho [[0, 0], [0, 1], [0, 2], [1, 0], [1, 1], [1, 2]] [(0, []), (1, [])] .none = .ok d ∧ d.get? 0 = some (.fin 1)) ∧
    EmpIndep exNine ∧ mbFitness ho exNine [(0, []), (1, [])] .none = .error .zeroDivision := by
  have hi : EmpIndep [[0, 0], [0, 1], [0, 2], [1, 0], [1, 1], [1, 2]] := empIndep_of_counts (by decide) (by decide)
  have hi' : EmpIndep [[0, 0], [1, 0], [2, 0], [0, 1], [1, 1], [2, 1]] := empIndep_of_counts (by decide) (by decide)
  obtain ⟨h1, h2, h3, h4, h5⟩ := exNine_spec
  have key : ∀ rows : List (List ℕ), rows ≠ [] → ∀ q : PFloat, miTest 2 (select [0, 1] rows) = .ok q →
      ∀ ho : HashOrder ℕ, (q = .fin 0 → mbFitness ho rows [(0, []), (1, [])] .none = .error .zeroDivision) ∧
        (∀ z : ℝ, z ≠ 0 → q = .fin z → ∃ d, mbFitness ho rows [(0, []), (1, [])] .none = .ok d ∧ d.get? 0 = some (.fin (1 / z))) := by
    intro rows hne q hq ho
    have hq' : miTest 2 (select [1, 0] rows) = .ok q := by
      rw [← hq]
      refine (C89_symmetric 2 (select [0, 1] rows) (select [1, 0] rows) (by intro r hr; simp only [select, List.mem_map] at hr; obtain ⟨_, -, rfl⟩ := hr; rfl) (Or.inr ?_)).1
      simp [select, swap01]
    have hex : ∀ n r, r ≠ [] → 2 ≤ n → ∃ q, miTest n r = .ok q := by
      intro n r hr hn
      exact ⟨_, by unfold miTest; rw [if_neg (by simp [hr]; omega)]⟩
    have hall : ∀ t x, ∃ q, miTest 2 (select [t, x] rows) = .ok q := fun t x => hex 2 _ (by simpa [select] using hne) le_rfl
    choose p hp using hall
    have h01 : p 0 1 = q := by have := hp 0 1; rw [hq] at this; exact (Except.ok.inj this).symm
    have h10 : p 1 0 = q := by have := hp 1 0; rw [hq'] at this; exact (Except.ok.inj this).symm
    have hmb : ∀ (t : ℕ) (mb : List ℕ), Dict.get? [(0, ([] : List ℕ)), (1, [])] t = some mb → mb = [] := by
      intro t mb h
      simp only [Dict.get?] at h
      split_ifs at h <;> simp at h <;> exact h
    have C := C150_fitness ho rows hne [(0, []), (1, [])] .none [0, 1] (by decide) (Or.inl ⟨rfl, by intro x; simp [Dict.keys]⟩) p
      (by intro t mb hm x; rw [hmb t mb hm]; exact hp t x)
    have C2 := C.2 (by decide)
    have ho0 : outsiders [0, 1] [] 0 = {1} := by decide
    have ho1 : outsiders [0, 1] [] 1 = {0} := by decide
    constructor
    · intro hz
      exact C2.1 ⟨0, [], by simp, rfl, 1, by rw [ho0]; simp, by rw [h01, hz]⟩
    · intro z hz0 hz
      obtain ⟨d, hd, -, hv⟩ := C2.2 (by
        rintro ⟨t, mb, ht, hm, x, hx, he⟩
        have := hmb t mb hm; subst this
        have : t = 0 ∨ t = 1 := by simpa using ht
        rcases this with rfl | rfl
        · rw [ho0, mem_singleton] at hx; subst hx; rw [h01, hz] at he; cases he; exact hz0 rfl
        · rw [ho1, mem_singleton] at hx; subst hx; rw [h10, hz] at he; cases he; exact hz0 rfl)
      refine ⟨d, hd, ?_⟩
      rw [(hv 0 [] (by simp) rfl).2.1 (by intro x hx; rw [ho0, mem_singleton] at hx; subst hx; rw [h01, hz]; intro h; cases h), ho0, sum_singleton, h01, hz]
      rfl
  refine ⟨hi, ?_, h4, ?_⟩
  · have := (key [[0, 0], [0, 1], [0, 2], [1, 0], [1, 1], [1, 2]] (by decide) (.fin 1) ((C92_independent_pvalue _ (by decide) (by unfold Coded; decide) (by unfold Coded; decide) hi 2 (by decide)).2.2.1 rfl) ho).2 1 one_ne_zero rfl
    simpa using this
  · exact (key exNine h1 (.fin 0) ((C92_independent_pvalue _ h1 h2 h3 h4 4 h5.symm).2.2.2 (by omega)) ho).1 rfl

/-- C151, the part that holds: with empty blankets, if every two of the variables evaluated are binary (both codes occurring) and independent in the data, every fitness is 0. -/
theorem C151_zero_partial (ho : HashOrder ℕ) (rows : List (List ℕ)) (hne : rows ≠ []) (Mb : Dict ℕ (List ℕ)) (ts : List ℕ)
    (hMb : ∀ t ∈ ts, Mb.get? t = some []) (hbin : ∀ t ∈ ts, (∀ r ∈ rows, entry t r ≤ 1) ∧ ∀ b ≤ 1, ∃ r ∈ rows, entry t r = b)
    (hi : ∀ t ∈ ts, ∀ x ∈ ts, x ≠ t → ∀ a b, freq rows (fun r => entry t r = a ∧ entry x r = b) = freq rows (fun r => entry t r = a) * freq rows fun r => entry x r = b) :
    ∃ d, mbFitness ho rows Mb (.many ts) = .ok d ∧ (∀ t, t ∈ d.keys ↔ t ∈ ts) ∧ ∀ t ∈ ts, d.get? t = some (.fin 0) := by
  have hex : ∀ (n : ℕ) (r : List (List ℕ)), r ≠ [] → 2 ≤ n → ∃ q, miTest n r = .ok q := by
    intro n r hr hn
    exact ⟨_, by unfold miTest; rw [if_neg (by simp [hr]; omega)]⟩
  have hall : ∀ t x, ∃ q, miTest (2 + ((Mb.get? t).getD []).length) (select (t :: x :: (Mb.get? t).getD []) rows) = .ok q :=
    fun t x => hex _ _ (by simpa [select] using hne) (by omega)
  choose p hp using hall
  have hinf : ∀ t ∈ ts, ∀ x ∈ ts, x ≠ t → p t x = .inf := by
    intro t ht x hx hxt
    have h1 := hp t x
    rw [hMb t ht] at h1
    have e0 : ∀ r : List ℕ, entry 0 ([t, x].map fun c => r.getD c 0) = entry t r := fun r => rfl
    have e1 : ∀ r : List ℕ, entry 1 ([t, x].map fun c => r.getD c 0) = entry x r := fun r => rfl
    have hco : ∀ j c, (∀ r : List ℕ, entry j ([t, x].map fun c => r.getD c 0) = entry c r) → c ∈ ts →
        Coded (select [t, x] rows) j ∧ (valuesOf (select [t, x] rows) j).card = 2 := by
      intro j c he hc
      constructor
      · intro r hr v hv
        simp only [select, List.mem_map] at hr
        obtain ⟨r', hr', rfl⟩ := hr
        have hv' : v < entry c r' := by rw [← he]; exact hv
        have := (hbin c hc).1 r' hr'
        obtain ⟨r2, hr2, h2⟩ := (hbin c hc).2 v (by omega)
        exact ⟨_, List.mem_map.2 ⟨r2, hr2, rfl⟩, by rw [← h2]; exact he r2⟩
      · have : valuesOf (select [t, x] rows) j = {0, 1} := by
          ext v
          simp only [valuesOf, select, List.map_map, List.mem_toFinset, List.mem_map, Function.comp_apply, mem_insert, mem_singleton]
          constructor
          · rintro ⟨r, hr, rfl⟩
            have := (hbin c hc).1 r hr
            rw [← he] at this
            have h2 := Nat.le_one_iff_eq_zero_or_eq_one.1 this
            exact h2
          · intro h
            obtain ⟨r, hr, h2⟩ := (hbin c hc).2 v (by omega)
            exact ⟨r, hr, by rw [← h2]; exact he r⟩
        rw [this]; rfl
    obtain ⟨hc0, hv0⟩ := hco 0 t e0 ht
    obtain ⟨hc1, hv1⟩ := hco 1 x e1 hx
    have hI : EmpIndep (select [t, x] rows) := by
      intro a b
      have hf : ∀ (P : List ℕ → Prop) [DecidablePred P], freq (select [t, x] rows) P = freq rows fun r => P ([t, x].map fun c => r.getD c 0) := by
        intro P _
        unfold freq select
        rw [List.filter_map, List.length_map, List.length_map]
        rfl
      rw [hf, hf, hf]
      exact hi t ht x hx hxt a b
    have := (C92_independent_pvalue _ (by simpa [select] using hne) hc0 hc1 hI 1 (by rw [hv0, hv1])).2.1 rfl
    simp only [Option.getD_some, List.length_nil] at h1
    rw [this] at h1
    exact (Except.ok.inj h1).symm
  have C := (C150_fitness ho rows hne Mb (.many ts) ts.dedup (List.nodup_dedup _) (Or.inr ⟨ts, rfl, by simp⟩) p
    (by intro t mb hm x; have := hp t x; rw [hm] at this; exact this)).2
    (by intro t ht; exact Dict.mem_keys_iff.2 (by rw [hMb t (by simpa using ht)]; rfl))
  have hout : ∀ t ∈ ts, ∀ x ∈ outsiders ts.dedup [] t, p t x = .inf := by
    intro t ht x hx
    simp [outsiders] at hx
    exact hinf t ht x hx.1 hx.2
  obtain ⟨d, hd, hk, hv⟩ := C.2 (by
    rintro ⟨t, mb, ht, hm, x, hx, he⟩
    have ht' : t ∈ ts := by simpa using ht
    rw [hMb t ht'] at hm; cases hm
    rw [hout t ht' x hx] at he; cases he)
  refine ⟨d, hd, fun t => by rw [hk]; simp, fun t ht => ?_⟩
  rw [(hv t [] (by simpa using ht) (hMb t ht)).2.1 (by intro x hx e; rw [hout t ht x hx] at e; cases e)]
  congr 2
  exact Finset.sum_eq_zero fun x hx => by rw [hout t ht x hx]; rfl

/-- Witness for C151: two fair independent coins. -/
example : ∃ d, mbFitness HashOrder.rev [[0, 0], [0, 1], [1, 0], [1, 1]] [(0, []), (1, [])] (.many [1, 0]) = .ok d ∧
    (∀ t, t ∈ d.keys ↔ t ∈ [1, 0]) ∧ ∀ t ∈ [1, 0], d.get? t = some (.fin 0) := by
  refine C151_zero_partial _ _ (by decide) _ _ (by decide) (by decide) ?_
  have h : EmpIndep [[0, 0], [0, 1], [1, 0], [1, 1]] := empIndep_of_counts (by decide) (by decide)
  intro t ht x hx hne a b
  have h1 : t = 1 ∨ t = 0 := by simpa using ht
  have h2 : x = 1 ∨ x = 0 := by simpa using hx
  rcases h1 with rfl | rfl <;> rcases h2 with rfl | rfl
  · exact absurd rfl hne
  · rw [mul_comm, ← h b a]; simp only [and_comm]
  · exact h a b
  · exact absurd rfl hne

/-- Witness for the lower bound of C150: three binary columns, the blanket of 0 and 1 is 2; the tests have two degrees of freedom. -/
example : outsiders [0, 1] [2] 0 = {1} ∧ 2 ≤ degrees 3 (select [0, 1, 2] [[0, 0, 0], [0, 1, 0], [1, 0, 1], [1, 1, 1]]) := by decide

/-- Witness for C149. -/
example : mbFitness HashOrder.id [[0, 0], [1, 1]] [(0, []), (1, [])] (.one 1) = .ok [(1, .fin 0)] :=
  (C149_single_target _ _ _ _).1 (by decide)

end Indep
end PyBN
