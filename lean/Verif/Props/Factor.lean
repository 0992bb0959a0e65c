import Verif.Proofs.FactorMore
import Mathlib.Algebra.BigOperators.Field
import Verif.Spec.FactorHistory
import Verif.Model.FactorHeap
import Verif.Props.Example

/-!
# C01 - C11: factors

`c v` is the number of values of `v`; an assignment `a` gives the value index of each variable.
-/

namespace PyBN
open Factor
variable {N A : Type _} [DecidableEq N] [DecidableEq A]

/-! ## C01 -/

/-- C01: `Factor(bn, rv)` succeeds, is well formed, its scope is `rv` followed by its parents, and the entry addressed by an
assignment is the CPT entry of the documented layout; addresses are a bijection between legal assignments and positions. -/
theorem C01_factor_init_reads_cpt (bn : BayesNet N A) (w : bn.WF) (rv : N) (hrv : rv ∈ bn.V) :
    ∃ f, Factor.init bn rv = .ok f ∧ f.WF bn.cardOf ∧ f.scope = rv :: bn.parentsOf rv ∧ f.cpt = bn.cptOf rv ∧
      (∀ a, InRange bn.cardOf f.scope a →
        f.entry a = some (bn.prob rv a) ∧
        (bn.cptOf rv)[enc bn.cardOf (rv :: bn.parentsOf rv) a]? = some (bn.prob rv a)) ∧
      (∀ a b, InRange bn.cardOf f.scope a → InRange bn.cardOf f.scope b → f.pos a = f.pos b →
        ∀ v ∈ f.scope, a v = b v) ∧
      (∀ i < (bn.cptOf rv).length, ∃ a, InRange bn.cardOf f.scope a ∧ f.pos a = i) := by
  obtain ⟨f, h1, h2, _, h4, h5, h6⟩ := init_ok w hrv
  refine ⟨f, h1, h2, h4, h5, ?_, ?_, ?_⟩
  · intro a ha
    have he := h2.entry_eq ha
    have hp : f.val a = bn.prob rv a := by
      unfold Factor.val Factor.entry BayesNet.prob; rw [h5, h6]
    refine ⟨hp ▸ he, ?_⟩
    unfold Factor.entry at he
    rw [h5, h6] at he
    rw [he, hp]
  · intro a b ha hb hab
    rw [h6, h6] at hab
    rw [h4] at ha hb ⊢
    exact enc_inj ha hb hab
  · intro i hi
    rw [w.cpt_len rv hrv] at hi
    obtain ⟨a, ha, hai⟩ := enc_surj (w.fam_nodup rv hrv) hi
    exact ⟨a, by rw [h4]; exact ha, by rw [h6]; exact hai⟩

/-- C01, the documented formula: `value_indices` of a dictionary assigning a value to every scope variable
(in any dictionary order) is the address. -/
theorem C01_value_indices (bn : BayesNet N A) (w : bn.WF) (rv : N) (hrv : rv ∈ bn.V) (f : Factor N)
    (hf : Factor.init bn rv = .ok f) (a : Asg N) (d : Dict N A) (hd : d.keys.Perm f.scope)
    (hv : ∀ kv ∈ d, (bn.valuesOf kv.1)[a kv.1]? = some kv.2) :
    Factor.valueIndices bn f d = .ok (f.pos a : ℤ) := by
  obtain ⟨f', h1, h2, _, h4, _, _⟩ := init_ok w hrv
  rw [hf] at h1; cases h1
  rw [valueIndices_gen w h2 a d fun kv hkv => ?_]
  · rw [Factor.pos, (hd.map fun v => a v * f.strideOf v).sum_eq]
  · have : kv.1 ∈ f.scope := hd.subset (List.mem_map.2 ⟨kv, hkv, rfl⟩)
    exact ⟨this, w.fam_mem hrv _ (h4 ▸ this), hv kv hkv⟩

/-- Witness: node 2 of the example has two parents; its factor exists and its entry for (2=31, 0=10, 1=21) is 0. -/
example : ∃ f, Factor.init exNet 2 = .ok f ∧ f.WF exNet.cardOf ∧ f.scope = [2, 0, 1] ∧
    f.entry (fun v => if v = 0 then 0 else 1) = some 0 := by
  obtain ⟨f, h1, h2, h3, _, h5, _⟩ := C01_factor_init_reads_cpt exNet exNet_wf 2 (by decide)
  refine ⟨f, h1, h2, h3, ?_⟩
  rw [(h5 _ (by rw [h3]; unfold InRange; decide)).1]
  decide +kernel

example : ∃ f, Factor.init exNet 2 = .ok f ∧
    Factor.valueIndices exNet f [(1, 21), (2, 31), (0, 10)] = .ok 5 := by
  obtain ⟨f, h1, h2, h3, _⟩ := C01_factor_init_reads_cpt exNet exNet_wf 2 (by decide)
  obtain ⟨f', h1', _, _, _, _, h6⟩ := init_ok exNet_wf (rv := 2) (by decide)
  rw [h1] at h1'; cases h1'
  refine ⟨f, h1, ?_⟩
  have := C01_value_indices exNet exNet_wf 2 (by decide) f h1 (fun v => if v = 0 then 0 else 1)
    [(1, 21), (2, 31), (0, 10)] (by rw [h3]; decide) (by decide)
  rw [this, h6]; decide

/-! ## C02, C03 -/

/-- C02: the product of two well-formed factors never raises; its scope is the union; every entry is the product of the
operands' entries.  For every hash order. -/
theorem C02_multiply_pointwise (h : HashOrder N) (c : N → ℕ) (f g : Factor N) (wf : f.WF c) (wg : g.WF c) :
    ∃ f' g', Factor.mul h f g = .ok (f', g') ∧ f'.WF c ∧
      (∀ v, v ∈ f'.scope ↔ v ∈ f.scope ∨ v ∈ g.scope) ∧
      ∀ a, InRange c f'.scope a →
        ∃ x y, f.entry a = some x ∧ g.entry a = some y ∧ f'.entry a = some (x * y) := by
  obtain ⟨f', g', h1, h2, _, h4, h5, _⟩ := mul_ok h wf wg
  refine ⟨f', g', h1, h2, h4, fun a ha => ?_⟩
  exact ⟨_, _, wf.entry_eq fun v hv => ha v ((h4 v).2 (.inl hv)),
    wg.entry_eq fun v hv => ha v ((h4 v).2 (.inr hv)), h5 a ha⟩

/-- C03, commutativity: both orders give the same function on the same variables (whatever the hash orders). -/
theorem C03_multiply_comm (h h' : HashOrder N) (c : N → ℕ) (f g : Factor N) (wf : f.WF c) (wg : g.WF c) :
    ∃ p q p' q', Factor.mul h f g = .ok (p, q) ∧ Factor.mul h' g f = .ok (p', q') ∧
      (∀ v, v ∈ p.scope ↔ v ∈ p'.scope) ∧
      ∀ a, InRange c p.scope a → (p.entry a).isSome ∧ p.entry a = p'.entry a := by
  obtain ⟨p, q, h1, _, _, h4, h5, _⟩ := mul_ok h wf wg
  obtain ⟨p', q', h1', _, _, h4', h5', _⟩ := mul_ok h' wg wf
  refine ⟨p, q, p', q', h1, h1', fun v => by rw [h4, h4', or_comm], fun a ha => ⟨by rw [h5 a ha]; rfl, ?_⟩⟩
  rw [h5 a ha, h5' a fun v hv => ha v ((h4 v).2 ((h4' v).1 hv).symm), mul_comm]

/-- C03, associativity. -/
theorem C03_multiply_assoc (h1 h2 h3 h4 : HashOrder N) (c : N → ℕ) (f g k : Factor N) (wf : f.WF c) (wg : g.WF c)
    (wk : k.WF c) :
    ∃ fg l gk r g' k' k'' gk', Factor.mul h1 f g = .ok (fg, g') ∧ Factor.mul h2 fg k = .ok (l, k') ∧
      Factor.mul h3 g k = .ok (gk, k'') ∧ Factor.mul h4 f gk = .ok (r, gk') ∧
      (∀ v, v ∈ l.scope ↔ v ∈ r.scope) ∧
      ∀ a, InRange c l.scope a → (l.entry a).isSome ∧ l.entry a = r.entry a := by
  obtain ⟨fg, g', e1, w1, _, s1, v1, _⟩ := mul_ok h1 wf wg
  obtain ⟨l, k', e2, w2, _, s2, v2, _⟩ := mul_ok h2 w1 wk
  obtain ⟨gk, k'', e3, w3, _, s3, v3, _⟩ := mul_ok h3 wg wk
  obtain ⟨r, gk', e4, w4, _, s4, v4, _⟩ := mul_ok h4 wf w3
  have hs : ∀ v, v ∈ l.scope ↔ v ∈ r.scope := fun v => by rw [s2, s1, s4, s3, or_assoc]
  refine ⟨fg, l, gk, r, g', k', k'', gk', e1, e2, e3, e4, hs, fun a ha => ⟨by rw [v2 a ha]; rfl, ?_⟩⟩
  have hr : InRange c r.scope a := fun v hv => ha v ((hs v).2 hv)
  have i1 : InRange c fg.scope a := fun v hv => ha v ((s2 v).2 (.inl hv))
  have i3 : InRange c gk.scope a := fun v hv => hr v ((s4 v).2 (.inr hv))
  rw [v2 a ha, v4 a hr]
  have x1 : fg.val a = f.val a * g.val a := by unfold Factor.val; rw [v1 a i1]; rfl
  have x3 : gk.val a = g.val a * k.val a := by unfold Factor.val; rw [v3 a i3]; rfl
  rw [x1, x3, mul_assoc]

/-- Witness: the factors of nodes 2 (scope {2,0,1}) and 0 (scope {0}) of the example satisfy the hypotheses;
here the right operand is the larger one and the hash order is reversed. -/
example : ∃ f g f' g', Factor.init exNet 0 = .ok f ∧ Factor.init exNet 2 = .ok g ∧ f.WF exNet.cardOf ∧ g.WF exNet.cardOf ∧
    Factor.mul .rev f g = .ok (f', g') := by
  obtain ⟨f, h1, w1, _⟩ := init_ok exNet_wf (rv := 0) (by decide)
  obtain ⟨g, h2, w2, _⟩ := init_ok exNet_wf (rv := 2) (by decide)
  obtain ⟨f', g', h3, _⟩ := C02_multiply_pointwise .rev _ f g w1 w2
  exact ⟨f, g, f', g', h1, h2, w1, w2, h3⟩

/-! ## C04, C05, C06 -/

/-- C04: `sumout_var` never raises on a scope variable, removes it, and each entry is the sum of the old entries. -/
theorem C04_sumout_marginalises (h : HashOrder N) (c : N → ℕ) (f : Factor N) (w : f.WF c) (rv : N) (hrv : rv ∈ f.scope) :
    ∃ f', Factor.sumout h f rv = .ok f' ∧ f'.WF c ∧ (∀ v, v ∈ f'.scope ↔ v ∈ f.scope ∧ v ≠ rv) ∧
      ∀ a, InRange c f'.scope a →
        ∃ xs : ℕ → ℚ, (∀ x < c rv, f.entry (a.upd rv x) = some (xs x)) ∧
          f'.entry a = some (∑ x ∈ Finset.range (c rv), xs x) := by
  obtain ⟨f', h1, h2, h3, h4⟩ := sumout_ok h w hrv
  have hm : ∀ v, v ∈ f'.scope ↔ v ∈ f.scope ∧ v ≠ rv := fun v => by
    rw [h3, w.scope_nodup.mem_erase_iff, and_comm]
  refine ⟨f', h1, h2, hm, fun a ha => ⟨fun x => f.val (a.upd rv x), fun x hx => w.entry_eq fun v hv => ?_, ?_⟩⟩
  · by_cases hvr : v = rv
    · subst hvr; rwa [Asg.upd_self]
    · rw [Asg.upd_ne _ _ hvr]; exact ha v ((hm v).2 ⟨hv, hvr⟩)
  · rw [h4 a ha, list_sum_range]

/-- C05: on a non-negative table, `maxout_var` gives the maximum, which is attained. -/
theorem C05_maxout_maximises (c : N → ℕ) (f : Factor N) (w : f.WF c) (hnn : f.Nonneg) (rv : N) (hrv : rv ∈ f.scope) :
    ∃ f', Factor.maxout f rv = .ok f' ∧ f'.WF c ∧ f'.Nonneg ∧ (∀ v, v ∈ f'.scope ↔ v ∈ f.scope ∧ v ≠ rv) ∧
      ∀ a, InRange c f'.scope a →
        ∃ y, f'.entry a = some y ∧ (∃ x < c rv, f.entry (a.upd rv x) = some y) ∧
          ∀ x < c rv, ∃ z, f.entry (a.upd rv x) = some z ∧ z ≤ y := by
  obtain ⟨f', h1, h2, h3, _, h4⟩ := maxout_ok w hrv
  have hm : ∀ v, v ∈ f'.scope ↔ v ∈ f.scope ∧ v ≠ rv := fun v => by
    rw [h3, w.scope_nodup.mem_erase_iff, and_comm]
  refine ⟨f', h1, h2, ?_, hm, fun a ha => ⟨_, h4 a ha, ?_, ?_⟩⟩
  · intro x hx
    obtain ⟨i, hi, rfl⟩ := List.mem_iff_getElem.1 hx
    obtain ⟨o, ho, hl⟩ := h2.layout
    obtain ⟨a, ha, hai⟩ := enc_surj (c := c) (ho.nodup_iff.2 h2.scope_nodup)
      (i := i) (by rw [(ho.map c).prod_eq, ← h2.cpt_len]; exact hi)
    have := h4 a fun v hv => ha v (ho.mem_iff.2 hv)
    rw [Factor.entry, pos_eq_enc ho hl, hai, List.getElem?_eq_getElem hi] at this
    rw [Option.some.inj this]
    exact (foldl_max_ge _ _).1
  all_goals
    have hr : ∀ x < c rv, f.entry (a.upd rv x) = some (f.val (a.upd rv x)) := fun x hx =>
      w.entry_eq fun v hv => by
        by_cases hvr : v = rv
        · subst hvr; rwa [Asg.upd_self]
        · rw [Asg.upd_ne _ _ hvr]; exact ha v ((hm v).2 ⟨hv, hvr⟩)
  · rcases foldl_max_mem ((List.range (c rv)).map fun x => f.val (a.upd rv x)) 0 with h0 | hmem
    · -- all entries are 0
      have hc := w.card_pos rv hrv
      refine ⟨0, hc, ?_⟩
      rw [hr 0 hc]
      have h5 := (foldl_max_ge ((List.range (c rv)).map fun x => f.val (a.upd rv x)) 0).2
        (f.val (a.upd rv 0)) (List.mem_map.2 ⟨0, List.mem_range.2 hc, rfl⟩)
      have h6 : 0 ≤ f.val (a.upd rv 0) := hnn _ (List.mem_of_getElem? (hr 0 hc))
      rw [h0] at h5 ⊢
      rw [le_antisymm h5 h6]
    · obtain ⟨x, hx, hxe⟩ := List.mem_map.1 hmem
      exact ⟨x, List.mem_range.1 hx, by rw [hr x (List.mem_range.1 hx), hxe]⟩
  · intro x hx
    exact ⟨_, hr x hx, (foldl_max_ge _ _).2 _ (List.mem_map.2 ⟨x, List.mem_range.2 hx, rfl⟩)⟩

/-- C05, why non-negativity is needed: on a table with only negative entries (e.g. log-probabilities after `to_log`)
`maxout_var` returns 0, which is no entry of the table. -/
theorem C05_negative_tables_fail :
    ∃ (f : Factor ℕ) (f' : Factor ℕ), f.WF (fun _ => 2) ∧ f.cpt = [-1, -2] ∧ Factor.maxout f 0 = .ok f' ∧ f'.cpt = [0] := by
  refine ⟨⟨0, [-1, -2], [0], [(0, 2)], [(0, 1)]⟩, ⟨0, [0], [], [], []⟩, ?_, rfl, by decide +kernel, rfl⟩
  refine ⟨by simp, by simp, by simp [Dict.keys], fun v => ?_, by simp [Dict.keys], fun v => ?_,
    ⟨[0], List.Perm.refl _, by simp [IsLayout, strideOf, Dict.get?_cons]⟩, by simp⟩
  · simp only [Dict.get?_cons, Dict.get?_nil, List.mem_singleton, eq_comm]
  · simp only [Dict.get?_cons, Dict.get?_nil, List.mem_singleton]
    by_cases h : 0 = v
    · subst h; simp
    · simp [h, Ne.symm h]

/-- C06: `reduce_factor` neither raises nor loops; the variable leaves the scope and each entry is the old entry at the
assignment extended by the evidence. -/
theorem C06_reduce_restricts (h : HashOrder N) (bn : BayesNet N A) (wb : bn.WF) (f : Factor N) (w : f.WF bn.cardOf)
    (rv : N) (hrv : rv ∈ f.scope) (hV : rv ∈ bn.V) (val : A) (hval : val ∈ bn.valuesOf rv) :
    ∃ f' x, (bn.valuesOf rv)[x]? = some val ∧ Factor.reduce h bn f rv val = .ok f' ∧ f'.WF bn.cardOf ∧
      (∀ v, v ∈ f'.scope ↔ v ∈ f.scope ∧ v ≠ rv) ∧
      ∀ a, InRange bn.cardOf f'.scope a →
        (f'.entry a).isSome ∧ f'.entry a = f.entry (a.upd rv x) := by
  obtain ⟨x, hx, hxl, hxe⟩ := pyIndex_of_mem hval
  have hxc : x < bn.cardOf rv := by rw [wb.card_len hV]; exact hxl
  obtain ⟨f', h1, h2, h3, h4⟩ := reduce_ok h bn w hrv (wb.values_ok hV) hx hxc
  have hm : ∀ v, v ∈ f'.scope ↔ v ∈ f.scope ∧ v ≠ rv := fun v => by
    rw [h3, w.scope_nodup.mem_erase_iff, and_comm]
  refine ⟨f', x, hxe, h1, h2, hm, fun a ha => ⟨by rw [h4 a ha]; rfl, ?_⟩⟩
  rw [h4 a ha]
  refine (w.entry_eq fun v hv => ?_).symm
  by_cases hvr : v = rv
  · subst hvr; rwa [Asg.upd_self]
  · rw [Asg.upd_ne _ _ hvr]; exact ha v ((hm v).2 ⟨hv, hvr⟩)

/-- Witness for C04-C06: the middle variable 0 of the factor of node 2 (strides 2:1, 0:2, 1:4). -/
example : ∃ f, Factor.init exNet 2 = .ok f ∧ f.WF exNet.cardOf ∧ f.Nonneg ∧ 0 ∈ f.scope ∧ 11 ∈ exNet.valuesOf 0 := by
  obtain ⟨f, h1, w1, _, h3, h4, _⟩ := init_ok exNet_wf (rv := 2) (by decide)
  exact ⟨f, h1, w1, by unfold Factor.Nonneg; rw [h4]; exact exNet_nonneg 2 (by decide), by rw [h3]; decide, by decide⟩

/-! ## C07, C08 -/

/-- C07: `sumover_var` yields the one-dimensional table of sums over all other variables ... -/
theorem C07_sumover (c : N → ℕ) (f : Factor N) (w : f.WF c) (rv : N) (hrv : rv ∈ f.scope) :
    ∃ f', Factor.sumover f rv = .ok f' ∧ f'.WF c ∧ f'.scope = [rv] ∧ f'.cpt.length = c rv ∧
      ∀ a, a rv < c rv → f'.cpt[a rv]? = some (sumAll c (f.scope.erase rv) f.val a) := by
  obtain ⟨f', h1, h2, h3, _, h5, h6⟩ := sumover_ok w hrv
  exact ⟨f', h1, h2, h3, h5, fun a ha => (h6 a ha).2⟩

/-- C07: ... which is the table obtained by summing out every other variable, in any order. -/
theorem C07_sumover_eq_sumout_rest (h : HashOrder N) (c : N → ℕ) (f : Factor N) (w : f.WF c) (rv : N) (hrv : rv ∈ f.scope)
    (rest : List N) (hrest : rest.Perm (f.scope.erase rv)) :
    ∃ f1 f2, Factor.sumover f rv = .ok f1 ∧ Factor.sumoutList h f rest = .ok f2 ∧
      f2.scope = f1.scope ∧ f2.cpt = f1.cpt := by
  obtain ⟨f1, h1, h2, h3, _, h5, h6⟩ := sumover_ok w hrv
  have hn : rest.Nodup := hrest.nodup_iff.2 (w.scope_nodup.erase rv)
  obtain ⟨f2, g1, g2, g3, g4⟩ := sumoutList_ok h rest w hn fun v hv =>
    (w.scope_nodup.mem_erase_iff.1 (hrest.subset hv)).2
  have hm : ∀ v, v ∈ f2.scope ↔ v ∈ [rv] := fun v => by
    rw [g3, hrest.mem_iff, w.scope_nodup.mem_erase_iff, List.mem_singleton]
    constructor
    · rintro ⟨ha, hb⟩; by_contra hne; exact hb ⟨hne, ha⟩
    · rintro rfl; exact ⟨hrv, fun h => h.1 rfl⟩
  have hsc : f2.scope = [rv] :=
    List.perm_singleton.1 ((List.perm_ext_iff_of_nodup g2.scope_nodup (by simp)).2 hm)
  refine ⟨f1, f2, h1, g1, by rw [hsc, h3], ?_⟩
  have hl2 : f2.cpt.length = c rv := by rw [g2.cpt_len, hsc]; simp
  apply List.ext_getElem?
  intro i
  by_cases hi : i < c rv
  · have ha : InRange c f2.scope (fun _ => i) := by rw [hsc]; simpa [InRange] using hi
    have e2 := g4 _ ha
    obtain ⟨o, ho, hl⟩ := g2.layout
    rw [hsc] at ho
    have : o = [rv] := List.perm_singleton.1 ho
    subst this
    rw [Factor.entry, pos_eq_enc (by rw [hsc]) hl] at e2
    simp only [enc, mul_zero, add_zero] at e2
    rw [e2, (h6 (fun _ => i) hi).2, sumAll_perm hrest _ hn]
  · rw [List.getElem?_eq_none (by omega), List.getElem?_eq_none (by omega)]

/-- C08: the order of the variables summed out does not matter. -/
theorem C08_sumout_order (h h' : HashOrder N) (c : N → ℕ) (f : Factor N) (w : f.WF c) (vs ws : List N) (hp : vs.Perm ws)
    (hn : vs.Nodup) (hm : ∀ v ∈ vs, v ∈ f.scope) :
    ∃ f1 f2, Factor.sumoutList h f vs = .ok f1 ∧ Factor.sumoutList h' f ws = .ok f2 ∧
      (∀ v, v ∈ f1.scope ↔ v ∈ f2.scope) ∧ (∀ v, v ∈ f1.scope ↔ v ∈ f.scope ∧ v ∉ vs) ∧
      ∀ a, InRange c f1.scope a →
        f1.entry a = some (sumAll c vs f.val a) ∧ f2.entry a = some (sumAll c vs f.val a) := by
  obtain ⟨f1, h1, _, h3, h4⟩ := sumoutList_ok h vs w hn hm
  obtain ⟨f2, g1, _, g3, g4⟩ := sumoutList_ok h' ws w (hp.nodup_iff.1 hn) fun v hv => hm v (hp.symm.subset hv)
  have hs : ∀ v, v ∈ f1.scope ↔ v ∈ f2.scope := fun v => by rw [h3, g3, hp.mem_iff]
  refine ⟨f1, f2, h1, g1, hs, h3, fun a ha => ⟨h4 a ha, ?_⟩⟩
  rw [g4 a fun v hv => ha v ((hs v).2 hv), sumAll_perm hp _ hn]

/-- C08: the order of the evidence (e.g. the iteration order of an evidence dictionary) does not matter; every entry is the
entry of the original factor at the assignment extended by the evidence. -/
theorem C08_reduce_order (h h' : HashOrder N) (bn : BayesNet N A) (wb : bn.WF) (f : Factor N) (w : f.WF bn.cardOf)
    (es es' : List (N × A)) (hp : es.Perm es') (hn : (es.map Prod.fst).Nodup)
    (hm : ∀ e ∈ es, e.1 ∈ f.scope ∧ e.1 ∈ bn.V ∧ e.2 ∈ bn.valuesOf e.1) :
    ∃ f1 f2, Factor.reduceList h bn f es = .ok f1 ∧ Factor.reduceList h' bn f es' = .ok f2 ∧
      (∀ v, v ∈ f1.scope ↔ v ∈ f2.scope) ∧ (∀ v, v ∈ f1.scope ↔ v ∈ f.scope ∧ v ∉ es.map Prod.fst) ∧
      ∀ a b : Asg N, InRange bn.cardOf f1.scope a → (∀ v, v ∉ es.map Prod.fst → b v = a v) →
          (∀ e ∈ es, (bn.valuesOf e.1)[b e.1]? = some e.2) →
        (f.entry b).isSome ∧ f1.entry a = f.entry b ∧ f2.entry a = f.entry b := by
  obtain ⟨f1, h1, _, h3, h4⟩ := reduceList_ok h wb es w hn hm
  obtain ⟨f2, g1, _, g3, g4⟩ := reduceList_ok h' wb es' w ((hp.map Prod.fst).nodup_iff.1 hn)
    fun e he => hm e (hp.symm.subset he)
  have hs : ∀ v, v ∈ f1.scope ↔ v ∈ f2.scope := fun v => by rw [h3, g3, (hp.map Prod.fst).mem_iff]
  refine ⟨f1, f2, h1, g1, hs, h3, fun a b ha hb he => ?_⟩
  have hbr : InRange bn.cardOf f.scope b := by
    intro v hv
    by_cases hve : v ∈ es.map Prod.fst
    · obtain ⟨e, hes, rfl⟩ := List.mem_map.1 hve
      have h9 := he e hes
      rw [wb.card_len (hm e hes).2.1]
      by_contra hge
      rw [List.getElem?_eq_none (by omega)] at h9; simp at h9
    · rw [hb v hve]; exact ha v ((h3 v).2 ⟨hv, hve⟩)
  have e0 := w.entry_eq hbr
  refine ⟨by rw [e0]; rfl, by rw [e0]; exact h4 a b ha hb he, ?_⟩
  rw [e0]
  exact g4 a b (fun v hv => ha v ((hs v).2 hv))
    (fun v hv => hb v fun h => hv ((hp.map Prod.fst).subset h)) fun e hes => he e (hp.symm.subset hes)

/-- Witness for C07, C08: two different orders over the factor of node 2. -/
example : ∃ f, Factor.init exNet 2 = .ok f ∧ f.WF exNet.cardOf ∧ [0, 1].Perm (f.scope.erase 2) ∧
    ([(0, 11), (1, 20)] : List (ℕ × ℕ)).Perm [(1, 20), (0, 11)] ∧
    ∀ e ∈ ([(0, 11), (1, 20)] : List (ℕ × ℕ)), e.1 ∈ f.scope ∧ e.1 ∈ exNet.V ∧ e.2 ∈ exNet.valuesOf e.1 := by
  obtain ⟨f, h1, w1, _, h3, h4, _⟩ := init_ok exNet_wf (rv := 2) (by decide)
  exact ⟨f, h1, w1, by rw [h3]; decide, by decide, by rw [h3]; decide⟩

/-! ## C09 -/

/-- C09: after `normalize()` on a non-negative factor with at least one variable, for a variable of stride one the entries
sum to one for every setting of the others, every entry is positive, and each entry is the perturbed original divided
by its block's sum (so ratios inside a block are those of the perturbed originals). -/
theorem C09_normalize (h : HashOrder N) (c : N → ℕ) (f : Factor N) (w : f.WF c) (hnn : f.Nonneg) (hne : f.scope ≠ []) :
    ∃ f' var, Factor.normalize h f = .ok f' ∧ f'.WF c ∧ f'.scope = f.scope ∧ f'.stride = f.stride ∧
      var ∈ f.scope ∧ f.strideOf var = 1 ∧
      (∀ a, InRange c f.scope a → ∃ y, f'.entry a = some y ∧ 0 < y) ∧
      (∀ a, InRange c f.scope a → ∑ x ∈ Finset.range (c var), f'.val (a.upd var x) = 1) ∧
      (∀ a, InRange c f.scope a → ∀ x < c var, ∀ y < c var,
        f'.val (a.upd var x) * (f.val (a.upd var y) + 1 / 10000000)
          = f'.val (a.upd var y) * (f.val (a.upd var x) + 1 / 10000000)) := by
  obtain ⟨f', h1, h2, h3, h4, _, _, h7⟩ := normalize_ok h w
  rcases h7 with ⟨h7, _⟩ | ⟨var, hv, hs, hent⟩
  · exact absurd h7 hne
  have hnv : ∀ a, 0 ≤ f.val a := fun a => by
    unfold Factor.val Factor.entry
    cases hx : f.cpt[f.pos a]? with
    | none => simp
    | some x => exact hnn x (List.mem_of_getElem? hx)
  have hir : ∀ a : Asg N, InRange c f.scope a → ∀ x < c var, InRange c f.scope (a.upd var x) := fun a ha x hx v hvs => by
    by_cases hvr : v = var
    · subst hvr; rwa [Asg.upd_self]
    · rw [Asg.upd_ne _ _ hvr]; exact ha v hvs
  have hsum : ∀ a : Asg N, 0 < ∑ x ∈ Finset.range (c var), (f.val (a.upd var x) + 1 / 10000000) := fun a =>
    Finset.sum_pos (fun x _ => by have := hnv (a.upd var x); positivity) ⟨0, Finset.mem_range.2 (w.card_pos var hv)⟩
  have hval : ∀ a : Asg N, InRange c f.scope a → ∀ x < c var, f'.val (a.upd var x) =
      (f.val (a.upd var x) + 1 / 10000000) / ∑ y ∈ Finset.range (c var), (f.val (a.upd var y) + 1 / 10000000) := by
    intro a ha x hx
    have := hent _ (hir a ha x hx)
    unfold Factor.val at this ⊢
    rw [this]
    simp only [Asg.upd_upd, Option.getD_some]
  refine ⟨f', var, h1, h2, h3, h4, hv, hs, ?_, ?_, ?_⟩
  · intro a ha
    exact ⟨_, hent a ha, div_pos (by have := hnv a; positivity) (hsum a)⟩
  · intro a ha
    rw [Finset.sum_congr rfl fun x hx => hval a ha x (Finset.mem_range.1 hx), ← Finset.sum_div]
    exact div_self (hsum a).ne'
  · intro a ha x hx y hy
    rw [hval a ha x hx, hval a ha y hy]
    ring

/-- C09, empty scope: the single entry becomes one. -/
theorem C09_normalize_scalar (h : HashOrder N) (c : N → ℕ) (f : Factor N) (w : f.WF c) (hnn : f.Nonneg) (he : f.scope = []) :
    ∃ f', Factor.normalize h f = .ok f' ∧ f'.cpt = [1] := by
  obtain ⟨f', h1, h2, h3, _, _, _, h7⟩ := normalize_ok h w
  refine ⟨f', h1, ?_⟩
  rcases h7 with ⟨_, hent⟩ | ⟨var, hv, _⟩
  · have hl : f'.cpt.length = 1 := by rw [h2.cpt_len, h3, he]; rfl
    obtain ⟨x, hx⟩ := List.length_eq_one_iff.1 hl
    have := hent fun _ => 0
    rw [Factor.entry, hx, Factor.pos, h3, he] at this
    have hnv : 0 ≤ f.val fun _ => 0 := by
      unfold Factor.val Factor.entry
      cases hx : f.cpt[f.pos fun _ => 0]? with
      | none => simp
      | some x => exact hnn x (List.mem_of_getElem? hx)
    rw [div_self (by positivity)] at this
    simp at this
    rw [hx, this]
  · rw [he] at hv; simp at hv

theorem normSeq_spec : ∀ (l done : List ℚ), ∃ r, Factor.normSeq done l = done ++ r ∧ r.length = l.length ∧
    ∀ i x, l[i]? = some x → r[i]? = some (x / (done.sum + (r.take i).sum + (l.drop i).sum))
  | [], done => ⟨[], by simp [Factor.normSeq], rfl, by simp⟩
  | y :: l, done => by
    obtain ⟨r, h1, h2, h3⟩ := normSeq_spec l (done ++ [y / (done.sum + y + l.sum)])
    refine ⟨y / (done.sum + y + l.sum) :: r, by rw [Factor.normSeq, h1]; simp, by simp [h2], ?_⟩
    rintro (_ | i) x hx
    · simp only [List.getElem?_cons_zero, Option.some.injEq] at hx
      subst hx
      simp [add_assoc]
    · rw [List.getElem?_cons_succ] at hx ⊢
      rw [h3 i x hx, List.sum_append, List.take_succ_cons, List.sum_cons, List.drop_succ_cons, List.sum_cons, List.sum_nil, add_zero, add_assoc done.sum]

/-- C09, the remaining case: a table without a variable of stride one is not divided by its sum; entry `i` is divided by the sum of the new entries before it and of the old ones from it on. -/
theorem C09_no_first_variable (h : HashOrder N) (f : Factor N) (hs : ∀ k ∈ f.stride.keys, f.stride.get? k ≠ some 1) :
    ∃ f', Factor.normalize h f = .ok f' ∧ f'.cpt.length = f.cpt.length ∧ ∀ i x, f.cpt[i]? = some x →
      f'.cpt[i]? = some ((x + 1 / 10000000) / ((f'.cpt.take i).sum + ((f.cpt.drop i).map (· + 1 / 10000000)).sum)) := by
  obtain ⟨r, h1, h2, h3⟩ := normSeq_spec (Factor.perturb f.cpt) []
  have hnil : (h.iter f.stride.keys).filter (fun k => f.stride.get? k = some 1) = [] := by
    rw [List.filter_eq_nil_iff]
    intro k hk
    simpa using hs k ((h.perm _).subset hk)
  refine ⟨{ f with cpt := r }, by unfold Factor.normalize; dsimp only; rw [hnil, h1]; rfl, by dsimp only; rw [h2]; simp [Factor.perturb], fun i x hx => ?_⟩
  dsimp only
  rw [h3 i (x + 1 / 10000000) (by unfold Factor.perturb; rw [List.getElem?_map, hx]; rfl)]
  unfold Factor.perturb
  simp [List.map_drop]

/-- Two entries: 1 and 1 become about 1/2 and 2/3. -/
example : (Factor.normalize (N := ℕ) .id ⟨0, [1, 1], [], [], []⟩).okAnd (fun f => decide (f.cpt = [1/2, (1 + 1/10000000) / (1/2 + (1 + 1/10000000))])) = true := by decide +kernel

/-! ## C10 -/

/-- C10, one step. -/
theorem C10_step (h : HashOrder N) (bn : BayesNet N A) (wb : bn.WF) (p : FPool N)
    (hp : ∀ f, some f ∈ p → f.WF bn.cardOf ∧ ∀ v ∈ f.scope, v ∈ bn.V) (op : FOp N A) (hl : op.Legal bn p) :
    ∃ p', FOp.step h bn p op = .ok p' ∧ ∀ f, some f ∈ p' → f.WF bn.cardOf ∧ ∀ v ∈ f.scope, v ∈ bn.V := by
  have hat : ∀ {i f}, FPool.at p i = .ok f → some f ∈ p := by
    intro i f hi
    unfold FPool.at at hi
    split at hi
    · rename_i f' hf; cases hi; exact List.mem_of_getElem? hf
    · cases hi
  have hset : ∀ (q : FPool N) (i : ℕ) (x : Option (Factor N)),
      (∀ f, some f ∈ q → f.WF bn.cardOf ∧ ∀ v ∈ f.scope, v ∈ bn.V) →
      (∀ f, x = some f → f.WF bn.cardOf ∧ ∀ v ∈ f.scope, v ∈ bn.V) →
      ∀ f, some f ∈ q.set i x → f.WF bn.cardOf ∧ ∀ v ∈ f.scope, v ∈ bn.V := by
    intro q i x hq hx f hf
    rcases List.mem_or_eq_of_mem_set hf with h | h
    · exact hq f h
    · exact hx f h.symm
  cases op with
  | load rv =>
    obtain ⟨f, h1, h2, _, h4, _⟩ := init_ok wb hl
    refine ⟨p ++ [some f], by simp only [FOp.step, h1, Py.bind_ok, Py.pure_eq], ?_⟩
    intro f' hf'
    rcases List.mem_append.1 hf' with h' | h'
    · exact hp f' h'
    · simp only [List.mem_singleton, Option.some.injEq] at h'; subst h'
      exact ⟨h2, by rw [h4]; exact wb.fam_mem hl⟩
  | mul i j =>
    obtain ⟨⟨f, hf⟩, g, hg⟩ := hl
    have wf := hp f (hat hf)
    have wg := hp g (hat hg)
    obtain ⟨f', g', h1, h2, _, h4, _⟩ := mul_ok h wf.1 wg.1
    have hf' : f'.WF bn.cardOf ∧ ∀ v ∈ f'.scope, v ∈ bn.V := ⟨h2, fun v hv => by
      rcases (h4 v).1 hv with h | h
      · exact wf.2 v h
      · exact wg.2 v h⟩
    simp only [FOp.step, hf, hg, Py.bind_ok, h1]
    split
    · exact ⟨_, rfl, hset _ _ _ hp fun x hx => by cases hx; exact hf'⟩
    · refine ⟨_, rfl, hset _ _ _ (hset _ _ _ hp fun x hx => ?_) fun x hx => by cases hx; exact hf'⟩
      split at hx
      · rename_i hgg; cases hx; rw [hgg]; exact wg
      · cases hx
  | sumout i rv =>
    obtain ⟨f, hf, hrv⟩ := hl
    have wf := hp f (hat hf)
    obtain ⟨f', h1, h2, h3, _⟩ := sumout_ok h wf.1 hrv
    simp only [FOp.step, hf, Py.bind_ok, h1, Py.pure_eq]
    exact ⟨_, rfl, hset _ _ _ hp fun x hx => by
      cases hx; exact ⟨h2, fun v hv => wf.2 v (List.mem_of_mem_erase (h3 ▸ hv))⟩⟩
  | maxout i rv =>
    obtain ⟨f, hf, hrv⟩ := hl
    have wf := hp f (hat hf)
    obtain ⟨f', h1, h2, h3, _⟩ := maxout_ok wf.1 hrv
    simp only [FOp.step, hf, Py.bind_ok, h1, Py.pure_eq]
    exact ⟨_, rfl, hset _ _ _ hp fun x hx => by
      cases hx; exact ⟨h2, fun v hv => wf.2 v (List.mem_of_mem_erase (h3 ▸ hv))⟩⟩
  | sumover i rv =>
    obtain ⟨f, hf, hrv⟩ := hl
    have wf := hp f (hat hf)
    obtain ⟨f', h1, h2, h3, _⟩ := sumover_ok wf.1 hrv
    simp only [FOp.step, hf, Py.bind_ok, h1, Py.pure_eq]
    exact ⟨_, rfl, hset _ _ _ hp fun x hx => by
      cases hx; exact ⟨h2, fun v hv => by rw [h3] at hv; simp at hv; subst hv; exact wf.2 _ hrv⟩⟩
  | reduce i rv val =>
    obtain ⟨f, hf, hrv, hval⟩ := hl
    have wf := hp f (hat hf)
    obtain ⟨f', x, _, h1, h2, h3, _⟩ := C06_reduce_restricts h bn wb f wf.1 rv hrv (wf.2 rv hrv) val hval
    simp only [FOp.step, hf, Py.bind_ok, h1, Py.pure_eq]
    exact ⟨_, rfl, hset _ _ _ hp fun x hx => by
      cases hx; exact ⟨h2, fun v hv => wf.2 v ((h3 v).1 hv).1⟩⟩
  | normalize i =>
    obtain ⟨f, hf⟩ := hl
    have wf := hp f (hat hf)
    obtain ⟨f', h1, h2, h3, _⟩ := normalize_ok h wf.1
    simp only [FOp.step, hf, Py.bind_ok, h1, Py.pure_eq]
    exact ⟨_, rfl, hset _ _ _ hp fun x hx => by
      cases hx; exact ⟨h2, fun v hv => wf.2 v (h3 ▸ hv)⟩⟩

/-- C10: every history of legal factor operations, starting from an empty pool, runs without raising and leaves only
well-formed factors, with tables of the right length and a valid stride layout. -/
theorem C10_histories (h : HashOrder N) (bn : BayesNet N A) (wb : bn.WF) (ops : List (FOp N A))
    (hl : FOp.LegalRun h bn [] ops) :
    ∃ p, FOp.run h bn [] ops = .ok p ∧
      ∀ f, some f ∈ p → f.WF bn.cardOf ∧ f.cpt.length = (f.scope.map bn.cardOf).prod := by
  have gen : ∀ (ops : List (FOp N A)) (p : FPool N),
      (∀ f, some f ∈ p → f.WF bn.cardOf ∧ ∀ v ∈ f.scope, v ∈ bn.V) → FOp.LegalRun h bn p ops →
      ∃ p', FOp.run h bn p ops = .ok p' ∧ ∀ f, some f ∈ p' → f.WF bn.cardOf := by
    intro ops
    induction ops with
    | nil => intro p hp _; exact ⟨p, rfl, fun f hf => (hp f hf).1⟩
    | cons op ops ih =>
      intro p hp hl
      obtain ⟨p1, h1, h2⟩ := C10_step h bn wb p hp op hl.1
      obtain ⟨p2, h3, h4⟩ := ih p1 h2 (hl.2 p1 h1)
      exact ⟨p2, by simp only [FOp.run, h1, Py.bind_ok, h3], h4⟩
  obtain ⟨p, h1, h2⟩ := gen ops [] (by simp) hl
  exact ⟨p, h1, fun f hf => ⟨h2 f hf, (h2 f hf).cpt_len⟩⟩

/-- A six-statement history, used as witness. -/
def exHistory : List (FOp ℕ ℕ) :=
  [.load 2, .load 0, .mul 0 1, .sumout 0 0, .reduce 0 1 21, .normalize 0]

/-- Boolean version of `Legal`, used only to check the witness. -/
def exLegal (bn : BayesNet ℕ ℕ) (p : FPool ℕ) : FOp ℕ ℕ → Bool
  | .load rv => decide (rv ∈ bn.V)
  | .mul i j => (match p.at i with | .ok _ => true | _ => false) && (match p.at j with | .ok _ => true | _ => false)
  | .sumout i rv | .maxout i rv | .sumover i rv => match p.at i with | .ok f => decide (rv ∈ f.scope) | _ => false
  | .reduce i rv val => match p.at i with | .ok f => decide (rv ∈ f.scope ∧ val ∈ bn.valuesOf rv) | _ => false
  | .normalize i => match p.at i with | .ok _ => true | _ => false

theorem exLegal_sound {bn : BayesNet ℕ ℕ} {p : FPool ℕ} {op : FOp ℕ ℕ} (h : exLegal bn p op = true) : op.Legal bn p := by
  cases op <;> simp only [exLegal, FOp.Legal] at h ⊢
  case load => simpa using h
  case mul i j => cases h1 : p.at i <;> cases h2 : p.at j <;> simp [h1, h2] at h ⊢
  case normalize i => cases h1 : p.at i <;> simp [h1] at h ⊢
  case reduce i rv val =>
    cases h1 : p.at i with
    | error e => rw [h1] at h; cases h
    | ok f => rw [h1] at h; exact ⟨f, rfl, by simpa using h⟩
  all_goals
    rename_i i rv
    cases h1 : p.at i with
    | error e => rw [h1] at h; cases h
    | ok f => rw [h1] at h; exact ⟨f, rfl, by simpa using h⟩

def exLegalRun (h : HashOrder ℕ) (bn : BayesNet ℕ ℕ) : FPool ℕ → List (FOp ℕ ℕ) → Bool
  | _, [] => true
  | p, op :: ops => exLegal bn p op && (match FOp.step h bn p op with | .ok p' => exLegalRun h bn p' ops | _ => true)

theorem exLegalRun_sound {h : HashOrder ℕ} {bn : BayesNet ℕ ℕ} : ∀ {ops : List (FOp ℕ ℕ)} {p : FPool ℕ},
    exLegalRun h bn p ops = true → FOp.LegalRun h bn p ops := by
  intro ops
  induction ops with
  | nil => intros; trivial
  | cons op ops ih =>
    intro p hp
    simp only [exLegalRun, Bool.and_eq_true] at hp
    refine ⟨exLegal_sound hp.1, fun p' hp' => ih ?_⟩
    rw [hp'] at hp; exact hp.2

example : FOp.LegalRun .rev exNet [] exHistory := exLegalRun_sound (by decide +kernel)

/-! ## C11 -/

/-- `Factor(exNet, 1)`. -/
def exF1 : Factor ℕ := ⟨1, [1/2, 1/3, 1/6], [1], [(1, 3)], [(1, 1)]⟩
/-- `Factor(exNet, 2)`. -/
def exF2 : Factor ℕ := ⟨2, [1/2, 1/2, 1/3, 2/3, 1, 0, 0, 1, 1/5, 4/5, 3/4, 1/4], [2, 0, 1],
    [(2, 2), (0, 2), (1, 3)], [(2, 1), (0, 2), (1, 4)]⟩

theorem exF1_wf : exF1.WF exNet.cardOf := by
  obtain ⟨f, h1, w1, _⟩ := init_ok exNet_wf (rv := 1) (by decide)
  have e1 : Factor.init exNet 1 = .ok exF1 := by decide +kernel
  rw [e1] at h1; cases h1; exact w1

theorem exF2_wf : exF2.WF exNet.cardOf := by
  obtain ⟨f, h1, w1, _⟩ := init_ok exNet_wf (rv := 2) (by decide)
  have e1 : Factor.init exNet 2 = .ok exF2 := by decide +kernel
  rw [e1] at h1; cases h1; exact w1

/-- C11 is false: a right operand with the larger scope has its `card` dictionary changed and shared.  Here
`f = Factor(bn, 1)`, `g = Factor(bn, 2)` of the network 1 → 2, 0 → 2; after `f *= g`
and `f.sumout_var(0)` the untouched object `g` raises `KeyError` on `g.sumout_var(0)`, which worked before. -/
theorem C11_false :
    ∃ (s : CardStore ℕ) (f g : HFactor ℕ) (h : HashOrder ℕ), (f.deref s).WF exNet.cardOf ∧ (g.deref s).WF exNet.cardOf ∧
      f.card ≠ g.card ∧
      (∃ g1, Factor.sumout h (g.deref s) 0 = .ok g1) ∧
      ∃ s1 f1 s2 f2, HFactor.mul h s f g = .ok (s1, f1) ∧ HFactor.sumout h s1 f1 0 = .ok (s2, f2) ∧
        Factor.sumout h (g.deref s2) 0 = .error .keyError := by
  refine ⟨[exF1.card, exF2.card], ⟨exF1, 0⟩, ⟨exF2, 1⟩, .id, exF1_wf, exF2_wf, by decide, ?_, ?_⟩
  · obtain ⟨g1, hg1, _⟩ := sumout_ok .id exF2_wf (rv := 0) (by decide)
    exact ⟨g1, hg1⟩
  · have key : (HFactor.mul (.id : HashOrder ℕ) [exF1.card, exF2.card] ⟨exF1, 0⟩ ⟨exF2, 1⟩).okAnd fun r =>
        (HFactor.sumout .id r.1 r.2 0).okAnd fun q =>
          decide (Factor.sumout .id (HFactor.deref q.1 ⟨exF2, 1⟩) 0 = .error .keyError) := by decide +kernel
    obtain ⟨r, hr, hq⟩ := Py.of_okAnd key
    obtain ⟨q, hq1, hq2⟩ := Py.of_okAnd hq
    exact ⟨r.1, r.2, q.1, q.2, hr, hq1, by simpa using hq2⟩

/-- C11, the part that holds: if the right operand's scope is not larger, neither the product nor any later elimination on
the product changes what a reader of the right operand sees. -/
theorem C11_right_operand_intact_partial (h : HashOrder N) (s : CardStore N) (f g : HFactor N) (hne : f.card ≠ g.card)
    (hle : (g.deref s).scope.length ≤ (f.deref s).scope.length) (s1 : CardStore N) (f1 : HFactor N)
    (hm : HFactor.mul h s f g = .ok (s1, f1)) :
    g.deref s1 = g.deref s ∧ f1.card ≠ g.card ∧
      ∀ rv s2 f2, HFactor.sumout h s1 f1 rv = .ok (s2, f2) → g.deref s2 = g.deref s ∧ f2.card ≠ g.card := by
  have hset : ∀ (s : CardStore N) (d : Dict N ℕ) (i : ℕ), i ≠ g.card → g.deref (s.set i d) = g.deref s := by
    intro s d i hi
    unfold HFactor.deref
    rw [List.getElem?_set_ne hi]
  unfold HFactor.mul at hm
  cases hr : Factor.mul h (f.deref s) (g.deref s) with
  | error e => rw [hr] at hm; cases hm
  | ok r =>
    obtain ⟨f', g'⟩ := r
    rw [hr] at hm
    simp only [Py.bind_ok, ge_iff_le, if_pos hle, Py.pure_eq, Except.ok.injEq, Prod.mk.injEq] at hm
    obtain ⟨rfl, rfl⟩ := hm
    refine ⟨hset _ _ _ hne, hne, ?_⟩
    intro rv s2 f2 hs
    unfold HFactor.sumout at hs
    cases hr2 : Factor.sumout h (HFactor.deref (s.set f.card f'.card) ⟨f', f.card⟩) rv with
    | error e => rw [hr2] at hs; cases hs
    | ok f'' =>
      rw [hr2] at hs
      simp only [Py.bind_ok, Py.pure_eq, Except.ok.injEq, Prod.mk.injEq] at hs
      obtain ⟨rfl, rfl⟩ := hs
      exact ⟨by rw [hset _ _ _ hne, hset _ _ _ hne], hne⟩

/-- C11, exact effect at the value level: only the right operand's `card` can change, and exactly when the left scope is
smaller it becomes the merged dictionary. -/
theorem C11_exact_effect_partial (h : HashOrder N) (c : N → ℕ) (f g : Factor N) (wf : f.WF c) (wg : g.WF c) :
    ∃ f' g', Factor.mul h f g = .ok (f', g') ∧
      (g.scope.length ≤ f.scope.length → g' = g) ∧
      (f.scope.length < g.scope.length → g' = { g with card := g.card.update f.card }) := by
  unfold Factor.mul
  split
  · rename_i hge
    obtain ⟨psi, scope, card, stride, h1, _⟩ := mulCore_ok h wf wg f.var
    exact ⟨_, _, by rw [h1]; rfl, fun _ => rfl, fun hlt => by omega⟩
  · rename_i hlt
    obtain ⟨psi, scope, card, stride, h1, _⟩ := mulCore_ok h wg wf f.var
    refine ⟨⟨f.var, psi, scope, card, stride⟩, { g with card := card }, by rw [h1]; rfl, fun hle => by omega, fun _ => ?_⟩
    congr 1
    simp only [mulCore] at h1
    revert h1
    cases mulLoop g f (g.card.update f.card) _ _ _ 0 0 with
    | error e => intro h1; cases h1
    | ok psi' =>
      cases orderStride (g.card.update f.card) _ 1 with
      | error e => intro h1; cases h1
      | ok st =>
        intro h1
        simp only [Py.bind_ok, Py.pure_eq, Except.ok.injEq, Prod.mk.injEq] at h1
        exact h1.2.2.1.symm

/-- Witness for the partial theorems: node 2's factor times node 1's. -/
example : ∃ r, HFactor.mul (.id : HashOrder ℕ) [exF2.card, exF1.card] ⟨exF2, 0⟩ ⟨exF1, 1⟩ = .ok r := by
  have : (HFactor.mul (.id : HashOrder ℕ) [exF2.card, exF1.card] ⟨exF2, 0⟩ ⟨exF1, 1⟩).okAnd fun _ => true := by
    decide +kernel
  obtain ⟨r, hr, _⟩ := Py.of_okAnd this
  exact ⟨r, hr⟩

end PyBN
