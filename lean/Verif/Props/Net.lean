import Verif.Proofs.Net2
import Verif.Props.Example
import Verif.Props.Graph

/-!
# C18 - C21, C23, C25, C55, C56, C58, C59: queries of `BayesNet`, `set_structure`, `==`
-/

namespace PyBN
open BayesNet
variable {N A : Type _} [DecidableEq N] [DecidableEq A]

/-! ## C18 -/

/-- C18: `cpt_indices` returns, without duplicates, exactly the positions of the table whose decoded assignment agrees with
`val_dict`, for every dictionary and set iteration order. -/
theorem C18_cpt_indices (hE : HashOrder (N × A)) (hI : HashOrder ℤ) (bn : BayesNet N A) (w : bn.WF) (target : N)
    (ht : target ∈ bn.V) (d : Dict N A)
    (hd : ∀ kv ∈ d, kv.1 ∈ target :: bn.parentsOf target ∧ kv.2 ∈ bn.valuesOf kv.1) :
    ∃ r, cptIndices hE hI bn target d = .ok r ∧ r.Nodup ∧
      ∀ i : ℤ, i ∈ r ↔ ∃ a, InRange bn.cardOf (target :: bn.parentsOf target) a ∧
        i = enc bn.cardOf (target :: bn.parentsOf target) a ∧
        ∀ kv ∈ d, (bn.valuesOf kv.1)[a kv.1]? = some kv.2 := by
  classical
  have hV : ∀ kv ∈ d, kv.1 ∈ bn.V := fun kv hkv => w.fam_mem ht _ (hd kv hkv).1
  let g : N × A → ℤ := fun kv => match pyIndex (bn.valuesOf kv.1) kv.2 with | .ok n => n | .error _ => -1
  have hg : ∀ kv ∈ d, ∃ n : ℕ, g kv = n ∧ n < bn.cardOf kv.1 ∧ (bn.valuesOf kv.1)[n]? = some kv.2 ∧
      bn.valueIdx kv.1 kv.2 = .ok (g kv) := by
    intro kv hkv
    obtain ⟨n, h1, h2, h3⟩ := pyIndex_of_mem (hd kv hkv).2
    obtain ⟨dd, hdd, _, hvv, _⟩ := w.get (hV kv hkv)
    refine ⟨n, by simp only [g, h1], by rw [w.card_len (hV kv hkv)]; exact h2, h3, ?_⟩
    simp only [valueIdx, Dict.get_of_get? hdd, Py.bind_ok, g]
    rw [← hvv, h1]; rfl
  obtain ⟨r, h1, h2, h3, h4⟩ := cptIndices_gen hE hI w ht d g fun kv hkv => by
    obtain ⟨n, hn, hlt, _, hi⟩ := hg kv hkv
    exact ⟨(hd kv hkv).1, hi, by omega, by omega⟩
  have hiff : ∀ a, InRange bn.cardOf (target :: bn.parentsOf target) a → ∀ kv ∈ d,
      ((a kv.1 : ℤ) = g kv % bn.cardOf kv.1 ↔ (bn.valuesOf kv.1)[a kv.1]? = some kv.2) := by
    intro a ha kv hkv
    obtain ⟨n, hn, hlt, hget, _⟩ := hg kv hkv
    rw [hn, ← Int.natCast_mod, Nat.mod_eq_of_lt hlt]
    constructor
    · intro h; rw [show a kv.1 = n by exact_mod_cast h]; exact hget
    · intro h
      have hlt' : a kv.1 < (bn.valuesOf kv.1).length := by
        rw [← w.card_len (hV kv hkv)]; exact ha _ (hd kv hkv).1
      have := (List.getElem?_inj hlt' (w.values_nodup _ (hV kv hkv))).1 (h.trans hget.symm)
      exact_mod_cast this
  refine ⟨r, h1, h2, fun i => ⟨fun hi => ?_, ?_⟩⟩
  · obtain ⟨k, rfl⟩ := h3 i hi
    obtain ⟨a, ha, hka, hag⟩ := (h4 k).1 hi
    exact ⟨a, ha, by exact_mod_cast hka, fun kv hkv => (hiff a ha kv hkv).1 (hag kv hkv)⟩
  · rintro ⟨a, ha, rfl, hag⟩
    exact (h4 _).2 ⟨a, ha, rfl, fun kv hkv => (hiff a ha kv hkv).2 (hag kv hkv)⟩

/-- C18, complete configuration: the single documented position of `P(target | parents)`. -/
theorem C18_complete_configuration (hE : HashOrder (N × A)) (hI : HashOrder ℤ) (bn : BayesNet N A) (w : bn.WF) (target : N)
    (ht : target ∈ bn.V) (d : Dict N A) (a : Asg N) (hk : ∀ v ∈ target :: bn.parentsOf target, v ∈ d.keys)
    (hd : ∀ kv ∈ d, kv.1 ∈ target :: bn.parentsOf target ∧ (bn.valuesOf kv.1)[a kv.1]? = some kv.2) :
    cptIndices hE hI bn target d = .ok [(enc bn.cardOf (target :: bn.parentsOf target) a : ℤ)] ∧
      (bn.cptOf target)[enc bn.cardOf (target :: bn.parentsOf target) a]? = some (bn.prob target a) := by
  obtain ⟨r, h1, h2, h3⟩ := C18_cpt_indices hE hI bn w target ht d fun kv hkv =>
    ⟨(hd kv hkv).1, List.mem_of_getElem? (hd kv hkv).2⟩
  have hex : ∀ v ∈ target :: bn.parentsOf target, ∃ x, (v, x) ∈ d := by
    intro v hv
    obtain ⟨kv, hkv, rfl⟩ := List.mem_map.1 (hk v hv)
    exact ⟨kv.2, hkv⟩
  have hin : InRange bn.cardOf (target :: bn.parentsOf target) a := by
    intro v hv
    obtain ⟨x, hx⟩ := hex v hv
    rw [w.card_len (w.fam_mem ht v hv)]
    exact (List.getElem?_eq_some_iff.1 (hd _ hx).2).1
  have hr : ∀ i, i ∈ r ↔ i = (enc bn.cardOf (target :: bn.parentsOf target) a : ℤ) := by
    intro i
    rw [h3]
    constructor
    · rintro ⟨b, hb, rfl, hbv⟩
      congr 1
      apply enc_congr
      intro v hv
      obtain ⟨x, hx⟩ := hex v hv
      have e1 := hbv _ hx
      have e2 := (hd _ hx).2
      have hlt : b v < (bn.valuesOf v).length := by rw [← w.card_len (w.fam_mem ht v hv)]; exact hb v hv
      exact (List.getElem?_inj hlt (w.values_nodup _ (w.fam_mem ht v hv))).1 (e1.trans e2.symm)
    · rintro rfl
      exact ⟨a, hin, rfl, fun kv hkv => (hd kv hkv).2⟩
  constructor
  · rw [h1]
    congr 1
    have hp : r.Perm [(enc bn.cardOf (target :: bn.parentsOf target) a : ℤ)] := by
      rw [List.perm_ext_iff_of_nodup h2 (by simp)]
      intro i; rw [hr, List.mem_singleton]
    exact List.perm_singleton.1 hp
  · have hlt : enc bn.cardOf (target :: bn.parentsOf target) a < (bn.cptOf target).length := by
      rw [w.cpt_len target ht]; exact enc_lt hin
    unfold BayesNet.prob
    rw [List.getElem?_eq_getElem hlt]; rfl

/-- Witness: rows of node 2 of the example with parent 1 at its second value; the complete configuration. -/
example : cptIndices HashOrder.id HashOrder.id exNet 2 [(1, 21)] = .ok [4, 5, 6, 7] ∧
    cptIndices HashOrder.rev HashOrder.id exNet 2 [(1, 21), (2, 31), (0, 10)] = .ok [5] := by decide +kernel

/-! ## C56 -/

/-- C56: with values that are not among a variable's values, `cpt_indices` does not raise or return nothing: such a value
selects the rows of the variable's *last* value. -/
theorem C56_unknown_value_is_last (hE : HashOrder (N × A)) (hI : HashOrder ℤ) (bn : BayesNet N A) (w : bn.WF) (target : N)
    (ht : target ∈ bn.V) (d : Dict N A) (hd : ∀ kv ∈ d, kv.1 ∈ target :: bn.parentsOf target) :
    ∃ r, cptIndices hE hI bn target d = .ok r ∧ r.Nodup ∧
      ∀ i : ℤ, i ∈ r ↔ ∃ a, InRange bn.cardOf (target :: bn.parentsOf target) a ∧
        i = enc bn.cardOf (target :: bn.parentsOf target) a ∧
        ∀ kv ∈ d, (kv.2 ∈ bn.valuesOf kv.1 → (bn.valuesOf kv.1)[a kv.1]? = some kv.2) ∧
          (kv.2 ∉ bn.valuesOf kv.1 → a kv.1 = bn.cardOf kv.1 - 1) := by
  classical
  have hV : ∀ kv ∈ d, kv.1 ∈ bn.V := fun kv hkv => w.fam_mem ht _ (hd kv hkv)
  let g : N × A → ℤ := fun kv => match pyIndex (bn.valuesOf kv.1) kv.2 with | .ok n => n | .error _ => -1
  have hok : ∀ kv ∈ d, bn.valueIdx kv.1 kv.2 = .ok (g kv) := by
    intro kv hkv
    obtain ⟨dd, hdd, _, hvv, _⟩ := w.get (hV kv hkv)
    simp only [valueIdx, Dict.get_of_get? hdd, Py.bind_ok, g]
    rw [← hvv]
    cases pyIndex (bn.valuesOf kv.1) kv.2 <;> rfl
  have hgood : ∀ kv ∈ d, kv.2 ∈ bn.valuesOf kv.1 → ∃ n : ℕ, g kv = n ∧ n < bn.cardOf kv.1 ∧
      (bn.valuesOf kv.1)[n]? = some kv.2 := by
    intro kv hkv hm
    obtain ⟨n, h1, h2, h3⟩ := pyIndex_of_mem hm
    exact ⟨n, by simp only [g, h1], by rw [w.card_len (hV kv hkv)]; exact h2, h3⟩
  have hbad : ∀ kv ∈ d, kv.2 ∉ bn.valuesOf kv.1 → g kv = -1 := by
    intro kv hkv hm
    simp only [g]
    cases hp : pyIndex (bn.valuesOf kv.1) kv.2 with
    | error x => rfl
    | ok n => exact absurd (pyIndex_ok_mem hp) hm
  obtain ⟨r, h1, h2, h3, h4⟩ := cptIndices_gen hE hI w ht d g fun kv hkv => by
    have hpos := w.card_pos (hV kv hkv)
    refine ⟨hd kv hkv, hok kv hkv, ?_⟩
    by_cases hm : kv.2 ∈ bn.valuesOf kv.1
    · obtain ⟨n, hn, hlt, _⟩ := hgood kv hkv hm
      omega
    · rw [hbad kv hkv hm]; omega
  have hiff : ∀ a, InRange bn.cardOf (target :: bn.parentsOf target) a → ∀ kv ∈ d,
      ((a kv.1 : ℤ) = g kv % bn.cardOf kv.1 ↔ ((kv.2 ∈ bn.valuesOf kv.1 → (bn.valuesOf kv.1)[a kv.1]? = some kv.2) ∧
          (kv.2 ∉ bn.valuesOf kv.1 → a kv.1 = bn.cardOf kv.1 - 1))) := by
    intro a ha kv hkv
    have hpos := w.card_pos (hV kv hkv)
    by_cases hm : kv.2 ∈ bn.valuesOf kv.1
    · obtain ⟨n, hn, hlt, hget⟩ := hgood kv hkv hm
      rw [hn, ← Int.natCast_mod, Nat.mod_eq_of_lt hlt]
      constructor
      · intro h; rw [show a kv.1 = n by exact_mod_cast h]; exact ⟨fun _ => hget, fun h => absurd hm h⟩
      · rintro ⟨h, -⟩
        have hlt' : a kv.1 < (bn.valuesOf kv.1).length := by
          rw [← w.card_len (hV kv hkv)]; exact ha _ (hd kv hkv)
        exact_mod_cast (List.getElem?_inj hlt' (w.values_nodup _ (hV kv hkv))).1 ((h hm).trans hget.symm)
    · rw [hbad kv hkv hm]
      have hmod : (-1 : ℤ) % (bn.cardOf kv.1 : ℤ) = bn.cardOf kv.1 - 1 := by
        rw [← Int.add_emod_right, Int.emod_eq_of_lt (by omega) (by omega)]; ring
      rw [hmod]
      constructor
      · intro h; exact ⟨fun h => absurd h hm, fun _ => by omega⟩
      · rintro ⟨-, h⟩; have := h hm; omega
  refine ⟨r, h1, h2, fun i => ⟨fun hi => ?_, ?_⟩⟩
  · obtain ⟨k, rfl⟩ := h3 i hi
    obtain ⟨a, ha, hka, hag⟩ := (h4 k).1 hi
    exact ⟨a, ha, by exact_mod_cast hka, fun kv hkv => (hiff a ha kv hkv).1 (hag kv hkv)⟩
  · rintro ⟨a, ha, rfl, hag⟩
    exact (h4 _).2 ⟨a, ha, rfl, fun kv hkv => (hiff a ha kv hkv).2 (hag kv hkv)⟩

/-- Witness: an unknown value of variable 1 selects the rows of its last value 22. -/
example : cptIndices HashOrder.id HashOrder.id exNet 2 [(1, 99)] = .ok [8, 9, 10, 11] ∧
    cptIndices HashOrder.id HashOrder.id exNet 2 [(1, 22)] = .ok [8, 9, 10, 11] := by decide +kernel

/-! ## C58: cpt_str_idx -/

/-- C58: `cpt_str_idx(rv, idx)` names, for every position, the value of `rv` and one `parent=value` pair per parent, in order:
the configuration of that position. -/
theorem C58_cpt_str_idx (hE : HashOrder (N × A)) (hI : HashOrder ℤ) (bn : BayesNet N A) (w : bn.WF) (rv : N)
    (hrv : rv ∈ bn.V) (a : Asg N) (ha : InRange bn.cardOf (rv :: bn.parentsOf rv) a) :
    ∃ x ps, cptStrIdx hE hI bn rv (enc bn.cardOf (rv :: bn.parentsOf rv) a) = .ok (x, ps) ∧
      (bn.valuesOf rv)[a rv]? = some x ∧ ps.map Prod.fst = bn.parentsOf rv ∧
      ∀ pv ∈ ps, (bn.valuesOf pv.1)[a pv.1]? = some pv.2 := by
  set i := enc bn.cardOf (rv :: bn.parentsOf rv) a with hi
  have hmem := w.fam_mem hrv
  have hval : ∀ v ∈ rv :: bn.parentsOf rv, ∃ x, (bn.valuesOf v)[a v]? = some x := by
    intro v hv
    have h := ha v hv
    rw [w.card_len (hmem v hv)] at h
    exact ⟨_, List.getElem?_eq_getElem h⟩
  obtain ⟨x, hx⟩ := hval rv (by simp)
  have hmod : i % bn.cardOf rv = a rv := by
    rw [hi]; simp only [enc]
    rw [Nat.add_mul_mod_self_left, Nat.mod_eq_of_lt (ha rv (by simp))]
  have hn := w.fam_nodup rv hrv
  -- one parent, one value
  have hone : ∀ p ∈ bn.parentsOf rv, ∀ val ∈ bn.valuesOf p, ∃ is, cptIndices hE hI bn rv (Dict.ofPairs [(rv, x), (p, val)]) = .ok is ∧
      ((i : ℤ) ∈ is ↔ (bn.valuesOf p)[a p]? = some val) := by
    intro p hp val hval'
    have hne : rv ≠ p := fun h => (List.nodup_cons.1 hn).1 (h ▸ hp)
    have hof : Dict.ofPairs [(rv, x), (p, val)] = [(rv, x), (p, val)] := by
      simp [Dict.ofPairs, Dict.update, Dict.set, hne]
    rw [hof]
    obtain ⟨r, h1, _, h3⟩ := C18_cpt_indices hE hI bn w rv hrv [(rv, x), (p, val)] (by
      intro kv hkv
      rcases List.mem_cons.1 hkv with h | h
      · subst h; exact ⟨by simp, List.mem_of_getElem? hx⟩
      · rw [List.mem_singleton.1 h]; exact ⟨by simp [hp], hval'⟩)
    refine ⟨r, h1, ?_⟩
    rw [h3]
    constructor
    · rintro ⟨b, hb, hbi, hbv⟩
      have := enc_inj ha hb (by rw [← hi]; exact_mod_cast hbi)
      rw [this p (by simp [hp])]
      exact hbv (p, val) (by simp)
    · intro h
      refine ⟨a, ha, rfl, fun kv hkv => ?_⟩
      rcases List.mem_cons.1 hkv with h' | h'
      · subst h'; exact hx
      · rw [List.mem_singleton.1 h']; exact h
  -- the values of one parent: exactly one is printed
  have hpick : ∀ (y : A) (l : List A), l.Nodup → y ∈ l →
      (l.map fun v => if y = v then [v] else ([] : List A)).flatten = [y] := by
    intro y l
    induction l with
    | nil => intro _ h; cases h
    | cons v l ih =>
      intro hnd hy
      rw [List.map_cons, List.flatten_cons]
      by_cases hyv : y = v
      · subst hyv
        have : (l.map fun v => if y = v then [v] else ([] : List A)).flatten = [] := by
          rw [List.flatten_eq_nil_iff]
          intro t ht
          obtain ⟨v, hv, rfl⟩ := List.mem_map.1 ht
          exact if_neg fun (h : y = v) => (List.nodup_cons.1 hnd).1 (h ▸ hv)
        rw [if_pos rfl, this]; rfl
      · rw [if_neg hyv, ih (List.nodup_cons.1 hnd).2 (by simpa [hyv] using hy)]; rfl
  let f : N → N × A := fun p => (p, ((bn.valuesOf p)[a p]?).getD x)
  have hparent : ∀ p ∈ bn.parentsOf rv, (do
      let pv ← bn.values p
      pyMap (fun val => do
        let is ← cptIndices hE hI bn rv (Dict.ofPairs [(rv, x), (p, val)])
        pure (if (i : ℤ) ∈ is then [(p, val)] else [])) pv : Py (List (List (N × A)))) =
      .ok ((bn.valuesOf p).map fun v => if (f p).2 = v then [(p, v)] else []) := by
    intro p hp
    rw [w.values_ok (hmem p (by simp [hp])), Py.bind_ok]
    apply pyMap_ok
    intro val hv
    obtain ⟨is, h1, h2⟩ := hone p hp val hv
    rw [h1, Py.bind_ok, Py.pure_eq]
    congr 1
    obtain ⟨y, hy⟩ := hval p (by simp [hp])
    have hfy : (f p).2 = y := by simp only [f, hy]; rfl
    rw [hfy]
    by_cases hyv : y = val
    · rw [if_pos (h2.2 (hyv ▸ hy)), if_pos hyv]
    · rw [if_neg (fun h => hyv (Option.some.inj (hy.symm.trans (h2.1 h)))), if_neg hyv]
  refine ⟨x, (bn.parentsOf rv).map f, ?_, hx, ?_, ?_⟩
  · unfold cptStrIdx
    rw [w.values_ok hrv, Py.bind_ok, w.card_ok hrv, Py.bind_ok,
      if_neg (by have := w.card_pos hrv; omega), hmod, pyIdx_nat hx, Py.bind_ok, w.parents_ok hrv, Py.bind_ok,
      pyMap_ok hparent, Py.bind_ok, Py.pure_eq]
    congr 2
    have : ∀ l : List N, (∀ p ∈ l, p ∈ bn.parentsOf rv) →
        (l.map fun p => (bn.valuesOf p).map fun v => if (f p).2 = v then [(p, v)] else []).flatten.flatten = l.map f := by
      intro l
      induction l with
      | nil => intro _; rfl
      | cons p l ih =>
        intro hl
        rw [List.map_cons, List.flatten_cons, List.flatten_append, ih fun q hq => hl q (by simp [hq]), List.map_cons]
        have hp := hl p (by simp)
        obtain ⟨y, hy⟩ := hval p (by simp [hp])
        have hfy : (f p).2 = y := by simp only [f, hy]; rfl
        have := hpick y (bn.valuesOf p) (w.values_nodup p (hmem p (by simp [hp]))) (List.mem_of_getElem? hy)
        have h2 : ((bn.valuesOf p).map fun v => if (f p).2 = v then [(p, v)] else []).flatten = [f p] := by
          rw [hfy]
          have h3 := congrArg (List.map fun v => (p, v)) this
          rw [List.map_flatten, List.map_map] at h3
          have h4 : (List.map (fun v => (p, v)) ∘ fun v => if y = v then [v] else []) =
              fun v => if y = v then [(p, v)] else [] := by
            funext v; simp only [Function.comp]; split_ifs <;> rfl
          rw [h4] at h3
          rw [h3]
          show [(p, y)] = [f p]
          rw [← hfy]
        rw [h2]; rfl
    exact this _ fun p h => h
  · rw [List.map_map]; exact List.map_id _
  · intro pv hpv
    obtain ⟨p, hp, rfl⟩ := List.mem_map.1 hpv
    obtain ⟨y, hy⟩ := hval p (by simp [hp])
    simp only [f, hy]; rfl

/-- Witness: position 5 of node 2 is `2=31 | 0=10, 1=21`. -/
example : cptStrIdx HashOrder.id HashOrder.id exNet 2 5 = .ok (31, [(0, 10), (1, 21)]) := by decide +kernel

/-! ## C19 -/

/-- C19: `bn.stride(rv, n)` is the stride `Factor(bn, rv)` assigns to `n`, for every `n` in the scope; other names raise. -/
theorem C19_stride_agrees (bn : BayesNet N A) (w : bn.WF) (rv : N) (hrv : rv ∈ bn.V) :
    ∃ f, Factor.init bn rv = .ok f ∧
      (∀ n ∈ rv :: bn.parentsOf rv, ∃ s, bn.stride rv n = .ok s ∧ f.stride.get? n = some s) ∧
      ∀ n, n ∉ rv :: bn.parentsOf rv → bn.stride rv n = .error .valueError ∧ f.stride.get? n = none := by
  obtain ⟨f, h1, h2, h3, h4, h5, h6⟩ := Factor.init_ok w hrv
  refine ⟨f, h1, fun n hn => ?_, fun n hn => ?_⟩
  · obtain ⟨o1, o2, ho⟩ := List.append_of_mem hn
    refine ⟨_, stride_ok w hrv ho, ?_⟩
    have hnd := w.fam_nodup rv hrv
    rw [h2.stride_get (h4 ▸ hn)]
    congr 1
    have hp := h6 (fun v => if v = n then 1 else 0)
    rw [ho] at hnd hp
    have hsum : f.pos (fun v => if v = n then 1 else 0) = f.strideOf n := by
      unfold Factor.pos
      rw [h4, ho]
      have hz : ∀ l : List N, n ∉ l → (l.map fun v => (if v = n then 1 else 0) * f.strideOf v).sum = 0 := by
        intro l hl
        rw [List.sum_eq_zero]
        intro x hx
        obtain ⟨v, hv, rfl⟩ := List.mem_map.1 hx
        rw [if_neg fun (h : v = n) => hl (h ▸ hv)]; simp
      obtain ⟨hn1, hn2⟩ := List.nodup_middle.1 hnd |> List.nodup_cons.1
      rw [List.mem_append, not_or] at hn1
      rw [List.map_append, List.map_cons, List.sum_append, List.sum_cons, hz o1 hn1.1, hz o2 hn1.2]
      simp
    rw [← hsum, hp, enc_append]
    obtain ⟨hn1, hn2⟩ := List.nodup_middle.1 hnd |> List.nodup_cons.1
    rw [List.mem_append, not_or] at hn1
    rw [enc_zero (o := o1) fun v hv => if_neg fun (h : v = n) => hn1.1 (h ▸ hv)]
    simp only [enc]
    rw [enc_zero (o := o2) fun v hv => if_neg fun (h : v = n) => hn1.2 (h ▸ hv)]
    simp
  · rw [List.mem_cons, not_or] at hn
    constructor
    · unfold BayesNet.stride
      rw [if_neg hn.1, w.card_ok hrv, Py.bind_ok, w.parents_ok hrv, Py.bind_ok,
        pyMap_ok (g := bn.cardOf) fun x hx => w.card_ok (w.parents_mem rv hrv x hx), Py.bind_ok]
      have : ∀ l : List N, n ∉ l → pyIndex l n = .error .valueError := by
        intro l
        induction l with
        | nil => intro _; rfl
        | cons y l ih =>
          intro h
          rw [List.mem_cons, not_or] at h
          simp only [pyIndex, if_neg (Ne.symm h.1), ih h.2]
      rw [this _ hn.2]; rfl
    · have := (h2.stride_dom n).not.2 (by rw [h4]; simpa using hn)
      simpa using this

/-- Witness: in the example the strides of node 2's scope are 1, 2 and 4. -/
example : exNet.stride 2 2 = .ok 1 ∧ exNet.stride 2 0 = .ok 2 ∧ exNet.stride 2 1 = .ok 4 := by decide +kernel

/-! ## C20 -/

/-- C20: the counting queries agree with each other, and never raise on a well-formed network. -/
theorem C20_counts (bn : BayesNet N A) (w : bn.WF) (we : bn.EdgeWF) :
    ∃ es, bn.edges = .ok es ∧ bn.numEdges = .ok es.length ∧ es.Nodup ∧
      (∀ u ∈ bn.V, ∀ v, ∃ b, bn.hasEdge u v = .ok b ∧ (b = true ↔ (u, v) ∈ es)) ∧
      (∀ u v, (u, v) ∈ es ↔ u ∈ bn.parentsOf v) ∧
      (∃ cs, bn.flatCpt = .ok cs ∧ bn.numParams = .ok cs.length ∧ cs = bn.V.flatMap bn.cptOf) ∧
      (∃ ds, pyMap bn.degree bn.V = .ok ds ∧ ds.sum = 2 * es.length) := by
  refine ⟨_, edges_ok we, ?_, ?_, ?_, ?_, ?_, ?_⟩
  · unfold numEdges
    rw [pyMap_ok (g := fun u => (bn.childrenOf u).length) fun u hu => by rw [Dict.get_of_get? (we.get hu)]; rfl]
    rw [Py.bind_ok, Py.pure_eq, List.length_flatMap]; simp
  · rw [List.nodup_flatMap]
    refine ⟨fun u hu => (we.nodup u hu).map fun a b h => (Prod.mk.inj h).2, ?_⟩
    refine w.nodup.imp fun {u v} huv p hp1 hp2 => ?_
    simp only [List.mem_map] at hp1 hp2
    obtain ⟨_, _, rfl⟩ := hp1
    obtain ⟨_, _, h⟩ := hp2
    exact huv (Prod.mk.inj h).1.symm
  · intro u hu v
    refine ⟨decide (v ∈ bn.childrenOf u), by simp only [hasEdge, Dict.get_of_get? (we.get hu), Py.bind_ok, Py.pure_eq], ?_⟩
    simp only [decide_eq_true_eq, List.mem_flatMap, List.mem_map]
    constructor
    · intro h; exact ⟨u, hu, v, h, rfl⟩
    · rintro ⟨u', _, v', h, heq⟩; cases heq; exact h
  · intro u v
    simp only [List.mem_flatMap, List.mem_map]
    rw [← we.iff u v]
    constructor
    · rintro ⟨u', _, v', h, heq⟩; cases heq; exact h
    · intro h; exact ⟨u, (children_mem w we h).2, v, h, rfl⟩
  · refine ⟨bn.V.flatMap bn.cptOf, ?_, ?_, rfl⟩
    · unfold flatCpt
      rw [pyMap_ok fun u hu => w.cpt_ok hu]; rfl
    · unfold numParams
      rw [pyMap_ok (g := fun u => (bn.cptOf u).length) fun u hu => by
        obtain ⟨d, hd, _, _, hc, _⟩ := w.get hu
        rw [Dict.get_of_get? hd, hc]; rfl]
      rw [Py.bind_ok, Py.pure_eq, List.length_flatMap]
  · refine ⟨_, pyMap_ok (g := fun u => (bn.parentsOf u).length + (bn.childrenOf u).length) fun u hu => by
      simp only [degree, w.parents_ok hu, children, Dict.get_of_get? (we.get hu), Py.bind_ok, Py.pure_eq], ?_⟩
    rw [List.sum_map_add, List.length_flatMap]
    have h1 : (bn.V.map fun u => (bn.parentsOf u).length).sum =
        (bn.V.map fun u => (bn.V.map fun v => if v ∈ bn.parentsOf u then 1 else 0).sum).sum := by
      congr 1
      exact List.map_congr_left fun u hu => length_eq_count w.nodup (List.nodup_cons.1 (w.fam_nodup u hu)).2 (w.parents_mem u hu)
    have h2 : (bn.V.map fun u => (bn.childrenOf u).length).sum =
        (bn.V.map fun u => (bn.V.map fun v => if v ∈ bn.childrenOf u then 1 else 0).sum).sum := by
      congr 1
      exact List.map_congr_left fun u hu => length_eq_count w.nodup (we.nodup u hu) fun x hx => (children_mem w we hx).1
    have h3 : (bn.V.map fun u => (bn.parentsOf u).length).sum = (bn.V.map fun u => (bn.childrenOf u).length).sum := by
      rw [h1, h2, list_sum_comm]
      congr 1
      refine List.map_congr_left fun u _ => ?_
      congr 1
      refine List.map_congr_left fun v _ => ?_
      have := we.iff u v
      by_cases h : v ∈ bn.childrenOf u
      · rw [if_pos h, if_pos (this.1 h)]
      · rw [if_neg h, if_neg fun h' => h (this.2 h')]
    rw [h3]
    simp only [List.length_map]
    omega

/-- Witness: the example network has 2 arcs, 17 parameters, and meets the hypotheses. -/
example : exNet.WF ∧ exNet.EdgeWF ∧ exNet.edges = .ok [(0, 2), (1, 2)] ∧ exNet.numEdges = .ok 2 ∧ exNet.numParams = .ok 17 :=
  ⟨exNet_wf, exNet_edgeWf, by decide +kernel, by decide +kernel, by decide +kernel⟩

/-! ## C55 -/

/-- C55 is false of the code: for node 2 of the example the second entry of `flat_cpt(by_parents=True)` is not the sum of the
second row (it is the sum of positions 1 and 2). -/
theorem C55_false : exNet.WF ∧ ∃ l, exNet.flatCptByParents = .ok l ∧ l[2]? = some 1 ∧ l[3]? ≠ some 1 ∧
    (pySlice (exNet.cptOf 2) 2 4).sum = 1 := by
  refine ⟨exNet_wf, [1, 1, 1, 5/6, 1, 5/3, 1, 0], ?_⟩
  decide +kernel

/-- C55: what the call returns: for each node, the sums of the windows starting at 0, 1, 2, ... (as many as there are rows). -/
theorem C55_windows_partial (bn : BayesNet N A) (w : bn.WF) :
    bn.flatCptByParents = .ok (bn.V.flatMap fun v =>
      (List.range ((bn.parentsOf v).map bn.cardOf).prod).map fun i => (pySlice (bn.cptOf v) i (i + bn.cardOf v)).sum) := by
  unfold flatCptByParents
  rw [pyMap_ok (g := fun v => (List.range ((bn.parentsOf v).map bn.cardOf).prod).map fun i =>
    (pySlice (bn.cptOf v) i (i + bn.cardOf v)).sum) fun v hv => by
      rw [w.cpt_ok hv, Py.bind_ok, w.card_ok hv, Py.bind_ok, windowSums, if_neg (by have := w.card_pos hv; omega),
        w.cpt_len v hv, List.map_cons, List.prod_cons, Nat.mul_div_cancel_left _ (w.card_pos hv)]]
  rfl

/-- C55 for networks without arcs (every table has one row): the row sums. -/
theorem C55_no_parents_partial (bn : BayesNet N A) (w : bn.WF) (h : ∀ v ∈ bn.V, bn.parentsOf v = []) :
    bn.flatCptByParents = .ok (bn.V.map fun v => (bn.cptOf v).sum) := by
  rw [C55_windows_partial bn w]
  congr 1
  rw [List.flatMap_def, ← List.flatMap_def]
  have : ∀ l : List N, (∀ v ∈ l, v ∈ bn.V) → (l.flatMap fun v => (List.range ((bn.parentsOf v).map bn.cardOf).prod).map fun i =>
      (pySlice (bn.cptOf v) i (i + bn.cardOf v)).sum) = l.map fun v => (bn.cptOf v).sum := by
    intro l
    induction l with
    | nil => intro _; rfl
    | cons v l ih =>
      intro hl
      have hv := hl v (by simp)
      rw [List.flatMap_cons, ih fun u hu => hl u (by simp [hu]), h v hv]
      have hlen := w.cpt_len v hv
      rw [h v hv] at hlen
      simp only [List.map_cons, List.map_nil, List.prod_cons, List.prod_nil, mul_one] at hlen
      simp [pySlice, ← hlen]
  exact this _ fun v h => h

/-! ## C21 -/

/-- C21: `moralized_edges` does not raise and lists, without repetition and read as undirected links, exactly the arcs and the
pairs of distinct co-parents; a link is listed in both directions only if it is an arc. -/
theorem C21_moral_graph (hP : HashOrder (N × N)) (bn : BayesNet N A) (w : bn.WF) :
    ∃ l, moralizedEdges hP bn = .ok l ∧ l.Nodup ∧
      (∀ a b, ((a, b) ∈ l ∨ (b, a) ∈ l) ↔
        (a ∈ bn.parentsOf b ∨ b ∈ bn.parentsOf a ∨ (a ≠ b ∧ ∃ c, a ∈ bn.parentsOf c ∧ b ∈ bn.parentsOf c))) ∧
      (∀ a b, (a, b) ∈ l → (b, a) ∈ l → a ∈ bn.parentsOf b ∨ b ∈ bn.parentsOf a) ∧
      (∀ a b, a ∈ bn.parentsOf b → (a, b) ∈ l) := by
  obtain ⟨r, h1, h2, _, h4, h5, h6⟩ := moralLoop_ok w bn.V [] (fun u h => h) List.nodup_nil (by simp) (by simp)
  have hVof : ∀ a b, a ∈ bn.parentsOf b → b ∈ bn.V := by
    intro a b h
    rw [← w.dom]
    unfold parentsOf at h
    cases hF : Dict.get? bn.F b with
    | none => rw [hF] at h; cases h
    | some d => rfl
  have hm : ∀ x, x ∈ hP.iter r ↔ x ∈ r := fun x => (hP.perm r).mem_iff
  refine ⟨hP.iter r, by simp only [moralizedEdges, h1, Py.bind_ok, Py.pure_eq], (hP.perm r).nodup_iff.2 h2, ?_, ?_, ?_⟩
  · intro a b
    rw [hm, hm]
    constructor
    · rintro (h | h)
      · rcases h4 a b h with h | h
        · exact .inl h
        · exact .inr (.inr h)
      · rcases h4 b a h with h | ⟨h, c, hc1, hc2⟩
        · exact .inr (.inl h)
        · exact .inr (.inr ⟨Ne.symm h, c, hc2, hc1⟩)
    · rintro (h | h | ⟨hne, c, hc1, hc2⟩)
      · exact .inl (h6 b (hVof a b h) a h).1
      · exact .inr (h6 a (hVof b a h) b h).1
      · exact (h6 c (hVof a c hc1) a hc1).2 b hc2 hne
  · intro a b hab hba
    exact h5 a b ((hm _).1 hab) ((hm _).1 hba)
  · intro a b h
    exact (hm _).2 (h6 b (hVof a b h) a h).1

/-- Witness: the example's two parents get married. -/
example : moralizedEdges HashOrder.id exNet = .ok [(0, 2), (0, 1), (1, 2)] := by decide +kernel

/-! ## C59 -/

/-- C59: `adj_list()[i]` lists, in order, the node positions of the children of the `i`-th node. -/
theorem C59_adj_list (bn : BayesNet N A) (w : bn.WF) (we : bn.EdgeWF) :
    ∃ l, bn.adjList = .ok l ∧ l.length = bn.V.length ∧
      ∀ (i : ℕ) (u : N), bn.V[i]? = some u → ∃ js : List ℕ, l[i]? = some js ∧ js.map (fun j => bn.V[j]?) = (bn.childrenOf u).map some := by
  classical
  let pos : N → ℕ := fun v => bn.V.idxOf v
  have hkeys : Dict.keys (bn.V.zipIdx) = bn.V := by
    unfold Dict.keys; exact List.zipIdx_map_fst 0 bn.V
  have hvi : ∀ v ∈ bn.V, Dict.get? (Dict.ofPairs bn.V.zipIdx) v = some (pos v) := by
    intro v hv
    rw [Dict.ofPairs, Dict.get?_update (by rw [hkeys]; exact w.nodup)]
    have : Dict.get? bn.V.zipIdx v = some (pos v) := by
      apply Dict.get?_of_mem (by rw [hkeys]; exact w.nodup)
      rw [List.mem_zipIdx_iff_getElem?]
      exact List.getElem?_idxOf hv
    rw [this]
  set es := bn.V.flatMap fun u => (bn.childrenOf u).map fun v => (u, v) with hes
  have hesV : ∀ e ∈ es, e.1 ∈ bn.V ∧ e.2 ∈ bn.V := by
    intro e he
    rw [hes, List.mem_flatMap] at he
    obtain ⟨u, hu, he⟩ := he
    obtain ⟨v, hv, rfl⟩ := List.mem_map.1 he
    exact ⟨hu, (children_mem w we hv).1⟩
  have hps : pyMap (fun (e : N × N) => do
      let i ← (Dict.ofPairs bn.V.zipIdx).get e.1
      let j ← (Dict.ofPairs bn.V.zipIdx).get e.2
      pure (i, j) : N × N → Py (ℕ × ℕ)) es = .ok (es.map fun e => (pos e.1, pos e.2)) := by
    apply pyMap_ok
    intro e he
    rw [Dict.get_of_get? (hvi _ (hesV e he).1), Py.bind_ok, Dict.get_of_get? (hvi _ (hesV e he).2)]; rfl
  refine ⟨(List.range bn.V.length).map fun i => ((es.map fun e => (pos e.1, pos e.2)).filter (fun p => p.1 = i)).map Prod.snd, ?_,
    by simp, ?_⟩
  · unfold adjList
    rw [edges_ok we, Py.bind_ok, ← hes]
    show (pyMap _ es >>= _) = _
    rw [hps]; rfl
  · intro i u hu
    have hi : i < bn.V.length := (List.getElem?_eq_some_iff.1 hu).1
    have huV : u ∈ bn.V := List.mem_of_getElem? hu
    have hpu : pos u = i := by
      obtain ⟨_, h⟩ := List.getElem?_eq_some_iff.1 hu
      rw [← h]; exact w.nodup.idxOf_getElem i hi
    refine ⟨_, by rw [List.getElem?_map, List.getElem?_range hi]; rfl, ?_⟩
    have hfil : ∀ l : List N, (∀ x ∈ l, x ∈ bn.V) → l.Nodup →
        (((l.flatMap fun u => (bn.childrenOf u).map fun v => (u, v)).map fun e => (pos e.1, pos e.2)).filter
          (fun p => p.1 = i)).map Prod.snd = if u ∈ l then (bn.childrenOf u).map pos else [] := by
      intro l
      induction l with
      | nil => intro _ _; rfl
      | cons x l ih =>
        intro hl hnd
        rw [List.flatMap_cons, List.map_append, List.filter_append, List.map_append,
          ih (fun y hy => hl y (by simp [hy])) (List.nodup_cons.1 hnd).2]
        by_cases hxu : x = u
        · subst hxu
          have hx : x ∉ l := (List.nodup_cons.1 hnd).1
          rw [if_neg hx, if_pos (by simp), List.append_nil, List.map_map, List.filter_eq_self.2, List.map_map]
          · rfl
          · intro p hp
            obtain ⟨v, _, rfl⟩ := List.mem_map.1 hp
            simp [hpu]
        · have hnone : (((bn.childrenOf x).map fun v => (x, v)).map fun e => (pos e.1, pos e.2)).filter
              (fun p => p.1 = i) = [] := by
            rw [List.filter_eq_nil_iff]
            intro p hp
            rw [List.map_map] at hp
            obtain ⟨v, _, rfl⟩ := List.mem_map.1 hp
            simp only [Function.comp, decide_eq_true_eq]
            intro h
            apply hxu
            have hxV := hl x (by simp)
            have h1 : bn.V[pos x]? = some x := List.getElem?_idxOf hxV
            rw [h, hu] at h1
            exact (Option.some.inj h1).symm
          rw [hnone]
          simp only [List.mem_cons, List.map_nil, List.nil_append]
          by_cases hul : u ∈ l
          · rw [if_pos hul, if_pos (.inr hul)]
          · rw [if_neg hul, if_neg (by rintro (h | h); exacts [hxu h.symm, hul h])]
    rw [hes]
    beta_reduce
    rw [hfil bn.V (fun x h => h) w.nodup, if_pos huV, List.map_map]
    apply List.map_congr_left
    intro v hv
    exact List.getElem?_idxOf (children_mem w we hv).1

/-- Witness. -/
example : exNet.adjList = .ok [[2], [2], []] := by decide +kernel

/-! ## C23 -/

/-- C23: `BayesNet(E, value_dict)` on an acyclic edge dictionary: the nodes are the keys, once each; the children are `E`; the
parents of `v` are the `u` with `v` in `E[u]`, in node order; the values are those given (empty when no dictionary is given). -/
theorem C23_set_structure (h : HashOrder N) (E : Dict N (List N)) (vd : Option (Dict N (List A)))
    (hn : E.keys.Nodup) (hcl : ChildrenAreKeys E) (hac : NoCycle E) (hvd : ∀ d ∈ vd, ∀ v ∈ E.keys, v ∈ d.keys) :
    ∃ bn, setStructure h E vd = .ok bn ∧ bn.V.Perm E.keys ∧ bn.E = E ∧
      (∀ v, (bn.F.get? v).isSome ↔ v ∈ bn.V) ∧
      (∀ v ∈ bn.V, List.Sublist (bn.parentsOf v) bn.V ∧ ∀ u, u ∈ bn.parentsOf v ↔ v ∈ bn.childrenOf u) ∧
      (∀ v ∈ bn.V, bn.cptOf v = [] ∧ ∀ d ∈ vd, d.get? v = some (bn.valuesOf v)) ∧
      (vd = none → ∀ v, bn.valuesOf v = []) := by
  classical
  obtain ⟨V, hV, hp⟩ := C26_topsort_all_nodes h E hn hcl hac
  have hVk : ∀ v ∈ V, v ∈ E.keys := fun v hv => hp.mem_iff.1 hv
  have hVn : V.Nodup := hp.nodup_iff.2 hn
  let pl : N → List N := fun v => (parentList_ok (E := E) hVk v).choose
  have hpl : ∀ v, parentList V E v = .ok (pl v) ∧ List.Sublist (pl v) V ∧ ∀ p, p ∈ pl v ↔ p ∈ V ∧ Arc E p v :=
    fun v => (parentList_ok (E := E) hVk v).choose_spec
  let vl : N → List A := fun v => (vd.bind fun d => Dict.get? d v).getD []
  have hvl : ∀ v ∈ V, valueList vd v = .ok (vl v) := by
    intro v hv
    cases hvd' : vd with
    | none => simp only [vl, hvd', valueList, Option.bind_none, Option.getD_none]
    | some d =>
      have := hvd d (by rw [hvd']; rfl) v (hVk v hv)
      rw [Dict.mem_keys_iff] at this
      obtain ⟨x, hx⟩ := Option.isSome_iff_exists.1 this
      simp only [vl, hvd', valueList, Dict.get_of_get? hx, hx, Option.bind_some, Option.getD_some]
  have hF : pyMap (fun rv => do
      let ps ← parentList V E rv
      let vs ← valueList vd rv
      pure (rv, (⟨ps, vs, []⟩ : NodeData N A)) : N → Py (N × NodeData N A)) V =
      .ok (V.map fun v => (v, ⟨pl v, vl v, []⟩)) := by
    apply pyMap_ok
    intro v hv
    rw [(hpl v).1, Py.bind_ok, hvl v hv]; rfl
  have hget : ∀ v, Dict.get? (Dict.ofPairs (V.map fun v => (v, (⟨pl v, vl v, []⟩ : NodeData N A)))) v =
      if v ∈ V then some ⟨pl v, vl v, []⟩ else none := by
    intro v
    rw [Dict.ofPairs, Dict.get?_update (by rw [Dict.keys_map_pair]; exact hVn), Dict.get?_map_pair]
    split_ifs <;> simp [Dict.get?]
  refine ⟨⟨V, E, Dict.ofPairs (V.map fun v => (v, ⟨pl v, vl v, []⟩))⟩, ?_, hp, rfl, ?_, ?_, ?_, ?_⟩
  · unfold setStructure
    rw [hV, Py.bind_ok, hF]; rfl
  · intro v
    show (Dict.get? (Dict.ofPairs _) v).isSome ↔ v ∈ V
    rw [hget]; split_ifs with hv <;> simp [hv]
  · intro v hv
    have hpo : BayesNet.parentsOf ⟨V, E, Dict.ofPairs (V.map fun v => (v, (⟨pl v, vl v, []⟩ : NodeData N A)))⟩ v = pl v := by
      unfold parentsOf; simp only [hget, if_pos (show v ∈ V from hv)]
    rw [hpo]
    refine ⟨(hpl v).2.1, fun u => ?_⟩
    rw [(hpl v).2.2]
    show u ∈ V ∧ Arc E u v ↔ v ∈ (match Dict.get? E u with | some l => l | none => [])
    constructor
    · rintro ⟨_, l, hl, hvl⟩; rw [hl]; exact hvl
    · intro hh
      cases hE : Dict.get? E u with
      | none => rw [hE] at hh; cases hh
      | some l =>
        rw [hE] at hh
        exact ⟨hp.mem_iff.2 (by rw [Dict.mem_keys_iff, hE]; rfl), l, hE, hh⟩
  · intro v hv
    refine ⟨by unfold cptOf; simp only [hget, if_pos (show v ∈ V from hv)], fun d hd => ?_⟩
    have hvo : BayesNet.valuesOf ⟨V, E, Dict.ofPairs (V.map fun v => (v, (⟨pl v, vl v, []⟩ : NodeData N A)))⟩ v = vl v := by
      unfold valuesOf; simp only [hget, if_pos (show v ∈ V from hv)]
    rw [hvo]
    have hvd' : vd = some d := hd
    have := hvd d hd v (hVk v hv)
    rw [Dict.mem_keys_iff] at this
    obtain ⟨x, hx⟩ := Option.isSome_iff_exists.1 this
    simp only [vl, hvd', hx, Option.bind_some, Option.getD_some]
  · intro hnone v
    unfold valuesOf
    simp only [hget]
    split_ifs with hv
    · simp only [vl, hnone, Option.bind_none, Option.getD_none]
    · rfl

/-- Witness: a four-node network from an edge dictionary; the parents of 1 are listed in node order. -/
example : (∃ bn : BayesNet ℕ ℕ, setStructure HashOrder.id exGraph none = .ok bn ∧ bn.V = [0, 1, 2, 3] ∧ bn.parentsOf 1 = [0, 2]) :=
  ⟨⟨[0, 1, 2, 3], exGraph, [(0, ⟨[], [], []⟩), (1, ⟨[0, 2], [], []⟩), (2, ⟨[0], [], []⟩), (3, ⟨[1], [], []⟩)]⟩,
    rfl, rfl, rfl⟩

/-! ## C25 -/

/-- C25 is false of the code: comparing a non-empty network with itself raises `TypeError`. -/
theorem C25_false : exNet.WF ∧ exNet.EdgeWF ∧ BayesNet.eq exNet exNet = .error .typeError :=
  ⟨exNet_wf, exNet_edgeWf, by decide +kernel⟩

/-- C25, exact behaviour: `False` for different node sets, `True` for two empty networks, and an exception in every other case. -/
theorem C25_exact_partial (x y : BayesNet N A) (wx : x.WF) (wy : y.EdgeWF) :
    ((∃ v, ¬ (v ∈ x.V ↔ v ∈ y.V)) → BayesNet.eq x y = .ok false) ∧
    ((∀ v, v ∈ x.V ↔ v ∈ y.V) → x.V = [] → BayesNet.eq x y = .ok true) ∧
    ((∀ v, v ∈ x.V ↔ v ∈ y.V) → x.V ≠ [] → BayesNet.eq x y = .error .typeError) := by
  refine ⟨?_, ?_, ?_⟩
  · rintro ⟨v, hv⟩
    unfold BayesNet.eq
    rw [if_neg]
    rintro ⟨h1, h2⟩
    exact hv ⟨h1 v, h2 v⟩
  · intro h he
    unfold BayesNet.eq
    rw [if_pos ⟨fun v => (h v).1, fun v => (h v).2⟩, he]; rfl
  · intro h hne
    unfold BayesNet.eq
    rw [if_pos ⟨fun v => (h v).1, fun v => (h v).2⟩]
    cases hx : x.V with
    | nil => exact absurd hx hne
    | cons v vs =>
      have hv : v ∈ x.V := by rw [hx]; simp
      simp only [neighboursLoop, wx.parents_ok hv, Py.bind_ok, children, Dict.get_of_get? (wy.get ((h v).1 hv))]

end PyBN
