import Verif.Model.Distance
import Verif.Spec.Distance
import Verif.Proofs.Net
import Verif.Proofs.Edit

/-! Lemmas for structural distances. -/

set_option linter.unusedSectionVars false

namespace PyBN
namespace BayesNet
variable {N A : Type _} [DecidableEq N] [DecidableEq A]

theorem parentsOf_none {bn : BayesNet N A} {v : N} (h : bn.F.get? v = none) : bn.parentsOf v = [] := by
  unfold parentsOf; rw [h]

theorem Struct.parents {x : BayesNet N A} (w : x.Struct) {v : N} (hv : v ∈ x.V) : x.parents v = .ok (x.parentsOf v) := by
  have h := (w.dom v).2 hv
  unfold BayesNet.parents parentsOf
  cases hE : x.F.get? v with
  | none => rw [hE] at h; cases h
  | some d => rw [Dict.get_of_get? hE]; rfl

theorem Struct.children {x : BayesNet N A} (w : x.Struct) {v : N} (hv : v ∈ x.V) : x.children v = .ok (x.childrenOf v) := by
  unfold BayesNet.children; exact Dict.get_of_get? (w.edges.get hv)

theorem Struct.tail_mem {x : BayesNet N A} (w : x.Struct) {u v : N} (h : v ∈ x.childrenOf u) : u ∈ x.V := by
  rw [← w.edges.dom]
  unfold childrenOf at h
  cases hE : x.E.get? u with
  | none => rw [hE] at h; cases h
  | some => rfl

theorem Struct.head_mem {x : BayesNet N A} (w : x.Struct) {u v : N} (h : v ∈ x.childrenOf u) : v ∈ x.V := by
  rw [w.edges.iff] at h
  rw [← w.dom]
  cases hE : x.F.get? v with
  | none => rw [parentsOf_none hE] at h; cases h
  | some => rfl

/-- Counting a finite set of pairs node by node. -/
theorem ncard_pairs {V : List N} (hV : V.Nodup) (f : N → List N) (hf : ∀ u ∈ V, (f u).Nodup) :
    ({p : N × N | p.1 ∈ V ∧ p.2 ∈ f p.1}).ncard = (V.map fun u => (f u).length).sum := by
  have he : {p : N × N | p.1 ∈ V ∧ p.2 ∈ f p.1} = ((V.flatMap fun u => (f u).map fun v => (u, v)).toFinset : Set (N × N)) := by
    ext ⟨u, v⟩
    simp only [Set.mem_setOf_eq, List.coe_toFinset, List.mem_flatMap, List.mem_map, Prod.mk.injEq]
    constructor
    · rintro ⟨h1, h2⟩; exact ⟨u, h1, v, h2, rfl, rfl⟩
    · rintro ⟨a, h1, b, h2, rfl, rfl⟩; exact ⟨h1, h2⟩
  have hnd : (V.flatMap fun u => (f u).map fun v => (u, v)).Nodup := by
    rw [List.nodup_flatMap]
    refine ⟨fun u hu => (hf u hu).map fun a b h => by simpa using h, ?_⟩
    refine hV.imp_of_mem fun {a b} _ _ hab => ?_
    intro p hp hq
    simp only [List.mem_map] at hp hq
    obtain ⟨_, _, rfl⟩ := hp
    obtain ⟨_, _, h⟩ := hq
    exact hab (congrArg Prod.fst h).symm
  rw [he, Set.ncard_coe_finset, List.toFinset_card_of_nodup hnd, List.length_flatMap]
  simp

theorem Struct.ncard_arcs {x : BayesNet N A} (w : x.Struct) (Q : N → N → Prop) [∀ u v, Decidable (Q u v)] :
    ({p : N × N | p ∈ x.arcs ∧ Q p.1 p.2}).ncard =
      (x.V.map fun u => ((x.childrenOf u).filter fun v => decide (Q u v)).length).sum := by
  rw [← ncard_pairs w.nodup (fun u => (x.childrenOf u).filter fun v => decide (Q u v))
    fun u hu => (w.edges.nodup u hu).filter _]
  congr 1
  ext ⟨u, v⟩
  simp only [arcs, Set.mem_setOf_eq, List.mem_filter, decide_eq_true_eq]
  exact ⟨fun h => ⟨w.tail_mem h.1, h⟩, fun h => h.2⟩

theorem Struct.ncard_heads {x : BayesNet N A} (w : x.Struct) (Q : N → Prop) [∀ v, Decidable (Q v)] :
    ({p : N × N | p ∈ x.arcs ∧ Q p.2}).ncard =
      (x.V.map fun v => if Q v then (x.parentsOf v).length else 0).sum := by
  have h1 := ncard_pairs w.nodup (fun v => if Q v then x.parentsOf v else [])
    fun u hu => by split_ifs <;> simp [(List.nodup_cons.1 (w.fam_nodup u hu)).2]
  have h2 : ({p : N × N | p ∈ x.arcs ∧ Q p.2}) = Prod.swap '' {p : N × N | p.1 ∈ x.V ∧ p.2 ∈ if Q p.1 then x.parentsOf p.1 else []} := by
    ext ⟨u, v⟩
    simp only [arcs, Set.mem_setOf_eq, Set.mem_image, Prod.exists, Prod.swap_prod_mk, Prod.mk.injEq]
    constructor
    · rintro ⟨h, hq⟩
      exact ⟨v, u, ⟨w.head_mem h, by rw [if_pos hq]; exact (w.edges.iff _ _).1 h⟩, rfl, rfl⟩
    · rintro ⟨a, b, ⟨_, h⟩, rfl, rfl⟩
      split_ifs at h with hq
      · exact ⟨(w.edges.iff _ _).2 h, hq⟩
      · cases h
  rw [h2, Set.ncard_image_of_injective _ Prod.swap_injective, h1]
  congr 1
  refine List.map_congr_left fun v _ => ?_
  split_ifs <;> rfl

theorem lostChildren_ok {x y : BayesNet N A} (w : x.Struct) (wy : y.Struct) {rv : N} (h : rv ∈ x.V) (h' : rv ∈ y.V) :
    lostChildren x y rv = .ok (((x.childrenOf rv).filter fun v => decide (v ∉ y.childrenOf rv)).length) := by
  unfold lostChildren
  rw [w.children h]
  simp only [Py.bind_ok]
  rw [pyMap_ok (g := fun c => if c ∉ y.childrenOf rv then 1 else 0) fun c _ => by rw [wy.children h']; rfl]
  simp only [Py.bind_ok, Py.pure_eq, Except.ok.injEq]
  generalize x.childrenOf rv = l
  induction l with
  | nil => rfl
  | cons a l ih =>
    rw [List.map_cons, List.sum_cons, ih, List.filter_cons]
    by_cases ha : a ∉ y.childrenOf rv
    · rw [if_pos ha, if_pos (by simpa using ha), List.length_cons, Nat.add_comm]
    · rw [if_neg ha, if_neg (by simpa using ha), Nat.zero_add]

theorem missingAt_ok {x y : BayesNet N A} (w : x.Struct) (wy : y.Struct) {rv : N} (h : rv ∈ x.V) :
    missingAt x y rv = .ok (((x.childrenOf rv).filter fun v => decide (v ∉ y.childrenOf rv)).length +
      if rv ∉ y.V then (x.parentsOf rv).length else 0) := by
  unfold missingAt hasNode
  by_cases hy : rv ∈ y.V
  · rw [if_neg (by simp [hy]), if_neg (by simp [hy]), lostChildren_ok w wy h hy, Nat.add_zero]
  · rw [if_pos (by simp [hy]), if_pos hy]
    unfold degree
    rw [w.parents h, w.children h]
    simp only [Py.bind_ok, Py.pure_eq, Except.ok.injEq]
    rw [Nat.add_comm]
    congr 1
    rw [List.filter_eq_self.2]
    intro v _
    simp only [decide_eq_true_eq]
    intro hv
    exact hy (wy.tail_mem hv)

theorem missingEdges_ok {x y : BayesNet N A} (w : x.Struct) (wy : y.Struct) :
    missingEdges x y = .ok ((x.arcs \ y.arcs).ncard + {p : N × N | p ∈ x.arcs ∧ p.2 ∉ y.V}.ncard) := by
  classical
  unfold missingEdges
  rw [pyMap_ok fun rv hrv => missingAt_ok w wy hrv]
  simp only [Py.bind_ok, Py.pure_eq, Except.ok.injEq]
  rw [List.sum_map_add, ← w.ncard_arcs (fun u v => v ∉ y.childrenOf u), ← w.ncard_heads (fun v => v ∉ y.V)]
  rfl

theorem extraEdges_eq (x y : BayesNet N A) : extraEdges x y = missingEdges y x := rfl

theorem wrongWayAt_ok {x y : BayesNet N A} (w : x.Struct) (wy : y.Struct) {rv : N} (h : rv ∈ x.V)
    (hy : rv ∈ y.V ∨ x.childrenOf rv = []) : wrongWayAt x y rv = .ok 0 := by
  unfold wrongWayAt hasNode
  rw [if_pos (by simpa using h), w.children h]
  simp only [Py.bind_ok]
  rcases hy with hy | hy
  · rw [pyMap_ok (g := fun _ => 0) fun c _ => by
      rw [wy.parents hy]
      simp only [Py.bind_ok]
      rw [if_neg (List.nodup_cons.1 (wy.fam_nodup rv hy)).1]; rfl]
    simp
  · rw [hy]; rfl

theorem wrongWay_ok {x y : BayesNet N A} (w : x.Struct) (wy : y.Struct)
    (hy : ∀ rv ∈ x.V, rv ∈ y.V ∨ x.childrenOf rv = []) : incorrectDirectionEdges x y = .ok 0 := by
  unfold incorrectDirectionEdges
  rw [pyMap_ok (g := fun _ => 0) fun rv h => wrongWayAt_ok w wy h (hy rv h)]
  simp

theorem pyMap_error {α β : Type _} {f : α → Py β} {e : PyErr} : ∀ {l : List α}, (∀ x ∈ l, f x = .error e ∨ ∃ y, f x = .ok y) →
    (∃ x ∈ l, f x = .error e) → pyMap f l = .error e := by
  intro l
  induction l with
  | nil => rintro _ ⟨x, hx, _⟩; cases hx
  | cons a l ih =>
    intro h hx
    rcases h a (by simp) with ha | ⟨y, ha⟩
    · simp only [pyMap, ha]; rfl
    · have : ∃ x ∈ l, f x = .error e := by
        obtain ⟨x, hx, hxe⟩ := hx
        rcases List.mem_cons.1 hx with rfl | hx
        · rw [ha] at hxe; cases hxe
        · exact ⟨x, hx, hxe⟩
      simp only [pyMap, ha, Py.bind_ok, ih (fun x hx => h x (by simp [hx])) this]; rfl

theorem wrongWay_error {x y : BayesNet N A} (w : x.Struct) (wy : y.Struct)
    (hy : ∃ rv ∈ x.V, rv ∉ y.V ∧ x.childrenOf rv ≠ []) : incorrectDirectionEdges x y = .error .keyError := by
  have key : ∀ rv ∈ x.V, rv ∉ y.V → x.childrenOf rv ≠ [] → wrongWayAt x y rv = .error .keyError := by
    intro rv h h1 h2
    unfold wrongWayAt hasNode
    rw [if_pos (by simpa using h), w.children h]
    simp only [Py.bind_ok]
    have hn : y.F.get? rv = none := by
      cases hE : y.F.get? rv with
      | none => rfl
      | some => exact absurd ((wy.dom rv).1 (by rw [hE]; rfl)) h1
    have hp : y.parents rv = .error .keyError := by unfold BayesNet.parents; rw [Dict.get_of_none hn]; rfl
    obtain ⟨c, cs, hc⟩ := List.exists_cons_of_ne_nil h2
    rw [hc]
    simp only [pyMap, hp]; rfl
  unfold incorrectDirectionEdges
  rw [pyMap_error (e := .keyError)]
  · rfl
  · intro rv h
    by_cases h1 : rv ∈ y.V
    · exact .inr ⟨0, wrongWayAt_ok w wy h (.inl h1)⟩
    · by_cases h2 : x.childrenOf rv = []
      · exact .inr ⟨0, wrongWayAt_ok w wy h (.inr h2)⟩
      · exact .inl (key rv h h1 h2)
  · obtain ⟨rv, h, h1, h2⟩ := hy
    exact ⟨rv, h, key rv h h1 h2⟩

theorem Struct.arcs_finite {x : BayesNet N A} (w : x.Struct) : x.arcs.Finite := by
  refine ((x.V ×ˢ x.V).toFinset.finite_toSet).subset ?_
  rintro ⟨u, v⟩ h
  simp only [List.coe_toFinset, Set.mem_setOf_eq]
  exact List.mem_product.2 ⟨w.tail_mem h, w.head_mem h⟩

end BayesNet

/-! ## `markov_blanket` -/

namespace HNet
variable {N A : Type _} [DecidableEq N] [DecidableEq A]

/-- The heap after the call: old lists are untouched. -/
structure Keeps (h h' : Heap N A) : Prop where
  len : h.names.length ≤ h'.names.length
  nm : ∀ a < h.names.length, h'.nm a = h.nm a
  vals : h'.vals = h.vals
  cpts : h'.cpts = h.cpts

theorem nm_append_lt {h : Heap N A} {l : List N} {a : ℕ} (ha : a < h.names.length) :
    Heap.nm ({ h with names := h.names ++ [l] } : Heap N A) a = h.nm a := by
  unfold Heap.nm; rw [List.getElem?_append_left ha]

theorem nm_append_self (h : Heap N A) (l : List N) :
    Heap.nm ({ h with names := h.names ++ [l] } : Heap N A) h.names.length = l := by
  unfold Heap.nm; rw [List.getElem?_append_right (Nat.le_refl _)]; simp

/-- The references of the network are into the heap. -/
def Bounded (h : Heap N A) (b : HNet N) : Prop :=
  b.V < h.names.length ∧ (∀ v a, b.E.get? v = some a → a < h.names.length) ∧
    ∀ v d, b.F.get? v = some d → d.parents < h.names.length

theorem mbAlloc_ok (b : HNet N) (h0 : Heap N A) (hb : Bounded h0 b) : ∀ (vs : List N) (h : Heap N A) (mb : Dict N ℕ),
    Keeps h0 h → (∀ v ∈ vs, ∃ d a, b.F.get? v = some d ∧ b.E.get? v = some a) → vs.Nodup → (∀ v ∈ vs, v ∉ mb.keys) →
    (∀ v a, mb.get? v = some a → h0.names.length ≤ a ∧ a < h.names.length) →
    (∀ v w a, mb.get? v = some a → mb.get? w = some a → v = w) →
    ∃ h' mb', mbAlloc b vs h mb = .ok (h', mb') ∧ Keeps h0 h' ∧ h.names.length ≤ h'.names.length ∧
      mb'.keys = mb.keys ++ vs ∧
      (∀ v a, mb'.get? v = some a → h0.names.length ≤ a ∧ a < h'.names.length) ∧
      (∀ v w a, mb'.get? v = some a → mb'.get? w = some a → v = w) ∧
      (∀ v a, mb.get? v = some a → mb'.get? v = some a ∧ h'.nm a = h.nm a) ∧
      ∀ v ∈ vs, ∃ d a e, b.F.get? v = some d ∧ b.E.get? v = some a ∧ mb'.get? v = some e ∧
        h'.nm e = h0.nm d.parents ++ h0.nm a
  | [], h, mb, k, _, _, _, h4, h5 => ⟨h, mb, rfl, k, Nat.le_refl _, by simp, h4, h5, fun v a hh => ⟨hh, rfl⟩, by simp⟩
  | rv :: vs, h, mb, k, h1, h2, h3, h4, h5 => by
      obtain ⟨d, a, hd, ha⟩ := h1 rv (by simp)
      have hrv : mb.get? rv = none := Dict.get?_eq_none_iff.2 (h3 rv (by simp))
      have hset : ∀ v e, (mb.set rv h.names.length).get? v = some e →
          (v = rv ∧ e = h.names.length) ∨ (v ≠ rv ∧ mb.get? v = some e) := by
        intro v e hve
        by_cases hv : v = rv
        · subst hv; rw [Dict.get?_set_self] at hve; exact .inl ⟨rfl, by simpa using hve.symm⟩
        · rw [Dict.get?_set_ne _ _ (Ne.symm hv)] at hve; exact .inr ⟨hv, hve⟩
      have hdp : h.nm d.parents = h0.nm d.parents := k.nm _ (hb.2.2 _ _ hd)
      have hap : h.nm a = h0.nm a := k.nm _ (hb.2.1 _ _ ha)
      have hlen0 := k.len
      obtain ⟨h', mb', r1, r2, r3, r4, r5, r6, r7, r8⟩ := mbAlloc_ok b h0 hb vs
        { h with names := h.names ++ [h.nm d.parents ++ h.nm a] } (mb.set rv h.names.length)
        ⟨by simp; omega, fun x hx => by rw [nm_append_lt (by omega)]; exact k.nm x hx, k.vals, k.cpts⟩
        (fun v hv => h1 v (by simp [hv])) (List.nodup_cons.1 h2).2
        (fun v hv => by
          rw [Dict.keys_set]
          have hne : v ≠ rv := fun e => (List.nodup_cons.1 h2).1 (e ▸ hv)
          have := h3 v (by simp [hv])
          split_ifs <;> simp [this, hne])
        (fun v e hve => by
          simp only [List.length_append, List.length_cons, List.length_nil]
          rcases hset v e hve with ⟨_, rfl⟩ | ⟨_, hh⟩
          · omega
          · have := h4 v e hh; omega)
        (fun v w e hv hw => by
          rcases hset v e hv with ⟨rfl, rfl⟩ | ⟨hv1, hv2⟩ <;> rcases hset w _ hw with ⟨rfl, hw3⟩ | ⟨hw1, hw2⟩
          · rfl
          · have := h4 w _ hw2; omega
          · have := h4 v _ hv2; omega
          · exact h5 v w e hv2 hw2)
      refine ⟨h', mb', ?_, r2, ?_, ?_, r5, r6, ?_, ?_⟩
      · rw [mbAlloc, hd, ha]; exact r1
      · simp only [List.length_append, List.length_cons, List.length_nil] at r3; omega
      · rw [r4, Dict.keys_set, if_neg (h3 rv (by simp))]; simp
      · intro v e hve
        have hvr : v ≠ rv := fun hh => by rw [hh, hrv] at hve; cases hve
        obtain ⟨q1, q2⟩ := r7 v e (by rw [Dict.get?_set_ne _ _ (Ne.symm hvr)]; exact hve)
        exact ⟨q1, by rw [q2, nm_append_lt (h4 v e hve).2]⟩
      · intro v hv
        rcases List.mem_cons.1 hv with rfl | hv
        · obtain ⟨q1, q2⟩ := r7 v h.names.length (Dict.get?_set_self _ _ _)
          exact ⟨d, a, _, hd, ha, q1, by rw [q2, nm_append_self, hdp, hap]⟩
        · exact r8 v hv

theorem mbParents_ok {h0 : Heap N A} {mb : Dict N ℕ} {rv : N} {e : ℕ} (he : mb.get? rv = some e) (he0 : h0.names.length ≤ e) :
    ∀ (ps : List N) (h : Heap N A), Keeps h0 h → e < h.names.length → ∃ h', mbParents mb rv ps h = .ok h' ∧ Keeps h0 h' ∧
      h'.names.length = h.names.length ∧ (∀ a, a ≠ e → h'.nm a = h.nm a) ∧ h'.nm e = h.nm e ++ ps.filter (fun p => decide (p ≠ rv))
  | [], h, k, _ => ⟨h, rfl, k, rfl, fun _ _ => rfl, by simp⟩
  | p :: ps, h, k, hl => by
      by_cases hp : p ≠ rv
      · have hlen : (h.putN e (h.nm e ++ [p])).names.length = h.names.length := by simp [Heap.putN]
        obtain ⟨h', r1, r2, r3, r4, r5⟩ := mbParents_ok he he0 ps (h.putN e (h.nm e ++ [p]))
          ⟨by rw [hlen]; exact k.len, fun a ha => by rw [Heap.nm_putN_ne (by omega)]; exact k.nm a ha, k.vals, k.cpts⟩
          (by rw [hlen]; exact hl)
        refine ⟨h', ?_, r2, by rw [r3, hlen], fun a ha => by rw [r4 a ha, Heap.nm_putN_ne ha], ?_⟩
        · rw [mbParents, if_pos hp, he]; exact r1
        · rw [r5, Heap.nm_putN_self hl, List.filter_cons, if_pos (by simpa using hp)]; simp
      · obtain ⟨h', r1, r2, r3, r4, r5⟩ := mbParents_ok he he0 ps h k hl
        refine ⟨h', ?_, r2, r3, r4, ?_⟩
        · rw [mbParents, if_neg hp]; exact r1
        · rw [r5, List.filter_cons, if_neg (by simpa using hp)]

/-- The other parents of the children, as listed in the old heap. -/
def spouses (h0 : Heap N A) (b : HNet N) (rv : N) (cs : List N) : List N :=
  cs.flatMap fun c => match b.F.get? c with
    | some d => (h0.nm d.parents).filter (fun p => decide (p ≠ rv))
    | none => []

theorem mbChildren_ok {h0 : Heap N A} {b : HNet N} (hb : Bounded h0 b) {mb : Dict N ℕ} {rv : N} {e : ℕ} (he : mb.get? rv = some e)
    (he0 : h0.names.length ≤ e) :
    ∀ (cs : List N) (h : Heap N A), Keeps h0 h → e < h.names.length → (∀ c ∈ cs, (b.F.get? c).isSome) →
      ∃ h', mbChildren b mb rv cs h = .ok h' ∧ Keeps h0 h' ∧
      h'.names.length = h.names.length ∧ (∀ a, a ≠ e → h'.nm a = h.nm a) ∧ h'.nm e = h.nm e ++ spouses h0 b rv cs
  | [], h, k, _, _ => ⟨h, rfl, k, rfl, fun _ _ => rfl, by simp [spouses]⟩
  | c :: cs, h, k, hl, hc => by
      obtain ⟨d, hd⟩ := Option.isSome_iff_exists.1 (hc c (by simp))
      obtain ⟨h1, q1, q2, q3, q4, q5⟩ := mbParents_ok (ps := h.nm d.parents) he he0 h k hl
      obtain ⟨h', r1, r2, r3, r4, r5⟩ := mbChildren_ok hb he he0 cs h1 q2 (by rw [q3]; exact hl) fun c' hc' => hc c' (by simp [hc'])
      refine ⟨h', ?_, r2, by rw [r3, q3], fun a ha => by rw [r4 a ha, q4 a ha], ?_⟩
      · rw [mbChildren, hd]; simp only [q1, Py.bind_ok]; exact r1
      · rw [r5, q5, k.nm _ (hb.2.2 _ _ hd)]
        simp only [spouses, List.flatMap_cons, hd, List.append_assoc]

theorem mbNodes_ok {h0 : Heap N A} {b : HNet N} (hb : Bounded h0 b) {mb : Dict N ℕ}
    (hinj : ∀ v w a, mb.get? v = some a → mb.get? w = some a → v = w) :
    ∀ (vs : List N) (h : Heap N A), Keeps h0 h → vs.Nodup →
      (∀ v a, mb.get? v = some a → h0.names.length ≤ a ∧ a < h.names.length) →
      (∀ v ∈ vs, v ∈ mb.keys ∧ ∃ a, b.E.get? v = some a ∧ ∀ c ∈ h0.nm a, (b.F.get? c).isSome) →
      ∃ h', mbNodes b mb vs h = .ok h' ∧ Keeps h0 h' ∧
      (∀ v e, v ∉ vs → mb.get? v = some e → h'.nm e = h.nm e) ∧
      ∀ v ∈ vs, ∀ e a, mb.get? v = some e → b.E.get? v = some a → h'.nm e = h.nm e ++ spouses h0 b v (h0.nm a)
  | [], h, k, _, _, _ => ⟨h, rfl, k, fun _ _ _ _ => rfl, by simp⟩
  | rv :: vs, h, k, hnd, hr, hv => by
      obtain ⟨hk, a, ha, hc⟩ := hv rv (by simp)
      obtain ⟨e, he⟩ := Option.isSome_iff_exists.1 (Dict.mem_keys_iff.1 hk)
      have ha0 : h.nm a = h0.nm a := k.nm _ (hb.2.1 _ _ ha)
      obtain ⟨h1, q1, q2, q3, q4, q5⟩ := mbChildren_ok hb he (hr _ _ he).1 (h.nm a) h k (hr _ _ he).2 (by rw [ha0]; exact hc)
      obtain ⟨h', r1, r2, r3, r4⟩ := mbNodes_ok hb hinj vs h1 q2 (List.nodup_cons.1 hnd).2 (by rw [q3]; exact hr)
        fun v hv' => hv v (by simp [hv'])
      have hne : ∀ v e', v ≠ rv → mb.get? v = some e' → e' ≠ e := fun v e' h1 h2 h3 => h1 (hinj v rv e (h3 ▸ h2) he)
      refine ⟨h', ?_, r2, ?_, ?_⟩
      · rw [mbNodes, ha]; simp only [q1, Py.bind_ok]; exact r1
      · intro v e' hv' he'
        have hv' := List.mem_cons.not.1 hv'
        rw [r3 v e' (fun h => hv' (.inr h)) he', q4 e' (hne v e' (fun h => hv' (.inl h)) he')]
      · intro v hv' e' a' he' ha'
        by_cases hvr : v = rv
        · subst hvr
          rw [he] at he'; cases he'
          rw [ha] at ha'; cases ha'
          rw [r3 v e (List.nodup_cons.1 hnd).1 he, q5, ha0]
        · rcases List.mem_cons.1 hv' with h | h
          · exact absurd h hvr
          · rw [r4 v h e' a' he' ha', q4 e' (hne v e' hvr he')]

theorem deref_parentsOf (h : Heap N A) (b : HNet N) (v : N) : (deref h b).parentsOf v = match b.F.get? v with
    | some d => h.nm d.parents | none => [] := by
  unfold BayesNet.parentsOf deref
  rw [Dict.get?_mapv (fun d : HNode => (⟨h.nm d.parents, h.vl d.vals, h.ct d.cpt⟩ : NodeData N A))]
  cases b.F.get? v <;> rfl

theorem deref_childrenOf (h : Heap N A) (b : HNet N) (v : N) : (deref h b).childrenOf v = match b.E.get? v with
    | some a => h.nm a | none => [] := by
  unfold BayesNet.childrenOf deref
  rw [Dict.get?_mapv (fun a => h.nm a)]
  cases b.E.get? v <;> rfl

theorem markovBlanket_ok (h : Heap N A) (b : HNet N) (hb : Bounded h b) (w : (deref h b).Struct) :
    ∃ h' mb, markovBlanket h b = .ok (h', mb) ∧ Keeps h h' ∧ mb.keys = h.nm b.V ∧
      ∀ x ∈ h.nm b.V, ∃ e, mb.get? x = some e ∧ ∀ y, y ∈ h'.nm e ↔ (deref h b).InBlanket x y := by
  have hE : ∀ v ∈ h.nm b.V, ∃ a, b.E.get? v = some a := by
    intro v hv
    have := (w.edges.dom v).2 hv
    unfold deref at this
    rw [Dict.get?_mapv (fun a => h.nm a)] at this
    cases hh : b.E.get? v with
    | none => rw [hh] at this; cases this
    | some a => exact ⟨a, rfl⟩
  have hF : ∀ v ∈ h.nm b.V, ∃ d, b.F.get? v = some d := by
    intro v hv
    have := (w.dom v).2 hv
    unfold deref at this
    rw [Dict.get?_mapv (fun d : HNode => (⟨h.nm d.parents, h.vl d.vals, h.ct d.cpt⟩ : NodeData N A))] at this
    cases hh : b.F.get? v with
    | none => rw [hh] at this; cases this
    | some a => exact ⟨a, rfl⟩
  obtain ⟨h1, mb, q1, q2, q3, q4, q5, q6, q7, q8⟩ := mbAlloc_ok b h hb (h.nm b.V) h [] ⟨Nat.le_refl _, fun _ _ => rfl, rfl, rfl⟩
    (fun v hv => by obtain ⟨a, ha⟩ := hE v hv; obtain ⟨d, hd⟩ := hF v hv; exact ⟨d, a, hd, ha⟩)
    w.nodup (by simp [Dict.keys]) (by simp) (by simp)
  simp only [Dict.keys, List.map_nil, List.nil_append] at q4
  have hV : h1.nm b.V = h.nm b.V := q2.nm _ hb.1
  obtain ⟨h', r1, r2, r3, r4⟩ := mbNodes_ok hb q6 (h.nm b.V) h1 q2 w.nodup q5 fun v hv => by
    refine ⟨by unfold Dict.keys; rw [q4]; exact hv, ?_⟩
    obtain ⟨a, ha⟩ := hE v hv
    refine ⟨a, ha, fun c hc => ?_⟩
    obtain ⟨d, hd⟩ := hF c (w.head_mem (u := v) (by rw [deref_childrenOf, ha]; exact hc))
    rw [hd]; rfl
  refine ⟨h', mb, ?_, r2, q4, fun x hx => ?_⟩
  · unfold markovBlanket; rw [q1]; simp only [Py.bind_ok, hV, r1]; rfl
  · obtain ⟨d, a, e, hd, ha, he, hc⟩ := q8 x hx
    refine ⟨e, he, fun y => ?_⟩
    rw [r4 x hx e a he ha, hc]
    unfold BayesNet.InBlanket
    rw [deref_parentsOf, deref_childrenOf, hd, ha]
    simp only [List.mem_append, spouses, List.mem_flatMap, or_assoc]
    refine or_congr_right (or_congr_right ?_)
    constructor
    · rintro ⟨c, hc1, hc2⟩
      cases hcF : b.F.get? c with
      | none => rw [hcF] at hc2; cases hc2
      | some d' =>
        rw [hcF] at hc2
        simp only [List.mem_filter, decide_eq_true_eq] at hc2
        exact ⟨hc2.2, c, hc1, by rw [deref_parentsOf, hcF]; exact hc2.1⟩
    · rintro ⟨hne, c, hc1, hc2⟩
      refine ⟨c, hc1, ?_⟩
      rw [deref_parentsOf] at hc2
      cases hcF : b.F.get? c with
      | none => rw [hcF] at hc2; cases hc2
      | some d' =>
        rw [hcF] at hc2
        simp only [List.mem_filter, decide_eq_true_eq]
        exact ⟨hc2, hne⟩

theorem Keeps.deref {h h' : Heap N A} (k : Keeps h h') {b : HNet N} (hb : b.V < h.names.length ∧ (∀ p ∈ b.E, p.2 < h.names.length) ∧
    ∀ p ∈ b.F, p.2.parents < h.names.length) : deref h' b = deref h b := by
  unfold HNet.deref
  congr 1
  · exact k.nm _ hb.1
  · exact List.map_congr_left fun p hp => by rw [k.nm _ (hb.2.1 p hp)]
  · refine List.map_congr_left fun p hp => ?_
    rw [k.nm _ (hb.2.2 p hp)]
    simp only [Heap.vl, Heap.ct, k.vals, k.cpts]

end HNet
end PyBN
