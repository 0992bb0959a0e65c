import Verif.Proofs.Dict
import Verif.Spec.Edit

/-!
# Lemmas on edits: frames, copies, arc updates
-/

set_option linter.unusedSectionVars false

namespace PyBN

theorem Dict.get?_mapv {K V W : Type _} [DecidableEq K] (f : V → W) (d : Dict K V) (k : K) :
    Dict.get? (d.map fun kv => (kv.1, f kv.2)) k = (Dict.get? d k).map f := by
  induction d with
  | nil => rfl
  | cons kv d ih =>
    rw [List.map_cons]
    show Dict.get? ((kv.1, f kv.2) :: _) k = (Dict.get? ((kv.1, kv.2) :: d) k).map f
    rw [Dict.get?_cons, Dict.get?_cons]
    split_ifs
    · rfl
    · exact ih

theorem Dict.mem_set {K V : Type _} [DecidableEq K] {d : Dict K V} {k : K} {v : V} {x : K × V} (h : x ∈ Dict.set d k v) :
    x ∈ d ∨ x = (k, v) := by
  induction d with
  | nil => simp [Dict.set] at h; exact .inr h
  | cons kv d ih =>
    obtain ⟨k', v'⟩ := kv
    unfold Dict.set at h
    split_ifs at h with hk
    · rcases List.mem_cons.1 h with h | h
      · exact .inr (by rw [h, hk])
      · exact .inl (by simp [h])
    · rcases List.mem_cons.1 h with h | h
      · exact .inl (by simp [h])
      · rcases ih h with h | h
        · exact .inl (by simp [h])
        · exact .inr h

namespace Heap
variable {N A : Type _}

theorem nm_putN (h : Heap N A) (a : ℕ) (l : List N) (x : ℕ) :
    (h.putN a l).nm x = if x = a ∧ a < h.names.length then l else h.nm x := by
  unfold nm putN
  simp only [List.getElem?_set]
  by_cases hx : a = x
  · subst hx
    by_cases hl : a < h.names.length
    · simp [hl]
    · simp [hl]
  · simp [hx, Ne.symm hx]

theorem vl_putV (h : Heap N A) (a : ℕ) (l : List A) (x : ℕ) :
    (h.putV a l).vl x = if x = a ∧ a < h.vals.length then l else h.vl x := by
  unfold vl putV
  simp only [List.getElem?_set]
  by_cases hx : a = x
  · subst hx
    by_cases hl : a < h.vals.length
    · simp [hl]
    · simp [hl]
  · simp [hx, Ne.symm hx]

theorem ct_putC (h : Heap N A) (a : ℕ) (l : List ℚ) (x : ℕ) :
    (h.putC a l).ct x = if x = a ∧ a < h.cpts.length then l else h.ct x := by
  unfold ct putC
  simp only [List.getElem?_set]
  by_cases hx : a = x
  · subst hx
    by_cases hl : a < h.cpts.length
    · simp [hl]
    · simp [hl]
  · simp [hx, Ne.symm hx]

theorem nm_putN_ne {h : Heap N A} {a x : ℕ} {l : List N} (hx : x ≠ a) : (h.putN a l).nm x = h.nm x := by
  rw [nm_putN, if_neg fun hh => hx hh.1]

theorem nm_putN_self {h : Heap N A} {a : ℕ} {l : List N} (ha : a < h.names.length) : (h.putN a l).nm a = l := by
  rw [nm_putN, if_pos ⟨rfl, ha⟩]

end Heap

namespace HNet
variable {N A : Type _} [DecidableEq N] [DecidableEq A]

theorem mem_nAddr_E {b : HNet N} {u : N} {a : ℕ} (h : Dict.get? b.E u = some a) : a ∈ b.nAddr := by
  have := Dict.get?_mem h
  simp only [nAddr, List.mem_cons, List.mem_append, List.mem_map]
  exact .inr (.inl ⟨_, this, rfl⟩)

theorem mem_nAddr_F {b : HNet N} {u : N} {d : HNode} (h : Dict.get? b.F u = some d) : d.parents ∈ b.nAddr := by
  have := Dict.get?_mem h
  simp only [nAddr, List.mem_cons, List.mem_append, List.mem_map]
  exact .inr (.inr ⟨_, this, rfl⟩)

theorem mem_vAddr {b : HNet N} {u : N} {d : HNode} (h : Dict.get? b.F u = some d) : d.vals ∈ b.vAddr :=
  List.mem_map.2 ⟨_, Dict.get?_mem h, rfl⟩

theorem mem_cAddr {b : HNet N} {u : N} {d : HNode} (h : Dict.get? b.F u = some d) : d.cpt ∈ b.cAddr :=
  List.mem_map.2 ⟨_, Dict.get?_mem h, rfl⟩

theorem childrenOf_deref (h : Heap N A) (b : HNet N) (u : N) :
    (deref h b).childrenOf u = match Dict.get? b.E u with | some a => h.nm a | none => [] := by
  unfold BayesNet.childrenOf deref
  simp only
  rw [Dict.get?_mapv h.nm]
  cases Dict.get? b.E u <;> rfl

theorem getF_deref (h : Heap N A) (b : HNet N) (u : N) :
    Dict.get? (deref h b).F u = (Dict.get? b.F u).map fun d => ⟨h.nm d.parents, h.vl d.vals, h.ct d.cpt⟩ := by
  unfold deref
  exact Dict.get?_mapv (fun d : HNode => (⟨h.nm d.parents, h.vl d.vals, h.ct d.cpt⟩ : NodeData N A)) b.F u

theorem getE_deref (h : Heap N A) (b : HNet N) (u : N) :
    Dict.get? (deref h b).E u = (Dict.get? b.E u).map h.nm := by
  unfold deref
  exact Dict.get?_mapv h.nm b.E u

theorem parentsOf_deref (h : Heap N A) (b : HNet N) (u : N) :
    (deref h b).parentsOf u = match Dict.get? b.F u with | some d => h.nm d.parents | none => [] := by
  unfold BayesNet.parentsOf
  rw [getF_deref]
  cases Dict.get? b.F u <;> rfl

/-- A network sees no difference between heaps that agree on its addresses. -/
theorem deref_congr {h h' : Heap N A} {b : HNet N} (hn : ∀ a ∈ b.nAddr, h'.nm a = h.nm a) (hv : ∀ a ∈ b.vAddr, h'.vl a = h.vl a)
    (hc : ∀ a ∈ b.cAddr, h'.ct a = h.ct a) : deref h' b = deref h b := by
  unfold deref
  have hV : h'.nm b.V = h.nm b.V := hn _ (by simp [nAddr])
  rw [hV]
  congr 1
  · apply List.map_congr_left
    intro kv hkv
    rw [hn kv.2 (by simp only [nAddr, List.mem_cons, List.mem_append, List.mem_map]; exact .inr (.inl ⟨kv, hkv, rfl⟩))]
  · apply List.map_congr_left
    intro kv hkv
    rw [hn kv.2.parents (by simp only [nAddr, List.mem_cons, List.mem_append, List.mem_map]; exact .inr (.inr ⟨kv, hkv, rfl⟩)),
      hv kv.2.vals (List.mem_map.2 ⟨kv, hkv, rfl⟩), hc kv.2.cpt (List.mem_map.2 ⟨kv, hkv, rfl⟩)]

/-- What an operation on `b` can touch (`cr`: it may use the default objects). -/
structure Frame (cr : Prop) (h : Heap N A) (b : HNet N) (h' : Heap N A) (b' : HNet N) : Prop where
  lenN : h.names.length ≤ h'.names.length
  lenV : h.vals.length ≤ h'.vals.length
  lenC : h.cpts.length ≤ h'.cpts.length
  nm : ∀ a < h.names.length, a ∉ b.nAddr → (cr → a ≠ 0) → h'.nm a = h.nm a
  vl : ∀ a < h.vals.length, a ∉ b.vAddr → (cr → a ≠ 0) → h'.vl a = h.vl a
  ct : ∀ a < h.cpts.length, a ∉ b.cAddr → (cr → a ≠ 0) → h'.ct a = h.ct a
  nA : ∀ a ∈ b'.nAddr, a ∈ b.nAddr ∨ (h.names.length ≤ a ∧ a < h'.names.length) ∨ (cr ∧ a = 0)
  vA : ∀ a ∈ b'.vAddr, a ∈ b.vAddr ∨ (h.vals.length ≤ a ∧ a < h'.vals.length) ∨ (cr ∧ a = 0)
  cA : ∀ a ∈ b'.cAddr, a ∈ b.cAddr ∨ (h.cpts.length ≤ a ∧ a < h'.cpts.length) ∨ (cr ∧ a = 0)

theorem Frame.refl (cr : Prop) (h : Heap N A) (b : HNet N) : Frame cr h b h b :=
  ⟨le_refl _, le_refl _, le_refl _, fun _ _ _ _ => rfl, fun _ _ _ _ => rfl, fun _ _ _ _ => rfl, fun _ h => .inl h,
    fun _ h => .inl h, fun _ h => .inl h⟩

theorem Frame.mono {cr cr' : Prop} (hc : cr → cr') {h h' : Heap N A} {b b' : HNet N} (f : Frame cr h b h' b') :
    Frame cr' h b h' b' := by
  refine ⟨f.lenN, f.lenV, f.lenC, fun a h1 h2 h3 => f.nm a h1 h2 fun h => h3 (hc h),
    fun a h1 h2 h3 => f.vl a h1 h2 fun h => h3 (hc h), fun a h1 h2 h3 => f.ct a h1 h2 fun h => h3 (hc h), ?_, ?_, ?_⟩
  · intro a ha; rcases f.nA a ha with h | h | ⟨h, h'⟩
    exacts [.inl h, .inr (.inl h), .inr (.inr ⟨hc h, h'⟩)]
  · intro a ha; rcases f.vA a ha with h | h | ⟨h, h'⟩
    exacts [.inl h, .inr (.inl h), .inr (.inr ⟨hc h, h'⟩)]
  · intro a ha; rcases f.cA a ha with h | h | ⟨h, h'⟩
    exacts [.inl h, .inr (.inl h), .inr (.inr ⟨hc h, h'⟩)]

theorem Frame.trans {cr : Prop} {h h1 h2 : Heap N A} {b b1 b2 : HNet N} (f : Frame cr h b h1 b1) (g : Frame cr h1 b1 h2 b2) :
    Frame cr h b h2 b2 := by
  have e1 := f.lenN; have e2 := f.lenV; have e3 := f.lenC
  have g1 := g.lenN; have g2 := g.lenV; have g3 := g.lenC
  refine ⟨by omega, by omega, by omega, ?_, ?_, ?_, ?_, ?_, ?_⟩
  · intro a hl ha hc
    rw [g.nm a (by omega) ?_ hc, f.nm a hl ha hc]
    intro hb; rcases f.nA a hb with h | h | ⟨h, h'⟩
    exacts [ha h, by omega, hc h h']
  · intro a hl ha hc
    rw [g.vl a (by omega) ?_ hc, f.vl a hl ha hc]
    intro hb; rcases f.vA a hb with h | h | ⟨h, h'⟩
    exacts [ha h, by omega, hc h h']
  · intro a hl ha hc
    rw [g.ct a (by omega) ?_ hc, f.ct a hl ha hc]
    intro hb; rcases f.cA a hb with h | h | ⟨h, h'⟩
    exacts [ha h, by omega, hc h h']
  · intro a ha
    rcases g.nA a ha with h | h | h
    · rcases f.nA a h with h | h | h
      exacts [.inl h, .inr (.inl (by omega)), .inr (.inr h)]
    · exact .inr (.inl (by omega))
    · exact .inr (.inr h)
  · intro a ha
    rcases g.vA a ha with h | h | h
    · rcases f.vA a h with h | h | h
      exacts [.inl h, .inr (.inl (by omega)), .inr (.inr h)]
    · exact .inr (.inl (by omega))
    · exact .inr (.inr h)
  · intro a ha
    rcases g.cA a ha with h | h | h
    · rcases f.cA a h with h | h | h
      exacts [.inl h, .inr (.inl (by omega)), .inr (.inr h)]
    · exact .inr (.inl (by omega))
    · exact .inr (.inr h)

theorem Frame.putN (cr : Prop) (h : Heap N A) {b : HNet N} {a : ℕ} (ha : a ∈ b.nAddr) (l : List N) :
    Frame cr h b (h.putN a l) b := by
  refine ⟨by simp [Heap.putN], by simp [Heap.putN], by simp [Heap.putN], ?_, fun _ _ _ _ => rfl, fun _ _ _ _ => rfl,
    fun _ h => .inl h, fun _ h => .inl h, fun _ h => .inl h⟩
  intro x _ hx _
  exact Heap.nm_putN_ne fun h => hx (h ▸ ha)

theorem Frame.putV (cr : Prop) (h : Heap N A) {b : HNet N} {a : ℕ} (ha : a ∈ b.vAddr) (l : List A) :
    Frame cr h b (h.putV a l) b := by
  refine ⟨by simp [Heap.putV], by simp [Heap.putV], by simp [Heap.putV], fun _ _ _ _ => rfl, ?_, fun _ _ _ _ => rfl,
    fun _ h => .inl h, fun _ h => .inl h, fun _ h => .inl h⟩
  intro x _ hx _
  rw [Heap.vl_putV, if_neg (by rintro ⟨rfl, -⟩; exact hx ha)]

theorem Frame.putC (cr : Prop) (h : Heap N A) {b : HNet N} {a : ℕ} (ha : a ∈ b.cAddr) (l : List ℚ) :
    Frame cr h b (h.putC a l) b := by
  refine ⟨by simp [Heap.putC], by simp [Heap.putC], by simp [Heap.putC], fun _ _ _ _ => rfl, fun _ _ _ _ => rfl, ?_,
    fun _ h => .inl h, fun _ h => .inl h, fun _ h => .inl h⟩
  intro x _ hx _
  rw [Heap.ct_putC, if_neg (by rintro ⟨rfl, -⟩; exact hx ha)]

theorem mem_nAddr_setF {b : HNet N} {rv : N} {d : HNode} {a : ℕ} (h : a ∈ ({ b with F := b.F.set rv d } : HNet N).nAddr) :
    a ∈ b.nAddr ∨ a = d.parents := by
  simp only [nAddr, List.mem_cons, List.mem_append, List.mem_map] at h ⊢
  rcases h with h | h | ⟨x, hx, rfl⟩
  · exact .inl (.inl h)
  · exact .inl (.inr (.inl h))
  · rcases Dict.mem_set hx with h | h
    · exact .inl (.inr (.inr ⟨x, h, rfl⟩))
    · exact .inr (by rw [h])

theorem mem_vAddr_setF {b : HNet N} {rv : N} {d : HNode} {a : ℕ} (h : a ∈ ({ b with F := b.F.set rv d } : HNet N).vAddr) :
    a ∈ b.vAddr ∨ a = d.vals := by
  obtain ⟨x, hx, rfl⟩ := List.mem_map.1 h
  rcases Dict.mem_set hx with h | h
  · exact .inl (List.mem_map.2 ⟨x, h, rfl⟩)
  · exact .inr (by rw [h])

theorem mem_cAddr_setF {b : HNet N} {rv : N} {d : HNode} {a : ℕ} (h : a ∈ ({ b with F := b.F.set rv d } : HNet N).cAddr) :
    a ∈ b.cAddr ∨ a = d.cpt := by
  obtain ⟨x, hx, rfl⟩ := List.mem_map.1 h
  rcases Dict.mem_set hx with h | h
  · exact .inl (List.mem_map.2 ⟨x, h, rfl⟩)
  · exact .inr (by rw [h])

theorem Frame.addNode {cr : Prop} (hcr : cr) (h : Heap N A) (b : HNet N) (rv : N) :
    Frame cr h b (HNet.addNode h b rv).1 (HNet.addNode h b rv).2 := by
  refine (Frame.putN cr h (a := b.V) (by simp [nAddr]) _).trans ⟨le_refl _, le_refl _, le_refl _, fun _ _ _ _ => rfl,
    fun _ _ _ _ => rfl, fun _ _ _ _ => rfl, ?_, ?_, ?_⟩
  · intro a ha; rcases mem_nAddr_setF ha with h | h
    exacts [.inl h, .inr (.inr ⟨hcr, h⟩)]
  · intro a ha; rcases mem_vAddr_setF ha with h | h
    exacts [.inl h, .inr (.inr ⟨hcr, h⟩)]
  · intro a ha; rcases mem_cAddr_setF ha with h | h
    exacts [.inl h, .inr (.inr ⟨hcr, h⟩)]

theorem Frame.ensureNode {cr : Prop} (h : Heap N A) (b : HNet N) (rv : N) (hcr : rv ∉ h.nm b.V → cr) :
    Frame cr h b (HNet.ensureNode h b rv).1 (HNet.ensureNode h b rv).2 := by
  unfold HNet.ensureNode
  split_ifs with hm
  · exact Frame.refl _ _ _
  · exact Frame.addNode (hcr hm) h b rv

theorem Frame.linkEdge (cr : Prop) (h : Heap N A) (b : HNet N) (u v : N) :
    Frame cr h b (HNet.linkEdge h b u v).1.1 (HNet.linkEdge h b u v).1.2 := by
  unfold HNet.linkEdge
  cases hE : Dict.get? b.E u with
  | none => exact Frame.refl _ _ _
  | some a =>
    simp only
    split_ifs
    · exact Frame.refl _ _ _
    · cases hF : Dict.get? b.F v with
      | none => exact Frame.putN _ _ (mem_nAddr_E hE) _
      | some d => exact (Frame.putN _ _ (mem_nAddr_E hE) _).trans (Frame.putN _ _ (mem_nAddr_F hF) _)

theorem Frame.removeEdge (cr : Prop) (h : Heap N A) (b : HNet N) (u v : N) :
    Frame cr h b (HNet.removeEdge h b u v).1.1 (HNet.removeEdge h b u v).1.2 := by
  unfold HNet.removeEdge
  cases hE : Dict.get? b.E u with
  | none => exact Frame.refl _ _ _
  | some a =>
    simp only
    split_ifs
    · cases hF : Dict.get? b.F v with
      | none => exact Frame.putN _ _ (mem_nAddr_E hE) _
      | some d =>
        simp only
        split_ifs
        · exact (Frame.putN _ _ (mem_nAddr_E hE) _).trans (Frame.putN _ _ (mem_nAddr_F hF) _)
        · exact Frame.putN _ _ (mem_nAddr_E hE) _
    · exact Frame.refl _ _ _

theorem Frame.reverseArc (cr : Prop) (h : Heap N A) (b : HNet N) (u v : N) :
    Frame cr h b (HNet.reverseArc h b u v).1.1 (HNet.reverseArc h b u v).1.2 := by
  unfold HNet.reverseArc
  cases hE : Dict.get? b.E u with
  | none => exact Frame.refl _ _ _
  | some a =>
    simp only
    split_ifs
    · cases hF : Dict.get? b.E v with
      | none => exact Frame.putN _ _ (mem_nAddr_E hE) _
      | some d => exact (Frame.putN _ _ (mem_nAddr_E hE) _).trans (Frame.putN _ _ (mem_nAddr_E hF) _)
    · exact Frame.refl _ _ _

theorem nm_append (h : Heap N A) (l : List (List N)) {a : ℕ} (ha : a < h.names.length) :
    Heap.nm { h with names := h.names ++ l } a = h.nm a := by
  unfold Heap.nm
  simp only [List.getElem?_append_left ha]

/-- Every operation stays within its frame. -/
theorem step_frame (h : Heap N A) (b : HNet N) (o : Op N A) : Frame (Creates h b o) h b (step h b o).1.1 (step h b o).1.2 := by
  cases o with
  | addNode rv => exact Frame.addNode trivial h b rv
  | addEdge u v =>
    refine (Frame.ensureNode h b u fun hu => (Or.inl hu : Creates h b (.addEdge u v))).trans
      ((Frame.ensureNode _ _ v fun hv => ?_).trans (Frame.linkEdge _ _ _ u v))
    by_cases hu : u ∈ h.nm b.V
    · refine (Or.inr ?_ : Creates h b (.addEdge u v))
      have : HNet.ensureNode h b u = (h, b) := if_pos hu
      rwa [this] at hv
    · exact Or.inl hu
  | removeEdge u v => exact Frame.removeEdge _ h b u v
  | reverseArc u v => exact Frame.reverseArc _ h b u v
  | setCpt rv l =>
    simp only [step, setCpt]
    cases hF : Dict.get? b.F rv with
    | none => exact Frame.refl _ _ _
    | some d =>
      refine ⟨le_refl _, le_refl _, by simp, fun _ _ _ _ => rfl, fun _ _ _ _ => rfl, ?_, ?_, ?_, ?_⟩
      · intro a ha _ _; simp only [Heap.ct, List.getElem?_append_left ha]
      · intro a ha; rcases mem_nAddr_setF ha with h | h
        exacts [.inl h, .inl (by have := mem_nAddr_F hF; rw [h]; exact this)]
      · intro a ha; rcases mem_vAddr_setF ha with h | h
        exacts [.inl h, .inl (by have := mem_vAddr hF; rw [h]; exact this)]
      · intro a ha; rcases mem_cAddr_setF ha with h | h
        · exact .inl h
        · simp only at h; simp; omega
  | setParents rv l =>
    simp only [step, setParents]
    cases hF : Dict.get? b.F rv with
    | none => exact Frame.refl _ _ _
    | some d =>
      refine ⟨by simp, le_refl _, le_refl _, ?_, fun _ _ _ _ => rfl, fun _ _ _ _ => rfl, ?_, ?_, ?_⟩
      · intro a ha _ _; simp only [Heap.nm, List.getElem?_append_left ha]
      · intro a ha; rcases mem_nAddr_setF ha with h | h
        · exact .inl h
        · simp only at h; simp; omega
      · intro a ha; rcases mem_vAddr_setF ha with h | h
        exacts [.inl h, .inl (by have := mem_vAddr hF; rw [h]; exact this)]
      · intro a ha; rcases mem_cAddr_setF ha with h | h
        exacts [.inl h, .inl (by have := mem_cAddr hF; rw [h]; exact this)]
  | setValues rv l =>
    simp only [step, setValues]
    cases hF : Dict.get? b.F rv with
    | none => exact Frame.refl _ _ _
    | some d =>
      refine ⟨le_refl _, by simp, le_refl _, fun _ _ _ _ => rfl, ?_, fun _ _ _ _ => rfl, ?_, ?_, ?_⟩
      · intro a ha _ _; simp only [Heap.vl, List.getElem?_append_left ha]
      · intro a ha; rcases mem_nAddr_setF ha with h | h
        exacts [.inl h, .inl (by have := mem_nAddr_F hF; rw [h]; exact this)]
      · intro a ha; rcases mem_vAddr_setF ha with h | h
        · exact .inl h
        · simp only at h; simp; omega
      · intro a ha; rcases mem_cAddr_setF ha with h | h
        exacts [.inl h, .inl (by have := mem_cAddr hF; rw [h]; exact this)]
  | pokeV l => exact Frame.putN _ _ (by simp [nAddr]) l
  | pokeChildren u l =>
    simp only [step]
    cases hE : Dict.get? b.E u with
    | none => exact Frame.refl _ _ _
    | some a => exact Frame.putN _ _ (mem_nAddr_E hE) l
  | pokeParents u l =>
    simp only [step]
    cases hE : Dict.get? b.F u with
    | none => exact Frame.refl _ _ _
    | some a => exact Frame.putN _ _ (mem_nAddr_F hE) l
  | pokeValues u l =>
    simp only [step]
    cases hE : Dict.get? b.F u with
    | none => exact Frame.refl _ _ _
    | some a => exact Frame.putV _ _ (mem_vAddr hE) l
  | pokeCpt u l =>
    simp only [step]
    cases hE : Dict.get? b.F u with
    | none => exact Frame.refl _ _ _
    | some a => exact Frame.putC _ _ (mem_cAddr hE) l

/-- Two networks share no object. -/
structure Apart (b c : HNet N) : Prop where
  n : ∀ a ∈ b.nAddr, a ∉ c.nAddr
  v : ∀ a ∈ b.vAddr, a ∉ c.vAddr
  c : ∀ a ∈ b.cAddr, a ∉ c.cAddr

theorem Apart.symm {b c : HNet N} (h : Apart b c) : Apart c b :=
  ⟨fun a h1 h2 => h.n a h2 h1, fun a h1 h2 => h.v a h2 h1, fun a h1 h2 => h.c a h2 h1⟩

theorem frame_deref {cr : Prop} {h h' : Heap N A} {b b' c : HNet N} (f : Frame cr h b h' b') (hap : Apart b c)
    (hc : InBounds h c) (hd : cr → c.NoDefault) : deref h' c = deref h c := by
  apply deref_congr
  · intro a ha; exact f.nm a (hc.n a ha) (fun h => hap.n a h ha) fun hcr h0 => (hd hcr).1 (h0 ▸ ha)
  · intro a ha; exact f.vl a (hc.v a ha) (fun h => hap.v a h ha) fun hcr h0 => (hd hcr).2.1 (h0 ▸ ha)
  · intro a ha; exact f.ct a (hc.c a ha) (fun h => hap.c a h ha) fun hcr h0 => (hd hcr).2.2 (h0 ▸ ha)

theorem frame_apart {cr : Prop} {h h' : Heap N A} {b b' c : HNet N} (f : Frame cr h b h' b') (hap : Apart b c)
    (hc : InBounds h c) (hd : cr → c.NoDefault) : Apart b' c := by
  refine ⟨?_, ?_, ?_⟩
  · intro a ha hac
    rcases f.nA a ha with h | h | ⟨h, h'⟩
    · exact hap.n a h hac
    · have := hc.n a hac; omega
    · exact (hd h).1 (h' ▸ hac)
  · intro a ha hac
    rcases f.vA a ha with h | h | ⟨h, h'⟩
    · exact hap.v a h hac
    · have := hc.v a hac; omega
    · exact (hd h).2.1 (h' ▸ hac)
  · intro a ha hac
    rcases f.cA a ha with h | h | ⟨h, h'⟩
    · exact hap.c a h hac
    · have := hc.c a hac; omega
    · exact (hd h).2.2 (h' ▸ hac)

theorem frame_inBounds_other {cr : Prop} {h h' : Heap N A} {b b' c : HNet N} (f : Frame cr h b h' b') (hc : InBounds h c) :
    InBounds h' c := by
  have e1 := f.lenN; have e2 := f.lenV; have e3 := f.lenC
  have := hc.n0; have := hc.v0; have := hc.c0
  exact ⟨fun a ha => by have := hc.n a ha; omega, fun a ha => by have := hc.v a ha; omega,
    fun a ha => by have := hc.c a ha; omega, by omega, by omega, by omega⟩

theorem frame_inBounds {cr : Prop} {h h' : Heap N A} {b b' : HNet N} (f : Frame cr h b h' b') (hc : InBounds h b) :
    InBounds h' b' := by
  have e1 := f.lenN; have e2 := f.lenV; have e3 := f.lenC
  have := hc.n0; have := hc.v0; have := hc.c0
  refine ⟨fun a ha => ?_, fun a ha => ?_, fun a ha => ?_, by omega, by omega, by omega⟩
  · rcases f.nA a ha with h | h | h
    · have := hc.n a h; omega
    · omega
    · omega
  · rcases f.vA a ha with h | h | h
    · have := hc.v a h; omega
    · omega
    · omega
  · rcases f.cA a ha with h | h | h
    · have := hc.c a h; omega
    · omega
    · omega

/-- `h'` extends `h` with new objects only. -/
structure Extends (h h' : Heap N A) : Prop where
  n : ∃ l, h'.names = h.names ++ l
  v : ∃ l, h'.vals = h.vals ++ l
  c : ∃ l, h'.cpts = h.cpts ++ l

theorem Extends.refl (h : Heap N A) : Extends h h := ⟨⟨[], by simp⟩, ⟨[], by simp⟩, ⟨[], by simp⟩⟩

theorem Extends.trans {h h1 h2 : Heap N A} (f : Extends h h1) (g : Extends h1 h2) : Extends h h2 := by
  obtain ⟨⟨l1, h1⟩, ⟨l2, h2⟩, ⟨l3, h3⟩⟩ := f
  obtain ⟨⟨m1, g1⟩, ⟨m2, g2⟩, ⟨m3, g3⟩⟩ := g
  exact ⟨⟨l1 ++ m1, by rw [g1, h1, List.append_assoc]⟩, ⟨l2 ++ m2, by rw [g2, h2, List.append_assoc]⟩,
    ⟨l3 ++ m3, by rw [g3, h3, List.append_assoc]⟩⟩

theorem Extends.nm {h h' : Heap N A} (f : Extends h h') {a : ℕ} (ha : a < h.names.length) : h'.nm a = h.nm a := by
  obtain ⟨l, hl⟩ := f.n
  simp only [Heap.nm, hl, List.getElem?_append_left ha]

theorem Extends.vl {h h' : Heap N A} (f : Extends h h') {a : ℕ} (ha : a < h.vals.length) : h'.vl a = h.vl a := by
  obtain ⟨l, hl⟩ := f.v
  simp only [Heap.vl, hl, List.getElem?_append_left ha]

theorem Extends.ct {h h' : Heap N A} (f : Extends h h') {a : ℕ} (ha : a < h.cpts.length) : h'.ct a = h.ct a := by
  obtain ⟨l, hl⟩ := f.c
  simp only [Heap.ct, hl, List.getElem?_append_left ha]

theorem Extends.lenN {h h' : Heap N A} (f : Extends h h') : h.names.length ≤ h'.names.length := by
  obtain ⟨l, hl⟩ := f.n; rw [hl]; simp
theorem Extends.lenV {h h' : Heap N A} (f : Extends h h') : h.vals.length ≤ h'.vals.length := by
  obtain ⟨l, hl⟩ := f.v; rw [hl]; simp
theorem Extends.lenC {h h' : Heap N A} (f : Extends h h') : h.cpts.length ≤ h'.cpts.length := by
  obtain ⟨l, hl⟩ := f.c; rw [hl]; simp

theorem Extends.deref {h h' : Heap N A} (f : Extends h h') {b : HNet N} (hb : InBounds h b) : deref h' b = deref h b :=
  deref_congr (fun a ha => f.nm (hb.n a ha)) (fun a ha => f.vl (hb.v a ha)) fun a ha => f.ct (hb.c a ha)

/-- The data of a node as seen in a heap. -/
def see (h : Heap N A) (d : HNode) : NodeData N A := ⟨h.nm d.parents, h.vl d.vals, h.ct d.cpt⟩

theorem copyF_spec (b : HNet N) : ∀ (vs : List N) (h : Heap N A) (F : Dict N HNode), InBounds h b →
    (∀ v ∈ vs, (Dict.get? b.F v).isSome) →
    ∃ h' F', copyF b vs h F = .ok (h', F') ∧ Extends h h' ∧
      (∀ x ∈ F', x ∈ F ∨ ((h.names.length ≤ x.2.parents ∧ x.2.parents < h'.names.length) ∧
        (h.vals.length ≤ x.2.vals ∧ x.2.vals < h'.vals.length) ∧ (h.cpts.length ≤ x.2.cpt ∧ x.2.cpt < h'.cpts.length))) ∧
      (∀ v, v ∉ vs → Dict.get? F' v = Dict.get? F v) ∧
      (∀ v ∈ vs, (Dict.get? F' v).map (see h') = (Dict.get? b.F v).map (see h)) := by
  intro vs
  induction vs with
  | nil => intro h F _ _; exact ⟨h, F, rfl, Extends.refl h, fun x hx => .inl hx, fun v _ => rfl, by simp⟩
  | cons v vs ih =>
    intro h F hb hvs
    obtain ⟨d, hd⟩ := Option.isSome_iff_exists.1 (hvs v (by simp))
    set h1 : Heap N A := ⟨h.names ++ [h.nm d.parents], h.vals ++ [h.vl d.vals], h.cpts ++ [h.ct d.cpt]⟩ with hh1
    have e1 : Extends h h1 := ⟨⟨_, rfl⟩, ⟨_, rfl⟩, ⟨_, rfl⟩⟩
    have hb1 : InBounds h1 b := by
      have := hb.n0; have := hb.v0; have := hb.c0
      have := e1.lenN; have := e1.lenV; have := e1.lenC
      exact ⟨fun a ha => by have := hb.n a ha; omega, fun a ha => by have := hb.v a ha; omega,
        fun a ha => by have := hb.c a ha; omega, by omega, by omega, by omega⟩
    obtain ⟨h', F', r1, r2, r3, r4, r5⟩ := ih h1 (F.set v ⟨h.names.length, h.vals.length, h.cpts.length⟩) hb1
      fun u hu => hvs u (by simp [hu])
    have l1 : h1.names.length = h.names.length + 1 := by simp [hh1]
    have l2 : h1.vals.length = h.vals.length + 1 := by simp [hh1]
    have l3 : h1.cpts.length = h.cpts.length + 1 := by simp [hh1]
    have k1 := r2.lenN; have k2 := r2.lenV; have k3 := r2.lenC
    have hsee : ∀ u d', Dict.get? b.F u = some d' → see h1 d' = see h d' := by
      intro u d' hu
      unfold see
      rw [e1.nm (hb.n _ (mem_nAddr_F hu)), e1.vl (hb.v _ (mem_vAddr hu)), e1.ct (hb.c _ (mem_cAddr hu))]
    refine ⟨h', F', ?_, e1.trans r2, ?_, ?_, ?_⟩
    · unfold copyF; simp only [hd]; exact r1
    · intro x hx
      rcases r3 x hx with hx | hx
      · rcases Dict.mem_set hx with hx | hx
        · exact .inl hx
        · right; rw [hx]; simp only; omega
      · right; omega
    · intro u hu
      rw [List.mem_cons, not_or] at hu
      rw [r4 u hu.2, Dict.get?_set_ne _ _ (Ne.symm hu.1)]
    · intro u hu
      by_cases hin : u ∈ vs
      · rw [r5 u hin]
        cases hg : Dict.get? b.F u with
        | none => rfl
        | some d' => simp only [Option.map_some, hsee u d' hg]
      · have huv : u = v := by simpa [hin] using hu
        rw [huv] at hin ⊢
        rw [r4 v hin, Dict.get?_set_self, hd]
        simp only [Option.map_some, see]
        rw [r2.nm (by omega), r2.vl (by omega), r2.ct (by omega)]
        simp [hh1, Heap.nm, Heap.vl, Heap.ct]

theorem copy_spec (h : Heap N A) (b : HNet N) (hb : InBounds h b) (hV : ∀ v ∈ h.nm b.V, (Dict.get? b.F v).isSome) :
    ∃ h' c, copy h b = .ok (h', c) ∧ Extends h h' ∧ Apart b c ∧ c.NoDefault ∧ InBounds h' c ∧
      (deref h' c).V = (deref h b).V ∧ (deref h' c).E = (deref h b).E ∧
      (∀ v ∈ h.nm b.V, Dict.get? (deref h' c).F v = Dict.get? (deref h b).F v) ∧
      (∀ v, v ∉ h.nm b.V → Dict.get? (deref h' c).F v = none) := by
  set h1 : Heap N A := { h with names := h.names ++ [h.nm b.V] ++ h.names } with hh1
  have e1 : Extends h h1 := ⟨⟨[h.nm b.V] ++ h.names, by simp [hh1]⟩, ⟨[], by simp [hh1]⟩, ⟨[], by simp [hh1]⟩⟩
  have l1 : h1.names.length = h.names.length + 1 + h.names.length := by simp [hh1]; omega
  have l2 : h1.vals.length = h.vals.length := by simp [hh1]
  have l3 : h1.cpts.length = h.cpts.length := by simp [hh1]
  have p1 := hb.n0; have p2 := hb.v0; have p3 := hb.c0
  have hb1 : InBounds h1 b := by
    exact ⟨fun a ha => by have := hb.n a ha; omega, fun a ha => by have := hb.v a ha; omega,
      fun a ha => by have := hb.c a ha; omega, by omega, by omega, by omega⟩
  obtain ⟨h', F', r1, r2, r3, r4, r5⟩ := copyF_spec b (h.nm b.V) h1 [] hb1 hV
  have k1 := r2.lenN; have k2 := r2.lenV; have k3 := r2.lenC
  set E' : Dict N ℕ := b.E.map fun kv => (kv.1, kv.2 + (h.names.length + 1)) with hE'
  have hEb : ∀ kv ∈ b.E, kv.2 < h.names.length := fun kv hkv =>
    hb.n _ (by simp only [nAddr, List.mem_cons, List.mem_append, List.mem_map]; exact .inr (.inl ⟨kv, hkv, rfl⟩))
  have hcn : ∀ a ∈ (⟨h.names.length, E', F'⟩ : HNet N).nAddr, h.names.length ≤ a ∧ a < h'.names.length := by
    intro a ha
    simp only [nAddr, List.mem_cons, List.mem_append, List.mem_map] at ha
    rcases ha with rfl | ⟨kv, hkv, rfl⟩ | ⟨kv, hkv, rfl⟩
    · omega
    · rw [hE'] at hkv
      obtain ⟨kv', hkv', rfl⟩ := List.mem_map.1 hkv
      have := hEb kv' hkv'
      simp only; omega
    · rcases r3 kv hkv with h | h
      · cases h
      · omega
  have hcv : ∀ a ∈ (⟨h.names.length, E', F'⟩ : HNet N).vAddr, h.vals.length ≤ a ∧ a < h'.vals.length := by
    intro a ha
    obtain ⟨kv, hkv, rfl⟩ := List.mem_map.1 ha
    rcases r3 kv hkv with h | h
    · cases h
    · omega
  have hcc : ∀ a ∈ (⟨h.names.length, E', F'⟩ : HNet N).cAddr, h.cpts.length ≤ a ∧ a < h'.cpts.length := by
    intro a ha
    obtain ⟨kv, hkv, rfl⟩ := List.mem_map.1 ha
    rcases r3 kv hkv with h | h
    · cases h
    · omega
  have hVn : h1.nm h.names.length = h.nm b.V := by
    simp [hh1, Heap.nm]
  refine ⟨h', ⟨h.names.length, E', F'⟩, ?_, e1.trans r2, ⟨?_, ?_, ?_⟩, ⟨?_, ?_, ?_⟩, ⟨?_, ?_, ?_, by omega, by omega, by omega⟩,
    ?_, ?_, ?_, ?_⟩
  · unfold copy
    show (copyF b (h.nm b.V) h1 [] >>= _) = _
    rw [r1]; rfl
  · intro a ha hc; have := hb.n a ha; have := hcn a hc; omega
  · intro a ha hc; have := hb.v a ha; have := hcv a hc; omega
  · intro a ha hc; have := hb.c a ha; have := hcc a hc; omega
  · intro hc; have := hcn 0 hc; omega
  · intro hc; have := hcv 0 hc; omega
  · intro hc; have := hcc 0 hc; omega
  · intro a ha; exact (hcn a ha).2
  · intro a ha; exact (hcv a ha).2
  · intro a ha; exact (hcc a ha).2
  · show h'.nm h.names.length = h.nm b.V
    rw [r2.nm (by omega), hVn]
  · show E'.map (fun kv => (kv.1, h'.nm kv.2)) = b.E.map fun kv => (kv.1, h.nm kv.2)
    rw [hE', List.map_map]
    apply List.map_congr_left
    intro kv hkv
    have hlt := hEb kv hkv
    simp only [Function.comp]
    rw [r2.nm (by omega)]
    congr 1
    simp only [hh1, Heap.nm]
    rw [List.getElem?_append_right (by simp)]
    congr 2
    simp
  · intro v hv
    rw [getF_deref, getF_deref]
    have := r5 v hv
    unfold see at this
    rw [this]
    obtain ⟨d, hd⟩ := Option.isSome_iff_exists.1 (hV v hv)
    rw [hd]
    simp only [Option.map_some]
    rw [e1.nm (hb.n _ (mem_nAddr_F hd)), e1.vl (hb.v _ (mem_vAddr hd)), e1.ct (hb.c _ (mem_cAddr hd))]
  · intro v hv
    rw [getF_deref]
    show (Dict.get? F' v).map _ = none
    rw [r4 v hv]; rfl

/-! ### Arc updates -/

theorem Separate.parts {b : HNet N} (hs : Separate b) : (∀ kv ∈ b.E, kv.2 ≠ b.V) ∧ (∀ kv ∈ b.F, kv.2.parents ≠ b.V) ∧
    (b.E.map Prod.snd).Nodup ∧ (b.F.map fun kv => kv.2.parents).Nodup ∧
    (∀ x ∈ b.E, ∀ y ∈ b.F, x.2 ≠ y.2.parents) := by
  unfold Separate nAddr at hs
  rw [List.nodup_cons, List.nodup_append] at hs
  obtain ⟨h1, h2, h3, h4⟩ := hs
  rw [List.mem_append, not_or] at h1
  refine ⟨fun kv hkv h => h1.1 (h ▸ List.mem_map.2 ⟨kv, hkv, rfl⟩), fun kv hkv h => h1.2 (h ▸ List.mem_map.2 ⟨kv, hkv, rfl⟩), h2, h3, ?_⟩
  intro x hx y hy h
  exact h4 _ (List.mem_map.2 ⟨x, hx, rfl⟩) _ (List.mem_map.2 ⟨y, hy, rfl⟩) h

theorem put_child {h : Heap N A} {b : HNet N} (hs : Separate b) (hb : InBounds h b) {u : N} {a : ℕ}
    (hE : Dict.get? b.E u = some a) (l : List N) :
    (∀ x, (deref (h.putN a l) b).childrenOf x = if x = u then l else (deref h b).childrenOf x) ∧
    (∀ x, (deref (h.putN a l) b).parentsOf x = (deref h b).parentsOf x) ∧ (h.putN a l).nm b.V = h.nm b.V ∧
    (∀ x d, Dict.get? b.F x = some d → (h.putN a l).nm d.parents = h.nm d.parents) := by
  obtain ⟨s1, s2, s3, s4, s5⟩ := hs.parts
  have hmem := Dict.get?_mem hE
  have ha : a < h.names.length := hb.n a (mem_nAddr_E hE)
  have hF : ∀ x d, Dict.get? b.F x = some d → (h.putN a l).nm d.parents = h.nm d.parents := by
    intro x d hd
    exact Heap.nm_putN_ne (Ne.symm (s5 _ hmem _ (Dict.get?_mem hd)))
  refine ⟨fun x => ?_, fun x => ?_, Heap.nm_putN_ne (Ne.symm (s1 _ hmem)), hF⟩
  · rw [childrenOf_deref, childrenOf_deref]
    by_cases hx : x = u
    · rw [if_pos hx, hx, hE]; exact Heap.nm_putN_self ha
    · rw [if_neg hx]
      cases hg : Dict.get? b.E x with
      | none => rfl
      | some a' =>
        apply Heap.nm_putN_ne
        intro h'
        have := List.inj_on_of_nodup_map s3 (Dict.get?_mem hg) hmem h'
        exact hx (Prod.mk.inj this).1
  · rw [parentsOf_deref, parentsOf_deref]
    cases hg : Dict.get? b.F x with
    | none => rfl
    | some d => exact hF x d hg

theorem put_parent {h : Heap N A} {b : HNet N} (hs : Separate b) (hb : InBounds h b) {v : N} {d : HNode}
    (hF : Dict.get? b.F v = some d) (l : List N) :
    (∀ x, (deref (h.putN d.parents l) b).parentsOf x = if x = v then l else (deref h b).parentsOf x) ∧
    (∀ x, (deref (h.putN d.parents l) b).childrenOf x = (deref h b).childrenOf x) ∧
    (h.putN d.parents l).nm b.V = h.nm b.V := by
  obtain ⟨s1, s2, s3, s4, s5⟩ := hs.parts
  have hmem := Dict.get?_mem hF
  have ha : d.parents < h.names.length := hb.n _ (mem_nAddr_F hF)
  refine ⟨fun x => ?_, fun x => ?_, Heap.nm_putN_ne (Ne.symm (s2 _ hmem))⟩
  · rw [parentsOf_deref, parentsOf_deref]
    by_cases hx : x = v
    · rw [if_pos hx, hx, hF]; exact Heap.nm_putN_self ha
    · rw [if_neg hx]
      cases hg : Dict.get? b.F x with
      | none => rfl
      | some d' =>
        apply Heap.nm_putN_ne
        intro h'
        have := List.inj_on_of_nodup_map s4 (Dict.get?_mem hg) hmem h'
        exact hx (Prod.mk.inj this).1
  · rw [childrenOf_deref, childrenOf_deref]
    cases hg : Dict.get? b.E x with
    | none => rfl
    | some a => exact Heap.nm_putN_ne (s5 _ (Dict.get?_mem hg) _ hmem)

theorem putN_inBounds {h : Heap N A} {b : HNet N} (hb : InBounds h b) (a : ℕ) (l : List N) : InBounds (h.putN a l) b := by
  refine ⟨?_, hb.v, hb.c, ?_, hb.v0, hb.c0⟩
  · intro x hx; simpa [Heap.putN] using hb.n x hx
  · simpa [Heap.putN] using hb.n0

/-- The state of a network whose edits are under control. -/
structure Good (h : Heap N A) (b : HNet N) : Prop where
  sep : Separate b
  inb : InBounds h b
  wf : (deref h b).StructWF
  con : (deref h b).Consistent

theorem Good.getE {h : Heap N A} {b : HNet N} (g : Good h b) {u : N} (hu : u ∈ h.nm b.V) :
    ∃ a, Dict.get? b.E u = some a ∧ h.nm a = (deref h b).childrenOf u := by
  have := (g.wf.domE u).2 hu
  rw [getE_deref, Option.isSome_map] at this
  obtain ⟨a, ha⟩ := Option.isSome_iff_exists.1 this
  exact ⟨a, ha, by rw [childrenOf_deref, ha]⟩

theorem Good.getF {h : Heap N A} {b : HNet N} (g : Good h b) {u : N} (hu : u ∈ h.nm b.V) :
    ∃ d, Dict.get? b.F u = some d ∧ h.nm d.parents = (deref h b).parentsOf u := by
  have := (g.wf.domF u).2 hu
  rw [getF_deref, Option.isSome_map] at this
  obtain ⟨a, ha⟩ := Option.isSome_iff_exists.1 this
  exact ⟨a, ha, by rw [parentsOf_deref, ha]⟩

/-- Rebuilding `Good` after the heap changed under an unchanged network object. -/
theorem Good.of_lists {h h' : Heap N A} {b : HNet N} (g : Good h b) (hb : InBounds h' b) (hV : h'.nm b.V = h.nm b.V)
    (hC : ∀ x, ((deref h' b).childrenOf x).Nodup) (hP : ∀ x, ((deref h' b).parentsOf x).Nodup)
    (hc : (deref h' b).Consistent) : Good h' b := by
  refine ⟨g.sep, hb, ⟨?_, ?_, hC, hP⟩, hc⟩
  · intro v
    have := g.wf.domE v
    rw [getE_deref, Option.isSome_map] at this ⊢
    show _ ↔ v ∈ h'.nm b.V
    rw [hV]; exact this
  · intro v
    have := g.wf.domF v
    rw [getF_deref, Option.isSome_map] at this ⊢
    show _ ↔ v ∈ h'.nm b.V
    rw [hV]; exact this

theorem addEdge_good {h : Heap N A} {b : HNet N} (g : Good h b) {u v : N} (hu : u ∈ h.nm b.V) (hv : v ∈ h.nm b.V) :
    ∃ h', addEdge h b u v = ((h', b), none) ∧ Good h' b ∧ h'.nm b.V = h.nm b.V ∧
      (∀ x, (deref h' b).childrenOf x =
        if x = u ∧ v ∉ (deref h b).childrenOf u then (deref h b).childrenOf x ++ [v] else (deref h b).childrenOf x) ∧
      (∀ x, (deref h' b).parentsOf x =
        if x = v ∧ v ∉ (deref h b).childrenOf u then (deref h b).parentsOf x ++ [u] else (deref h b).parentsOf x) := by
  obtain ⟨a, ha, hac⟩ := g.getE hu
  obtain ⟨d, hd, hdp⟩ := g.getF hv
  have en1 : ensureNode h b u = (h, b) := if_pos hu
  have en2 : ensureNode h b v = (h, b) := if_pos hv
  by_cases hin : v ∈ (deref h b).childrenOf u
  · refine ⟨h, ?_, g, rfl, ?_, ?_⟩
    · unfold addEdge linkEdge
      simp only [en1, en2, ha, hac, if_pos hin]
    · intro x; rw [if_neg fun hh => hh.2 hin]
    · intro x; rw [if_neg fun hh => hh.2 hin]
  · obtain ⟨c1, c2, c3, c4⟩ := put_child g.sep g.inb ha ((deref h b).childrenOf u ++ [v])
    set h1 := h.putN a ((deref h b).childrenOf u ++ [v]) with hh1
    have hb1 : InBounds h1 b := putN_inBounds g.inb _ _
    have hd1 : h1.nm d.parents = (deref h b).parentsOf v := by rw [c4 v d hd, hdp]
    obtain ⟨p1, p2, p3⟩ := put_parent g.sep hb1 hd ((deref h b).parentsOf v ++ [u])
    set h2 := h1.putN d.parents ((deref h b).parentsOf v ++ [u]) with hh2
    have hC : ∀ x, (deref h2 b).childrenOf x =
        if x = u ∧ v ∉ (deref h b).childrenOf u then (deref h b).childrenOf x ++ [v] else (deref h b).childrenOf x := by
      intro x
      rw [p2, c1]
      by_cases hx : x = u
      · rw [if_pos hx, if_pos ⟨hx, hin⟩, hx]
      · rw [if_neg hx, if_neg fun hh => hx hh.1]
    have hP : ∀ x, (deref h2 b).parentsOf x =
        if x = v ∧ v ∉ (deref h b).childrenOf u then (deref h b).parentsOf x ++ [u] else (deref h b).parentsOf x := by
      intro x
      rw [p1, c2]
      by_cases hx : x = v
      · rw [if_pos hx, if_pos ⟨hx, hin⟩, hx]
      · rw [if_neg hx, if_neg fun hh => hx hh.1]
    have hnp : u ∉ (deref h b).parentsOf v := fun hh => hin ((g.con u v).2 hh)
    refine ⟨h2, ?_, g.of_lists (putN_inBounds hb1 _ _) (by rw [p3, c3]) ?_ ?_ ?_, by rw [p3, c3], hC, hP⟩
    · unfold addEdge linkEdge
      simp only [en1, en2, ha, hac, if_neg hin, hd, ← hh1, hd1, ← hh2]
    · intro x
      rw [hC]
      split_ifs with hx
      · rw [hx.1]
        exact List.nodup_append.2 ⟨g.wf.nodupC u, by simp, fun y hy z hz hyz => hin (by
          rw [List.mem_singleton.1 hz] at hyz; rwa [hyz] at hy)⟩
      · exact g.wf.nodupC x
    · intro x
      rw [hP]
      split_ifs with hx
      · rw [hx.1]
        exact List.nodup_append.2 ⟨g.wf.nodupP v, by simp, fun y hy z hz hyz => hnp (by
          rw [List.mem_singleton.1 hz] at hyz; rwa [hyz] at hy)⟩
      · exact g.wf.nodupP x
    · intro x y
      rw [hC, hP]
      have := g.con x y
      by_cases hx : x = u
      · by_cases hy : y = v
        · rw [if_pos ⟨hx, hin⟩, if_pos ⟨hy, hin⟩, hx, hy]; simp
        · rw [if_pos ⟨hx, hin⟩, if_neg fun hh => hy hh.1, List.mem_append, List.mem_singleton]
          constructor
          · rintro (h | h); exacts [this.1 h, absurd h hy]
          · intro h; exact .inl (this.2 h)
      · by_cases hy : y = v
        · rw [if_neg fun hh => hx hh.1, if_pos ⟨hy, hin⟩, List.mem_append, List.mem_singleton]
          constructor
          · intro h; exact .inl (this.1 h)
          · rintro (h | h); exacts [this.2 h, absurd h hx]
        · rw [if_neg fun hh => hx hh.1, if_neg fun hh => hy hh.1]; exact this

theorem removeEdge_good {h : Heap N A} {b : HNet N} (g : Good h b) {u v : N} (hu : u ∈ h.nm b.V) (hv : v ∈ h.nm b.V) :
    ∃ h', removeEdge h b u v = ((h', b), if v ∈ (deref h b).childrenOf u then none else some .valueError) ∧ Good h' b ∧
      h'.nm b.V = h.nm b.V ∧
      (∀ x, (deref h' b).childrenOf x =
        if x = u then ((deref h b).childrenOf x).erase v else (deref h b).childrenOf x) ∧
      (∀ x, (deref h' b).parentsOf x =
        if x = v then ((deref h b).parentsOf x).erase u else (deref h b).parentsOf x) := by
  obtain ⟨a, ha, hac⟩ := g.getE hu
  obtain ⟨d, hd, hdp⟩ := g.getF hv
  by_cases hin : v ∈ (deref h b).childrenOf u
  · have hup : u ∈ (deref h b).parentsOf v := (g.con u v).1 hin
    obtain ⟨c1, c2, c3, c4⟩ := put_child g.sep g.inb ha (((deref h b).childrenOf u).erase v)
    set h1 := h.putN a (((deref h b).childrenOf u).erase v) with hh1
    have hb1 : InBounds h1 b := putN_inBounds g.inb _ _
    have hd1 : h1.nm d.parents = (deref h b).parentsOf v := by rw [c4 v d hd, hdp]
    obtain ⟨p1, p2, p3⟩ := put_parent g.sep hb1 hd (((deref h b).parentsOf v).erase u)
    set h2 := h1.putN d.parents (((deref h b).parentsOf v).erase u) with hh2
    have hC : ∀ x, (deref h2 b).childrenOf x =
        if x = u then ((deref h b).childrenOf x).erase v else (deref h b).childrenOf x := by
      intro x
      rw [p2, c1]
      by_cases hx : x = u
      · rw [if_pos hx, if_pos hx, hx]
      · rw [if_neg hx, if_neg hx]
    have hP : ∀ x, (deref h2 b).parentsOf x =
        if x = v then ((deref h b).parentsOf x).erase u else (deref h b).parentsOf x := by
      intro x
      rw [p1, c2]
      by_cases hx : x = v
      · rw [if_pos hx, if_pos hx, hx]
      · rw [if_neg hx, if_neg hx]
    refine ⟨h2, ?_, g.of_lists (putN_inBounds hb1 _ _) (by rw [p3, c3]) ?_ ?_ ?_, by rw [p3, c3], hC, hP⟩
    · unfold removeEdge
      simp only [ha, hac, if_pos hin, hd, ← hh1, hd1, if_pos hup, ← hh2]
    · intro x
      rw [hC]
      split_ifs with hx
      · exact (g.wf.nodupC x).erase v
      · exact g.wf.nodupC x
    · intro x
      rw [hP]
      split_ifs with hx
      · exact (g.wf.nodupP x).erase u
      · exact g.wf.nodupP x
    · intro x y
      rw [hC, hP]
      have := g.con x y
      by_cases hx : x = u
      · by_cases hy : y = v
        · rw [if_pos hx, if_pos hy, (g.wf.nodupC x).mem_erase_iff, (g.wf.nodupP y).mem_erase_iff, hx, hy]; simp
        · rw [if_pos hx, if_neg hy, (g.wf.nodupC x).mem_erase_iff, this]; simp [hy]
      · by_cases hy : y = v
        · rw [if_neg hx, if_pos hy, (g.wf.nodupP y).mem_erase_iff, this]; simp [hx]
        · rw [if_neg hx, if_neg hy]; exact this
  · have hup : u ∉ (deref h b).parentsOf v := fun hh => hin ((g.con u v).2 hh)
    refine ⟨h, ?_, g, rfl, ?_, ?_⟩
    · unfold removeEdge
      simp only [ha, hac, if_neg hin]
    · intro x
      by_cases hx : x = u
      · rw [if_pos hx, hx, List.erase_of_not_mem hin]
      · rw [if_neg hx]
    · intro x
      by_cases hx : x = v
      · rw [if_pos hx, hx, List.erase_of_not_mem hup]
      · rw [if_neg hx]

end HNet
end PyBN
