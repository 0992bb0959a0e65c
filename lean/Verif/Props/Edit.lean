import Verif.Proofs.Edit
import Verif.Proofs.Net
import Verif.Props.Example
import Verif.Model.BayesNetOps

/-!
# C22, C24, C57, C60: edit histories and copies
-/

set_option linter.unusedSectionVars false

namespace PyBN
namespace HNet
variable {N A : Type} [DecidableEq N] [DecidableEq A]

/-! ## Fresh object graphs -/

theorem fresh_deref (bn : BayesNet N A) : deref (fresh bn).1 (fresh bn).2 = bn := by
  have hnmE : ∀ i (h : i < bn.E.length), (fresh bn).1.nm (i + 2) = bn.E[i].2 := by
    intro i hi
    simp [fresh, Heap.nm, List.getElem?_append_left, hi]
  have hnmF : ∀ i (h : i < bn.F.length), (fresh bn).1.nm (i + 2 + bn.E.length) = bn.F[i].2.parents := by
    intro i hi
    have : i + 2 + bn.E.length = (i + bn.E.length) + 2 := by omega
    rw [this]
    simp only [fresh, Heap.nm, List.getElem?_cons_succ]
    rw [List.getElem?_append_right (by simp)]
    simp [hi]
  have hvl : ∀ i (h : i < bn.F.length), (fresh bn).1.vl (i + 1) = bn.F[i].2.values := by
    intro i hi
    simp [fresh, Heap.vl, hi]
  have hct : ∀ i (h : i < bn.F.length), (fresh bn).1.ct (i + 1) = bn.F[i].2.cpt := by
    intro i hi
    simp [fresh, Heap.ct, hi]
  have hV : (fresh bn).1.nm (fresh bn).2.V = bn.V := by simp [fresh, Heap.nm]
  have hE : ((fresh bn).2.E.map fun kv => (kv.1, (fresh bn).1.nm kv.2)) = bn.E := by
    apply List.ext_getElem
    · simp [fresh]
    · intro i h1 h2
      have e : (fresh bn).2.E = bn.E.zipIdx.map fun p => (p.1.1, p.2 + 2) := rfl
      simp only [e, List.getElem_map, List.getElem_zipIdx, Nat.zero_add, hnmE i h2]
  have hF : ((fresh bn).2.F.map fun kv => (kv.1, (⟨(fresh bn).1.nm kv.2.parents, (fresh bn).1.vl kv.2.vals,
      (fresh bn).1.ct kv.2.cpt⟩ : NodeData N A))) = bn.F := by
    apply List.ext_getElem
    · simp [fresh]
    · intro i h1 h2
      have e : (fresh bn).2.F = bn.F.zipIdx.map fun p => (p.1.1, ⟨p.2 + 2 + bn.E.length, p.2 + 1, p.2 + 1⟩) := rfl
      simp only [e, List.getElem_map, List.getElem_zipIdx, Nat.zero_add, hnmF i h2, hvl i h2, hct i h2]
  unfold deref
  rw [hV, hE, hF]

theorem fresh_nAddr (bn : BayesNet N A) : (fresh bn).2.nAddr =
    List.range' 1 (1 + bn.E.length + bn.F.length) := by
  have h1 : (fresh bn).2.E.map Prod.snd = List.range' 2 bn.E.length := by
    apply List.ext_getElem <;> simp [fresh]; intros; omega
  have h2 : ((fresh bn).2.F.map fun kv => kv.2.parents) = List.range' (2 + bn.E.length) bn.F.length := by
    apply List.ext_getElem <;> simp [fresh]; intros; omega
  unfold nAddr
  rw [h1, h2]
  have e1 : (fresh bn).2.V = 1 := rfl
  rw [e1, Nat.add_assoc, Nat.add_comm 1, List.range'_succ]
  congr 1
  have := List.range'_append_1 (s := 2) (m := bn.E.length) (n := bn.F.length)
  exact this

theorem fresh_inBounds (bn : BayesNet N A) : InBounds (fresh bn).1 (fresh bn).2 := by
  refine ⟨?_, ?_, ?_, by simp [fresh], by simp [fresh], by simp [fresh]⟩
  · intro a ha
    rw [fresh_nAddr, List.mem_range'_1] at ha
    simp [fresh]; omega
  · intro a ha
    obtain ⟨kv, hkv, rfl⟩ := List.mem_map.1 ha
    obtain ⟨p, hp, rfl⟩ := List.mem_map.1 hkv
    have := List.snd_lt_of_mem_zipIdx hp
    simp [fresh] at *; omega
  · intro a ha
    obtain ⟨kv, hkv, rfl⟩ := List.mem_map.1 ha
    obtain ⟨p, hp, rfl⟩ := List.mem_map.1 hkv
    have := List.snd_lt_of_mem_zipIdx hp
    simp [fresh] at *; omega

theorem fresh_noDefault (bn : BayesNet N A) : (fresh bn).2.NoDefault := by
  refine ⟨?_, ?_, ?_⟩
  · rw [fresh_nAddr, List.mem_range'_1]; omega
  · intro ha
    obtain ⟨kv, hkv, h⟩ := List.mem_map.1 ha
    obtain ⟨p, hp, rfl⟩ := List.mem_map.1 hkv
    simp at h
  · intro ha
    obtain ⟨kv, hkv, h⟩ := List.mem_map.1 ha
    obtain ⟨p, hp, rfl⟩ := List.mem_map.1 hkv
    simp at h

theorem fresh_good (bn : BayesNet N A) (w : bn.StructWF) (c : bn.Consistent) : Good (fresh bn).1 (fresh bn).2 := by
  refine ⟨?_, fresh_inBounds bn, ?_, ?_⟩
  · unfold Separate; rw [fresh_nAddr]; exact List.nodup_range'
  · rw [fresh_deref]; exact w
  · rw [fresh_deref]; exact c

/-! ## C22 -/

theorem run_append (h : Heap N A) (b : HNet N) (l m : List (Op N A)) :
    run h b (l ++ m) = run (run h b l).1 (run h b l).2 m := by
  induction l generalizing h b with
  | nil => rfl
  | cons o l ih => exact ih _ _

theorem edit_good {h : Heap N A} {b : HNet N} (g : Good h b) (e : ArcEdit N) (he : e.ends.1 ∈ h.nm b.V ∧ e.ends.2 ∈ h.nm b.V) :
    ∃ h' x, step h b e.op = ((h', b), x) ∧ Good h' b ∧ h'.nm b.V = h.nm b.V ∧
      (∀ u v, v ∈ (deref h' b).childrenOf u ↔ e.apply (fun u v => v ∈ (deref h b).childrenOf u) u v) ∧
      (x = match e with | .add _ _ => none | .remove u v => if v ∈ (deref h b).childrenOf u then none else some .valueError) := by
  cases e with
  | add u v =>
    obtain ⟨h', h1, h2, h3, h4, h5⟩ := addEdge_good g (u := u) (v := v) he.1 he.2
    refine ⟨h', none, h1, h2, h3, fun a c => ?_, rfl⟩
    rw [h4]
    unfold ArcEdit.apply
    by_cases ha : a = u
    · by_cases hin : v ∈ (deref h b).childrenOf u
      · rw [if_neg fun hh => hh.2 hin]
        constructor
        · intro h; exact .inl h
        · rintro (h | ⟨h, h'⟩)
          · exact h
          · rw [h, h']; exact hin
      · rw [if_pos ⟨ha, hin⟩, List.mem_append, List.mem_singleton]; simp [ha]
    · rw [if_neg fun hh => ha hh.1]; simp [ha]
  | remove u v =>
    obtain ⟨h', h1, h2, h3, h4, h5⟩ := removeEdge_good g (u := u) (v := v) he.1 he.2
    refine ⟨h', _, h1, h2, h3, fun a c => ?_, rfl⟩
    rw [h4]
    unfold ArcEdit.apply
    by_cases ha : a = u
    · rw [if_pos ha, (g.wf.nodupC a).mem_erase_iff]
      simp [ha, and_comm]
    · rw [if_neg ha]; simp [ha]

/-- C22, the part that holds: from any network whose lists are separate objects and whose children and parents agree, every history
of `add_edge` / `remove_edge` between existing nodes keeps them in agreement, and the arcs are exactly those the history describes.
Missing: `reverse_arc` (false, `C22_false`) and new nodes (false, `C60_shared_default_parents`; `C57`). -/
theorem C22_histories_partial (h : Heap N A) (b : HNet N) (sep : Separate b) (inb : InBounds h b) (wf : (deref h b).StructWF)
    (con : (deref h b).Consistent) (es : List (ArcEdit N))
    (hes : ∀ e ∈ es, e.ends.1 ∈ (deref h b).V ∧ e.ends.2 ∈ (deref h b).V) :
    let s := run h b (es.map ArcEdit.op)
    (deref s.1 s.2).Consistent ∧ (deref s.1 s.2).StructWF ∧ (deref s.1 s.2).V = (deref h b).V ∧
      ∀ u v, v ∈ (deref s.1 s.2).childrenOf u ↔ ArcEdit.applyAll (fun u v => v ∈ (deref h b).childrenOf u) es u v := by
  have g : Good h b := ⟨sep, inb, wf, con⟩
  clear sep inb wf con
  induction es generalizing h with
  | nil => exact ⟨g.con, g.wf, rfl, fun u v => Iff.rfl⟩
  | cons e es ih =>
    obtain ⟨h', x, h1, h2, h3, h4, _⟩ := edit_good g e (hes e (by simp))
    have hrun : run h b ((e :: es).map ArcEdit.op) = run h' b (es.map ArcEdit.op) := by
      show run (step h b e.op).1.1 (step h b e.op).1.2 _ = _
      rw [h1]
    rw [hrun]
    obtain ⟨r1, r2, r3, r4⟩ := ih h' (fun e' he' => by
      show _ ∈ h'.nm b.V ∧ _ ∈ h'.nm b.V
      rw [h3]; exact hes e' (by simp [he'])) h2
    refine ⟨r1, r2, r3.trans h3, fun u v => (r4 u v).trans ?_⟩
    show ArcEdit.applyAll _ es u v ↔ ArcEdit.applyAll _ es u v
    have : (fun u v => v ∈ (deref h' b).childrenOf u) = e.apply (fun u v => v ∈ (deref h b).childrenOf u) := by
      funext u v; exact propext (h4 u v)
    rw [this]

/-- C22, exceptions: between existing nodes `add_edge` never raises, and `remove_edge` raises (`ValueError`, changing nothing)
exactly when the arc is absent. -/
theorem C22_exceptions_partial (h : Heap N A) (b : HNet N) (sep : Separate b) (inb : InBounds h b) (wf : (deref h b).StructWF)
    (con : (deref h b).Consistent) (u v : N) (hu : u ∈ (deref h b).V) (hv : v ∈ (deref h b).V) :
    (addEdge h b u v).2 = none ∧
    ((removeEdge h b u v).2 = if v ∈ (deref h b).childrenOf u then none else some .valueError) := by
  have g : Good h b := ⟨sep, inb, wf, con⟩
  obtain ⟨_, h1, _⟩ := addEdge_good g hu hv
  obtain ⟨_, h2, _⟩ := removeEdge_good g hu hv
  rw [h1, h2]; exact ⟨rfl, rfl⟩

/-- Networks as the constructor and the readers build them start such histories. -/
theorem C22_constructed_partial (bn : BayesNet N A) (w : bn.StructWF) (c : bn.Consistent) (es : List (ArcEdit N))
    (hes : ∀ e ∈ es, e.ends.1 ∈ bn.V ∧ e.ends.2 ∈ bn.V) :
    let s := run (fresh bn).1 (fresh bn).2 (es.map ArcEdit.op)
    (deref s.1 s.2).Consistent ∧ (deref s.1 s.2).V = bn.V ∧
      ∀ u v, v ∈ (deref s.1 s.2).childrenOf u ↔ ArcEdit.applyAll (fun u v => v ∈ bn.childrenOf u) es u v := by
  have g := fresh_good bn w c
  have := C22_histories_partial (fresh bn).1 (fresh bn).2 g.sep g.inb g.wf g.con es (by rw [fresh_deref]; exact hes)
  rw [fresh_deref] at this
  exact ⟨this.1, this.2.2.1, this.2.2.2⟩

/-- C22 is false with `reverse_arc`: on *every* consistent network and arc `u -> v` between two nodes, `reverse_arc(u, v)` succeeds and
leaves `u` among the parents of `v` although `v` is no longer a child of `u` (and `v` is not among the parents of `u`). -/
theorem C22_reverse_arc_breaks (h : Heap N A) (b : HNet N) (sep : Separate b) (inb : InBounds h b) (wf : (deref h b).StructWF)
    (con : (deref h b).Consistent) (u v : N) (hne : u ≠ v) (hu : u ∈ (deref h b).V) (hv : v ∈ (deref h b).V)
    (harc : v ∈ (deref h b).childrenOf u) :
    ∃ h', reverseArc h b u v = ((h', b), none) ∧ v ∉ (deref h' b).childrenOf u ∧ u ∈ (deref h' b).childrenOf v ∧
      (∀ x, (deref h' b).parentsOf x = (deref h b).parentsOf x) ∧ u ∈ (deref h' b).parentsOf v ∧ ¬ (deref h' b).Consistent := by
  have g : Good h b := ⟨sep, inb, wf, con⟩
  obtain ⟨a, ha, hac⟩ := g.getE hu
  obtain ⟨a', ha', hac'⟩ := g.getE hv
  obtain ⟨c1, c2, c3, _⟩ := put_child g.sep g.inb ha (((deref h b).childrenOf u).erase v)
  set h1 := h.putN a (((deref h b).childrenOf u).erase v) with hh1
  have hb1 : InBounds h1 b := putN_inBounds g.inb _ _
  have hnm : h1.nm a' = (deref h b).childrenOf v := by
    have := c1 v
    rw [if_neg (Ne.symm hne), childrenOf_deref, ha'] at this
    exact this
  obtain ⟨e1, e2, e3, _⟩ := put_child g.sep hb1 ha' ((deref h b).childrenOf v ++ [u])
  set h2 := h1.putN a' ((deref h b).childrenOf v ++ [u]) with hh2
  have hchu : v ∉ (deref h2 b).childrenOf u := by
    rw [e1, if_neg hne, c1, if_pos rfl, (g.wf.nodupC u).mem_erase_iff]; simp
  have hpv : u ∈ (deref h2 b).parentsOf v := by rw [e2, c2]; exact (g.con u v).1 harc
  refine ⟨h2, ?_, hchu, ?_, fun x => by rw [e2, c2], hpv, fun hc => hchu ((hc u v).2 hpv)⟩
  · unfold reverseArc
    simp only [ha, hac, if_pos harc, ← hh1, ha', hnm, ← hh2]
  · rw [e1, if_pos rfl]; simp

theorem exNet_structWf : exNet.StructWF := by
  refine ⟨exNet_edgeWf.dom, exNet_wf.dom, fun v => ?_, fun v => ?_⟩
  · by_cases hv : v ∈ exNet.V
    · exact exNet_edgeWf.nodup v hv
    · have : exNet.E.get? v = none := by
        have := (exNet_edgeWf.dom v).not.2 hv
        simpa using this
      unfold BayesNet.childrenOf; rw [this]; exact List.nodup_nil
  · by_cases hv : v ∈ exNet.V
    · exact (List.nodup_cons.1 (exNet_wf.fam_nodup v hv)).2
    · have : exNet.F.get? v = none := by
        have := (exNet_wf.dom v).not.2 hv
        simpa using this
      unfold BayesNet.parentsOf; rw [this]; exact List.nodup_nil

/-- C22 is false of the code: the example network after `reverse_arc(0, 2)`. -/
theorem C22_false : exNet.StructWF ∧ exNet.Consistent ∧
    let s := run (fresh exNet).1 (fresh exNet).2 [.reverseArc 0 2]
    ¬ (deref s.1 s.2).Consistent := by
  refine ⟨exNet_structWf, exNet_edgeWf.iff, ?_⟩
  have g := fresh_good exNet exNet_structWf exNet_edgeWf.iff
  obtain ⟨h', h1, _, _, _, _, h2⟩ := C22_reverse_arc_breaks _ _ g.sep g.inb g.wf g.con 0 2 (by decide)
    (by rw [fresh_deref]; decide) (by rw [fresh_deref]; decide) (by rw [fresh_deref]; decide)
  show ¬ (deref (step _ _ _).1.1 (step _ _ _).1.2).Consistent
  show ¬ (deref (reverseArc _ _ _ _).1.1 (reverseArc _ _ _ _).1.2).Consistent
  rw [h1]; exact h2

/-- Witness: the example network under `add_edge(0, 1); remove_edge(0, 2); add_edge(0, 1)`. -/
example : (let s := run (fresh exNet).1 (fresh exNet).2 ([ArcEdit.add 0 1, .remove 0 2, .add 0 1].map ArcEdit.op)
    (deref s.1 s.2).E = [(0, [1]), (1, [2]), (2, [])] ∧ (deref s.1 s.2).parentsOf 2 = [1] ∧ (deref s.1 s.2).parentsOf 1 = [0]) := by
  decide +kernel

/-! ## C57 -/

/-- C57: `add_edge(u, v)` from an unknown `u` raises `KeyError` but leaves `u` among the nodes, after which `edges()` and
`num_edges()` raise `KeyError`. -/
theorem C57_add_edge_unknown_source (h : Heap N A) (b : HNet N) (inb : InBounds h b) (u v : N) (hu : u ∉ (deref h b).V)
    (hE : Dict.get? (deref h b).E u = none) :
    ∃ h' b', addEdge h b u v = ((h', b'), some .keyError) ∧ u ∈ (deref h' b').V ∧ (∀ w ∈ (deref h b).V, w ∈ (deref h' b').V) ∧
      (deref h' b').edges = .error .keyError ∧ (deref h' b').numEdges = .error .keyError := by
  rw [getE_deref, Option.map_eq_none_iff] at hE
  have hen : ∀ (h : Heap N A) (b : HNet N) (rv : N), InBounds h b → (ensureNode h b rv).2.E = b.E ∧ (ensureNode h b rv).2.V = b.V ∧
      InBounds (ensureNode h b rv).1 (ensureNode h b rv).2 ∧ rv ∈ (ensureNode h b rv).1.nm b.V ∧
      ∀ w ∈ h.nm b.V, w ∈ (ensureNode h b rv).1.nm b.V := by
    intro h b rv hb
    refine ⟨?_, ?_, frame_inBounds (Frame.ensureNode (cr := True) h b rv fun _ => trivial) hb, ?_⟩
    · unfold ensureNode; split_ifs <;> rfl
    · unfold ensureNode; split_ifs <;> rfl
    · unfold ensureNode
      split_ifs with hm
      · exact ⟨hm, fun w hw => hw⟩
      · simp only [addNode]
        rw [Heap.nm_putN_self (hb.n _ (by simp [nAddr]))]
        simp
        intro w hw; exact .inl hw
  obtain ⟨a1, a2, a3, a4, a5⟩ := hen h b u inb
  set s1 := ensureNode h b u with hs1
  obtain ⟨c1, c2, c3, c4, c5⟩ := hen s1.1 s1.2 v a3
  set s2 := ensureNode s1.1 s1.2 v with hs2
  have hnone : Dict.get? s2.2.E u = none := by rw [c1, a1]; exact hE
  have hVeq : s2.2.V = b.V := by rw [c2, a2]
  have huV : u ∈ (deref s2.1 s2.2).V := by
    show u ∈ s2.1.nm s2.2.V
    rw [c2]
    apply c5
    rw [a2]; exact a4
  have hmem : ∀ w ∈ (deref h b).V, w ∈ (deref s2.1 s2.2).V := by
    intro w hw
    show w ∈ s2.1.nm s2.2.V
    rw [c2]
    apply c5
    rw [a2]; exact a5 w hw
  have hget : Dict.get? (deref s2.1 s2.2).E u = none := by rw [getE_deref, hnone]; rfl
  have key : ∀ {β : Type} (f : N → Py β) (l : List N), (∀ w, (∃ x, f w = .ok x) ∨ f w = .error .keyError) → u ∈ l →
      f u = .error .keyError → pyMap f l = .error .keyError := by
    intro β f l hf
    induction l with
    | nil => intro h; cases h
    | cons w l ih =>
      intro hul hfu
      by_cases hwu : w = u
      · rw [hwu]; simp only [pyMap, hfu, Py.bind_error]
      · have := ih (by simpa [Ne.symm hwu] using hul) hfu
        rcases hf w with ⟨x, hx⟩ | hx
        · simp only [pyMap, hx, Py.bind_ok, this, Py.bind_error]
        · simp only [pyMap, hx, Py.bind_error]
  refine ⟨s2.1, s2.2, ?_, huV, hmem, ?_, ?_⟩
  · unfold addEdge linkEdge
    simp only [← hs1, ← hs2, hnone]
  · unfold BayesNet.edges
    rw [key _ _ ?_ huV ?_]; rfl
    · intro w
      cases hw : Dict.get? (deref s2.1 s2.2).E w with
      | none => right; rw [Dict.get_of_none hw]; rfl
      | some l => left; exact ⟨_, by rw [Dict.get_of_get? hw]; rfl⟩
    · rw [Dict.get_of_none hget]; rfl
  · unfold BayesNet.numEdges
    rw [key _ _ ?_ huV ?_]; rfl
    · intro w
      cases hw : Dict.get? (deref s2.1 s2.2).E w with
      | none => right; rw [Dict.get_of_none hw]; rfl
      | some l => left; exact ⟨_, by rw [Dict.get_of_get? hw]; rfl⟩
    · rw [Dict.get_of_none hget]; rfl

/-- Witness: adding an arc from the unknown node 7 to the example. -/
example : (addEdge (fresh exNet).1 (fresh exNet).2 7 1).2 = some .keyError ∧
    (let s := (addEdge (fresh exNet).1 (fresh exNet).2 7 1).1; (deref s.1 s.2).V = [0, 1, 2, 7] ∧
      (deref s.1 s.2).numEdges = .error .keyError) := by decide +kernel

/-! ## C60 -/

/-- C60: two new nodes reached by `add_edge` share one parents list: each gets the other's source as a parent. -/
theorem C60_shared_default_parents (h : Heap N A) (b : HNet N) (sep : Separate b) (inb : InBounds h b) (nd : b.NoDefault)
    (wf : (deref h b).StructWF) (con : (deref h b).Consistent) (p q x y : N) (hp : p ∈ (deref h b).V) (hq : q ∈ (deref h b).V)
    (hpq : p ≠ q) (hx : x ∉ (deref h b).V) (hy : y ∉ (deref h b).V) (hxy : x ≠ y) :
    ∃ h1 b1 h2 b2, addEdge h b p x = ((h1, b1), none) ∧ addEdge h1 b1 q y = ((h2, b2), none) ∧
      (deref h2 b2).V = (deref h b).V ++ [x, y] ∧
      (deref h2 b2).parentsOf x = h.nm 0 ++ [p, q] ∧ (deref h2 b2).parentsOf y = h.nm 0 ++ [p, q] ∧
      x ∉ (deref h2 b2).childrenOf q ∧ ¬ (deref h2 b2).Consistent := by
  have g : Good h b := ⟨sep, inb, wf, con⟩
  obtain ⟨a, ha, hac⟩ := g.getE hp
  obtain ⟨a', ha', hac'⟩ := g.getE hq
  obtain ⟨s1, s2, s3, s4, s5⟩ := sep.parts
  have haV : a ≠ b.V := s1 _ (Dict.get?_mem ha)
  have haV' : a' ≠ b.V := s1 _ (Dict.get?_mem ha')
  have hV0 : b.V ≠ 0 := fun h => nd.1 (h ▸ by simp [nAddr])
  have ha0 : a ≠ 0 := fun h => nd.1 (h ▸ mem_nAddr_E ha)
  have ha0' : a' ≠ 0 := fun h => nd.1 (h ▸ mem_nAddr_E ha')
  have haa : a ≠ a' := fun h => hpq (Prod.mk.inj (List.inj_on_of_nodup_map s3 (Dict.get?_mem ha) (Dict.get?_mem ha') h)).1
  have bV : b.V < h.names.length := inb.n _ (by simp [nAddr])
  have ba : a < h.names.length := inb.n _ (mem_nAddr_E ha)
  have ba' : a' < h.names.length := inb.n _ (mem_nAddr_E ha')
  have b0 := inb.n0
  have hFx : ∀ z, z ∉ (deref h b).V → ∀ w, z ∉ (deref h b).childrenOf w := by
    intro z hz w hzw
    have := (con w z).1 hzw
    have hnone : (deref h b).F.get? z = none := by
      have := (wf.domF z).not.2 hz
      simpa using this
    unfold BayesNet.parentsOf at this
    rw [hnone] at this; cases this
  have hxa : x ∉ h.nm a := by rw [hac]; exact hFx x hx p
  have hya' : y ∉ h.nm a' := by rw [hac']; exact hFx y hy q
  have hxa' : x ∉ h.nm a' := by rw [hac']; exact hFx x hx q
  have hp' : p ∈ h.nm b.V := hp
  have hq' : q ∈ h.nm b.V := hq
  have hx' : x ∉ h.nm b.V := hx
  have hy' : y ∉ h.nm b.V := hy
  -- first call
  set b1 : HNet N := { b with F := b.F.set x ⟨0, 0, 0⟩ } with hb1
  set k1 := h.putN b.V (h.nm b.V ++ [x]) with hk1
  set k2 := k1.putN a (h.nm a ++ [x]) with hk2
  set k3 := k2.putN 0 (h.nm 0 ++ [p]) with hk3
  have len1 : k1.names.length = h.names.length := by simp [hk1, Heap.putN]
  have len2 : k2.names.length = h.names.length := by rw [← len1]; simp [hk2, Heap.putN]
  have len3 : k3.names.length = h.names.length := by rw [← len2]; simp [hk3, Heap.putN]
  have n1a : k1.nm a = h.nm a := Heap.nm_putN_ne haV
  have n20 : k2.nm 0 = h.nm 0 := by rw [hk2, Heap.nm_putN_ne (Ne.symm ha0), hk1, Heap.nm_putN_ne (Ne.symm hV0)]
  have n3V : k3.nm b.V = h.nm b.V ++ [x] := by
    rw [hk3, Heap.nm_putN_ne hV0, hk2, Heap.nm_putN_ne (Ne.symm haV), hk1, Heap.nm_putN_self bV]
  have n3a' : k3.nm a' = h.nm a' := by
    rw [hk3, Heap.nm_putN_ne ha0', hk2, Heap.nm_putN_ne (Ne.symm haa), hk1, Heap.nm_putN_ne haV']
  have n30 : k3.nm 0 = h.nm 0 ++ [p] := by rw [hk3, Heap.nm_putN_self (by omega)]
  have r1 : addEdge h b p x = ((k3, b1), none) := by
    unfold addEdge
    have e1 : ensureNode h b p = (h, b) := if_pos hp'
    have e2 : ensureNode h b x = (k1, b1) := if_neg hx'
    simp only [e1, e2]
    unfold linkEdge
    have : Dict.get? b1.E p = some a := ha
    simp only [this, n1a, if_neg hxa, ← hk2]
    have : Dict.get? b1.F x = some ⟨0, 0, 0⟩ := Dict.get?_set_self _ _ _
    simp only [this, n20, ← hk3]
  -- second call
  set b2 : HNet N := { b1 with F := b1.F.set y ⟨0, 0, 0⟩ } with hb2
  set m1 := k3.putN b.V (k3.nm b.V ++ [y]) with hm1
  set m2 := m1.putN a' (h.nm a' ++ [y]) with hm2
  set m3 := m2.putN 0 (h.nm 0 ++ [p] ++ [q]) with hm3
  have lm1 : m1.names.length = h.names.length := by rw [← len3]; simp [hm1, Heap.putN]
  have lm2 : m2.names.length = h.names.length := by rw [← lm1]; simp [hm2, Heap.putN]
  have n1a2 : m1.nm a' = h.nm a' := by rw [hm1, Heap.nm_putN_ne haV', n3a']
  have n202 : m2.nm 0 = h.nm 0 ++ [p] := by rw [hm2, Heap.nm_putN_ne (Ne.symm ha0'), hm1, Heap.nm_putN_ne (Ne.symm hV0), n30]
  have r2 : addEdge k3 b1 q y = ((m3, b2), none) := by
    unfold addEdge
    have e1 : ensureNode k3 b1 q = (k3, b1) := if_pos (by show q ∈ k3.nm b.V; rw [n3V]; simp [hq'])
    have e2 : ensureNode k3 b1 y = (m1, b2) := if_neg (by show y ∉ k3.nm b.V; rw [n3V]; simp [hy', Ne.symm hxy])
    simp only [e1, e2]
    unfold linkEdge
    have : Dict.get? b2.E q = some a' := ha'
    simp only [this, n1a2, if_neg hya', ← hm2]
    have : Dict.get? b2.F y = some ⟨0, 0, 0⟩ := Dict.get?_set_self _ _ _
    simp only [this, n202, ← hm3]
  have nf0 : m3.nm 0 = h.nm 0 ++ [p, q] := by rw [hm3, Heap.nm_putN_self (by omega)]; simp
  have gx : Dict.get? b2.F x = some ⟨0, 0, 0⟩ := by
    show Dict.get? (Dict.set (Dict.set b.F x _) y _) x = _
    rw [Dict.get?_set_ne _ _ (Ne.symm hxy), Dict.get?_set_self]
  have gy : Dict.get? b2.F y = some ⟨0, 0, 0⟩ := Dict.get?_set_self _ _ _
  have px : (deref m3 b2).parentsOf x = h.nm 0 ++ [p, q] := by rw [parentsOf_deref, gx]; exact nf0
  have py : (deref m3 b2).parentsOf y = h.nm 0 ++ [p, q] := by rw [parentsOf_deref, gy]; exact nf0
  have cq : x ∉ (deref m3 b2).childrenOf q := by
    rw [childrenOf_deref]
    have : Dict.get? b2.E q = some a' := ha'
    rw [this]
    show x ∉ m3.nm a'
    rw [hm3, Heap.nm_putN_ne ha0', hm2, Heap.nm_putN_self (by omega)]
    simp [hxa', hxy]
  refine ⟨k3, b1, m3, b2, r1, r2, ?_, px, py, cq, fun hc => cq ((hc q x).2 (by rw [px]; simp))⟩
  show m3.nm b.V = h.nm b.V ++ [x, y]
  rw [hm3, Heap.nm_putN_ne hV0, hm2, Heap.nm_putN_ne (Ne.symm haV'), hm1, Heap.nm_putN_self (by omega), n3V]
  simp

/-- Witness: the example with `add_edge(0, 7); add_edge(1, 8)`: node 7 has parents 0 *and* 1. -/
example : (let s := run (fresh exNet).1 (fresh exNet).2 [.addEdge 0 7, .addEdge 1 8]
    (deref s.1 s.2).parentsOf 7 = [0, 1] ∧ (deref s.1 s.2).childrenOf 1 = [2, 8]) := by decide +kernel

/-! ## C24 -/

/-- C24, equality: `copy()` succeeds on a network all of whose nodes are described, and shows the same nodes, children,
parents, values and tables; the original still reads the same. -/
theorem C24_copy_equal (h : Heap N A) (b : HNet N) (inb : InBounds h b)
    (hV : ∀ v ∈ (deref h b).V, ((deref h b).F.get? v).isSome) :
    ∃ h' c, copy h b = .ok (h', c) ∧ deref h' b = deref h b ∧ (deref h' c).V = (deref h b).V ∧ (deref h' c).E = (deref h b).E ∧
      (∀ v ∈ (deref h b).V, (deref h' c).F.get? v = (deref h b).F.get? v) ∧
      (∀ v, v ∉ (deref h b).V → (deref h' c).F.get? v = none) := by
  obtain ⟨h', c, h1, h2, _, _, _, h3, h4, h5, h6⟩ := copy_spec h b inb fun v hv => by
    have := hV v hv
    rw [getF_deref, Option.isSome_map] at this
    exact this
  exact ⟨h', c, h1, h2.deref inb, h3, h4, h5, h6⟩

/-- C24, independence: after `copy()`, through any interleaving of operations on the original and on the copy (editing methods,
and in-place changes of the lists the accessors hand out), each operation on one leaves what a reader of the other sees unchanged -
provided nodes with default arguments are only made on one side while the other side holds none of the default lists.
Missing without the proviso: it is false, `C24_false`. -/
theorem C24_independent_partial (h h' h1 : Heap N A) (b c b1 c1 : HNet N) (inb : InBounds h b) (hc : copy h b = .ok (h', c))
    (hr : Interleave h' b c h1 b1 c1) (o : Op N A) :
    ((Creates h1 b1 o → c1.NoDefault) → deref (step h1 b1 o).1.1 c1 = deref h1 c1) ∧
    ((Creates h1 c1 o → b1.NoDefault) → deref (step h1 c1 o).1.1 b1 = deref h1 b1) := by
  have hV : ∀ v ∈ h.nm b.V, (Dict.get? b.F v).isSome := by
    have key : ∀ (vs : List N) (k : Heap N A) (F : Dict N HNode) r, copyF b vs k F = .ok r → ∀ v ∈ vs, (Dict.get? b.F v).isSome := by
      intro vs
      induction vs with
      | nil => intro k F r _ v hv; cases hv
      | cons w vs ih =>
        intro k F r hr v hv
        unfold copyF at hr
        cases hd : Dict.get? b.F w with
        | none => rw [hd] at hr; cases hr
        | some d =>
          rw [hd] at hr
          rcases List.mem_cons.1 hv with rfl | hv
          · rw [hd]; rfl
          · exact ih _ _ _ hr v hv
    unfold copy at hc
    cases hcf : copyF b (h.nm b.V) { h with names := h.names ++ [h.nm b.V] ++ h.names } [] with
    | error e =>
      have : (copyF b (h.nm b.V) { h with names := h.names ++ [h.nm b.V] ++ h.names } [] >>= fun x => match x with
        | (h2, F') => (pure (h2, ⟨h.names.length, b.E.map fun kv => (kv.1, kv.2 + (h.names.length + 1)), F'⟩) :
          Py (Heap N A × HNet N))) = .ok (h', c) := hc
      rw [hcf] at this; cases this
    | ok r => exact key _ _ _ r hcf
  obtain ⟨h2, c2, k1, k2, k3, k4, k5, _⟩ := copy_spec h b inb hV
  rw [hc] at k1
  cases k1
  have inv : InBounds h1 b1 ∧ InBounds h1 c1 ∧ Apart b1 c1 := by
    induction hr with
    | start =>
      have e1 := k2.lenN; have e2 := k2.lenV; have e3 := k2.lenC
      have := inb.n0; have := inb.v0; have := inb.c0
      exact ⟨⟨fun a ha => by have := inb.n a ha; omega, fun a ha => by have := inb.v a ha; omega,
        fun a ha => by have := inb.c a ha; omega, by omega, by omega, by omega⟩, k5, k3⟩
    | @left k b' c' o' _ hnd ih =>
      obtain ⟨i1, i2, i3⟩ := ih
      have f := step_frame k b' o'
      exact ⟨frame_inBounds f i1, frame_inBounds_other f i2, frame_apart f i3 i2 hnd⟩
    | @right k b' c' o' _ hnd ih =>
      obtain ⟨i1, i2, i3⟩ := ih
      have f := step_frame k c' o'
      exact ⟨frame_inBounds_other f i1, frame_inBounds f i2, (frame_apart f i3.symm i1 hnd).symm⟩
  obtain ⟨i1, i2, i3⟩ := inv
  exact ⟨fun hnd => frame_deref (step_frame h1 b1 o) i3 i2 hnd, fun hnd => frame_deref (step_frame h1 c1 o) i3.symm i1 hnd⟩

/-- C24: whatever is done to the original alone, the copy reads the same (no proviso). -/
theorem C24_original_edits_invisible (h h' : Heap N A) (b c : HNet N) (inb : InBounds h b)
    (hV : ∀ v ∈ (deref h b).V, ((deref h b).F.get? v).isSome) (hc : copy h b = .ok (h', c)) (os : List (Op N A)) :
    deref (run h' b os).1 c = deref h' c := by
  obtain ⟨h2, c2, k1, k2, k3, k4, k5, _⟩ := copy_spec h b inb fun v hv => by
    have := hV v hv
    rw [getF_deref, Option.isSome_map] at this
    exact this
  rw [hc] at k1
  cases k1
  have key : ∀ (os : List (Op N A)) (k : Heap N A) (b : HNet N), Apart b c → InBounds k c →
      deref (run k b os).1 c = deref k c := by
    intro os
    induction os with
    | nil => intro k b _ _; rfl
    | cons o os ih =>
      intro k b hap hin
      have f := step_frame k b o
      rw [show run k b (o :: os) = run (step k b o).1.1 (step k b o).1.2 os from rfl,
        ih _ _ (frame_apart f hap hin fun _ => k4) (frame_inBounds_other f hin), frame_deref f hap hin fun _ => k4]
  exact key os h' b k3 k5

/-- C24: whatever is done to the copy alone, the original reads the same if it holds none of `add_node`'s default lists. -/
theorem C24_copy_edits_invisible_partial (h h' : Heap N A) (b c : HNet N) (inb : InBounds h b) (nd : b.NoDefault)
    (hV : ∀ v ∈ (deref h b).V, ((deref h b).F.get? v).isSome) (hc : copy h b = .ok (h', c)) (os : List (Op N A)) :
    deref (run h' c os).1 b = deref h b := by
  obtain ⟨h2, c2, k1, k2, k3, k4, k5, _⟩ := copy_spec h b inb fun v hv => by
    have := hV v hv
    rw [getF_deref, Option.isSome_map] at this
    exact this
  rw [hc] at k1
  cases k1
  have hin : InBounds h' b := by
    have e1 := k2.lenN; have e2 := k2.lenV; have e3 := k2.lenC
    have := inb.n0; have := inb.v0; have := inb.c0
    exact ⟨fun a ha => by have := inb.n a ha; omega, fun a ha => by have := inb.v a ha; omega,
        fun a ha => by have := inb.c a ha; omega, by omega, by omega, by omega⟩
  have key : ∀ (os : List (Op N A)) (k : Heap N A) (c : HNet N), Apart c b → InBounds k b →
      deref (run k c os).1 b = deref k b := by
    intro os
    induction os with
    | nil => intro k c _ _; rfl
    | cons o os ih =>
      intro k c hap hin
      have f := step_frame k c o
      rw [show run k c (o :: os) = run (step k c o).1.1 (step k c o).1.2 os from rfl,
        ih _ _ (frame_apart f hap hin fun _ => nd) (frame_inBounds_other f hin), frame_deref f hap hin fun _ => nd]
  rw [key os h' c k3.symm hin]
  exact k2.deref inb

/-- C24 is false of the code: in a network with a node made by `add_edge` (node 7), `copy` followed by adding a new node to the copy
changes the parents of node 7 *in the original*. -/
theorem C24_false : ∃ (h h' : Heap ℕ ℕ) (b c : HNet ℕ), InBounds h b ∧ copy h b = .ok (h', c) ∧
    (deref h b).parentsOf 7 = [0] ∧ (deref (addEdge h' c 1 8).1.1 b).parentsOf 7 = [0, 1] := by
  refine ⟨(addEdge (fresh exNet).1 (fresh exNet).2 0 7).1.1, _, (addEdge (fresh exNet).1 (fresh exNet).2 0 7).1.2, _, ?_, rfl, ?_, ?_⟩
  · exact frame_inBounds (step_frame _ _ (.addEdge 0 7)) (fresh_inBounds exNet)
  · decide +kernel
  · decide +kernel

/-- Witness: copying the example, changing the copy's and the original's lists in turn. -/
example : InBounds (fresh exNet).1 (fresh exNet).2 ∧ (fresh exNet).2.NoDefault ∧
    (∀ v ∈ (deref (fresh exNet).1 (fresh exNet).2).V, ((deref (fresh exNet).1 (fresh exNet).2).F.get? v).isSome) :=
  ⟨fresh_inBounds exNet, fresh_noDefault exNet, by rw [fresh_deref]; exact fun v hv => (exNet_wf.dom v).2 hv⟩

end HNet
end PyBN
