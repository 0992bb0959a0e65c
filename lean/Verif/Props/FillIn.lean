import Verif.Proofs.FillIn
import Verif.Props.Chordal

/-!
# C234: exactly which edges `make_chordal` adds
-/

set_option linter.unusedSectionVars false
namespace PyBN
namespace Chordal
variable {N A : Type _} [DecidableEq N] [DecidableEq A]
open BayesNet

/-- C234: when the moral graph is not chordal, `make_chordal` puts the non-isolated nodes in an order of increasing number of moral neighbours, and joins two
nodes exactly if there is a walk between them in the moral graph all of whose inner nodes come before both of them in that order. -/
theorem C234_fill_in (isChordal : List (N × N) → Bool) (h : HashOrder N) (hP : HashOrder (N × N)) (bn : BayesNet N A) (w : bn.WF)
    (hch : ∀ l, bn.moralizedEdges hP = .ok l → isChordal l = false) :
    ∃ (g : List (N × N)) (o : List N), makeChordal isChordal h hP bn none = .ok g ∧ o.Nodup ∧ (∀ v, v ∈ o ↔ ∃ u, MoralEdge bn v u) ∧
      (o.Pairwise fun u v => Set.ncard {x | MoralEdge bn u x} ≤ Set.ncard {x | MoralEdge bn v x}) ∧
      ∀ a b, Joined g a b ↔ a ≠ b ∧ Via (MoralEdge bn) (fun c => o.idxOf c < o.idxOf a ∧ o.idxOf c < o.idxOf b) a b := by
  obtain ⟨l, h1, -, h3, -⟩ := C21_moral_graph hP bn w
  obtain ⟨g, e1, -, -, e4, -⟩ := C109_make_chordal (fun _ => false) (by simp) h hP bn w
  have hJ : ∀ a b, Joined l a b ↔ MoralEdge bn a b := h3
  have hg : makeChordal isChordal h hP bn none = .ok (fillIn h (elimOrder h l) l) := by
    unfold makeChordal
    rw [h1, Py.bind_ok, if_neg (by rw [hch l h1]; simp)]
    rfl
  have hg0 : makeChordal (fun _ => false) h hP bn none = .ok (fillIn h (elimOrder h l) l) := by
    unfold makeChordal
    rw [h1, Py.bind_ok, if_neg (by simp)]
    rfl
  have hgg : g = fillIn h (elimOrder h l) l := by rw [hg0] at e1; exact (Except.ok.inj e1).symm
  have hirr : ∀ a, ¬ MoralEdge bn a a := by
    intro a ha
    refine e4 a ?_
    rw [hgg]
    rcases (hJ a a).2 ha with h | h
    · exact Or.inl (List.mem_append_left _ h)
    · exact Or.inl (List.mem_append_left _ h)
  have hnd : (elimOrder h l).Nodup := by
    unfold elimOrder nodesOf
    exact (sortBy_perm _ _).nodup_iff.2 ((h.perm _).nodup_iff.2 (List.nodup_dedup _))
  have hdeg : ∀ v, degree l v = Set.ncard {x | MoralEdge bn v x} := by
    intro v
    rw [degree_ncard]
    congr 1
    ext u
    simp only [Set.mem_setOf_eq, hJ]
    exact ⟨fun h => h.2, fun h => ⟨fun e => hirr v (e ▸ h), h⟩⟩
  refine ⟨_, elimOrder h l, hg, hnd, fun v => ?_, ?_, fun a b => ?_⟩
  · rw [elimOrder_mem]
    unfold Touched
    simp only [hJ]
  · have := sortBy_sorted (degree l) (h.iter (nodesOf l))
    unfold elimOrder
    simpa only [hdeg] using this
  · constructor
    · intro hab
      have hne : a ≠ b := by
        rintro rfl
        exact e4 a (hgg ▸ hab)
      exact ⟨hne, ((fillIn_paths h _ hnd l a b hne).1 hab).mono (fun a b => (hJ a b).1) fun _ h => h⟩
    · rintro ⟨hne, hW⟩
      exact (fillIn_paths h _ hnd l a b hne).2 (hW.mono (fun a b => (hJ a b).2) fun _ h => h)

/-- C234 for a supplied graph: the nodes are eliminated in the order given. -/
theorem C234_supplied (isChordal : List (N × N) → Bool) (h : HashOrder N) (hP : HashOrder (N × N)) (bn : BayesNet N A) (w : bn.WF)
    (hch : ∀ l, bn.moralizedEdges hP = .ok l → isChordal l = false) (v : List N) (e : List (N × N)) (hv : v ≠ []) (he : e ≠ []) (hnd : v.Nodup) :
    ∃ g, makeChordal isChordal h hP bn (some (v, e)) = .ok g ∧
      ∀ a b, a ≠ b → (Joined g a b ↔ Via (Joined e) (fun c => v.idxOf c < v.idxOf a ∧ v.idxOf c < v.idxOf b) a b) := by
  obtain ⟨l, h1, -⟩ := C21_moral_graph hP bn w
  refine ⟨fillIn h v e, ?_, fun a b hab => fillIn_paths h v hnd e a b hab⟩
  unfold makeChordal
  rw [h1, Py.bind_ok, if_neg (by rw [hch l h1]; simp)]
  dsimp only
  rw [if_pos ⟨hv, he⟩]
  rfl

/-- Witness: the ring of four nodes of C109, whose moral graph is not chordal. -/
example : ringNet.WF ∧ ∃ l, ringNet.moralizedEdges HashOrder.id = .ok l ∧ ¬ IsChordal l := by
  obtain ⟨l, -, hl, hn, -⟩ := C109_example
  exact ⟨ringNet_wf, l, hl, hn⟩

end Chordal
end PyBN
