import Verif.Proofs.Chordal
import Verif.Props.Net
import Verif.Props.Example

/-!
# `make_chordal` (C109, C110)
-/

set_option linter.unusedSectionVars false
namespace PyBN
namespace Chordal
variable {N A : Type _} [DecidableEq N] [DecidableEq A]
open BayesNet

/-- `a` and `b` are joined in the moral graph of the network: one is a parent of the other, or they have a common child. -/
def MoralEdge (bn : BayesNet N A) (a b : N) : Prop :=
  a ∈ bn.parentsOf b ∨ b ∈ bn.parentsOf a ∨ (a ≠ b ∧ ∃ c, a ∈ bn.parentsOf c ∧ b ∈ bn.parentsOf c)

theorem elimOrder_mem (h : HashOrder N) (e : List (N × N)) (v : N) : v ∈ elimOrder h e ↔ Touched e v := by
  unfold elimOrder nodesOf
  rw [(sortBy_perm _ _).mem_iff, (h.perm _).mem_iff, List.mem_dedup, List.mem_flatMap]
  unfold Touched Joined
  constructor
  · rintro ⟨⟨x, y⟩, he, hv⟩
    simp only [List.mem_cons, List.not_mem_nil, or_false] at hv
    rcases hv with rfl | rfl
    · exact ⟨y, Or.inl he⟩
    · exact ⟨x, Or.inr he⟩
  · rintro ⟨u, hu | hu⟩
    · exact ⟨_, hu, by simp⟩
    · exact ⟨_, hu, by simp⟩

/-- C109: for every network (and every correct `nx.is_chordal`, in every iteration order) `make_chordal` returns a chordal graph that contains
the moral graph, joins no node to itself, and is the moral graph if that is chordal. -/
theorem C109_make_chordal (isChordal : List (N × N) → Bool) (hch : ∀ g, isChordal g = true → IsChordal g) (h : HashOrder N)
    (hP : HashOrder (N × N)) (bn : BayesNet N A) (w : bn.WF) :
    ∃ g, makeChordal isChordal h hP bn none = .ok g ∧ IsChordal g ∧ (∀ a b, MoralEdge bn a b → Joined g a b) ∧ (∀ a, ¬ Joined g a a) ∧
      ((∀ l, bn.moralizedEdges hP = .ok l → isChordal l = true) → ∀ a b, Joined g a b ↔ MoralEdge bn a b) := by
  obtain ⟨l, h1, -, h3, -⟩ := C21_moral_graph hP bn w
  have hloop : ∀ a, ¬ Joined l a a := by
    intro a ha
    have := (h3 a a).1 ha
    have hp : ∀ a, a ∉ bn.parentsOf a := by
      intro a ha
      have hv : a ∈ bn.V := by
        rw [← w.dom]
        unfold parentsOf at ha
        cases hF : Dict.get? bn.F a with
        | none => rw [hF] at ha; cases ha
        | some => rfl
      exact (List.nodup_cons.1 (w.fam_nodup a hv)).1 ha
    rcases this with this | this | ⟨this, -⟩
    · exact hp a this
    · exact hp a this
    · exact this rfl
  unfold makeChordal
  rw [h1, Py.bind_ok]
  by_cases hc : isChordal l = true
  · rw [if_pos hc]
    exact ⟨l, rfl, hch l hc, fun a b hab => (h3 a b).2 hab, hloop, fun _ => h3⟩
  · rw [if_neg hc]
    refine ⟨fillIn h (elimOrder h l) l, rfl, fillIn_chordal h _ l (fun v hv => (elimOrder_mem h l v).2 hv), ?_, ?_, fun hall => (hc (hall l rfl)).elim⟩
    · intro a b hab
      rcases (h3 a b).2 hab with hab | hab
      · exact Or.inl (List.mem_append_left _ hab)
      · exact Or.inr (List.mem_append_left _ hab)
    · rintro a (ha | ha)
      · exact hloop a (Or.inl (fillIn_loops h _ l a ha))
      · exact hloop a (Or.inl (fillIn_loops h _ l a ha))

/-- C109 with the optional arguments: a supplied graph `e` is ignored when the moral graph of the network is chordal; otherwise the result is a
chordal graph containing `e`, provided `v` lists all its nodes. -/
theorem C109_supplied_graph (isChordal : List (N × N) → Bool) (h : HashOrder N)
    (hP : HashOrder (N × N)) (bn : BayesNet N A) (w : bn.WF) (v : List N) (e : List (N × N)) (hv : v ≠ []) (he : e ≠ []) :
    ∃ l, bn.moralizedEdges hP = .ok l ∧
      (isChordal l = true → makeChordal isChordal h hP bn (some (v, e)) = .ok l) ∧
      (isChordal l = false → (∀ u, Touched e u → u ∈ v) →
        ∃ g, makeChordal isChordal h hP bn (some (v, e)) = .ok g ∧ IsChordal g ∧ ∀ a b, Joined e a b → Joined g a b) := by
  obtain ⟨l, h1, -⟩ := C21_moral_graph hP bn w
  refine ⟨l, h1, ?_, ?_⟩
  · intro hc
    unfold makeChordal
    rw [h1, Py.bind_ok, if_pos hc]; rfl
  · intro hc hcov
    refine ⟨fillIn h v e, ?_, fillIn_chordal h v e hcov, ?_⟩
    · unfold makeChordal
      rw [h1, Py.bind_ok, if_neg (by rw [hc]; simp)]
      simp only
      rw [if_pos ⟨hv, he⟩]; rfl
    · rintro a b (hab | hab)
      · exact Or.inl (List.mem_append_left _ hab)
      · exact Or.inr (List.mem_append_left _ hab)

/-- C110: the nodes of the graph made by `make_chordal` are exactly the variables with a parent or a child: isolated variables are lost. -/
theorem C110_isolated_lost (isChordal : List (N × N) → Bool) (h : HashOrder N) (hP : HashOrder (N × N)) (bn : BayesNet N A) (w : bn.WF) :
    ∃ g, makeChordal isChordal h hP bn none = .ok g ∧ ∀ v, Touched g v ↔ ∃ u, u ∈ bn.parentsOf v ∨ v ∈ bn.parentsOf u := by
  obtain ⟨l, h1, -, h3, -⟩ := C21_moral_graph hP bn w
  have hl : ∀ v, Touched l v ↔ ∃ u, u ∈ bn.parentsOf v ∨ v ∈ bn.parentsOf u := by
    intro v
    unfold Touched
    constructor
    · rintro ⟨u, hu⟩
      rcases (h3 v u).1 hu with hu | hu | ⟨-, c, hu, -⟩
      · exact ⟨u, Or.inr hu⟩
      · exact ⟨u, Or.inl hu⟩
      · exact ⟨c, Or.inr hu⟩
    · rintro ⟨u, hu | hu⟩
      · exact ⟨u, (h3 v u).2 (Or.inr (Or.inl hu))⟩
      · exact ⟨u, (h3 v u).2 (Or.inl hu)⟩
  unfold makeChordal
  rw [h1, Py.bind_ok]
  by_cases hc : isChordal l = true
  · rw [if_pos hc]; exact ⟨l, rfl, hl⟩
  · rw [if_neg hc]
    exact ⟨_, rfl, fun v => by rw [touched_fillIn, hl]⟩

/-! ## Examples -/

/-- Four causes in a circle, two and two with a common effect; node 8 is isolated.  Every variable has one value. -/
def ringNet : BayesNet ℕ ℕ where
  V := [0, 1, 2, 3, 4, 5, 6, 7, 8]
  E := [(0, [4, 7]), (1, [4, 5]), (2, [5, 6]), (3, [6, 7]), (4, []), (5, []), (6, []), (7, []), (8, [])]
  F := [(0, ⟨[], [0], [1]⟩), (1, ⟨[], [0], [1]⟩), (2, ⟨[], [0], [1]⟩), (3, ⟨[], [0], [1]⟩), (4, ⟨[0, 1], [0], [1]⟩), (5, ⟨[1, 2], [0], [1]⟩),
    (6, ⟨[2, 3], [0], [1]⟩), (7, ⟨[3, 0], [0], [1]⟩), (8, ⟨[], [0], [1]⟩)]

theorem ringNet_wf : ringNet.WF := .of_dec _ (by decide) (by decide)

/-- A list of pairs that has the four-cycle 0-1-2-3 and no chord of it is not chordal. -/
theorem not_chordal_ring (l : List (ℕ × ℕ)) (e1 : Joined l 0 1) (e2 : Joined l 1 2) (e3 : Joined l 2 3) (e4 : Joined l 3 0)
    (n1 : ¬ Joined l 0 2) (n2 : ¬ Joined l 1 3) : ¬ IsChordal l := by
  intro hcon
  have edges : ∀ i : Fin 4, Joined l i.val (i + 1).val := by
    intro i
    match i with
    | 0 => exact e1
    | 1 => exact e2
    | 2 => exact e3
    | 3 => exact e4
  have key : ∀ i j : Fin 4, i ≠ j → i ≠ j + 1 → j ≠ i + 1 →
      (i.val = 0 ∧ j.val = 2) ∨ (i.val = 2 ∧ j.val = 0) ∨ (i.val = 1 ∧ j.val = 3) ∨ (i.val = 3 ∧ j.val = 1) := by decide
  obtain ⟨i, j, hij, h1, h2, hJ⟩ := hcon 4 le_rfl (Fin.val : Fin 4 → ℕ) (fun a b hab => Fin.ext hab) edges
  have hJ' : Joined l (Fin.val (n := 4) i) (Fin.val (n := 4) j) := hJ
  rcases key i j hij h1 h2 with ⟨hi, hj⟩ | ⟨hi, hj⟩ | ⟨hi, hj⟩ | ⟨hi, hj⟩ <;> rw [hi, hj] at hJ'
  · exact n1 hJ'
  · exact n1 hJ'.symm
  · exact n2 hJ'
  · exact n2 hJ'.symm

theorem ring_no8 : ∀ u ∈ ringNet.V, 8 ∉ ringNet.parentsOf u := by decide +kernel
theorem ring_parents8 : ringNet.parentsOf 8 = [] := by decide +kernel

theorem ring_moral : (ringNet.moralizedEdges HashOrder.id).okAnd (fun l => decide (
      ((0, 1) ∈ l ∨ (1, 0) ∈ l) ∧ ((1, 2) ∈ l ∨ (2, 1) ∈ l) ∧ ((2, 3) ∈ l ∨ (3, 2) ∈ l) ∧ ((3, 0) ∈ l ∨ (0, 3) ∈ l) ∧
      ¬ ((0, 2) ∈ l ∨ (2, 0) ∈ l) ∧ ¬ ((1, 3) ∈ l ∨ (3, 1) ∈ l))) = true := by decide +kernel

theorem ring_chord : (makeChordal (fun _ => false) HashOrder.id HashOrder.id ringNet none).okAnd (fun g => decide (
      ((0, 2) ∈ g ∨ (2, 0) ∈ g) ∨ ((1, 3) ∈ g ∨ (3, 1) ∈ g))) = true := by decide +kernel

/-- The moral graph of `ringNet` is not chordal, `make_chordal` adds a chord, and node 8 is not in the result. -/
theorem C109_example : ∃ l g, ringNet.moralizedEdges HashOrder.id = .ok l ∧ ¬ IsChordal l ∧
    makeChordal (fun _ => false) HashOrder.id HashOrder.id ringNet none = .ok g ∧ IsChordal g ∧ (Joined g 0 2 ∨ Joined g 1 3) ∧ ¬ Touched g 8 := by
  obtain ⟨l, hl, hl'⟩ := Py.of_okAnd ring_moral
  obtain ⟨g, hg, hg'⟩ := Py.of_okAnd ring_chord
  obtain ⟨e1, e2, e3, e4, n1, n2⟩ := of_decide_eq_true hl'
  have hg'' := of_decide_eq_true hg'
  obtain ⟨g1, a1, a2, -⟩ := C109_make_chordal (fun _ => false) (by simp) HashOrder.id HashOrder.id ringNet ringNet_wf
  obtain ⟨g2, b1, b2⟩ := C110_isolated_lost (fun _ => false) HashOrder.id HashOrder.id ringNet ringNet_wf
  have E1 : g = g1 := by rw [hg] at a1; exact Except.ok.inj a1
  have E2 : g = g2 := by rw [hg] at b1; exact Except.ok.inj b1
  refine ⟨l, g, hl, not_chordal_ring l e1 e2 e3 e4 n1 n2, hg, E1 ▸ a2, hg'', ?_⟩
  rw [E2, b2]
  rintro ⟨u, hu⟩
  rw [ring_parents8] at hu
  rcases hu with hu | hu
  · cases hu
  · refine ring_no8 u ?_ hu
    rw [← ringNet_wf.dom]
    unfold parentsOf at hu
    cases hF : Dict.get? ringNet.F u with
    | none => rw [hF] at hu; cases hu
    | some => rfl

end Chordal
end PyBN
