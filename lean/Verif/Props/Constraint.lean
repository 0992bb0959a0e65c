import Verif.Proofs.Constraint4
import Verif.Props.Structure

/-!
# C47-C50, C77-C84: constraint-based structure learning

The outcomes of the independence tests are arbitrary: `lt cols` is `pval < alpha`, `gt cols` is `pval > alpha`, where `cols` is the tuple
of columns handed to `mi_test` (the two variables, then the conditioning set).  A loop that never ends is `error diverges` for every
number `fuel` of passes; a loop that ends returns the same value for all large enough `fuel`.
-/

namespace PyBN
open Constraint BayesNet

/-! ## C47, C77: `resolve_markov_blanket` -/

/-- C47: whatever the tests say, `resolve_markov_blanket` returns an undirected graph (one entry per variable, symmetric, without
duplicates) that links only pairs one of which is in the other's blanket. -/
theorem C47_resolve_undirected (gt : List ℕ → Bool) (n : ℕ) (mb : Dict ℕ (List ℕ)) (hm : IsBlankets n mb) :
    ∃ e, resolve gt n mb = .ok e ∧ Undirected n e ∧ ∀ x y, y ∈ nb e x → y ∈ nb mb x ∨ x ∈ nb mb y := by
  obtain ⟨e, h1, h2, h3⟩ := resolveLoop_ok (gt := gt) hm (List.range n) (emptyGraph n) (fun x hx => List.mem_range.1 hx)
    (emptyGraph_undirected n)
  refine ⟨e, h1, h2, fun x y hy => ?_⟩
  rcases (h3 x y).1 hy with h | ⟨a, _, b, hb, _, ⟨rfl, rfl⟩ | ⟨rfl, rfl⟩⟩
  · rw [emptyGraph_nb] at h; cases h
  · exact .inl hb
  · exact .inr hb

/-- C77: exactly which pairs are linked: those where, from the side of one of the two, no test on a *proper* subset of the candidate
set found independence. -/
theorem C77_resolve_exact (gt : List ℕ → Bool) (n : ℕ) (mb : Dict ℕ (List ℕ)) (hm : IsBlankets n mb) :
    ∃ e, resolve gt n mb = .ok e ∧ ∀ x y, x < n → y < n → (y ∈ nb e x ↔
      (y ∈ nb mb x ∧ ∀ s, s.Sublist (candidateSet mb x y) → s.length < (candidateSet mb x y).length → gt (x :: y :: s) = false) ∨
      (x ∈ nb mb y ∧ ∀ s, s.Sublist (candidateSet mb y x) → s.length < (candidateSet mb y x).length → gt (y :: x :: s) = false)) := by
  obtain ⟨e, h1, _, h3⟩ := resolveLoop_ok (gt := gt) hm (List.range n) (emptyGraph n) (fun x hx => List.mem_range.1 hx)
    (emptyGraph_undirected n)
  refine ⟨e, h1, fun x y hx hy => ?_⟩
  rw [h3, emptyGraph_nb]
  simp only [List.not_mem_nil, false_or, List.mem_range, direct_iff]
  constructor
  · rintro ⟨a, _, b, hb, hd, ⟨rfl, rfl⟩ | ⟨rfl, rfl⟩⟩
    · exact .inl ⟨hb, hd⟩
    · exact .inr ⟨hb, hd⟩
  · rintro (⟨hb, hd⟩ | ⟨hb, hd⟩)
    · exact ⟨x, hx, y, hb, hd, .inl ⟨rfl, rfl⟩⟩
    · exact ⟨y, hy, x, hb, hd, .inr ⟨rfl, rfl⟩⟩

/-- Three variables, every blanket holding the two others; 0 and 1 are independent given 2 and nothing else is: the pair 0 - 1 stays
linked, since the whole candidate set `[2]` is never conditioned on. -/
theorem C77_full_set_untested : ∃ e, resolve (fun c => decide (c ∈ [[0, 1, 2], [1, 0, 2]])) 3 [(0, [1, 2]), (1, [0, 2]), (2, [0, 1])] = .ok e ∧
    1 ∈ nb e 0 := ⟨[(0, [1, 2]), (1, [0, 2]), (2, [0, 1])], by decide +kernel, by decide⟩

/-- Witness: blankets of a chain. -/
example : IsBlankets 3 [(0, [1]), (1, [0, 2]), (2, [1])] := by
  refine ⟨?_, ?_⟩
  · intro x hx; interval_cases x <;> rfl
  · intro x y hy
    by_cases h0 : x = 0
    · subst h0; simp [nb, Dict.get?] at hy; omega
    by_cases h1 : x = 1
    · subst h1; simp [nb, Dict.get?] at hy; omega
    by_cases h2 : x = 2
    · subst h2; simp [nb, Dict.get?] at hy; omega
    simp [nb, Dict.get?, Ne.symm h0, Ne.symm h1, Ne.symm h2] at hy

/-! ## C48, C78, C79: `gs` -/

/-- C78: the blanket search of `gs`, exactly.  Growing always ends, with a duplicate-free list of other variables each found dependent
given the ones before it, and such that no further variable tests as dependent.  If every member still tests as dependent given
the others, that list is the blanket; otherwise the search never ends. -/
theorem C78_gs_blanket (lt : List ℕ → Bool) (n x : ℕ) :
    ∃ S : List ℕ, S.Nodup ∧ x ∉ S ∧ (∀ y ∈ S, y < n) ∧ (∀ p y q, S = p ++ y :: q → lt (x :: y :: p) = true) ∧
      (∀ y < n, y ≠ x → y ∉ S → lt (x :: y :: S) = false) ∧
      ((∀ y ∈ S, lt (x :: y :: S.erase y) = true) → ∀ fuel ≥ n + 1, gsBlanket lt n fuel x = .ok S) ∧
      ((∃ y ∈ S, lt (x :: y :: S.erase y) = false) → ∀ fuel, gsBlanket lt n fuel x = .error .diverges) := by
  obtain ⟨S, hS, g⟩ := growLoop_ok lt n x (n + 1) [] (by simp) (by simp) (by simp) (by simp)
  refine ⟨S, g.nodup, g.self, g.bound, growLoop_added lt n x _ _ _ (fun p y q h => by simp at h) hS,
    fun y hy hne hm => g.stop y hy (Ne.symm hne) hm, fun hd fuel hf => ?_, fun hd fuel => ?_⟩
  · unfold gsBlanket
    rw [growLoop_mono lt n x _ fuel _ _ hf hS, Py.bind_ok]
    obtain ⟨f, rfl⟩ : ∃ f, fuel = f + 1 := ⟨fuel - 1, by omega⟩
    exact shrinkLoop_ok hd f
  · unfold gsBlanket
    cases hg : growLoop lt n x fuel [] with
    | error err => rw [growLoop_error lt n x _ _ _ hg]; rfl
    | ok s =>
      rw [Py.bind_ok]
      have h1 := growLoop_mono lt n x _ (max fuel (n + 1)) _ _ (by omega) hg
      have h2 := growLoop_mono lt n x _ (max fuel (n + 1)) _ _ (by omega) hS
      rw [h1] at h2
      cases h2
      exact shrinkLoop_diverges hd fuel

/-- Witness for the first case: a chain with exact tests; the blanket of 1 is 0, 2. -/
example : gsBlanket (fun c => decide (c ∈ [[1, 0], [1, 2, 0], [1, 0, 2]])) 3 4 1 = .ok [0, 2] := by decide +kernel

/-- C48, second half: whenever the blanket search returns, every member tests as dependent on the target given the other members. -/
theorem C48_gs_blanket_partial (lt : List ℕ → Bool) (n x fuel : ℕ) (S : List ℕ) (h : gsBlanket lt n fuel x = .ok S) :
    ∀ y ∈ S, lt (x :: y :: S.erase y) = true := by
  unfold gsBlanket at h
  cases hg : growLoop lt n x fuel [] with
  | error err => rw [hg] at h; cases h
  | ok s =>
    rw [hg, Py.bind_ok] at h
    by_cases hd : ∀ y ∈ s, lt (x :: y :: s.erase y) = true
    · cases fuel with
      | zero => cases h
      | succ f => rw [shrinkLoop_ok hd] at h; cases h; exact hd
    · push Not at hd
      rw [shrinkLoop_diverges (by simpa using hd)] at h; cases h

/-- C48 is false: three variables, 0 dependent on 1, and on 2 given 1, but not on 1 given 2: `gs` never returns. -/
theorem C48_false : ∃ lt : List ℕ → Bool, ∀ fuel, gsBlanket lt 3 fuel 0 = .error .diverges := by
  refine ⟨fun c => decide (c ∈ [[0, 1], [0, 2, 1]]), ?_⟩
  obtain ⟨S, _, _, _, _, _, h1, h2⟩ := C78_gs_blanket (fun c => decide (c ∈ [[0, 1], [0, 2, 1]])) 3 0
  by_cases hd : ∀ y ∈ S, decide ((0 :: y :: S.erase y) ∈ [[0, 1], [0, 2, 1]]) = true
  · have := h1 hd 4 (by omega)
    have h3 : gsBlanket (fun c => decide (c ∈ [[0, 1], [0, 2, 1]])) 3 4 0 = .error .diverges := by decide +kernel
    rw [h3] at this; cases this
  · push Not at hd
    exact h2 (by simpa using hd)

/-- C79: when every test finds dependence, `gs` on two or more variables returns a network without any node: all edges are kept in
both directions, so that no variable is parentless and `BayesNet` drops them all. -/
theorem C79_gs_dependent_empty {A : Type} [DecidableEq A] (lt gt : List ℕ → Bool) (h : HashOrder ℕ) (n : ℕ) (hn : 2 ≤ n) (vd : Dict ℕ (List A))
    (hvd : ∀ v < n, v ∈ vd.keys) (hlt : ∀ c, lt c = true) (hgt : ∀ c, gt c = false) :
    ∃ bn, (∀ fuel ≥ n + 1, gs lt gt h n fuel vd = .ok bn) ∧ bn.V = [] ∧ ∀ x y, Arc bn.E x y ↔ x < n ∧ y < n ∧ x ≠ y := by
  classical
  let S : ℕ → List ℕ := fun x => (C78_gs_blanket lt n x).choose
  have hS := fun x => (C78_gs_blanket lt n x).choose_spec
  have hSm : ∀ x y, y ∈ S x ↔ y < n ∧ y ≠ x := by
    intro x y
    obtain ⟨_, h2, h3, _, h5, _⟩ := hS x
    constructor
    · intro hy; exact ⟨h3 y hy, fun e => h2 (e ▸ hy)⟩
    · rintro ⟨hy, hne⟩
      by_contra hc
      have := h5 y hy hne hc
      rw [hlt] at this; cases this
  have hmb : ∀ fuel ≥ n + 1, gsBlankets lt n fuel = .ok ((List.range n).map fun x => (x, S x)) := by
    intro fuel hf
    unfold gsBlankets
    rw [pyMap_ok (g := fun x => (x, S x)) (fun x hx => by rw [(hS x).2.2.2.2.2.1 (fun y _ => hlt _) fuel hf]; rfl), Py.bind_ok,
      Dict.ofPairs_eq (by rw [Dict.keys_map_pair]; exact List.nodup_range)]
    rfl
  have hnb : ∀ x, nb ((List.range n).map fun x => (x, S x)) x = if x < n then S x else [] := by
    intro x; unfold nb; rw [Dict.get?_map_pair]; simp only [List.mem_range]; split_ifs <;> rfl
  have hisb : IsBlankets n ((List.range n).map fun x => (x, S x)) := by
    refine ⟨fun x hx => ?_, fun x y hy => ?_⟩
    · rw [Dict.get?_map_pair, if_pos (List.mem_range.2 hx)]; rfl
    · rw [hnb] at hy
      split_ifs at hy with hx
      · exact ((hSm x y).1 hy).1
      · cases hy
  obtain ⟨e, he, hu, _⟩ := C47_resolve_undirected gt n _ hisb
  obtain ⟨e', he', hx⟩ := C77_resolve_exact gt n _ hisb
  rw [he] at he'; cases he'
  have hc : Complete n e := by
    intro x y
    constructor
    · intro hy
      have hyn := hu.lt _ _ hy
      have hxn := hu.lt _ _ (hu.symm _ _ hy)
      refine ⟨hxn, hyn, ?_⟩
      rcases (hx x y hxn hyn).1 hy with ⟨h1, _⟩ | ⟨h1, _⟩
      · rw [hnb, if_pos hxn] at h1; exact Ne.symm ((hSm x y).1 h1).2
      · rw [hnb, if_pos hyn] at h1; exact ((hSm y x).1 h1).2
    · rintro ⟨hxn, hyn, hne⟩
      refine (hx x y hxn hyn).2 (.inl ⟨?_, fun s _ _ => hgt _⟩)
      rw [hnb, if_pos hxn]; exact (hSm x y).2 ⟨hyn, Ne.symm hne⟩
  have hkn : e.keys.Nodup := hu.keys.nodup_iff.2 List.nodup_range
  have hck : ChildrenAreKeys e := fun a b hab => hu.keys.mem_iff.2 (List.mem_range.2 (hu.lt a b (arc_iff_nb.1 hab)))
  obtain ⟨bn, hbn, _, hV, hE, _⟩ := C76_set_structure_general h e (some vd) hkn hck (fun d hd v hv => by
    cases hd; exact hvd v (List.mem_range.1 (hu.keys.mem_iff.1 hv)))
  refine ⟨bn, fun fuel hf => ?_, ?_, fun x y => ?_⟩
  · unfold gs
    rw [hmb fuel hf, Py.bind_ok, he, Py.bind_ok, orientMB_complete hu hc, Py.bind_ok]; exact hbn
  · rw [List.eq_nil_iff_forall_not_mem]
    intro v hv
    obtain ⟨r, hr, hno, _⟩ := (hV v).1 hv
    have hrn : r < n := List.mem_range.1 (hu.keys.mem_iff.1 hr)
    obtain ⟨u, hu', hur⟩ : ∃ u < n, u ≠ r := by
      by_cases h0 : r = 0
      · exact ⟨1, by omega, by omega⟩
      · exact ⟨0, by omega, by omega⟩
    exact hno u (arc_iff_nb.2 ((hc u r).2 ⟨hu', hrn, hur⟩))
  · rw [hE, arc_iff_nb]; exact hc x y

/-- Witness: two dependent columns. -/
example : (∀ v < 2, v ∈ Dict.keys [(0, [0, 1]), (1, [0, 1])]) ∧
    (gs (fun _ => true) (fun _ => false) HashOrder.id 2 3 [(0, [0, 1]), (1, [0, 1])]).okAnd (fun bn => decide (bn.V = [])) = true := by
  refine ⟨by decide, by decide +kernel⟩

/-! ## C80: `orient_edges_MB` -/

/-- What can be said in general: when `orient_edges_MB` returns, it kept the keys and only removed arcs (no arc is invented or
reordered).  Missing from the full claim: that every edge keeps exactly one direction, and that it returns at all. -/
theorem C80_orient_MB_partial (lt : List ℕ → Bool) (h : HashOrder ℕ) (e mb e' : Dict ℕ (List ℕ)) (hh : orientMB lt h e mb = .ok e') :
    e'.keys = e.keys ∧ ∀ x, (nb e' x).Sublist (nb e x) := orientX_shrunk _ _ _ hh

/-- C80 is false in three ways: an edge can stay in both directions (a complete graph), an edge can lose both directions (the middle of
a path of four variables), and the function can raise `ValueError`, within `gs` on five variables. -/
theorem C80_false :
    (∃ e', orientMB (fun _ => true) HashOrder.id [(0, [1]), (1, [0])] [(0, [1]), (1, [0])] = .ok e' ∧ 1 ∈ nb e' 0 ∧ 0 ∈ nb e' 1) ∧
    (∃ e', orientMB (fun _ => true) HashOrder.id [(0, [1, 2]), (1, [0, 3]), (2, [0]), (3, [1])]
      [(0, [1, 2]), (1, [0, 3]), (2, [0]), (3, [1])] = .ok e' ∧ 1 ∉ nb e' 0 ∧ 0 ∉ nb e' 1) ∧
    (gs (A := ℕ) (fun c => decide (c ∉ [[3, 4], [4, 3], [3, 4, 0], [3, 4, 0, 1]])) (fun c => decide (c ∈ [[3, 4], [4, 3], [3, 4, 0], [3, 4, 0, 1]]))
      HashOrder.id 5 6 [(0, []), (1, []), (2, []), (3, []), (4, [])]).map (fun _ => ()) = .error .valueError := by
  refine ⟨⟨[(0, [1]), (1, [0])], by decide +kernel, by decide, by decide⟩,
    ⟨[(0, [2]), (1, [3]), (2, [0]), (3, [1])], by decide +kernel, by decide, by decide⟩, by decide +kernel⟩

/-! ## C49, C81 - C83: `pc` -/

theorem pc_of_skeleton {A : Type} [DecidableEq A] (gt : List ℕ → Bool) (h : HashOrder ℕ) (n : ℕ) (vd : Dict ℕ (List A)) (hvd : ∀ v < n, v ∈ vd.keys) :
    ∃ r bn, (∀ fuel ≥ n + 1, pcSkeleton gt n fuel = .ok r) ∧ (∀ fuel ≥ n + 1, pc gt h n fuel vd = .ok bn) ∧ Undirected n r.1 ∧
      bn.E.keys.Perm (List.range n) ∧
      (∀ x y, y ∈ nb r.1 x → x < n ∧ y < n ∧ x ≠ y) ∧
      (∀ x y, x < n → y < n → x ≠ y → y ∉ nb r.1 x → ∃ z : List ℕ, z ≠ [] ∧ x ∉ z ∧ y ∉ z ∧ (gt (x :: y :: z) = true ∨ gt (y :: x :: z) = true)) ∧
      (∀ a c, Arc bn.E a c → c ∈ nb r.1 a ∧ ∃ v, v ≠ a ∧ v ≠ c ∧ ((v ∈ nb r.1 a ∧ v ∉ nb r.1 c) ∨ (v ∈ nb r.1 c ∧ v ∉ nb r.1 a))) ∧
      (∀ v, v ∈ bn.V ↔ ∃ r ∈ List.range n, (∀ u, ¬ Arc bn.E u r) ∧ Reach bn.E r v) := by
  obtain ⟨r, h1, h2, h3⟩ := pcSkeleton_ok gt n
  obtain ⟨d, h4, h5, h6⟩ := orientCS_ok h h2
  have hkn : d.keys.Perm (List.range n) := h5.keys.trans h2.und.keys
  have hck : ChildrenAreKeys d := fun a b hab =>
    hkn.mem_iff.2 (List.mem_range.2 (h2.und.lt a b (h5.sub _ _ (arc_iff_nb.1 hab))))
  obtain ⟨bn, hbn, _, hV, hE, _⟩ := C76_set_structure_general h d (some vd) (hkn.nodup_iff.2 List.nodup_range) hck (fun d' hd v hv => by
    cases hd; exact hvd v (List.mem_range.1 (hkn.mem_iff.1 hv)))
  refine ⟨r, bn, h1, fun fuel hf => ?_, h2.und, hE ▸ hkn, fun x y hy => ?_, fun x y hx hy hne hno => ?_, fun a c hac => ?_, fun v => ?_⟩
  · unfold pc; rw [h1 fuel hf, Py.bind_ok, h4, Py.bind_ok]; exact hbn
  · exact mem_completeGraph.1 ((h3 x y).1 hy)
  · obtain ⟨z, hz, r1, r2, r3, r4, r5⟩ := (h3 x y).2 (mem_completeGraph.2 ⟨hx, hy, hne⟩) hno
    exact ⟨z, fun e => by subst e; simp at hz, r1, r2, r3⟩
  · rw [hE, arc_iff_nb] at hac
    refine ⟨h5.sub _ _ hac, ?_⟩
    obtain ⟨x, z, y, ⟨u1, u2, u3, u4⟩, hcase⟩ := h6 a c hac
    have hsymm : ∀ {p q}, q ∈ nb r.1 p → p ∈ nb r.1 q := fun {p q} hh => h2.und.symm p q hh
    have hne : ∀ {p q}, q ∈ nb r.1 p → p ≠ q := fun {p q} hh e => by subst e; exact h2.irr _ hh
    rcases hcase with ⟨rfl, rfl⟩ | ⟨rfl, rfl⟩ | ⟨rfl, rfl⟩ | ⟨rfl, rfl⟩
    · exact ⟨y, Ne.symm u3, Ne.symm (hne u2), .inr ⟨u2, u4⟩⟩
    · exact ⟨x, u3, hne u1, .inr ⟨hsymm u1, fun hh => u4 (hsymm hh)⟩⟩
    · exact ⟨y, Ne.symm (hne u2), Ne.symm u3, .inl ⟨u2, u4⟩⟩
    · exact ⟨x, hne u1, u3, .inl ⟨hsymm u1, fun hh => u4 (hsymm hh)⟩⟩
  · rw [hV v, hE]
    constructor
    · rintro ⟨r, hr, hh⟩; exact ⟨r, hkn.mem_iff.1 hr, hh⟩
    · rintro ⟨r, hr, hh⟩; exact ⟨r, hkn.mem_iff.2 hr, hh⟩

/-- C49: whatever the tests say, `pc` returns (after at most `n + 1` rounds), its neighbour lists are symmetric, and every arc of the
network is an edge of that skeleton. -/
theorem C49_pc_skeleton {A : Type} [DecidableEq A] (gt : List ℕ → Bool) (h : HashOrder ℕ) (n : ℕ) (vd : Dict ℕ (List A)) (hvd : ∀ v < n, v ∈ vd.keys) :
    ∃ r bn, (∀ fuel ≥ n + 1, pcSkeleton gt n fuel = .ok r) ∧ (∀ fuel ≥ n + 1, pc gt h n fuel vd = .ok bn) ∧ Undirected n r.1 ∧
      bn.E.keys.Perm (List.range n) ∧ ∀ x y, Arc bn.E x y → y ∈ nb r.1 x := by
  obtain ⟨r, bn, h1, h2, h3, h4, _, _, h7, _⟩ := pc_of_skeleton gt h n vd hvd
  exact ⟨r, bn, h1, h2, h3, h4, fun x y hxy => (h7 x y hxy).1⟩

/-- Witness: exact tests for a chain of four variables. -/
def chainSep (c : List ℕ) : Bool :=
  match c with
  | x :: y :: s => s.any fun v => decide ((x < v ∧ v < y) ∨ (y < v ∧ v < x))
  | _ => false

example : (pcSkeleton chainSep 4 5).okAnd (fun r => decide (r.1 = [(0, [1]), (1, [0, 2]), (2, [1, 3]), (3, [2])])) = true := by decide +kernel

/-- C81: `pc` never tests marginal independence: two runs whose tests agree on every non-empty conditioning set return the same network;
and an edge is dropped only on account of a test with a non-empty conditioning set. -/
theorem C81_pc_no_marginal {A : Type} [DecidableEq A] (gt gt' : List ℕ → Bool) (h : HashOrder ℕ) (n : ℕ) (vd : Dict ℕ (List A))
    (hg : ∀ x y z, z ≠ [] → gt (x :: y :: z) = gt' (x :: y :: z)) :
    (∀ fuel, pc gt h n fuel vd = pc gt' h n fuel vd) ∧
    ∃ r, (∀ fuel ≥ n + 1, pcSkeleton gt n fuel = .ok r) ∧
      ∀ x y, x < n → y < n → x ≠ y → y ∉ nb r.1 x → ∃ z : List ℕ, z ≠ [] ∧ x ∉ z ∧ y ∉ z ∧ z.Nodup ∧ (∀ v ∈ z, v < n) ∧ (gt (x :: y :: z) = true ∨ gt (y :: x :: z) = true) := by
  refine ⟨fun fuel => ?_, ?_⟩
  · have hA : AgreeAbove2 gt gt' := by
      intro c hc
      match c, hc with
      | x :: y :: z :: s, _ => exact hg x y (z :: s) (by simp)
    unfold pc pcSkeleton
    rw [pcLoop_congr hA n fuel 1 _ _ (by omega)]
  · obtain ⟨r, h1, _, h3⟩ := pcSkeleton_ok gt n
    refine ⟨r, h1, fun x y hx hy hne hno => ?_⟩
    obtain ⟨z, hz, r1, r2, r3, r4, r5⟩ := (h3 x y).2 (mem_completeGraph.2 ⟨hx, hy, hne⟩) hno
    exact ⟨z, fun e => by subst e; simp at hz, r1, r2, r4, r5, r3⟩

/-- Exact tests for the collider 0 -> 2 <- 1: the only independence is the marginal one of 0 and 1.  `pc` misses it: it keeps the edge 0 - 1
and returns a network without edges. -/
theorem C81_collider : ∃ bn : BayesNet ℕ ℕ,
    pc (fun c => decide (c ∈ [[0, 1], [1, 0]])) HashOrder.id 3 4 [(0, []), (1, []), (2, [])] = .ok bn ∧ bn.E = [(0, []), (1, []), (2, [])] := by
  obtain ⟨bn, h1, h2⟩ := Py.of_okAnd (m := pc (A := ℕ) (fun c => decide (c ∈ [[0, 1], [1, 0]])) HashOrder.id 3 4 [(0, []), (1, []), (2, [])])
    (p := fun bn => decide (bn.E = [(0, []), (1, []), (2, [])])) (by decide +kernel)
  exact ⟨bn, h1, of_decide_eq_true h2⟩

/-- C82: an arc of `pc` always comes from three variables two of which are not adjacent in the skeleton.  Hence the network has no edge at all
when no test finds independence, and when there are at most two variables. -/
theorem C82_pc_edgeless {A : Type} [DecidableEq A] (gt : List ℕ → Bool) (h : HashOrder ℕ) (n : ℕ) (vd : Dict ℕ (List A)) (hvd : ∀ v < n, v ∈ vd.keys) :
    ∃ r bn, (∀ fuel ≥ n + 1, pcSkeleton gt n fuel = .ok r) ∧ (∀ fuel ≥ n + 1, pc gt h n fuel vd = .ok bn) ∧
      (∀ a c, Arc bn.E a c → ∃ v, v ≠ a ∧ v ≠ c ∧ ((v ∈ nb r.1 a ∧ v ∉ nb r.1 c) ∨ (v ∈ nb r.1 c ∧ v ∉ nb r.1 a))) ∧
      ((n ≤ 2 ∨ ∀ c, 3 ≤ c.length → gt c = false) → (∀ a c, ¬ Arc bn.E a c) ∧ ∀ v, v ∈ bn.V ↔ v < n) := by
  obtain ⟨r, bn, h1, h2, h3, h4, h5, h6, h7, h8⟩ := pc_of_skeleton gt h n vd hvd
  refine ⟨r, bn, h1, h2, fun a c hac => (h7 a c hac).2, fun hc => ?_⟩
  have hno : ∀ a c, ¬ Arc bn.E a c := by
    intro a c hac
    obtain ⟨hac', v, hva, hvc, hv⟩ := h7 a c hac
    obtain ⟨ha, hcn, hne⟩ := h5 a c hac'
    rcases hc with hn | hg
    · have hvn : v < n := by
        rcases hv with ⟨q, _⟩ | ⟨q, _⟩ <;> exact (h5 _ _ q).2.1
      omega
    · have key : ∀ p q, p < n → q < n → p ≠ q → q ∈ nb r.1 p := by
        intro p q hp hq hpq
        by_contra hno
        obtain ⟨z, hz, _, _, hh⟩ := h6 p q hp hq hpq hno
        have hl : 1 ≤ z.length := List.length_pos_iff.2 hz
        rcases hh with hh | hh <;> rw [hg _ (by simp; omega)] at hh <;> cases hh
      rcases hv with ⟨q, q'⟩ | ⟨q, q'⟩
      · exact q' (key _ _ hcn (h5 _ _ q).2.1 (Ne.symm hvc))
      · exact q' (key _ _ ha (h5 _ _ q).2.1 (Ne.symm hva))
  refine ⟨hno, fun v => ?_⟩
  rw [h8]
  constructor
  · rintro ⟨r, hr, _, hh⟩
    cases hh with
    | refl => exact List.mem_range.1 hr
    | tail _ hb => exact absurd hb (hno _ _)
  · intro hv; exact ⟨v, List.mem_range.2 hv, fun u => hno u v, .refl⟩

/-- C83, what holds of every run: the nodes of the network are the variables reachable from a parentless one.  Missing: acyclicity, and
that every variable is a node. -/
theorem C83_pc_nodes_partial {A : Type} [DecidableEq A] (gt : List ℕ → Bool) (h : HashOrder ℕ) (n : ℕ) (vd : Dict ℕ (List A)) (hvd : ∀ v < n, v ∈ vd.keys) :
    ∃ bn, (∀ fuel ≥ n + 1, pc gt h n fuel vd = .ok bn) ∧ (∀ v ∈ bn.V, v < n) ∧
      ∀ v, v ∈ bn.V ↔ ∃ r < n, (∀ u, ¬ Arc bn.E u r) ∧ Reach bn.E r v := by
  obtain ⟨r, bn, h1, h2, h3, h4, h5, h6, h7, h8⟩ := pc_of_skeleton gt h n vd hvd
  refine ⟨bn, h2, fun v hv => ?_, fun v => by rw [h8]; simp only [List.mem_range]⟩
  obtain ⟨r', hr, _, hh⟩ := (h8 v).1 hv
  cases hh with
  | refl => exact List.mem_range.1 hr
  | tail _ hb => exact (h5 _ _ (h7 _ _ hb).1).2.1

/-- C83 is false: with exact tests for a chain of four variables, `pc` orients the middle edge both ways and returns a network with no node. -/
theorem C83_false : ∃ bn : BayesNet ℕ ℕ, pc chainSep HashOrder.id 4 5 [(0, []), (1, []), (2, []), (3, [])] = .ok bn ∧ bn.V = [] ∧
    Arc bn.E 1 2 ∧ Arc bn.E 2 1 := by
  obtain ⟨bn, h1, h2⟩ := Py.of_okAnd (m := pc (A := ℕ) chainSep HashOrder.id 4 5 [(0, []), (1, []), (2, []), (3, [])])
    (p := fun bn => decide (bn.V = [] ∧ bn.E = [(0, []), (1, [2, 0]), (2, [1, 3]), (3, [])])) (by decide +kernel)
  obtain ⟨h3, h4⟩ := of_decide_eq_true h2
  refine ⟨bn, h1, h3, ?_, ?_⟩ <;> rw [h4, arc_iff_nb] <;> decide

/-! ## C50, C84: `chow_liu` -/

/-- C50: for two or more variables and any weights, the selection loop of `chow_liu` returns a directed spanning tree rooted at the first
endpoint of a heaviest pair. -/
theorem C50_chow_liu_tree (w : ℕ → ℕ → ℚ) (n : ℕ) (hn : 2 ≤ n) :
    ∃ t root j, clTree w n = .ok t ∧ t.keys = List.range n ∧
      (root < j ∧ j < n ∧ ∀ a b, a < b → b < n → w a b ≤ w root j) ∧ Arc t root j ∧
      (∀ u v, Arc t u v → u < n ∧ v < n) ∧
      (∀ u, ¬ Arc t u root) ∧ (∀ v < n, v ≠ root → ∃! u, Arc t u v) ∧ (∀ v < n, Reach t root v) ∧ NoCycle t := by
  have h01 : ((0 : ℕ), (1 : ℕ), w 0 1) ∈ edgeList w n := mem_edgeList.2 ⟨by omega, by omega, rfl⟩
  cases hl : edgeList w n with
  | nil => rw [hl] at h01; cases h01
  | cons a es =>
    obtain ⟨i, j, q⟩ := a
    have hij : (i, j, q) ∈ edgeList w n := by rw [hl]; simp
    obtain ⟨hij1, hij2, hq⟩ := mem_edgeList.1 hij
    have hin : i < n := by omega
    have hbd : ∀ e ∈ (i, j, q) :: es, e.1 < n ∧ e.2.1 < n := by
      intro e he
      rw [← hl] at he
      obtain ⟨p1, p2, p3⟩ := e
      have := mem_edgeList.1 he
      exact ⟨by simp; omega, by simp; omega⟩
    have hji : j ∉ [i] := by simp; omega
    obtain ⟨t1, k1, k2, k3⟩ := (growing_start hin).add (u := i) (v := j) (by simp) hji hij2
    obtain ⟨t', c', g1, g2, g3, g4, _⟩ := clLoop_ok es ([i] ++ [j]) t1 k2 (fun e he => hbd e (by simp [he]))
    have hall : ∀ v < n, v ∈ c' := by
      intro v hv
      have hic : i ∈ c' := g3 i (by simp)
      by_cases hvi : v = i
      · subst hvi; exact hic
      by_cases hvj : v = j
      · subst hvj; exact g3 _ (by simp)
      rcases Nat.lt_or_gt_of_ne hvi with hlt | hlt
      · have : (v, i, w v i) ∈ edgeList w n := mem_edgeList.2 ⟨hlt, hin, rfl⟩
        rw [hl] at this
        rcases List.mem_cons.1 this with he | he
        · cases he; omega
        · exact (g4 _ he).2 (by simp)
      · have : (i, v, w i v) ∈ edgeList w n := mem_edgeList.2 ⟨hlt, hv, rfl⟩
        rw [hl] at this
        rcases List.mem_cons.1 this with he | he
        · simp only [Prod.mk.injEq] at he; omega
        · exact (g4 _ he).1 (by simp)
    obtain ⟨rk, _, hrk⟩ := g2.rank
    have hrun : clLoop ((i, j, q) :: es) [i] (emptyGraph n) = .ok t' := by
      rw [clLoop, if_pos ⟨by simp, hji⟩, k1, Py.bind_ok]; exact g1
    refine ⟨t', i, j, ?_, g2.keys, ⟨hij1, hij2, fun a b hab hb => ?_⟩, ?_, ?_, ?_, ?_, ?_, ?_⟩
    · unfold clTree; rw [hl]; exact hrun
    · have hm : (a, b, w a b) ∈ edgeList w n := mem_edgeList.2 ⟨hab, hb, rfl⟩
      have hs : (edgeList w n).Pairwise fun a b => b.2.2 ≤ a.2.2 := sortDesc_pairwise _
      rw [hl] at hm hs
      rcases List.mem_cons.1 hm with he | he
      · simp only [Prod.mk.injEq] at he; obtain ⟨rfl, rfl, _⟩ := he; exact le_refl _
      · have := (List.pairwise_cons.1 hs).1 _ he
        simp only at this; rw [← hq]; exact this
    · obtain ⟨u, hu, huu⟩ := g2.parent j (hall j hij2) (by omega)
      -- the first step of the loop links the pair
      have hmono : ∀ (es : List (ℕ × ℕ × ℚ)) (c : List ℕ) (t t' : Dict ℕ (List ℕ)), clLoop es c t = .ok t' → ∀ a b, b ∈ nb t a → b ∈ nb t' a := by
        intro es
        induction es with
        | nil => intro c t t' h a b hb; rw [clLoop] at h; cases h; exact hb
        | cons e es ih =>
          obtain ⟨p, q, _⟩ := e
          intro c t t' h a b hb
          have hstep : ∀ {k v t1}, appendAt t k v = .ok t1 → b ∈ nb t1 a := by
            intro k v t1 h1
            unfold appendAt at h1
            cases hg : t.get k with
            | error => rw [hg] at h1; cases h1
            | ok l =>
              rw [hg] at h1; cases h1
              rw [nb_set]
              split_ifs with hak
              · subst hak; rw [(get_ok_inv hg).2]; simp [hb]
              · exact hb
          rw [clLoop] at h
          split_ifs at h with c1 c2
          · cases h1 : appendAt t p q with
            | error => rw [h1] at h; cases h
            | ok t1 => rw [h1] at h; exact ih _ _ _ h _ _ (hstep h1)
          · cases h1 : appendAt t q p with
            | error => rw [h1] at h; cases h
            | ok t1 => rw [h1] at h; exact ih _ _ _ h _ _ (hstep h1)
          · exact ih _ _ _ h _ _ hb
      exact arc_iff_nb.2 (hmono _ _ _ _ g1 _ _ ((k3 i j).2 (.inr ⟨rfl, rfl⟩)))
    · intro u v huv
      obtain ⟨c1, c2, _⟩ := g2.arc u v (arc_iff_nb.1 huv)
      exact ⟨g2.lt u c1, g2.lt v c2⟩
    · intro u hu; exact (g2.arc u i (arc_iff_nb.1 hu)).2.2 rfl
    · intro v hv hvr
      obtain ⟨u, hu, huu⟩ := g2.parent v (hall v hv) hvr
      exact ⟨u, arc_iff_nb.2 hu, fun u' hu' => huu u' (arc_iff_nb.1 hu')⟩
    · intro v hv; exact g2.reach v (hall v hv)
    · intro v hv
      have : ∀ {a b}, Relation.TransGen (Arc t') a b → rk a < rk b := by
        intro a b hab
        induction hab with
        | single h => exact hrk _ _ (arc_iff_nb.1 h)
        | tail _ h ih => exact lt_trans ih (hrk _ _ (arc_iff_nb.1 h))
      exact lt_irrefl _ (this hv)

/-- The weights of the counterexample. -/
def clW (i j : ℕ) : ℚ := if (i, j) = (0, 1) then 10 else if (i, j) = (2, 3) then 9 else if (i, j) = (1, 2) then 8 else 1

/-- C84, what holds of all weights: the tree contains a heaviest pair.  Missing: maximality of the total weight, which is false. -/
theorem C84_chow_liu_heaviest_partial (w : ℕ → ℕ → ℚ) (n : ℕ) (hn : 2 ≤ n) :
    ∃ t i j, clTree w n = .ok t ∧ i < j ∧ j < n ∧ Arc t i j ∧ ∀ a b, a < b → b < n → w a b ≤ w i j := by
  obtain ⟨t, i, j, h1, _, ⟨h2, h3, h4⟩, h5, _⟩ := C50_chow_liu_tree w n hn
  exact ⟨t, i, j, h1, h2, h3, h5, h4⟩

/-- C84 is false: the tree need not be of maximum weight: here it has weight 10 + 8 + 1, while the path 0 - 1 - 2 - 3 has 10 + 8 + 9; a pair seen before
either of its ends is in the tree is never looked at again. -/
theorem C84_false : ∃ t, clTree clW 4 = .ok t ∧ (∀ a b, Arc t a b ↔ (a, b) ∈ [(0, 1), (0, 3), (1, 2)]) ∧
    clW 0 1 + clW 0 3 + clW 1 2 < clW 0 1 + clW 1 2 + clW 2 3 := by
  refine ⟨[(0, [1, 3]), (1, [2]), (2, []), (3, [])], by decide +kernel, fun a b => ?_, by decide +kernel⟩
  rw [arc_iff_nb]
  by_cases h0 : a = 0
  · subst h0; simp [nb, Dict.get?]
  by_cases h1 : a = 1
  · subst h1; simp [nb, Dict.get?]
  by_cases h2 : a = 2
  · subst h2; simp [nb, Dict.get?]
  by_cases h3 : a = 3
  · subst h3; simp [nb, Dict.get?]
  simp [nb, Dict.get?, h0, h1, Ne.symm h0, Ne.symm h1, Ne.symm h2, Ne.symm h3]

end PyBN
