import Verif.Proofs.Distance
import Verif.Props.Edit

/-!
# C41 - C43, C74, C75: structural distances, Markov blankets
-/

set_option linter.unusedSectionVars false

namespace PyBN
open BayesNet
variable {N A : Type} [DecidableEq N] [DecidableEq A]

/-- A second structure on the nodes of `exNet`: 2 → 0, 1 → 2. -/
def exNet' : BayesNet ℕ ℕ where
  V := [1, 2, 0]
  E := [(0, []), (1, [2]), (2, [0])]
  F := [(0, ⟨[2], [], []⟩), (1, ⟨[], [], []⟩), (2, ⟨[1], [], []⟩)]

/-- A structure on other nodes: 0 → 3 → 4. -/
def exNet'' : BayesNet ℕ ℕ where
  V := [0, 3, 4]
  E := [(0, [3]), (3, [4]), (4, [])]
  F := [(0, ⟨[], [], []⟩), (3, ⟨[0], [], []⟩), (4, ⟨[3], [], []⟩)]

theorem BayesNet.WF.struct {bn : BayesNet N A} (w : bn.WF) (e : bn.EdgeWF) : bn.Struct :=
  ⟨w.nodup, w.dom, w.fam_nodup, e⟩

theorem exNet_struct : exNet.Struct := exNet_wf.struct exNet_edgeWf

theorem exNet'_struct : exNet'.Struct :=
  ⟨by decide, fun v => by rw [← Dict.mem_keys_iff]; exact ⟨fun h => by revert v; decide, fun h => by revert v; decide⟩, by decide,
    .of_dec _ (by decide) (by decide) (by decide) (by decide)⟩

theorem exNet''_struct : exNet''.Struct :=
  ⟨by decide, fun v => by rw [← Dict.mem_keys_iff]; exact ⟨fun h => by revert v; decide, fun h => by revert v; decide⟩, by decide,
    .of_dec _ (by decide) (by decide) (by decide) (by decide)⟩

/-! ## C74: the general formula -/

/-- C74: for any two structurally consistent networks, `missing_edges(x, y)` is the number of arcs of `x` absent from `y` **plus**
the number of arcs of `x` whose head is not a node of `y` (these are counted twice); `extra_edges` is the same with the
arguments exchanged. -/
theorem C74_missing_edges (x y : BayesNet N A) (wx : x.Struct) (wy : y.Struct) :
    missingEdges x y = .ok ((x.arcs \ y.arcs).ncard + {p : N × N | p ∈ x.arcs ∧ p.2 ∉ y.V}.ncard) ∧
    extraEdges x y = .ok ((y.arcs \ x.arcs).ncard + {p : N × N | p ∈ y.arcs ∧ p.2 ∉ x.V}.ncard) :=
  ⟨missingEdges_ok wx wy, by rw [extraEdges_eq]; exact missingEdges_ok wy wx⟩

/-- C74: `incorrect_direction_edges(x, y)` and `hamming(x, y)` raise `KeyError` exactly when some node with children in `x` is
not a node of `y`. -/
theorem C74_keyError (x y : BayesNet N A) (wx : x.Struct) (wy : y.Struct) :
    (incorrectDirectionEdges x y = .error .keyError ↔ ∃ p ∈ x.arcs, p.1 ∉ y.V) ∧
    (hamming x y = .error .keyError ↔ ∃ p ∈ x.arcs, p.1 ∉ y.V) := by
  have hcase : (∃ p ∈ x.arcs, p.1 ∉ y.V) ↔ ∃ rv ∈ x.V, rv ∉ y.V ∧ x.childrenOf rv ≠ [] := by
    constructor
    · rintro ⟨p, hp, hy⟩
      exact ⟨p.1, wx.tail_mem hp, hy, List.ne_nil_of_mem hp⟩
    · rintro ⟨rv, hx, hy, hne⟩
      obtain ⟨c, hc⟩ := List.exists_mem_of_ne_nil _ hne
      exact ⟨(rv, c), hc, hy⟩
  have hd : incorrectDirectionEdges x y = .error .keyError ↔ ∃ p ∈ x.arcs, p.1 ∉ y.V := by
    rw [hcase]
    refine ⟨fun h => ?_, wrongWay_error wx wy⟩
    by_contra hn
    rw [wrongWay_ok wx wy fun rv hrv => by
      by_contra hh
      rw [not_or] at hh
      exact hn ⟨rv, hrv, hh⟩] at h
    cases h
  refine ⟨hd, ?_⟩
  unfold hamming
  rw [extraEdges_eq, missingEdges_ok wx wy, missingEdges_ok wy wx]
  simp only [Py.bind_ok]
  rw [← hd]
  cases hi : incorrectDirectionEdges x y with
  | error e => exact ⟨fun h => h, fun h => h⟩
  | ok n => exact ⟨(fun h => by simp [Py.bind_ok, Py.pure_eq] at h), (fun h => by simp at h)⟩

example : missingEdges exNet'' exNet = .ok 4 ∧ extraEdges exNet'' exNet = .ok 4 ∧
    hamming exNet'' exNet = .error .keyError := by decide

/-! ## C75, C42 -/

/-- C42 as a user states it: reversed arcs are counted. -/
def CountsReversed (count : BayesNet N A → BayesNet N A → Py ℕ) : Prop :=
  ∀ x y : BayesNet N A, x.Struct → y.Struct → (∀ v, v ∈ x.V ↔ v ∈ y.V) →
    count x y = .ok ({p : N × N | p ∈ x.arcs ∧ (p.2, p.1) ∈ y.arcs}).ncard

/-- C75: on a common node set `incorrect_direction_edges` is always 0. -/
theorem C75_always_zero (x y : BayesNet N A) (wx : x.Struct) (wy : y.Struct) (hV : ∀ v, v ∈ x.V ↔ v ∈ y.V) :
    incorrectDirectionEdges x y = .ok 0 :=
  wrongWay_ok wx wy fun rv h => .inl ((hV rv).1 h)

/-- C42 fails: `exNet` has the arc 0 → 2, `exNet'` has 2 → 0, and the count is 0. -/
theorem C42_false : ¬ CountsReversed (incorrectDirectionEdges (N := ℕ) (A := ℕ)) := by
  intro h
  have h1 := h exNet exNet' exNet_struct exNet'_struct (by
    intro v
    show v ∈ [0, 1, 2] ↔ v ∈ [1, 2, 0]
    simp only [List.mem_cons, List.not_mem_nil, or_false]; omega)
  have h2 : incorrectDirectionEdges exNet exNet' = .ok 0 := by decide
  rw [h2] at h1
  simp only [Except.ok.injEq] at h1
  have hf : ({p : ℕ × ℕ | p ∈ exNet.arcs ∧ (p.2, p.1) ∈ exNet'.arcs}).Finite := exNet_struct.arcs_finite.subset fun p hp => hp.1
  have := (Set.ncard_eq_zero hf).1 h1.symm
  exact Set.notMem_empty (0, 2) (this ▸ (⟨by show 2 ∈ exNet.childrenOf 0; decide, by show 0 ∈ exNet'.childrenOf 2; decide⟩ :
    ((0, 2) : ℕ × ℕ) ∈ {p : ℕ × ℕ | p ∈ exNet.arcs ∧ (p.2, p.1) ∈ exNet'.arcs}))

/-- C42, the part that holds: the count is right exactly when no arc is reversed. -/
theorem C42_count_iff_none_reversed_partial (x y : BayesNet N A) (wx : x.Struct) (wy : y.Struct) (hV : ∀ v, v ∈ x.V ↔ v ∈ y.V) :
    incorrectDirectionEdges x y = .ok ({p : N × N | p ∈ x.arcs ∧ (p.2, p.1) ∈ y.arcs}).ncard ↔
      ∀ u v, (u, v) ∈ x.arcs → (v, u) ∉ y.arcs := by
  have hf : ({p : N × N | p ∈ x.arcs ∧ (p.2, p.1) ∈ y.arcs}).Finite := wx.arcs_finite.subset fun p hp => hp.1
  rw [C75_always_zero x y wx wy hV]
  simp only [Except.ok.injEq]
  rw [eq_comm, Set.ncard_eq_zero hf, Set.eq_empty_iff_forall_notMem]
  exact ⟨fun h u v h1 h2 => h (u, v) ⟨h1, h2⟩, fun h p hp => h p.1 p.2 hp.1 hp.2⟩

/-- C75: a reversed arc therefore costs two in `hamming` - one missing, one extra: on a common node set `hamming` is the size of
the symmetric difference of the arc sets. -/
theorem C75_hamming (x y : BayesNet N A) (wx : x.Struct) (wy : y.Struct) (hV : ∀ v, v ∈ x.V ↔ v ∈ y.V) :
    hamming x y = .ok ((x.arcs \ y.arcs) ∪ (y.arcs \ x.arcs)).ncard := by
  have e1 : {p : N × N | p ∈ x.arcs ∧ p.2 ∉ y.V} = ∅ := by
    ext p; simp only [Set.mem_setOf_eq, Set.mem_empty_iff_false, iff_false]
    exact fun h => h.2 ((hV _).1 (wx.head_mem h.1))
  have e2 : {p : N × N | p ∈ y.arcs ∧ p.2 ∉ x.V} = ∅ := by
    ext p; simp only [Set.mem_setOf_eq, Set.mem_empty_iff_false, iff_false]
    exact fun h => h.2 ((hV _).2 (wy.head_mem h.1))
  unfold hamming
  rw [extraEdges_eq, missingEdges_ok wx wy, missingEdges_ok wy wx, C75_always_zero x y wx wy hV]
  simp only [Py.bind_ok, Py.pure_eq, Except.ok.injEq, e1, e2, Set.ncard_empty, Nat.add_zero]
  rw [Set.ncard_union_eq _ (wx.arcs_finite.subset Set.diff_subset) (wy.arcs_finite.subset Set.diff_subset)]
  rw [Set.disjoint_left]; exact fun p h1 h2 => h2.2 h1.1

/-! ## C41 -/

/-- C41: on a common node set, the two counts. -/
theorem C41_missing_extra (x y : BayesNet N A) (wx : x.Struct) (wy : y.Struct) (hV : ∀ v, v ∈ x.V ↔ v ∈ y.V) :
    missingEdges x y = .ok (x.arcs \ y.arcs).ncard ∧ extraEdges x y = missingEdges y x := by
  have e1 : {p : N × N | p ∈ x.arcs ∧ p.2 ∉ y.V} = ∅ := by
    ext p; simp only [Set.mem_setOf_eq, Set.mem_empty_iff_false, iff_false]
    exact fun h => h.2 ((hV _).1 (wx.head_mem h.1))
  refine ⟨?_, extraEdges_eq x y⟩
  rw [missingEdges_ok wx wy, e1, Set.ncard_empty, Nat.add_zero]

/-- C41: `hamming` is a metric on the structures over a given node set. -/
theorem C41_metric (x y z : BayesNet N A) (wx : x.Struct) (wy : y.Struct) (wz : z.Struct) (hxy : ∀ v, v ∈ x.V ↔ v ∈ y.V)
    (hyz : ∀ v, v ∈ y.V ↔ v ∈ z.V) :
    ∃ a b c, hamming x y = .ok a ∧ hamming y z = .ok b ∧ hamming x z = .ok c ∧
      (a = 0 ↔ ∀ u v, v ∈ x.childrenOf u ↔ v ∈ y.childrenOf u) ∧ hamming y x = .ok a ∧ c ≤ a + b := by
  have hxz : ∀ v, v ∈ x.V ↔ v ∈ z.V := fun v => (hxy v).trans (hyz v)
  refine ⟨_, _, _, C75_hamming x y wx wy hxy, C75_hamming y z wy wz hyz, C75_hamming x z wx wz hxz, ?_, ?_, ?_⟩
  · rw [Set.ncard_eq_zero ((wx.arcs_finite.subset Set.diff_subset).union (wy.arcs_finite.subset Set.diff_subset))]
    rw [Set.eq_empty_iff_forall_notMem]
    constructor
    · intro h u v
      have := h (u, v)
      simp only [arcs, Set.mem_union, Set.mem_diff, Set.mem_setOf_eq] at this
      tauto
    · intro h p
      have := h p.1 p.2
      simp only [arcs, Set.mem_union, Set.mem_diff, Set.mem_setOf_eq]
      tauto
  · rw [C75_hamming y x wy wx fun v => (hxy v).symm, Set.union_comm]
  · refine (Set.ncard_le_ncard ?_ ?_).trans (Set.ncard_union_le _ _)
    · intro p
      simp only [Set.mem_union, Set.mem_diff]
      tauto
    · exact ((wx.arcs_finite.subset Set.diff_subset).union (wy.arcs_finite.subset Set.diff_subset)).union
        ((wy.arcs_finite.subset Set.diff_subset).union (wz.arcs_finite.subset Set.diff_subset))

example : hamming exNet exNet' = .ok 2 ∧ missingEdges exNet exNet' = .ok 1 ∧ extraEdges exNet exNet' = .ok 1 := by decide

/-! ## C43 -/

/-- C43: `markov_blanket(bn)` has one entry per node, which lists exactly the parents, children and other parents of children;
no list of any network object (the argument included) is changed. -/
theorem C43_markov_blanket (h : Heap N A) (b : HNet N) (hb : HNet.InBounds h b) (w : (HNet.deref h b).Struct) :
    ∃ h' mb, HNet.markovBlanket h b = .ok (h', mb) ∧ mb.keys = (HNet.deref h b).V ∧
      (∀ x ∈ (HNet.deref h b).V, ∃ e, mb.get? x = some e ∧ ∀ y, y ∈ h'.nm e ↔ (HNet.deref h b).InBlanket x y) ∧
      ∀ b' : HNet N, HNet.InBounds h b' → HNet.deref h' b' = HNet.deref h b' := by
  have hmemE : ∀ {b : HNet N}, HNet.InBounds h b → ∀ p ∈ b.E, p.2 < h.names.length := fun hb p hp => hb.n _ (by
    unfold HNet.nAddr; exact List.mem_cons_of_mem _ (List.mem_append_left _ (List.mem_map_of_mem hp)))
  have hmemF : ∀ {b : HNet N}, HNet.InBounds h b → ∀ p ∈ b.F, p.2.parents < h.names.length := fun hb p hp => hb.n _ (by
    unfold HNet.nAddr
    exact List.mem_cons_of_mem _ (List.mem_append_right _ (List.mem_map_of_mem (f := fun kv : N × HNode => kv.2.parents) hp)))
  have hmemV : ∀ {b : HNet N}, HNet.InBounds h b → b.V < h.names.length := fun hb => hb.n _ (by unfold HNet.nAddr; simp)
  obtain ⟨h', mb, r1, r2, r3, r4⟩ := HNet.markovBlanket_ok h b
    ⟨hmemV hb, fun v a hv => hmemE hb _ (Dict.get?_mem hv), fun v d hv => hmemF hb _ (Dict.get?_mem hv)⟩ w
  exact ⟨h', mb, r1, r3, r4, fun b' hb' => r2.deref ⟨hmemV hb', hmemE hb', hmemF hb'⟩⟩

/-- C43: the relation is symmetric. -/
theorem C43_symmetric (bn : BayesNet N A) (w : bn.Struct) (x y : N) : bn.InBlanket x y ↔ bn.InBlanket y x := by
  have key : ∀ x y : N, bn.InBlanket x y → bn.InBlanket y x := by
    intro x y h
    rcases h with h | h | ⟨hne, c, hc, hp⟩
    · exact .inr (.inl ((w.edges.iff _ _).2 h))
    · exact .inl ((w.edges.iff _ _).1 h)
    · exact .inr (.inr ⟨fun e => hne e.symm, c, (w.edges.iff _ _).2 hp, (w.edges.iff _ _).1 hc⟩)
  exact ⟨key x y, key y x⟩

/-- The hypotheses are met by `exNet` as built by the constructor; its blankets. -/
example : HNet.InBounds (HNet.fresh exNet).1 (HNet.fresh exNet).2 ∧
    (HNet.deref (HNet.fresh exNet).1 (HNet.fresh exNet).2).Struct ∧
    ((HNet.markovBlanket (HNet.fresh exNet).1 (HNet.fresh exNet).2).okAnd fun r =>
      decide (r.2.map (fun kv => (kv.1, r.1.nm kv.2)) = [(0, [2, 1]), (1, [2, 0]), (2, [0, 1])])) = true :=
  ⟨HNet.fresh_inBounds _, by rw [HNet.fresh_deref]; exact exNet_struct, by decide⟩

end PyBN
