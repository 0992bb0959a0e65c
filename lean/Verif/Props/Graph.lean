import Verif.Proofs.Mst

/-!
# C26 - C29: `utils/graph.py`
-/

namespace PyBN
variable {N : Type _} [DecidableEq N]

/-- A diamond whose breadth-first order is not topological: 0 → 1, 0 → 2, 2 → 1, 1 → 3. -/
def exGraph : Dict ℕ (List ℕ) := [(0, [1, 2]), (1, [3]), (2, [1]), (3, [])]

theorem childrenAreKeys_of_dec {e : Dict N (List N)} (h : ∀ kv ∈ e, ∀ v ∈ kv.2, v ∈ e.keys) : ChildrenAreKeys e := by
  rintro u v ⟨l, h1, h2⟩
  exact h (u, l) (Dict.get?_mem h1) v h2

/-- A concrete graph is acyclic if its nodes can be numbered increasingly along arcs. -/
theorem noCycle_of_rank {e : Dict N (List N)} (r : N → ℕ) (h : ∀ kv ∈ e, ∀ v ∈ kv.2, r kv.1 < r v) : NoCycle e := by
  have : ∀ a b, Relation.TransGen (Arc e) a b → r a < r b := by
    intro a b hab
    induction hab with
    | single h1 => obtain ⟨l, h1, h2⟩ := h1; exact h (_, l) (Dict.get?_mem h1) _ h2
    | tail _ h1 ih => obtain ⟨l, h1, h2⟩ := h1; exact lt_trans ih (h (_, l) (Dict.get?_mem h1) _ h2)
  intro v hv
  exact lt_irrefl _ (this v v hv)

/-! ## C26 -/

/-- C26: on an acyclic edge dictionary whose children are keys, `topsort` returns every key exactly once, for every dictionary
iteration order. -/
theorem C26_topsort_all_nodes (h : HashOrder N) (e : Dict N (List N)) (hn : e.keys.Nodup) (hcl : ChildrenAreKeys e)
    (hac : NoCycle e) : ∃ l, topsort h e none = .ok l ∧ l.Perm e.keys := by
  obtain ⟨q, hq, hqn, hqm⟩ := initQueue_none h hn
  obtain ⟨l, h1, h2, h3, _⟩ := topsort_run hcl (q := q) fun v hv => ((hqm v).1 hv).1
  refine ⟨l, by simp only [topsort, hq, Py.bind_ok, h1], ?_⟩
  rw [List.perm_ext_iff_of_nodup h2 hn]
  intro v
  rw [h3]
  constructor
  · rintro ⟨r, hr, hrv⟩
    cases hrv with
    | refl => exact ((hqm _).1 hr).1
    | tail _ hb => exact hcl _ _ hb
  · intro hv
    obtain ⟨r, h1, h2, h3⟩ := reach_from_root hac v hv
    exact ⟨r, (hqm r).2 ⟨h1, h2⟩, h3⟩

/-- C26, explicit root: exactly the nodes reachable from it, each once (cycles allowed). -/
theorem C26_topsort_root (h : HashOrder N) (e : Dict N (List N)) (hcl : ChildrenAreKeys e) (r : N) (hr : r ∈ e.keys) :
    ∃ l, topsort h e (some r) = .ok l ∧ l.Nodup ∧ ∀ v, v ∈ l ↔ Reach e r v := by
  obtain ⟨l, h1, h2, h3, _⟩ := topsort_run hcl (q := [r]) (by simpa using hr)
  refine ⟨l, by simp only [topsort, initQueue, Py.bind_ok, h1], h2, fun v => ?_⟩
  rw [h3]; simp

/-- C26, any graph (cycles allowed): `topsort` returns exactly the nodes reachable from parentless keys, each once; the others
are silently dropped. -/
theorem C26_topsort_general (h : HashOrder N) (e : Dict N (List N)) (hn : e.keys.Nodup) (hcl : ChildrenAreKeys e) :
    ∃ l, topsort h e none = .ok l ∧ l.Nodup ∧
      ∀ v, v ∈ l ↔ ∃ r ∈ e.keys, (∀ u, ¬ Arc e u r) ∧ Reach e r v := by
  obtain ⟨q, hq, hqn, hqm⟩ := initQueue_none h hn
  obtain ⟨l, h1, h2, h3, _⟩ := topsort_run hcl (q := q) fun v hv => ((hqm v).1 hv).1
  refine ⟨l, by simp only [topsort, hq, Py.bind_ok, h1], h2, fun v => ?_⟩
  rw [h3]
  constructor
  · rintro ⟨r, hr, hrv⟩; exact ⟨r, ((hqm r).1 hr).1, ((hqm r).1 hr).2, hrv⟩
  · rintro ⟨r, h1, h2, h3⟩; exact ⟨r, (hqm r).2 ⟨h1, h2⟩, h3⟩

/-- C26: `topsort` ends on every dictionary whatsoever (even cyclic, or with children that are not keys). -/
theorem C26_topsort_terminates (h : HashOrder N) (e : Dict N (List N)) (root : Option N) :
    topsort h e root ≠ .error .diverges := by
  have hpk : ∀ (rv : N) (ks : List N), hasParentKey e rv ks ≠ .error .diverges := by
    intro rv ks
    induction ks with
    | nil => simp [hasParentKey]
    | cons k ks ih =>
      simp only [hasParentKey]
      cases hg : Dict.get? e k with
      | none => rw [Dict.get_of_none hg]; intro hh; cases hh
      | some c =>
        rw [Dict.get_of_get? hg, Py.bind_ok]
        cases hr : hasParentKey e rv ks with
        | error x => intro hh; apply ih; rw [hr]; cases hh; rfl
        | ok b => intro hh; cases hh
  have hrl : ∀ ks rvs : List N, rootsLoop e ks rvs ≠ .error .diverges := by
    intro ks rvs
    induction rvs with
    | nil => simp [rootsLoop]
    | cons v rvs ih =>
      simp only [rootsLoop]
      cases hp : hasParentKey e v ks with
      | error x => intro hh; apply hpk v ks; rw [hp]; cases hh; rfl
      | ok b =>
        rw [Py.bind_ok]
        cases hr : rootsLoop e ks rvs with
        | error x => intro hh; apply ih; rw [hr]; cases hh; rfl
        | ok q => intro hh; cases hh
  unfold topsort
  cases hq : initQueue h e root with
  | error x =>
    intro hh
    cases hh
    cases root with
    | none => exact hrl _ _ hq
    | some r => cases hq
  | ok q =>
    rw [Py.bind_ok]
    exact bfsLoop_fuel e _ q [] (by rw [pend_nil]; exact Nat.le_refl _)

/-- Witness: the diamond meets the hypotheses. -/
example : exGraph.keys.Nodup ∧ ChildrenAreKeys exGraph ∧ NoCycle exGraph :=
  ⟨by decide, childrenAreKeys_of_dec (by decide), noCycle_of_rank (fun v => if v = 1 then 2 else if v = 2 then 1 else v) (by decide)⟩

/-- Witness: a cycle behind no root is dropped. -/
example : topsort HashOrder.id [(0, [1]), (1, [0]), (2, [])] none = .ok [2] := by decide

/-! ## C27 -/

/-- C27 is false of the code: on an acyclic graph the result can put the child 1 before its parent 2. -/
theorem C27_false : ∃ (e : Dict ℕ (List ℕ)), e.keys.Nodup ∧ ChildrenAreKeys e ∧ NoCycle e ∧
    ∃ l, topsort HashOrder.id e none = .ok l ∧ Arc e 2 1 ∧ ¬ Before l 2 1 := by
  refine ⟨exGraph, by decide, childrenAreKeys_of_dec (by decide),
    noCycle_of_rank (fun v => if v = 1 then 2 else if v = 2 then 1 else v) (by decide), [0, 1, 2, 3], by decide,
    ⟨[1], by decide, by decide⟩, ?_⟩
  rintro ⟨l1, l2, h1, h2⟩
  have : l1 = [0] := by
    rcases l1 with _ | ⟨a, _ | ⟨b, l1⟩⟩
    · simp at h2
    · simp at h1; simp [h1.1]
    · simp only [List.cons_append, List.cons.injEq] at h1
      obtain ⟨rfl, rfl, h1⟩ := h1
      rcases l1 with _ | ⟨c, l1⟩
      · simp at h1
      · simp only [List.cons_append, List.cons.injEq] at h1
        obtain ⟨rfl, h1⟩ := h1
        rcases l1 with _ | ⟨d, l1⟩
        · simp at h1
        · simp at h1
  subst this
  simp at h2

/-- C27 for forests (every node has at most one parent): parents precede their children. -/
theorem C27_topological_forest_partial (h : HashOrder N) (e : Dict N (List N)) (hn : e.keys.Nodup) (hcl : ChildrenAreKeys e)
    (hone : ∀ p p' v, Arc e p v → Arc e p' v → p = p') :
    ∃ l, topsort h e none = .ok l ∧ ∀ u v, v ∈ l → Arc e u v → Before l u v := by
  obtain ⟨q, hq, hqn, hqm⟩ := initQueue_none h hn
  obtain ⟨l, h1, _, _, h4⟩ := topsort_run hcl (q := q) fun v hv => ((hqm v).1 hv).1
  refine ⟨l, by simp only [topsort, hq, Py.bind_ok, h1], fun u v hv huv => ?_⟩
  obtain ⟨l1, l2, rfl⟩ := List.append_of_mem hv
  refine ⟨l1, l2, rfl, ?_⟩
  rcases h4 l1 v l2 rfl with h | ⟨p, hp, hpv⟩
  · exact absurd huv (((hqm v).1 h).2 u)
  · exact hone p u v hpv huv ▸ hp

/-- C54: in any graph each node of the result that has parents is preceded by at least one of them (breadth-first order). -/
theorem C54_some_parent_precedes (h : HashOrder N) (e : Dict N (List N)) (hn : e.keys.Nodup) (hcl : ChildrenAreKeys e) :
    ∃ l, topsort h e none = .ok l ∧ ∀ v ∈ l, (∃ u, Arc e u v) → ∃ p, Arc e p v ∧ Before l p v := by
  obtain ⟨q, hq, hqn, hqm⟩ := initQueue_none h hn
  obtain ⟨l, h1, _, _, h4⟩ := topsort_run hcl (q := q) fun v hv => ((hqm v).1 hv).1
  refine ⟨l, by simp only [topsort, hq, Py.bind_ok, h1], fun v hv ⟨u, huv⟩ => ?_⟩
  obtain ⟨l1, l2, rfl⟩ := List.append_of_mem hv
  rcases h4 l1 v l2 rfl with h | ⟨p, hp, hpv⟩
  · exact absurd huv (((hqm v).1 h).2 u)
  · exact ⟨p, hpv, l1, l2, rfl, hp⟩

/-- `dfs_postorder` is exactly the reverse, so on a forest children precede their parents (what message passing needs). -/
theorem C27_postorder_forest_partial (h : HashOrder N) (e : Dict N (List N)) (hn : e.keys.Nodup) (hcl : ChildrenAreKeys e)
    (hone : ∀ p p' v, Arc e p v → Arc e p' v → p = p') :
    ∃ l, dfsPostorder h e none = .ok l ∧ ∀ u v, v ∈ l → Arc e u v → ∃ l1 l2, l = l1 ++ v :: l2 ∧ u ∈ l2 := by
  obtain ⟨l, h1, h2⟩ := C27_topological_forest_partial h e hn hcl hone
  refine ⟨l.reverse, by simp only [dfsPostorder, h1, Py.bind_ok, Py.pure_eq], fun u v hv huv => ?_⟩
  obtain ⟨l1, l2, rfl, hu⟩ := h2 u v (List.mem_reverse.1 hv) huv
  exact ⟨l2.reverse, l1.reverse, by simp, List.mem_reverse.2 hu⟩

/-- Witness for the forest hypothesis: 0 → 1, 0 → 2, 1 → 3. -/
example : (∀ p p' v, Arc (N := ℕ) [(0, [1, 2]), (1, [3]), (2, []), (3, [])] p v →
    Arc [(0, [1, 2]), (1, [3]), (2, []), (3, [])] p' v → p = p') ∧
    topsort HashOrder.rev [(0, [1, 2]), (1, [3]), (2, []), (3, [])] none = .ok [0, 1, 2, 3] := by
  constructor
  · have key : ∀ p v, Arc (N := ℕ) [(0, [1, 2]), (1, [3]), (2, []), (3, [])] p v → p = if v = 3 then 1 else 0 := by
      rintro p v ⟨l, h1, h2⟩
      have := Dict.get?_mem h1
      simp at this
      rcases this with ⟨rfl, rfl⟩ | ⟨rfl, rfl⟩ | ⟨rfl, rfl⟩ | ⟨rfl, rfl⟩ <;> simp at h2
      · rcases h2 with rfl | rfl <;> rfl
      · subst h2; rfl
    intro p p' v h1 h2
    rw [key p v h1, key p' v h2]
  · decide

/-! ## C28 -/

/-- C28: on an acyclic graph (and, for `reverse`, when `v -> u` is an arc) `would_cause_cycle` returns, and answers `True` exactly
when the edited graph has a directed cycle. -/
theorem C28_would_cause_cycle (fc : Dict N (List N) → N → Bool) (hfc : FindsCycles fc) (e : Dict N (List N)) (hac : NoCycle e)
    (u v : N) (reverse : Bool) (hrev : reverse = true → Arc e v u) :
    ∃ b, wouldCauseCycle fc e u v reverse = .ok b ∧
      (b = true ↔ ∃ w, Relation.TransGen (EditedArc e u v reverse) w w) := by
  cases reverse with
  | false =>
    refine ⟨_, rfl, ?_⟩
    rw [findCycle_add hfc (S := Arc e) (fun a b => Iff.rfl) hac]
    have : EditedArc e u v false = fun a b => Arc e a b ∨ (a = u ∧ b = v) := by
      funext a b; simp [EditedArc]
    rw [this]
  | true =>
    obtain ⟨g, hg, hA⟩ := gRemoveEdge_ok (hrev rfl)
    refine ⟨_, by simp only [wouldCauseCycle, hg, Py.bind_ok, Py.pure_eq]; rfl, ?_⟩
    rw [findCycle_add hfc (S := fun a b => Arc e a b ∧ ¬ (a = v ∧ b = u)) hA]
    · have : EditedArc e u v true = fun a b => (Arc e a b ∧ ¬ (a = v ∧ b = u)) ∨ (a = u ∧ b = v) := by
        funext a b; simp [EditedArc]
      rw [this]
    · intro w hw
      exact hac w (Relation.TransGen.mono (fun a b h => h.1) _ _ hw)

/-- C28, the usual reading: adding `u -> v` is refused exactly when `v` already leads to `u`. -/
theorem C28_addition_iff_reach (fc : Dict N (List N) → N → Bool) (hfc : FindsCycles fc) (e : Dict N (List N)) (hac : NoCycle e)
    (u v : N) : ∃ b, wouldCauseCycle fc e u v false = .ok b ∧ (b = true ↔ Reach e v u) := by
  refine ⟨_, rfl, ?_⟩
  rw [findCycle_add hfc (S := Arc e) (fun a b => Iff.rfl) hac, cycle_add_edge hac]
  exact Iff.rfl

/-- C28: asking about the reversal of an arc that does not exist raises. -/
theorem C28_reverse_absent_raises (fc : Dict N (List N) → N → Bool) (e : Dict N (List N)) (u v : N) (h : ¬ Arc e v u) :
    wouldCauseCycle fc e u v true = .error .networkxError := by
  simp only [wouldCauseCycle, gRemoveEdge_err h, if_true]; rfl

/-- Witness: the contract is met by an executable implementation; on the diamond, adding 3 → 0 closes a cycle, adding
0 → 3 does not, reversing 0 → 2 is harmless, reversing 0 → 1 is not. -/
example : FindsCycles (findCycleRef (N := ℕ)) ∧
    wouldCauseCycle findCycleRef exGraph 3 0 false = .ok true ∧
    wouldCauseCycle findCycleRef exGraph 0 3 false = .ok false ∧
    wouldCauseCycle findCycleRef exGraph 2 0 true = .ok false ∧
    wouldCauseCycle findCycleRef exGraph 1 0 true = .ok true :=
  ⟨findCycleRef_spec, by decide, by decide, by decide, by decide⟩

/-! ## C29 -/

/-- A weighted edge dictionary as `mst` expects it: keys `0 .. n-1` with `n ≥ 1`, children are keys, no duplicate entries. -/
structure MstInput (e : Dict ℕ (Dict ℕ ℚ)) : Prop where
  keys_nodup : e.keys.Nodup
  keys_iff : ∀ v, v ∈ e.keys ↔ v < e.length
  nonempty : 0 < e.length
  inner_nodup : ∀ a d, Dict.get? e a = some d → d.keys.Nodup
  children : ∀ a d, Dict.get? e a = some d → ∀ b ∈ d.keys, b < e.length

theorem unweighted_get {e : Dict ℕ (Dict ℕ ℚ)} (a : ℕ) :
    Dict.get? (unweighted e) a = (Dict.get? e a).map Dict.keys := by
  unfold unweighted
  induction e with
  | nil => rfl
  | cons kv e ih =>
    rw [List.map_cons, Dict.get?_cons, show kv = (kv.1, kv.2) from rfl, Dict.get?_cons, ih]
    split_ifs <;> rfl

theorem unweighted_arc {e : Dict ℕ (Dict ℕ ℚ)} {a b : ℕ} : Arc (unweighted e) a b ↔ (weightOf e a b).isSome := by
  rw [arc_iff_getD, unweighted_get]
  unfold weightOf
  cases h : Dict.get? e a with
  | none => simp
  | some d => simp [Dict.mem_keys_iff]

/-- C29 / the algorithm: the result is a run of Prim's greedy growth from node 0 that cannot be continued: every step adds a
cheapest arc leaving the reached set. -/
theorem C29_mst_is_prim (hP : HashOrder (ℕ × ℚ)) (e : Dict ℕ (Dict ℕ ℚ)) (hin : MstInput e) :
    ∃ g R T, mst hP e = .ok g ∧ Grown e 0 R T ∧ g.keys = List.range e.length ∧
      (∀ a b, Arc g a b ↔ (a, b) ∈ T) ∧ (∀ a l, Dict.get? g a = some l → l.Nodup) ∧
      ∀ v, v ∈ R ↔ Reach (unweighted e) 0 v := by
  have hclosed : ∀ a b w, weightOf e a b = some w → b < e.length := by
    intro a b w h
    unfold weightOf at h
    obtain ⟨d, h1, h2⟩ := Option.bind_eq_some_iff.1 h
    exact hin.children a d h1 b (by rw [Dict.mem_keys_iff, h2]; rfl)
  obtain ⟨m, hm⟩ : ∃ m, e.length = m + 1 := ⟨e.length - 1, by have := hin.nonempty; omega⟩
  have htail : ∀ v, v ∈ (List.range e.length).tail ↔ v < e.length ∧ v ∉ [0] := by
    intro v
    rw [hm, List.range_succ_eq_map, List.tail_cons, List.mem_map, List.mem_singleton]
    constructor
    · rintro ⟨x, hx, rfl⟩; rw [List.mem_range] at hx; omega
    · rintro ⟨h1, h2⟩; exact ⟨v - 1, List.mem_range.2 (by omega), by omega⟩
  obtain ⟨g, R, T, h1, h2, h3, h4, h5, h6⟩ := mstLoop_ok hP hin.inner_nodup hin.keys_iff hclosed e.length
    ((List.range e.length).map fun v => (v, [])) [0] ((List.range e.length).tail) [] (by rw [hm]; simp) .start
    (List.nodup_range.sublist (List.tail_sublist _)) htail (by simpa using hin.nonempty) (Dict.keys_map_pair _)
    (by intro a ha; rw [Dict.get?_map_pair, if_pos (List.mem_range.2 ha)]; rfl)
  obtain ⟨hR, hRn, hT⟩ := h2.basic
  have harc : ∀ a b, Arc g a b ↔ (a, b) ∈ T := by
    intro a b
    constructor
    · rintro ⟨l, hl, hb⟩
      have ha : a < e.length := by
        have : a ∈ g.keys := by rw [Dict.mem_keys_iff, hl]; rfl
        rw [h4] at this; exact List.mem_range.1 this
      rw [h5 a ha] at hl; cases hl
      exact mem_outOf.1 hb
    · intro h
      exact ⟨_, h5 a (h3 a (hT _ h).1), mem_outOf.2 h⟩
  refine ⟨g, R, T, h1, h2, h4, harc, ?_, fun v => ⟨?_, ?_⟩⟩
  · intro a l hl
    have ha : a < e.length := by
      have : a ∈ g.keys := by rw [Dict.mem_keys_iff, hl]; rfl
      rw [h4] at this; exact List.mem_range.1 this
    rw [h5 a ha] at hl; cases hl
    rw [hR] at hRn
    exact ((List.nodup_cons.1 hRn).2).sublist (List.filter_sublist.map _)
  · have : ∀ (R : List ℕ) (T : List (ℕ × ℕ)), Grown e 0 R T → ∀ v ∈ R, Reach (unweighted e) 0 v := by
      intro R T hG
      induction hG with
      | start => intro v hv; rw [List.mem_singleton.1 hv]; exact .refl
      | step _ hs _ hw _ ih =>
        intro v hv
        rcases List.mem_append.1 hv with hv | hv
        · exact ih v hv
        · rw [List.mem_singleton.1 hv]
          exact (ih _ hs).tail (unweighted_arc.2 (by rw [hw]; rfl))
    exact this R T h2 v
  · intro hv
    induction hv with
    | refl => rw [hR]; simp
    | tail _ hbc ih =>
      obtain ⟨w, hw⟩ := Option.isSome_iff_exists.1 (unweighted_arc.1 hbc)
      exact h6 _ ih _ w hw

/-- C29: `mst` does not raise; its arcs are input arcs; node 0 has no incoming arc and every other node at most one; exactly the
nodes reachable from 0 in the input are reachable from 0 in the result. -/
theorem C29_mst_spanning_tree (hP : HashOrder (ℕ × ℚ)) (e : Dict ℕ (Dict ℕ ℚ)) (hin : MstInput e) :
    ∃ g, mst hP e = .ok g ∧ g.keys = List.range e.length ∧
      (∀ a b, Arc g a b → Arc (unweighted e) a b) ∧
      (∀ a, ¬ Arc g a 0) ∧ (∀ a a' b, Arc g a b → Arc g a' b → a = a') ∧
      (∀ a l, Dict.get? g a = some l → l.Nodup) ∧
      ∀ v, Reach g 0 v ↔ Reach (unweighted e) 0 v := by
  obtain ⟨g, R, T, h1, h2, h3, h4, h5, h6⟩ := C29_mst_is_prim hP e hin
  obtain ⟨hR, hRn, hT⟩ := h2.basic
  rw [hR] at hRn
  have hsub : ∀ a b, Arc g a b → Arc (unweighted e) a b := fun a b h => unweighted_arc.2 (hT _ ((h4 a b).1 h)).2
  refine ⟨g, h1, h3, hsub, ?_, ?_, h5, fun v => ⟨?_, ?_⟩⟩
  · intro a h
    exact (List.nodup_cons.1 hRn).1 (List.mem_map.2 ⟨_, (h4 a 0).1 h, rfl⟩)
  · intro a a' b h h'
    have := List.inj_on_of_nodup_map (List.nodup_cons.1 hRn).2 ((h4 a b).1 h) ((h4 a' b).1 h') rfl
    exact congrArg Prod.fst this
  · exact fun h => Relation.ReflTransGen.mono hsub _ _ h
  · intro hv
    have key : ∀ (R : List ℕ) (T' : List (ℕ × ℕ)), Grown e 0 R T' → (∀ p ∈ T', p ∈ T) → ∀ v ∈ R, Reach g 0 v := by
      intro R T' hG
      induction hG with
      | start => intro _ v hv; rw [List.mem_singleton.1 hv]; exact .refl
      | step _ hs _ hw _ ih =>
        intro hsubT v hv
        have ih := ih fun p hp => hsubT p (by simp [hp])
        rcases List.mem_append.1 hv with hv | hv
        · exact ih v hv
        · rw [List.mem_singleton.1 hv]
          exact (ih _ hs).tail ((h4 _ _).2 (hsubT _ (by simp)))
    exact key R T h2 (fun p hp => hp) v ((h6 v).2 hv)

/-- The docstring's example (utils/graph.py:91-96). -/
def exWeights : Dict ℕ (Dict ℕ ℚ) :=
  [(0, [(1, 3), (3, 2), (8, 4)]), (1, [(7, 4)]), (2, [(3, 6), (7, 2), (5, 1)]), (3, [(4, 1)]), (4, [(8, 8)]),
   (5, [(6, 8)]), (6, []), (7, [(2, 2)]), (8, [])]

theorem exWeights_input : MstInput exWeights where
  keys_nodup := by decide
  keys_iff := by
    intro v
    rw [show exWeights.keys = List.range 9 by decide, List.mem_range]; rfl
  nonempty := by decide
  inner_nodup := by
    intro a d h
    have h0 := Dict.get?_mem h
    have : ∀ kv ∈ exWeights, kv.2.keys.Nodup := by decide
    exact this _ h0
  children := by
    intro a d h
    have h0 := Dict.get?_mem h
    have : ∀ kv ∈ exWeights, ∀ b ∈ kv.2.keys, b < exWeights.length := by decide
    exact this _ h0

/-- Witness: the documented input and output. -/
example : MstInput exWeights ∧ mst HashOrder.id exWeights =
    .ok [(0, [3, 1, 8]), (1, [7]), (2, [5]), (3, [4]), (4, []), (5, [6]), (6, []), (7, [2]), (8, [])] :=
  ⟨exWeights_input, by decide +kernel⟩

end PyBN
