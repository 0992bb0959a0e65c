import Verif.Proofs.Stale4
import Verif.Props.Edit
import Verif.Props.Inference

/-! # C237–C240: what editing arcs leaves behind

`add_edge` and `remove_edge` change who the parents of a node are and never its table. -/

set_option linter.unusedSectionVars false

namespace PyBN
variable {N A : Type _} [DecidableEq N] [DecidableEq A]
open HNet Sampling

/-! ## The edited network -/

theorem structWF_of {bn : BayesNet N A} (w : bn.WF) (e : bn.EdgeWF) : bn.StructWF := by
  refine ⟨e.dom, w.dom, fun v => ?_, fun v => ?_⟩
  · by_cases hv : v ∈ bn.V
    · exact e.nodup v hv
    · have : bn.E.get? v = none := by
        have := (e.dom v).not.2 hv
        simpa using this
      unfold BayesNet.childrenOf; rw [this]; exact List.nodup_nil
  · by_cases hv : v ∈ bn.V
    · exact (List.nodup_cons.1 (w.fam_nodup v hv)).2
    · have : bn.F.get? v = none := by
        have := (w.dom v).not.2 hv
        simpa using this
      unfold BayesNet.parentsOf; rw [this]; exact List.nodup_nil

theorem linkEdge_tables (h : Heap N A) (b : HNet N) (u v : N) :
    (linkEdge h b u v).1.1.vals = h.vals ∧ (linkEdge h b u v).1.1.cpts = h.cpts := by
  unfold linkEdge
  cases Dict.get? b.E u with
  | none => exact ⟨rfl, rfl⟩
  | some a =>
    dsimp only
    split
    · exact ⟨rfl, rfl⟩
    · cases Dict.get? b.F v <;> exact ⟨rfl, rfl⟩

theorem addEdge_tables (h : Heap N A) (b : HNet N) (u v : N) (hu : u ∈ h.nm b.V) (hv : v ∈ h.nm b.V) :
    (addEdge h b u v).1.1.vals = h.vals ∧ (addEdge h b u v).1.1.cpts = h.cpts := by
  have en1 : ensureNode h b u = (h, b) := if_pos hu
  have en2 : ensureNode h b v = (h, b) := if_pos hv
  unfold addEdge
  simp only [en1, en2]
  exact linkEdge_tables h b u v

theorem removeEdge_tables (h : Heap N A) (b : HNet N) (u v : N) :
    (removeEdge h b u v).1.1.vals = h.vals ∧ (removeEdge h b u v).1.1.cpts = h.cpts := by
  unfold removeEdge
  cases Dict.get? b.E u with
  | none => exact ⟨rfl, rfl⟩
  | some a =>
    dsimp only
    split
    · cases Dict.get? b.F v with
      | none => exact ⟨rfl, rfl⟩
      | some d =>
        dsimp only
        split <;> exact ⟨rfl, rfl⟩
    · exact ⟨rfl, rfl⟩

theorem deref_same {h h' : Heap N A} {b : HNet N} (hv : h'.vals = h.vals) (hc : h'.cpts = h.cpts) (x : N) :
    (deref h' b).valuesOf x = (deref h b).valuesOf x ∧ (deref h' b).cptOf x = (deref h b).cptOf x ∧
      (deref h' b).cardOf x = (deref h b).cardOf x ∧ ((deref h' b).F.get? x).isSome = ((deref h b).F.get? x).isSome := by
  unfold BayesNet.valuesOf BayesNet.cptOf BayesNet.cardOf
  rw [getF_deref, getF_deref]
  cases Dict.get? b.F x with
  | none => exact ⟨rfl, rfl, rfl, rfl⟩
  | some d =>
    have e1 : h'.vl d.vals = h.vl d.vals := by unfold Heap.vl; rw [hv]
    have e2 : h'.ct d.cpt = h.ct d.cpt := by unfold Heap.ct; rw [hc]
    simp only [Option.map_some, e1, e2]
    exact ⟨trivial, trivial, trivial, rfl⟩

/-- What `add_edge(u, v)` of a new arc between known nodes leaves: the parents of `v` get `u` at the end, all else is as before. -/
structure Added (bn bn' : BayesNet N A) (u v : N) : Prop where
  V : bn'.V = bn.V
  parents : ∀ x, bn'.parentsOf x = if x = v then bn.parentsOf x ++ [u] else bn.parentsOf x
  values : ∀ x, bn'.valuesOf x = bn.valuesOf x
  tables : ∀ x, bn'.cptOf x = bn.cptOf x
  card : bn'.cardOf = bn.cardOf
  shape : bn'.ShapeWF

/-- What `remove_edge(u, v)` of an arc leaves: the parents of `v` lose `u`, all else is as before. -/
structure Removed (bn bn' : BayesNet N A) (u v : N) : Prop where
  V : bn'.V = bn.V
  parents : ∀ x, bn'.parentsOf x = if x = v then (bn.parentsOf x).erase u else bn.parentsOf x
  values : ∀ x, bn'.valuesOf x = bn.valuesOf x
  tables : ∀ x, bn'.cptOf x = bn.cptOf x
  card : bn'.cardOf = bn.cardOf
  shape : bn'.ShapeWF

theorem added_of {h : Heap N A} {b : HNet N} (sep : Separate b) (inb : InBounds h b) (wb : (deref h b).WF) (we : (deref h b).EdgeWF)
    {u v : N} (hu : u ∈ (deref h b).V) (hv : v ∈ (deref h b).V) (hne : u ≠ v) (hnew : v ∉ (deref h b).childrenOf u) :
    (addEdge h b u v).2 = none ∧ Added (deref h b) (deref (addEdge h b u v).1.1 (addEdge h b u v).1.2) u v := by
  obtain ⟨h', e, g', hV, _, hP⟩ := addEdge_good ⟨sep, inb, structWF_of wb we, we.iff⟩ hu hv
  obtain ⟨t1, t2⟩ := addEdge_tables h b u v hu hv
  rw [e] at t1 t2 ⊢
  have same := deref_same (b := b) t1 t2
  have hPar : ∀ x, (deref h' b).parentsOf x = if x = v then (deref h b).parentsOf x ++ [u] else (deref h b).parentsOf x := by
    intro x; rw [hP x]; simp only [hnew, not_false_eq_true, and_true]
  have hVV : (deref h' b).V = (deref h b).V := hV
  have hup : u ∉ (deref h b).parentsOf v := fun h => hnew ((we.iff u v).2 h)
  refine ⟨rfl, hVV, hPar, fun x => (same x).1, fun x => (same x).2.1, funext fun x => (same x).2.2.1, ?_⟩
  refine ⟨hVV ▸ wb.nodup, fun x => ?_, fun x hx => ?_, fun x hx p hp => ?_, fun x hx => ?_, fun x hx => ?_⟩
  · show ((deref h' b).F.get? x).isSome = true ↔ _
    rw [hVV, (same x).2.2.2]; exact wb.dom x
  · show (x :: (deref h' b).parentsOf x).Nodup
    rw [hPar]
    rw [show (deref h' b).V = (deref h b).V from hVV] at hx
    have := wb.fam_nodup x hx
    split
    · rename_i hxv
      subst hxv
      rw [← List.cons_append, List.nodup_append]
      refine ⟨this, by simp, ?_⟩
      intro a ha c hc hac
      rw [List.mem_singleton] at hc
      subst hac hc
      rcases List.mem_cons.1 ha with h | h
      · exact hne h
      · exact hup h
    · exact this
  · replace hp : p ∈ (deref h' b).parentsOf x := hp
    rw [hPar] at hp
    rw [show (deref h' b).V = (deref h b).V from hVV] at hx
    show p ∈ (deref h' b).V
    rw [hVV]
    split at hp
    · rcases List.mem_append.1 hp with hp | hp
      · exact wb.parents_mem x hx p hp
      · rw [List.mem_singleton.1 hp]; exact hu
    · exact wb.parents_mem x hx p hp
  · rw [show (deref h' b).V = (deref h b).V from hVV] at hx
    show ((deref h' b).valuesOf x).Nodup
    rw [(same x).1]; exact wb.values_nodup x hx
  · rw [show (deref h' b).V = (deref h b).V from hVV] at hx
    show (deref h' b).valuesOf x ≠ []
    rw [(same x).1]; exact wb.values_ne x hx

theorem removed_of {h : Heap N A} {b : HNet N} (sep : Separate b) (inb : InBounds h b) (wb : (deref h b).WF) (we : (deref h b).EdgeWF)
    {u v : N} (harc : u ∈ (deref h b).parentsOf v) :
    (removeEdge h b u v).2 = none ∧ Removed (deref h b) (deref (removeEdge h b u v).1.1 (removeEdge h b u v).1.2) u v := by
  have hv : v ∈ (deref h b).V := by
    by_contra hv
    have : (deref h b).F.get? v = none := by
      have := (wb.dom v).not.2 hv
      simpa using this
    unfold BayesNet.parentsOf at harc; rw [this] at harc; cases harc
  have hu := wb.parents_mem v hv u harc
  obtain ⟨h', e, g', hV, _, hP⟩ := removeEdge_good ⟨sep, inb, structWF_of wb we, we.iff⟩ hu hv
  rw [if_pos ((we.iff u v).2 harc)] at e
  obtain ⟨t1, t2⟩ := removeEdge_tables h b u v
  rw [e] at t1 t2 ⊢
  have same := deref_same (b := b) t1 t2
  have hVV : (deref h' b).V = (deref h b).V := hV
  refine ⟨rfl, hVV, hP, fun x => (same x).1, fun x => (same x).2.1, funext fun x => (same x).2.2.1, ?_⟩
  refine ⟨hVV ▸ wb.nodup, fun x => ?_, fun x hx => ?_, fun x hx p hp => ?_, fun x hx => ?_, fun x hx => ?_⟩
  · show ((deref h' b).F.get? x).isSome = true ↔ _
    rw [hVV, (same x).2.2.2]; exact wb.dom x
  · show (x :: (deref h' b).parentsOf x).Nodup
    rw [hP]
    rw [show (deref h' b).V = (deref h b).V from hVV] at hx
    have := wb.fam_nodup x hx
    split
    · rw [List.nodup_cons] at this ⊢
      exact ⟨fun h => this.1 (List.mem_of_mem_erase h), this.2.erase u⟩
    · exact this
  · replace hp : p ∈ (deref h' b).parentsOf x := hp
    rw [hP] at hp
    rw [show (deref h' b).V = (deref h b).V from hVV] at hx
    show p ∈ (deref h' b).V
    rw [hVV]
    split at hp
    · exact wb.parents_mem x hx p (List.mem_of_mem_erase hp)
    · exact wb.parents_mem x hx p hp
  · rw [show (deref h' b).V = (deref h b).V from hVV] at hx
    show ((deref h' b).valuesOf x).Nodup
    rw [(same x).1]; exact wb.values_nodup x hx
  · rw [show (deref h' b).V = (deref h b).V from hVV] at hx
    show (deref h' b).valuesOf x ≠ []
    rw [(same x).1]; exact wb.values_ne x hx

theorem Added.sizes {bn bn' : BayesNet N A} {u v : N} (a : Added bn bn' u v) (wb : bn.WF) :
    (∀ x ∈ bn.V, x ≠ v → (bn'.cptOf x).length = bn'.tableSize x) ∧
      (v ∈ bn.V → (bn'.cptOf v).length * bn.cardOf u = bn'.tableSize v) := by
  refine ⟨fun x hx hxv => ?_, fun hv => ?_⟩
  · unfold BayesNet.tableSize
    rw [a.tables, a.parents, if_neg hxv, a.card]; exact wb.cpt_len x hx
  · unfold BayesNet.tableSize
    rw [a.tables, a.parents, if_pos rfl, a.card, wb.cpt_len v hv, ← List.cons_append, List.map_append, List.prod_append]
    simp

theorem Removed.sizes {bn bn' : BayesNet N A} {u v : N} (a : Removed bn bn' u v) (wb : bn.WF) (harc : u ∈ bn.parentsOf v) :
    (∀ x ∈ bn.V, x ≠ v → (bn'.cptOf x).length = bn'.tableSize x) ∧
      (v ∈ bn.V → (bn'.cptOf v).length = bn'.tableSize v * bn.cardOf u) := by
  refine ⟨fun x hx hxv => ?_, fun hv => ?_⟩
  · unfold BayesNet.tableSize
    rw [a.tables, a.parents, if_neg hxv, a.card]; exact wb.cpt_len x hx
  · unfold BayesNet.tableSize
    rw [a.tables, a.parents, if_pos rfl, a.card, wb.cpt_len v hv]
    have : (bn.parentsOf v).Perm (u :: (bn.parentsOf v).erase u) := List.perm_cons_erase harc
    rw [List.map_cons, List.map_cons, List.prod_cons, List.prod_cons, (this.map bn.cardOf).prod_eq, List.map_cons, List.prod_cons]
    ring

theorem wf_of_sizes {bn : BayesNet N A} (s : bn.ShapeWF) (h : ∀ x ∈ bn.V, (bn.cptOf x).length = bn.tableSize x) : bn.WF :=
  ⟨s.nodup, s.dom, s.fam_nodup, s.parents_mem, s.values_nodup, s.values_ne, h⟩

theorem parentsOf_mem_V {bn : BayesNet N A} (wb : bn.WF) {u v : N} (harc : u ∈ bn.parentsOf v) : v ∈ bn.V := by
  by_contra hv
  have : bn.F.get? v = none := by
    have := (wb.dom v).not.2 hv
    simpa using this
  unfold BayesNet.parentsOf at harc; rw [this] at harc; cases harc

/-! ## C237 -/

/-- C237 (when the property holds): adding a new arc from `u` to `v`, or removing one, leaves a network whose tables still fit exactly when `u` has
a single value. -/
theorem C237_fits_iff_partial (h : Heap N A) (b : HNet N) (sep : Separate b) (inb : InBounds h b) (wb : (deref h b).WF)
    (we : (deref h b).EdgeWF) (u v : N) :
    (u ∈ (deref h b).V → v ∈ (deref h b).V → u ≠ v → v ∉ (deref h b).childrenOf u →
      (addEdge h b u v).2 = none ∧
        ((deref (addEdge h b u v).1.1 (addEdge h b u v).1.2).WF ↔ (deref h b).cardOf u = 1)) ∧
    (u ∈ (deref h b).parentsOf v →
      (removeEdge h b u v).2 = none ∧
        ((deref (removeEdge h b u v).1.1 (removeEdge h b u v).1.2).WF ↔ (deref h b).cardOf u = 1)) := by
  refine ⟨fun hu hv hne hnew => ?_, fun harc => ?_⟩
  · obtain ⟨e, a⟩ := added_of sep inb wb we hu hv hne hnew
    refine ⟨e, fun w => ?_, fun hc => ?_⟩
    · have h1 := (a.sizes wb).2 hv
      have h2 : _ = BayesNet.tableSize _ v := w.cpt_len v (by rw [a.V]; exact hv)
      rw [← h2] at h1
      have hpos : 0 < ((deref (addEdge h b u v).1.1 (addEdge h b u v).1.2).cptOf v).length := by
        rw [a.tables, wb.cpt_len v hv]
        exact Factor.prod_pos fun x hx => wb.card_pos (wb.fam_mem hv x hx)
      exact Nat.eq_of_mul_eq_mul_left hpos (by rw [h1, mul_one])
    · refine wf_of_sizes a.shape fun x hx => ?_
      rw [a.V] at hx
      by_cases hxv : x = v
      · subst hxv; rw [← (a.sizes wb).2 hx, hc, mul_one]
      · exact (a.sizes wb).1 x hx hxv
  · obtain ⟨e, a⟩ := removed_of sep inb wb we harc
    have hv := parentsOf_mem_V wb harc
    refine ⟨e, fun w => ?_, fun hc => ?_⟩
    · have h1 := (a.sizes wb harc).2 hv
      have h2 : _ = BayesNet.tableSize _ v := w.cpt_len v (by rw [a.V]; exact hv)
      rw [← h2] at h1
      have hpos : 0 < ((deref (removeEdge h b u v).1.1 (removeEdge h b u v).1.2).cptOf v).length := by
        rw [a.tables, wb.cpt_len v hv]
        exact Factor.prod_pos fun x hx => wb.card_pos (wb.fam_mem hv x hx)
      exact (Nat.eq_of_mul_eq_mul_left hpos (by rw [← h1, mul_one])).symm
    · refine wf_of_sizes a.shape fun x hx => ?_
      rw [a.V] at hx
      by_cases hxv : x = v
      · subst hxv; rw [(a.sizes wb harc).2 hx, hc, mul_one]
      · exact (a.sizes wb harc).1 x hx hxv

/-! ## C238: sampling -/

section
variable {K : Type} [Field K] [LinearOrder K]

/-- C238: if one table has not the number of entries its node and parents ask for — too many or too few — then no call of `forward_sample`,
`gibbs_sample` or `lw_sample` for at least one sample returns, whatever numbers are drawn, in whatever order the nodes are listed and whatever
is observed (for `lw_sample`: as long as that node is not observed). -/
theorem C238_wrong_length (tol : ℚ) (h : HashOrder N) (bn : BayesNet N A) (sw : bn.ShapeWF) (v : N) (hv : v ∈ bn.V)
    (hw : (bn.cptOf v).length ≠ bn.tableSize v) (n : ℕ) (hn : 1 ≤ n) (U : ℕ → K) (d : Dict N (Dict A ℚ)) :
    forwardSample tol h bn n U ≠ .ok d ∧
    (∀ [FloorRing K] (burn : ℤ), gibbsSample tol h bn n burn U ≠ .ok d) ∧
    (∀ ev : Dict N A, v ∉ ev.keys → lwSample tol h bn ev n U ≠ .ok d) := by
  obtain ⟨m, rfl⟩ : ∃ m, n = m + 1 := ⟨n - 1, by omega⟩
  refine ⟨fun hr => ?_, fun burn hr => ?_, fun ev hev hr => ?_⟩
  · unfold forwardSample at hr
    cases e0 : zeroCounts bn with
    | error e => rw [e0] at hr; cases hr
    | ok d0 =>
      rw [e0, Py.bind_ok, forwardLoop] at hr
      cases e1 : forwardNodes tol h bn U bn.V 0 [] with
      | error e => rw [e1] at hr; cases hr
      | ok r => exact forwardNodes_stuck tol h sw hv hw U bn.V 0 [] r hv e1
  · unfold gibbsSample at hr
    cases e0 : zeroCounts bn with
    | error e => rw [e0] at hr; cases hr
    | ok d0 =>
      rw [e0, Py.bind_ok] at hr
      cases e2 : gibbsInit bn U bn.V 0 [] with
      | error e => rw [e2] at hr; cases hr
      | ok q =>
        rw [e2, Py.bind_ok, gibbsLoop] at hr
        cases e1 : gibbsNodes tol h bn U bn.V q.1 q.2 with
        | error e => rw [e1] at hr; cases hr
        | ok r => exact gibbsNodes_stuck tol h sw hv hw U bn.V q.1 q.2 r hv e1
  · have hev' : ev.get? v = none := by
      cases e : ev.get? v with
      | none => rfl
      | some x => exact absurd ((Dict.mem_keys_iff).2 (by rw [e]; rfl)) hev
    unfold lwSample at hr
    cases e0 : zeroCounts bn with
    | error e => rw [e0] at hr; cases hr
    | ok d0 =>
      rw [e0, Py.bind_ok, lwLoop] at hr
      cases e1 : lwNodes tol h bn ev U bn.V 0 [] 1 with
      | error e => rw [e1] at hr; cases hr
      | ok r => exact lwNodes_stuck tol h sw hv hw ev hev' U bn.V 0 [] 1 r hv e1

/-- C238: in particular after `add_edge(u, v)` of a new arc or `remove_edge(u, v)`, when `u` has two or more values. -/
theorem C238_after_edit (tol : ℚ) (hO : HashOrder N) (h : Heap N A) (b : HNet N) (sep : Separate b) (inb : InBounds h b)
    (wb : (deref h b).WF) (we : (deref h b).EdgeWF) (u v : N) (hu2 : 2 ≤ (deref h b).cardOf u) (n : ℕ) (hn : 1 ≤ n) (U : ℕ → K)
    (d : Dict N (Dict A ℚ)) :
    (u ∈ (deref h b).V → v ∈ (deref h b).V → u ≠ v → v ∉ (deref h b).childrenOf u →
      forwardSample tol hO (deref (addEdge h b u v).1.1 (addEdge h b u v).1.2) n U ≠ .ok d) ∧
    (u ∈ (deref h b).parentsOf v →
      forwardSample tol hO (deref (removeEdge h b u v).1.1 (removeEdge h b u v).1.2) n U ≠ .ok d) := by
  refine ⟨fun hu hv hne hnew => ?_, fun harc => ?_⟩
  · obtain ⟨_, a⟩ := added_of sep inb wb we hu hv hne hnew
    have hiff := ((C237_fits_iff_partial h b sep inb wb we u v).1 hu hv hne hnew).2
    refine (C238_wrong_length tol hO _ a.shape v (by rw [a.V]; exact hv) (fun hc => ?_) n hn U d).1
    have : (deref h b).cardOf u = 1 := hiff.1 (wf_of_sizes a.shape fun x hx => by
      by_cases hxv : x = v
      · subst hxv; exact hc
      · exact (a.sizes wb).1 x (a.V ▸ hx) hxv)
    omega
  · obtain ⟨_, a⟩ := removed_of sep inb wb we harc
    have hv := parentsOf_mem_V wb harc
    have hiff := ((C237_fits_iff_partial h b sep inb wb we u v).2 harc).2
    refine (C238_wrong_length tol hO _ a.shape v (by rw [a.V]; exact hv) (fun hc => ?_) n hn U d).1
    have : (deref h b).cardOf u = 1 := hiff.1 (wf_of_sizes a.shape fun x hx => by
      by_cases hxv : x = v
      · subst hxv; exact hc
      · exact (a.sizes wb harc).1 x (a.V ▸ hx) hxv)
    omega

end

/-! ## C239: queries on tables that are too long -/

/-- C239: `marginal_ve_e` on a network with at least two nodes whose tables have a whole number of times as many entries as they should behaves — answer
or exception — exactly as if every table were cut to its first entries. -/
theorem C239_extra_entries (h : HashOrder N) (hE : HashOrder (N × A)) (bn : BayesNet N A) (sw : bn.ShapeWF) (hl : 2 ≤ bn.V.length)
    (hm : ∀ v ∈ bn.V, ∃ m, 0 < m ∧ (bn.cptOf v).length = bn.tableSize v * m) (target : N) (ev : Dict N A) :
    bn.cut.WF ∧ marginalVE h hE bn target ev = marginalVE h hE bn.cut target ev := by
  have r := cut_spec bn
  have hle : ∀ v ∈ bn.V, bn.tableSize v ≤ (bn.cptOf v).length := fun v hv => by
    obtain ⟨m, hm0, e⟩ := hm v hv
    rw [e]; exact Nat.le_mul_of_pos_right _ hm0
  have wc : bn.cut.WF := r.wf sw fun v hv => by rw [List.length_take]; have := hle v hv; omega
  refine ⟨wc, ?_⟩
  have r' : Retab bn.cut bn bn.cptOf := by
    refine ⟨rfl, fun v => ?_⟩
    rw [r.2 v]
    cases e : bn.F.get? v with
    | none => rfl
    | some d => simp [BayesNet.cptOf, e]
  refine marginalVE_over h hE r' wc (fun v hv => ?_) hl target ev
  have hcc : bn.cut.cptOf v = (bn.cptOf v).take (bn.tableSize v) := r.cptOf ((sw.dom v).2 hv)
  obtain ⟨m, hm0, e⟩ := hm v hv
  refine ⟨(bn.cptOf v).drop (bn.tableSize v), m, hm0, by rw [hcc, List.take_append_drop], ?_⟩
  rw [hcc, List.length_take, e, Nat.min_eq_left (Nat.le_mul_of_pos_right _ hm0)]

/-- The joint that is left when the arc from `u`, the last parent of `v`, is removed: `v` goes on behaving as if `u` always had its first value. -/
def BayesNet.frozenJoint (bn : BayesNet N A) (u v : N) (a : Asg N) : ℚ :=
  (bn.V.map fun w => if w = v then bn.prob v (a.upd u 0) else bn.prob w a).prod

/-- C239: after `remove_edge(u, v)`, `u` being the last parent of `v`, a marginal query that is answered gives the sums of the joint in which
`v` depends on its other parents as it did before when `u` has its first value: not the marginals of the old network, and of no network in which
`v` was averaged over `u`. -/
theorem C239_after_remove_edge (hO : HashOrder N) (hE : HashOrder (N × A)) (h : Heap N A) (b : HNet N) (sep : Separate b) (inb : InBounds h b)
    (wb : (deref h b).WF) (we : (deref h b).EdgeWF) (u v : N) (ps : List N) (hlast : (deref h b).parentsOf v = ps ++ [u])
    (target : N) (ev : Dict N A) (hn : ev.keys.Nodup) (r : List ℚ)
    (hr : marginalVE hO hE (deref (removeEdge h b u v).1.1 (removeEdge h b u v).1.2) target ev = .ok r) :
    r.length = (deref h b).cardOf target ∧
      ∀ a, a target < (deref h b).cardOf target → (deref h b).Agrees ev a →
        r[a target]? = some (roundEven 4 (sumAll (deref h b).cardOf ((deref h b).V.filter fun w => w ≠ target ∧ w ∉ ev.keys)
          ((deref h b).frozenJoint u v) a)) := by
  have harc : u ∈ (deref h b).parentsOf v := by rw [hlast]; simp
  have hv := parentsOf_mem_V wb harc
  have hu := wb.parents_mem v hv u harc
  obtain ⟨_, a'⟩ := removed_of sep inb wb we harc
  revert hr a'
  generalize deref (removeEdge h b u v).1.1 (removeEdge h b u v).1.2 = bn'
  revert wb we hlast harc hv hu
  generalize deref h b = bn
  intro wb we hlast harc hv hu hr rm
  have hfam := wb.fam_nodup v hv
  rw [hlast] at hfam
  have huv : u ≠ v := by
    rintro rfl
    exact (List.nodup_cons.1 hfam).1 (by simp)
  have hups : u ∉ ps := fun hh => by
    have := (List.nodup_cons.1 hfam).2
    rw [List.nodup_append] at this
    exact this.2.2 u hh u (by simp) rfl
  have hpar : bn'.parentsOf v = ps := by
    rw [rm.parents, if_pos rfl, hlast, List.erase_append_right _ hups]; simp
  have hl : 2 ≤ bn'.V.length := by
    rw [rm.V]
    rcases hV : bn.V with _ | ⟨x, _ | ⟨y, l⟩⟩
    · rw [hV] at hv; cases hv
    · rw [hV] at hv hu
      exact absurd ((List.mem_singleton.1 hu).trans (List.mem_singleton.1 hv).symm) huv
    · simp
  have sz := rm.sizes wb harc
  obtain ⟨wc, he⟩ := C239_extra_entries hO hE bn' rm.shape hl (fun x hx => by
    rw [rm.V] at hx
    by_cases hxv : x = v
    · subst hxv; exact ⟨bn.cardOf u, wb.card_pos hu, sz.2 hx⟩
    · exact ⟨1, by simp, by rw [sz.1 x hx hxv, mul_one]⟩) target ev
  rw [he] at hr
  have rc := cut_spec bn'
  obtain ⟨ht, _, hleg, hlen, hent⟩ := C13_marginal_exact hO hE bn'.cut wc target ev hn r hr
  have hcard : bn'.cut.cardOf = bn.cardOf := rc.cardOf.trans rm.card
  have hVc : bn'.cut.V = bn.V := rm.V
  rw [hcard] at hlen hent
  refine ⟨hlen, fun a ha hag => ?_⟩
  rw [hent a ha (fun e he' => by rw [rc.valuesOf, rm.values]; exact hag e he')]
  congr 2
  unfold BayesNet.marginal
  rw [hcard, hVc]
  apply sumAll_congr _ (wb.nodup.filter _)
  intro c hc hin
  have hinV : ∀ x ∈ bn.V, c x < bn.cardOf x := by
    intro x hx
    by_cases hxs : x ∈ bn.V.filter fun w => w ≠ target ∧ w ∉ ev.keys
    · exact hin x hxs
    · rw [hc x hxs]
      by_cases hxt : x = target
      · subst hxt; exact ha
      · have hxe : x ∈ ev.keys := by
          by_contra hxe
          exact hxs (List.mem_filter.2 ⟨hx, by simp [hxt, hxe]⟩)
        obtain ⟨e, he', rfl⟩ := List.mem_map.1 hxe
        have := hag e he'
        rw [wb.card_len hx]
        exact (List.getElem?_eq_some_iff.1 this).1
  unfold BayesNet.joint BayesNet.frozenJoint
  rw [hVc]
  congr 1
  apply List.map_congr_left
  intro w hw
  have hcpt : bn'.cut.cptOf w = (bn.cptOf w).take (bn'.tableSize w) := by
    rw [rc.cptOf ((rm.shape.dom w).2 (rm.V ▸ hw)), rm.tables]
  unfold BayesNet.prob
  rw [hcpt, hcard, rc.parentsOf]
  have hinw : ∀ x ∈ bn'.parentsOf w, x ∈ bn.V := fun x hx => rm.V ▸ rm.shape.parents_mem w (rm.V ▸ hw) x hx
  have hlt : enc bn.cardOf (w :: bn'.parentsOf w) c < bn'.tableSize w := by
    unfold BayesNet.tableSize; rw [rm.card]
    apply enc_lt
    intro x hx
    rcases List.mem_cons.1 hx with rfl | hx
    · exact hinV _ hw
    · exact hinV x (hinw x hx)
  rw [List.getElem?_take_of_lt hlt]
  split
  · rename_i hwv
    subst hwv
    rw [hlast, hpar]
    congr 2
    have hw' : u ∉ w :: ps := by
      intro hh
      rcases List.mem_cons.1 hh with hh | hh
      · exact huv hh
      · exact hups hh
    rw [← List.cons_append, enc_append, enc_upd_notMem hw']
    simp [enc, Asg.upd_self]
  · rename_i hwv
    rw [rm.parents, if_neg hwv]

/-! ## C240: queries on tables that are too short -/

/-- C240: if one table of a network with at least two nodes has too few entries, no call of `marginal_ve_e` returns, whatever is asked and observed. -/
theorem C240_too_short (h : HashOrder N) (hE : HashOrder (N × A)) (bn : BayesNet N A) (sw : bn.ShapeWF) (hl : 2 ≤ bn.V.length)
    (v : N) (hv : v ∈ bn.V) (hs : (bn.cptOf v).length < bn.tableSize v) (target : N) (ev : Dict N A) (l : List ℚ) :
    marginalVE h hE bn target ev ≠ .ok l :=
  marginalVE_stuck h hE sw hl hv hs target ev l

/-- C240: in particular after `add_edge(u, v)` of a new arc, when `u` has two or more values. -/
theorem C240_after_add_edge (hO : HashOrder N) (hE : HashOrder (N × A)) (h : Heap N A) (b : HNet N) (sep : Separate b) (inb : InBounds h b)
    (wb : (deref h b).WF) (we : (deref h b).EdgeWF) (u v : N) (hu2 : 2 ≤ (deref h b).cardOf u) (hu : u ∈ (deref h b).V)
    (hv : v ∈ (deref h b).V) (hne : u ≠ v) (hnew : v ∉ (deref h b).childrenOf u) (target : N) (ev : Dict N A) (l : List ℚ) :
    marginalVE hO hE (deref (addEdge h b u v).1.1 (addEdge h b u v).1.2) target ev ≠ .ok l := by
  obtain ⟨_, a⟩ := added_of sep inb wb we hu hv hne hnew
  have h1 := (a.sizes wb).2 hv
  refine C240_too_short hO hE _ a.shape ?_ v (by rw [a.V]; exact hv) ?_ target ev l
  · rw [a.V]
    rcases hV : (deref h b).V with _ | ⟨x, _ | ⟨y, l⟩⟩
    · rw [hV] at hv; cases hv
    · rw [hV] at hv hu
      exact absurd ((List.mem_singleton.1 hu).trans (List.mem_singleton.1 hv).symm) hne
    · simp
  · rw [← h1]
    have hpos : 0 < ((deref (addEdge h b u v).1.1 (addEdge h b u v).1.2).cptOf v).length := by
      rw [a.tables, wb.cpt_len v hv]
      exact Factor.prod_pos fun x hx => wb.card_pos (wb.fam_mem hv x hx)
    exact lt_mul_of_one_lt_right hpos (by omega)

/-! ## Concrete cases -/

theorem exFork_edgeWf : exFork.EdgeWF := .of_dec _ (by decide) (by decide) (by decide) (by decide)

/-- exFork as objects. -/
def exForkH : Heap ℕ ℕ × HNet ℕ := fresh exFork

/-- The fork without the arc 0 → 1, as the code leaves it. -/
def exForkCut : BayesNet ℕ ℕ := deref (removeEdge exForkH.1 exForkH.2 0 1).1.1 (removeEdge exForkH.1 exForkH.2 0 1).1.2

/-- The fork with the arc 1 → 2 added, as the code leaves it. -/
def exForkAdd : BayesNet ℕ ℕ := deref (addEdge exForkH.1 exForkH.2 1 2).1.1 (addEdge exForkH.1 exForkH.2 1 2).1.2

/-- C237 is false of the code: one legal `remove_edge`, no exception, and the network is not well formed any more; sampling from it fails. -/
theorem C237_false : exFork.WF ∧ exFork.EdgeWF ∧ (removeEdge exForkH.1 exForkH.2 0 1).2 = none ∧ ¬ exForkCut.WF ∧
    (∀ (U : ℕ → ℚ) (d : Dict ℕ (Dict ℕ ℚ)), forwardSample (1 / 100) .id exForkCut 1 U ≠ .ok d) ∧
    (addEdge exForkH.1 exForkH.2 1 2).2 = none ∧ ¬ exForkAdd.WF ∧
    (∀ l, marginalVE .id .id exForkAdd 0 [] ≠ .ok l) := by
  have g := fresh_good exFork (structWF_of exFork_wf exFork_edgeWf) exFork_edgeWf.iff
  have hd : deref exForkH.1 exForkH.2 = exFork := fresh_deref exFork
  have w : (deref exForkH.1 exForkH.2).WF := hd ▸ exFork_wf
  have we : (deref exForkH.1 exForkH.2).EdgeWF := hd ▸ exFork_edgeWf
  have p1 := (C237_fits_iff_partial exForkH.1 exForkH.2 g.sep g.inb w we 0 1).2 (by rw [hd]; decide)
  have p2 := (C237_fits_iff_partial exForkH.1 exForkH.2 g.sep g.inb w we 1 2).1 (by rw [hd]; decide) (by rw [hd]; decide)
    (by decide) (by rw [hd]; decide)
  refine ⟨exFork_wf, exFork_edgeWf, p1.1, fun hw => ?_, fun U d => ?_, p2.1, fun hw => ?_, fun l => ?_⟩
  · have := p1.2.1 hw; rw [hd] at this; revert this; decide
  · exact (C238_after_edit (1 / 100) .id exForkH.1 exForkH.2 g.sep g.inb w we 0 1 (by rw [hd]; decide) 1 (le_refl _) U d).2
      (by rw [hd]; decide)
  · have := p2.2.1 hw; rw [hd] at this; revert this; decide
  · exact C240_after_add_edge .id .id exForkH.1 exForkH.2 g.sep g.inb w we 1 2 (by rw [hd]; decide) (by rw [hd]; decide)
      (by rw [hd]; decide) (by decide) (by rw [hd]; decide) 0 [] l

/-- C239 on the fork: with the arc 0 → 1 removed, node 1 keeps its four numbers and has no parent: it is read as if node 0 were at its first value, 1/2 and 1/2. -/
example : exForkCut.cptOf 1 = [1/2, 1/2, 1/3, 2/3] ∧ exForkCut.parentsOf 1 = [] := by decide +kernel

/-- The chain 0 → 1 → 2 with 0 → 2 as well; after `remove_edge(0, 2)` the query for node 2 is answered, with a wrong number. -/
def exTriNet : BayesNet ℕ ℕ where
  V := [0, 1, 2]
  E := [(0, [1, 2]), (1, [2]), (2, [])]
  F := [(0, ⟨[], [10, 11], [1/4, 3/4]⟩),
        (1, ⟨[0], [20, 21], [1/2, 1/2, 1/3, 2/3]⟩),
        (2, ⟨[1, 0], [30, 31], [1, 0, 1, 0, 0, 1, 0, 1]⟩)]

theorem exTriNet_wf : exTriNet.WF := .of_dec _ (by decide) (by decide)
theorem exTriNet_edgeWf : exTriNet.EdgeWF := .of_dec _ (by decide) (by decide) (by decide) (by decide)

example : marginalVE .id .id exTriNet 2 [] = .ok [1/4, 3/4] ∧
    marginalVE .id .id (deref (removeEdge (fresh exTriNet).1 (fresh exTriNet).2 0 2).1.1 (removeEdge (fresh exTriNet).1 (fresh exTriNet).2 0 2).1.2) 2 []
      = .ok [1, 0] := by
  constructor <;> decide +kernel

end PyBN
