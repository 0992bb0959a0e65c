import Verif.Props.Net

/-!
# C76: `BayesNet(E)` on an arbitrary (possibly cyclic) edge dictionary
-/

namespace PyBN
open BayesNet
variable {N A : Type _} [DecidableEq N] [DecidableEq A]

/-- C76: on any edge dictionary whose children are keys, `BayesNet(E, value_dict)` succeeds; its nodes are exactly the keys that can be
reached from a key without parents (the others are dropped), while `E` is kept whole; the recorded parents of a node are its
parents among the nodes. -/
theorem C76_set_structure_general (h : HashOrder N) (E : Dict N (List N)) (vd : Option (Dict N (List A)))
    (hn : E.keys.Nodup) (hcl : ChildrenAreKeys E) (hvd : ∀ d ∈ vd, ∀ v ∈ E.keys, v ∈ d.keys) :
    ∃ bn, setStructure h E vd = .ok bn ∧ bn.V.Nodup ∧
      (∀ v, v ∈ bn.V ↔ ∃ r ∈ E.keys, (∀ u, ¬ Arc E u r) ∧ Reach E r v) ∧ bn.E = E ∧
      (∀ v, (bn.F.get? v).isSome ↔ v ∈ bn.V) ∧
      (∀ v ∈ bn.V, List.Sublist (bn.parentsOf v) bn.V ∧ ∀ u, u ∈ bn.parentsOf v ↔ u ∈ bn.V ∧ Arc E u v) ∧
      (∀ v ∈ bn.V, bn.cptOf v = [] ∧ ∀ d ∈ vd, d.get? v = some (bn.valuesOf v)) := by
  classical
  obtain ⟨V, hV, hVn, hVm⟩ := C26_topsort_general h E hn hcl
  have hVk : ∀ v ∈ V, v ∈ E.keys := by
    intro v hv
    obtain ⟨r, hr, _, hrv⟩ := (hVm v).1 hv
    cases hrv with
    | refl => exact hr
    | tail _ hb => exact hcl _ _ hb
  let pl : N → List N := fun v => (parentList_ok (E := E) hVk v).choose
  have hpl : ∀ v, parentList V E v = .ok (pl v) ∧ List.Sublist (pl v) V ∧ ∀ p, p ∈ pl v ↔ p ∈ V ∧ Arc E p v :=
    fun v => (parentList_ok (E := E) hVk v).choose_spec
  let vl : N → List A := fun v => (vd.bind fun d => Dict.get? d v).getD []
  have hvl : ∀ v ∈ V, valueList vd v = .ok (vl v) := by
    intro v hv
    cases hvd' : vd with
    | none => simp only [vl, hvd', valueList, Option.bind_none, Option.getD_none]
    | some d =>
      have := hvd d (by rw [hvd']; rfl) v (hVk v hv)
      rw [Dict.mem_keys_iff] at this
      obtain ⟨x, hx⟩ := Option.isSome_iff_exists.1 this
      simp only [vl, hvd', valueList, Dict.get_of_get? hx, hx, Option.bind_some, Option.getD_some]
  have hF : pyMap (fun rv => do
      let ps ← parentList V E rv
      let vs ← valueList vd rv
      pure (rv, (⟨ps, vs, []⟩ : NodeData N A)) : N → Py (N × NodeData N A)) V =
      .ok (V.map fun v => (v, ⟨pl v, vl v, []⟩)) := by
    apply pyMap_ok
    intro v hv
    rw [(hpl v).1, Py.bind_ok, hvl v hv]; rfl
  have hget : ∀ v, Dict.get? (Dict.ofPairs (V.map fun v => (v, (⟨pl v, vl v, []⟩ : NodeData N A)))) v =
      if v ∈ V then some ⟨pl v, vl v, []⟩ else none := by
    intro v
    rw [Dict.ofPairs, Dict.get?_update (by rw [Dict.keys_map_pair]; exact hVn), Dict.get?_map_pair]
    split_ifs <;> simp [Dict.get?]
  refine ⟨⟨V, E, Dict.ofPairs (V.map fun v => (v, ⟨pl v, vl v, []⟩))⟩, ?_, hVn, hVm, rfl, ?_, ?_, ?_⟩
  · unfold setStructure
    rw [hV, Py.bind_ok, hF]; rfl
  · intro v
    show (Dict.get? (Dict.ofPairs _) v).isSome ↔ v ∈ V
    rw [hget]; split_ifs with hv <;> simp [hv]
  · intro v hv
    have hpo : BayesNet.parentsOf ⟨V, E, Dict.ofPairs (V.map fun v => (v, (⟨pl v, vl v, []⟩ : NodeData N A)))⟩ v = pl v := by
      unfold parentsOf; simp only [hget, if_pos (show v ∈ V from hv)]
    rw [hpo]
    exact ⟨(hpl v).2.1, fun u => (hpl v).2.2 u⟩
  · intro v hv
    refine ⟨by unfold cptOf; simp only [hget, if_pos (show v ∈ V from hv)], fun d hd => ?_⟩
    have hvo : BayesNet.valuesOf ⟨V, E, Dict.ofPairs (V.map fun v => (v, (⟨pl v, vl v, []⟩ : NodeData N A)))⟩ v = vl v := by
      unfold valuesOf; simp only [hget, if_pos (show v ∈ V from hv)]
    rw [hvo]
    have hvd' : vd = some d := hd
    have := hvd d hd v (hVk v hv)
    rw [Dict.mem_keys_iff] at this
    obtain ⟨x, hx⟩ := Option.isSome_iff_exists.1 this
    simp only [vl, hvd', hx, Option.bind_some, Option.getD_some]

/-- Witness: 0 → 1, and the cycle 2 ⇄ 3 with 2 → 1: only 0 and 1 become nodes, and 1 loses its parent 2. -/
example : (∃ bn : BayesNet ℕ ℕ, setStructure HashOrder.id [(0, [1]), (1, []), (2, [3, 1]), (3, [2])] none = .ok bn ∧ bn.V = [0, 1] ∧
    bn.parentsOf 1 = [0]) :=
  ⟨⟨[0, 1], [(0, [1]), (1, []), (2, [3, 1]), (3, [2])], [(0, ⟨[], [], []⟩), (1, ⟨[0], [], []⟩)]⟩, rfl, rfl, rfl⟩

end PyBN
