import Verif.Proofs.Graph

/-! would_cause_cycle -/

set_option linter.unusedSectionVars false

namespace PyBN
variable {N : Type _} [DecidableEq N]

theorem arc_iff_getD {e : Dict N (List N)} {u v : N} : Arc e u v ↔ v ∈ (e.get? u).getD [] := by
  unfold Arc
  cases h : Dict.get? e u with
  | none => simp
  | some l => simp

theorem arc_set {e : Dict N (List N)} {u : N} {l : List N} {a b : N} :
    Arc (e.set u l) a b ↔ if a = u then b ∈ l else Arc e a b := by
  rw [arc_iff_getD, Dict.get?_set]
  split_ifs with h1 h2 h2
  · simp
  · exact absurd h1.symm h2
  · exact absurd h2.symm h1
  · rw [arc_iff_getD]

theorem arc_gAddEdge {e : Dict N (List N)} {u v a b : N} : Arc (gAddEdge e u v) a b ↔ Arc e a b ∨ (a = u ∧ b = v) := by
  unfold gAddEdge
  rw [arc_set]
  split_ifs with h1 h2
  · subst h1
    rw [arc_iff_getD]
    constructor
    · exact .inl
    · rintro (h | ⟨_, h⟩)
      · exact h
      · exact h ▸ h2
  · subst h1
    rw [arc_iff_getD]; simp
  · constructor
    · exact .inl
    · rintro (h | ⟨h, _⟩)
      · exact h
      · exact absurd h h1

theorem gRemoveEdge_ok {e : Dict N (List N)} {u v : N} (h : Arc e u v) :
    ∃ g, gRemoveEdge e u v = .ok g ∧ ∀ a b, Arc g a b ↔ Arc e a b ∧ ¬ (a = u ∧ b = v) := by
  rw [arc_iff_getD] at h
  refine ⟨_, if_pos h, fun a b => ?_⟩
  rw [arc_set]
  split_ifs with h1
  · subst h1; rw [arc_iff_getD]; simp
  · constructor
    · exact fun h => ⟨h, fun h2 => h1 h2.1⟩
    · exact fun h => h.1

theorem gRemoveEdge_err {e : Dict N (List N)} {u v : N} (h : ¬ Arc e u v) : gRemoveEdge e u v = .error .networkxError := by
  rw [arc_iff_getD] at h; exact if_neg h

section
variable {R : N → N → Prop} {u v : N}

/-- A walk in the graph with one more arc either avoids it or goes through it. -/
theorem trans_add_edge {a b : N} (h : Relation.TransGen (fun a b => R a b ∨ (a = u ∧ b = v)) a b) :
    Relation.TransGen R a b ∨ (Relation.ReflTransGen R a u ∧ Relation.ReflTransGen R v b) := by
  induction h with
  | single h =>
    rcases h with h | ⟨rfl, rfl⟩
    · exact .inl (.single h)
    · exact .inr ⟨.refl, .refl⟩
  | tail _ h ih =>
    rcases ih with ih | ⟨h1, h2⟩ <;> rcases h with h | ⟨rfl, rfl⟩
    · exact .inl (.tail ih h)
    · exact .inr ⟨ih.to_reflTransGen, .refl⟩
    · exact .inr ⟨h1, h2.tail h⟩
    · exact .inr ⟨h1, .refl⟩

/-- In an acyclic graph a new arc `u -> v` closes a cycle exactly when `v` reached `u` before. -/
theorem cycle_add_edge (hac : ∀ w, ¬ Relation.TransGen R w w) :
    (∃ w, Relation.TransGen (fun a b => R a b ∨ (a = u ∧ b = v)) w w) ↔ Relation.ReflTransGen R v u := by
  constructor
  · rintro ⟨w, hw⟩
    rcases trans_add_edge hw with h | ⟨h1, h2⟩
    · exact absurd h (hac w)
    · exact h2.trans h1
  · intro h
    refine ⟨u, Relation.TransGen.head' (b := v) (.inr ⟨rfl, rfl⟩) ?_⟩
    exact Relation.ReflTransGen.mono (fun a b hab => Or.inl hab) _ _ h
end

theorem reach_congr {g : Dict N (List N)} {S : N → N → Prop} (h : ∀ a b, Arc g a b ↔ S a b) :
    (∀ a b, Reach g a b ↔ Relation.ReflTransGen S a b) ∧
    (∀ a b, Relation.TransGen (Arc g) a b ↔ Relation.TransGen S a b) := by
  have : Arc g = S := by funext a b; exact propext (h a b)
  unfold Reach; rw [this]; exact ⟨fun _ _ => Iff.rfl, fun _ _ => Iff.rfl⟩

/-- The three ways to put it, for a graph `R` (after the removal) acyclic. -/
theorem findCycle_add {fc : Dict N (List N) → N → Bool} (hfc : FindsCycles fc) {g : Dict N (List N)} {u v : N} {S : N → N → Prop}
    (hS : ∀ a b, Arc g a b ↔ S a b) (hac : ∀ w, ¬ Relation.TransGen S w w) :
    (fc (gAddEdge g u v) u = true ↔ ∃ w, Relation.TransGen (fun a b => S a b ∨ (a = u ∧ b = v)) w w) := by
  have hA : ∀ a b, Arc (gAddEdge g u v) a b ↔ (S a b ∨ (a = u ∧ b = v)) := fun a b => by rw [arc_gAddEdge, hS]
  obtain ⟨h1, h2⟩ := reach_congr hA
  rw [hfc]
  constructor
  · rintro ⟨w, _, h⟩; exact ⟨w, (h2 w w).1 h⟩
  · intro h
    have hvu := (cycle_add_edge hac).1 h
    refine ⟨u, .refl, (h2 u u).2 ?_⟩
    refine Relation.TransGen.head' (b := v) (.inr ⟨rfl, rfl⟩) ?_
    exact Relation.ReflTransGen.mono (fun a b hab => Or.inl hab) _ _ hvu

/-! ### an executable implementation of the contract of `nx.find_cycle` -/

/-- Make every child (and `s`) a key. -/
def complete (e : Dict N (List N)) (s : N) : Dict N (List N) :=
  e ++ ((s :: e.vals.flatten).filter (fun v => v ∉ e.keys)).map fun v => (v, [])

theorem get?_append (d d' : Dict N (List N)) (k : N) :
    Dict.get? (d ++ d') k = (Dict.get? d k).or (Dict.get? d' k) := by
  induction d with
  | nil => simp [Dict.get?]
  | cons kv d ih =>
    rw [List.cons_append, show kv = (kv.1, kv.2) from rfl, Dict.get?_cons, Dict.get?_cons, ih]
    split_ifs <;> simp

theorem complete_arc (e : Dict N (List N)) (s a b : N) : Arc (complete e s) a b ↔ Arc e a b := by
  unfold complete
  rw [arc_iff_getD, arc_iff_getD, get?_append, Dict.get?_map_pair]
  cases Dict.get? e a with
  | none => simp only [Option.none_or]; split_ifs <;> simp
  | some l => simp

theorem complete_keys (e : Dict N (List N)) (s : N) : ChildrenAreKeys (complete e s) ∧ s ∈ (complete e s).keys := by
  have hk : ∀ v, v ∈ s :: e.vals.flatten → v ∈ (complete e s).keys := by
    intro v hv
    unfold complete Dict.keys
    rw [List.map_append, List.mem_append]
    by_cases h : v ∈ e.keys
    · exact .inl h
    · right
      simp only [List.map_map, Function.comp_def, List.map_id', List.mem_filter]
      exact ⟨hv, decide_eq_true h⟩
  refine ⟨fun u v h => ?_, hk s (by simp)⟩
  rw [complete_arc] at h
  obtain ⟨l, h1, h2⟩ := h
  refine hk v (List.mem_cons_of_mem _ (List.mem_flatten.2 ⟨l, ?_, h2⟩))
  exact List.mem_map.2 ⟨_, Dict.get?_mem h1, rfl⟩

/-- Nodes reachable from `s`. -/
def reachable (e : Dict N (List N)) (s : N) : List N :=
  match bfsLoop (complete e s) (bfsFuel (complete e s) [s]) [s] [] with
  | .ok l => l
  | .error _ => []

theorem mem_reachable (e : Dict N (List N)) (s v : N) : v ∈ reachable e s ↔ Reach e s v := by
  obtain ⟨h1, h2⟩ := complete_keys e s
  obtain ⟨l, hl, _, hm, _⟩ := topsort_run h1 (q := [s]) (by simpa using h2)
  have hA := (reach_congr (complete_arc e s)).1
  unfold reachable
  rw [hl]
  simp only [hm, List.mem_singleton, exists_eq_left, hA]
  rfl

/-- A reference implementation of `nx.find_cycle(G, source=s)` (returns / raises). -/
def findCycleRef (e : Dict N (List N)) (s : N) : Bool :=
  (reachable e s).any fun w => ((e.get? w).getD []).any fun c => decide (w ∈ reachable e c)

theorem findCycleRef_spec : FindsCycles (findCycleRef (N := N)) := by
  intro e s
  unfold findCycleRef
  rw [List.any_eq_true]
  simp only [List.any_eq_true, decide_eq_true_eq, mem_reachable]
  constructor
  · rintro ⟨w, hw, c, hc, hcw⟩
    exact ⟨w, hw, Relation.TransGen.head' (arc_iff_getD.2 hc) hcw⟩
  · rintro ⟨w, hw, h⟩
    obtain ⟨c, hc, hcw⟩ := Relation.TransGen.head'_iff.1 h
    exact ⟨w, hw, c, arc_iff_getD.1 hc, hcw⟩

end PyBN
