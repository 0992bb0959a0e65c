import Verif.Spec.HillClimb
import Verif.Props.Graph

/-!
# Proofs about score-based structure search
-/

set_option linter.unusedSectionVars false
namespace PyBN
variable {N : Type _} [DecidableEq N]

/-! ## The invariant -/

theorem CInv.cget {names : List N} {st : CP N} (i : CInv names st) {u : N} (hu : u ∈ names) : ∃ l, Dict.get? st.c u = some l :=
  get_of_mem_keys (by rw [i.ckeys]; exact hu)

theorem CInv.pget {names : List N} {st : CP N} (i : CInv names st) {u : N} (hu : u ∈ names) : ∃ l, Dict.get? st.p u = some l :=
  get_of_mem_keys (by rw [i.pkeys]; exact hu)

theorem CInv.src {names : List N} {st : CP N} (i : CInv names st) {u v : N} (h : Arc st.c u v) : u ∈ names := by
  have := arc_src h; rwa [i.ckeys] at this

theorem CInv.ne {names : List N} {st : CP N} (i : CInv names st) {u v : N} (h : Arc st.c u v) : u ≠ v := by
  rintro rfl; exact i.acyclic _ (.single h)

theorem get?_emptyDict (names : List N) (u : N) : Dict.get? (emptyDict names) u = if u ∈ names then some [] else none :=
  Dict.get?_map_pair (l := names) (fun _ => ([] : List N)) u

theorem not_arc_empty (names : List N) (u v : N) : ¬ Arc (emptyDict names) u v := by
  rintro ⟨l, h, hv⟩
  rw [get?_emptyDict] at h
  split at h
  · cases h; cases hv
  · cases h

theorem no_trans_empty (names : List N) (w x : N) : ¬ Relation.TransGen (Arc (emptyDict names)) w x := by
  intro h
  cases h with
  | single h => exact not_arc_empty _ _ _ h
  | tail _ h => exact not_arc_empty _ _ _ h

theorem CInv.init {names : List N} (hn : names.Nodup) : CInv names ⟨emptyDict names, emptyDict names⟩ where
  nodup := hn
  ckeys := Dict.keys_map_pair (fun _ => ([] : List N))
  pkeys := Dict.keys_map_pair (fun _ => ([] : List N))
  child := fun u v h => (not_arc_empty _ _ _ h).elim
  cnd := fun u l h => by
    simp only [get?_emptyDict] at h; split at h
    · cases h; exact List.nodup_nil
    · cases h
  pnd := fun u l h => by
    simp only [get?_emptyDict] at h; split at h
    · cases h; exact List.nodup_nil
    · cases h
  trans := fun u v => ⟨fun h => (not_arc_empty _ _ _ h).elim, fun h => (not_arc_empty _ _ _ h).elim⟩
  acyclic := fun v h => no_trans_empty _ _ _ h

theorem keys_set_mem {V : Type _} {d : Dict N V} {u : N} {x : V} (h : u ∈ d.keys) : (d.set u x).keys = d.keys := by
  rw [Dict.keys_set]; simp [h]

/-- `c_dict[u].append(v); p_dict[v].append(u)` on a missing arc that closes no cycle. -/
theorem cpAppend_ok {names : List N} {st : CP N} (i : CInv names st) {u v : N} (hu : u ∈ names) (hv : v ∈ names)
    (hna : ¬ Arc st.c u v) (hac : Acyclic (fun a b => Arc st.c a b ∨ (a = u ∧ b = v))) :
    ∃ st', cpAppend st u v = .ok st' ∧ CInv names st' ∧ ∀ a b, Arc st'.c a b ↔ Arc st.c a b ∨ (a = u ∧ b = v) := by
  obtain ⟨cu, hcu⟩ := i.cget hu
  obtain ⟨pv, hpv⟩ := i.pget hv
  have hc : ∀ a b, Arc (st.c.set u (cu ++ [v])) a b ↔ Arc st.c a b ∨ (a = u ∧ b = v) := by
    intro a b
    rw [arc_set]
    by_cases h : a = u
    · subst h; rw [arc_of_get hcu]; simp
    · simp [h]
  have hp : ∀ a b, Arc (st.p.set v (pv ++ [u])) a b ↔ Arc st.p a b ∨ (a = v ∧ b = u) := by
    intro a b
    rw [arc_set]
    by_cases h : a = v
    · subst h; rw [arc_of_get hpv]; simp
    · simp [h]
  refine ⟨_, by simp only [cpAppend, Dict.get_of_get? hcu, Dict.get_of_get? hpv, Py.bind_ok, Py.pure_eq]; rfl, ?_, hc⟩
  refine ⟨i.nodup, ?_, ?_, ?_, ?_, ?_, ?_, ?_⟩
  · rw [← i.ckeys]; exact keys_set_mem (by rw [i.ckeys]; exact hu)
  · rw [← i.pkeys]; exact keys_set_mem (by rw [i.pkeys]; exact hv)
  · intro a b h
    rcases (hc a b).1 h with h | ⟨_, rfl⟩
    · exact i.child _ _ h
    · exact hv
  · intro a l h
    by_cases ha : u = a
    · subst ha
      rw [Dict.get?_set_self] at h; cases h
      have : v ∉ cu := fun h => hna ((arc_of_get hcu).2 h)
      rw [List.nodup_append]
      exact ⟨i.cnd _ _ hcu, List.nodup_singleton v, by rintro x hx y hy rfl; simp at hy; exact this (hy ▸ hx)⟩
    · rw [Dict.get?_set_ne _ _ ha] at h; exact i.cnd _ _ h
  · intro a l h
    by_cases ha : v = a
    · subst ha
      rw [Dict.get?_set_self] at h; cases h
      have : u ∉ pv := fun h => hna ((i.trans _ _).2 ((arc_of_get hpv).2 h))
      rw [List.nodup_append]
      exact ⟨i.pnd _ _ hpv, List.nodup_singleton u, by rintro x hx y hy rfl; simp at hy; exact this (hy ▸ hx)⟩
    · rw [Dict.get?_set_ne _ _ ha] at h; exact i.pnd _ _ h
  · intro a b
    rw [hc, hp, i.trans]
    tauto
  · intro w hw
    exact hac w (Relation.TransGen.mono (fun a b h => (hc a b).1 h) _ _ hw)

/-- `c_dict[u].remove(v); p_dict[v].remove(u)` on an existing arc. -/
theorem cpRemove_ok {names : List N} {st : CP N} (i : CInv names st) {u v : N} (h : Arc st.c u v) :
    ∃ st', cpRemove st u v = .ok st' ∧ CInv names st' ∧ ∀ a b, Arc st'.c a b ↔ Arc st.c a b ∧ ¬ (a = u ∧ b = v) := by
  have hu := i.src h
  have hv := i.child _ _ h
  obtain ⟨cu, hcu⟩ := i.cget hu
  obtain ⟨pv, hpv⟩ := i.pget hv
  have hvc : v ∈ cu := (arc_of_get hcu).1 h
  have hup : u ∈ pv := (arc_of_get hpv).1 ((i.trans _ _).1 h)
  have hc : ∀ a b, Arc (st.c.set u (cu.erase v)) a b ↔ Arc st.c a b ∧ ¬ (a = u ∧ b = v) := by
    intro a b
    rw [arc_set]
    by_cases h : a = u
    · subst h; rw [arc_of_get hcu, (i.cnd _ _ hcu).mem_erase_iff]; simp; tauto
    · simp [h]
  have hp : ∀ a b, Arc (st.p.set v (pv.erase u)) a b ↔ Arc st.p a b ∧ ¬ (a = v ∧ b = u) := by
    intro a b
    rw [arc_set]
    by_cases h : a = v
    · subst h; rw [arc_of_get hpv, (i.pnd _ _ hpv).mem_erase_iff]; simp; tauto
    · simp [h]
  refine ⟨_, by
    simp only [cpRemove, Dict.get_of_get? hcu, Dict.get_of_get? hpv, Py.bind_ok, Py.pure_eq, pyRemove_of_mem hvc,
      pyRemove_of_mem hup]; rfl, ?_, hc⟩
  refine ⟨i.nodup, ?_, ?_, ?_, ?_, ?_, ?_, ?_⟩
  · rw [← i.ckeys]; exact keys_set_mem (by rw [i.ckeys]; exact hu)
  · rw [← i.pkeys]; exact keys_set_mem (by rw [i.pkeys]; exact hv)
  · intro a b h; exact i.child _ _ ((hc a b).1 h).1
  · intro a l h
    by_cases ha : u = a
    · subst ha
      rw [Dict.get?_set_self] at h; cases h
      exact (i.cnd _ _ hcu).erase v
    · rw [Dict.get?_set_ne _ _ ha] at h; exact i.cnd _ _ h
  · intro a l h
    by_cases ha : v = a
    · subst ha
      rw [Dict.get?_set_self] at h; cases h
      exact (i.pnd _ _ hpv).erase u
    · rw [Dict.get?_set_ne _ _ ha] at h; exact i.pnd _ _ h
  · intro a b
    rw [hc, hp, i.trans]
    tauto
  · intro w hw
    exact i.acyclic w (Relation.TransGen.mono (fun a b h => ((hc a b).1 h).1) _ _ hw)

/-- `cpRemove u v; cpAppend v u` on an existing arc whose reversal closes no cycle. -/
theorem cpReverse_ok {names : List N} {st : CP N} (i : CInv names st) {u v : N} (h : Arc st.c u v)
    (hac : Acyclic (MoveArc st.c .reversal u v)) :
    ∃ st1 st', cpRemove st u v = .ok st1 ∧ cpAppend st1 v u = .ok st' ∧ CInv names st' ∧
      ∀ a b, Arc st'.c a b ↔ MoveArc st.c .reversal u v a b := by
  obtain ⟨st1, h1, i1, a1⟩ := cpRemove_ok i h
  have hne := i.ne h
  obtain ⟨st', h2, i2, a2⟩ := cpAppend_ok i1 (u := v) (v := u) (i.child _ _ h) (i.src h)
    (fun hvu => by
      have := ((a1 _ _).1 hvu).1
      exact i.acyclic u (.tail (.single h) this))
    (fun w hw => hac w (Relation.TransGen.mono (fun a b h => by
      rcases h with h | h
      · exact Or.inl ((a1 a b).1 h)
      · exact Or.inr h) _ _ hw))
  refine ⟨st1, st', h1, h2, i2, fun a b => ?_⟩
  rw [a2, a1]; rfl

/-! ## The scans -/

/-- What one pair contributes to a scan. -/
noncomputable def cand (env : HcEnv N) (blocked : Move → N → N → Bool) (st : CP N) (m : Move) (u v : N) : Option ℚ := by
  classical
  exact if Legal env.V env.restriction st.c m u v ∧ blocked m u v = false then moveDelta env (parentsIn st v) m u v else none

theorem scan_ok {f : Best N → N × N → Py (Best N)} {g : N × N → Option ℚ} {m : Move} : ∀ (l : List (N × N)) (best : Best N),
    (∀ best, ∀ uv ∈ l, f best uv = .ok (bump best (g uv) m uv.1 uv.2)) →
    scan f best l = .ok (l.foldl (fun b uv => bump b (g uv) m uv.1 uv.2) best)
  | [], best, _ => rfl
  | uv :: l, best, h => by
      simp only [scan, h best uv (List.mem_cons_self ..), Py.bind_ok, List.foldl_cons]
      exact scan_ok l _ fun b x hx => h b x (List.mem_cons_of_mem _ hx)

/-- The state of a scan: the recorded move belongs to `S`, its score is the recorded delta, and no examined candidate beats it. -/
structure BestInv (g : Move → N → N → Option ℚ) (seen : Move → N → N → Prop) (b : Best N) : Prop where
  nonneg : 0 ≤ b.1
  none_iff : b.2 = none → b.1 = 0
  some_pos : ∀ m u v, b.2 = some (m, u, v) → 0 < b.1 ∧ g m u v = some b.1
  max : ∀ m u v d, seen m u v → g m u v = some d → d ≤ b.1

theorem BestInv.bump {g : Move → N → N → Option ℚ} {seen : Move → N → N → Prop} {b : Best N} (i : BestInv g seen b)
    (m : Move) (u v : N) :
    BestInv g (fun m' u' v' => seen m' u' v' ∨ (m' = m ∧ u' = u ∧ v' = v)) (bump b (g m u v) m u v) := by
  unfold PyBN.bump
  cases hd : g m u v with
  | none =>
    refine ⟨i.nonneg, i.none_iff, i.some_pos, ?_⟩
    rintro m' u' v' d (h | ⟨rfl, rfl, rfl⟩) h'
    · exact i.max _ _ _ _ h h'
    · rw [hd] at h'; cases h'
  | some d =>
    by_cases hlt : b.1 < d
    · simp only [if_pos hlt]
      refine ⟨(i.nonneg.trans_lt hlt).le, by simp, ?_, ?_⟩
      · rintro m' u' v' h; cases h; exact ⟨i.nonneg.trans_lt hlt, hd⟩
      · rintro m' u' v' d' (h | ⟨rfl, rfl, rfl⟩) h'
        · exact (i.max _ _ _ _ h h').trans hlt.le
        · rw [hd] at h'; cases h'; exact le_rfl
    · simp only [if_neg hlt]
      refine ⟨i.nonneg, i.none_iff, i.some_pos, ?_⟩
      rintro m' u' v' d' (h | ⟨rfl, rfl, rfl⟩) h'
      · exact i.max _ _ _ _ h h'
      · rw [hd] at h'; cases h'; exact not_lt.1 hlt

theorem BestInv.mono {g : Move → N → N → Option ℚ} {s s' : Move → N → N → Prop} {b : Best N} (i : BestInv g s b)
    (h : ∀ m u v, s' m u v → s m u v) : BestInv g s' b :=
  ⟨i.nonneg, i.none_iff, i.some_pos, fun m u v d hs => i.max m u v d (h m u v hs)⟩

theorem BestInv.fold {g : Move → N → N → Option ℚ} (m : Move) : ∀ (l : List (N × N)) {seen : Move → N → N → Prop} {b : Best N},
    BestInv g seen b →
    BestInv g (fun m' u' v' => seen m' u' v' ∨ (m' = m ∧ (u', v') ∈ l))
      (l.foldl (fun b uv => PyBN.bump b (g m uv.1 uv.2) m uv.1 uv.2) b)
  | [], _, _, i => i.mono (by simp)
  | (u, v) :: l, _, _, i => by
      simp only [List.foldl_cons]
      refine (BestInv.fold m l (i.bump m u v)).mono ?_
      rintro m' u' v' (h | ⟨rfl, h⟩)
      · exact Or.inl (Or.inl h)
      · rcases List.mem_cons.1 h with h | h
        · cases h; exact Or.inl (Or.inr ⟨rfl, rfl, rfl⟩)
        · exact Or.inr ⟨rfl, h⟩

theorem mem_pairsOf {V : List N} {u v : N} : (u, v) ∈ pairsOf V ↔ u ∈ V ∧ v ∈ V := by
  simp only [pairsOf, List.mem_flatMap, List.mem_map, Prod.mk.injEq]
  constructor
  · rintro ⟨a, ha, b, hb, rfl, rfl⟩; exact ⟨ha, hb⟩
  · rintro ⟨hu, hv⟩; exact ⟨u, hu, v, hv, rfl, rfl⟩

theorem cand_some {env : HcEnv N} {blocked : Move → N → N → Bool} {st : CP N} {m : Move} {u v : N} {d : ℚ}
    (h : cand env blocked st m u v = some d) :
    Legal env.V env.restriction st.c m u v ∧ blocked m u v = false ∧ moveDelta env (parentsIn st v) m u v = some d := by
  classical
  unfold cand at h
  split at h
  · rename_i hl; exact ⟨hl.1, hl.2, h⟩
  · cases h

theorem cand_of {env : HcEnv N} {blocked : Move → N → N → Bool} {st : CP N} {m : Move} {u v : N}
    (h : Legal env.V env.restriction st.c m u v) (hb : blocked m u v = false) :
    cand env blocked st m u v = moveDelta env (parentsIn st v) m u v := by
  classical
  unfold cand; exact if_pos ⟨h, hb⟩

theorem cand_none {env : HcEnv N} {blocked : Move → N → N → Bool} {st : CP N} {m : Move} {u v : N}
    (h : ¬ (Legal env.V env.restriction st.c m u v ∧ blocked m u v = false)) : cand env blocked st m u v = none := by
  classical
  unfold cand; exact if_neg h

theorem bump_none (b : Best N) (m : Move) (u v : N) : bump b none m u v = b := rfl

variable {env : HcEnv N} {names : List N} {st : CP N} {blocked : Move → N → N → Bool}

theorem considerAdd_ok (hfc : FindsCycles env.fc) (i : CInv names st) (hV : ∀ v ∈ env.V, v ∈ names) (best : Best N) {uv : N × N}
    (huv : uv ∈ pairsOf env.V) :
    considerAdd env blocked st best uv = .ok (bump best (cand env blocked st .addition uv.1 uv.2) .addition uv.1 uv.2) := by
  obtain ⟨u, v⟩ := uv
  obtain ⟨hu, hv⟩ := mem_pairsOf.1 huv
  obtain ⟨cu, hcu⟩ := i.cget (hV u hu)
  obtain ⟨pv, hpv⟩ := i.pget (hV v hv)
  obtain ⟨b, hb, hbi⟩ := C28_would_cause_cycle env.fc hfc st.c i.acyclic u v false (by simp)
  have hE : EditedArc st.c u v false = MoveArc st.c .addition u v := by
    funext a b; simp [EditedArc, MoveArc]
  rw [hE] at hbi
  unfold considerAdd
  cases hbl : blocked .addition u v with
  | true => simp only [if_true]; rw [cand_none (by simp [hbl]), bump_none]
  | false =>
    simp only [Bool.false_eq_true, if_false, Dict.get_of_get? hcu, Py.bind_ok]
    by_cases h1 : v ∉ cu ∧ u ≠ v
    · rw [if_pos h1, hb]
      simp only [Py.bind_ok]
      by_cases h2 : b = false ∧ (∀ r ∈ env.restriction, (u, v) ∈ r)
      · rw [if_pos h2, Dict.get_of_get? hpv, cand_of _ hbl]
        · simp [parentsIn, hpv, moveDelta]
        · refine ⟨hu, hv, h1.2, ?_, ?_, h2.2⟩
          · intro w hw
            have := hbi.2 ⟨w, hw⟩
            rw [h2.1] at this; cases this
          · rw [arc_of_get hcu]; exact h1.1
      · rw [if_neg h2, cand_none, bump_none]; rfl
        rintro ⟨⟨_, _, _, hac, _, hr⟩, _⟩
        refine h2 ⟨?_, hr⟩
        cases b with
        | false => rfl
        | true => obtain ⟨w, hw⟩ := hbi.1 rfl; exact (hac w hw).elim
    · rw [if_neg h1, cand_none, bump_none]; rfl
      rintro ⟨⟨_, _, hne, _, hna, _⟩, _⟩
      exact h1 ⟨fun h => hna ((arc_of_get hcu).2 h), hne⟩

theorem considerDel_ok (i : CInv names st) (hV : ∀ v ∈ env.V, v ∈ names) (best : Best N) {uv : N × N}
    (huv : uv ∈ pairsOf env.V) :
    considerDel env blocked st best uv = .ok (bump best (cand env blocked st .deletion uv.1 uv.2) .deletion uv.1 uv.2) := by
  obtain ⟨u, v⟩ := uv
  obtain ⟨hu, hv⟩ := mem_pairsOf.1 huv
  obtain ⟨cu, hcu⟩ := i.cget (hV u hu)
  obtain ⟨pv, hpv⟩ := i.pget (hV v hv)
  unfold considerDel
  cases hbl : blocked .deletion u v with
  | true => simp only [if_true]; rw [cand_none (by simp [hbl]), bump_none]
  | false =>
    simp only [Bool.false_eq_true, if_false, Dict.get_of_get? hcu, Py.bind_ok]
    by_cases h1 : v ∈ cu
    · have ha : Arc st.c u v := (arc_of_get hcu).2 h1
      rw [if_pos h1, Dict.get_of_get? hpv, cand_of _ hbl]
      · simp [parentsIn, hpv, moveDelta]
      · exact ⟨hu, hv, i.ne ha, fun w hw => i.acyclic w (Relation.TransGen.mono (fun a b h => h.1) _ _ hw), ha⟩
    · rw [if_neg h1, cand_none, bump_none]; rfl
      rintro ⟨⟨_, _, _, _, ha⟩, _⟩
      exact h1 ((arc_of_get hcu).1 ha)

theorem considerRev_ok (hfc : FindsCycles env.fc) (i : CInv names st) (hV : ∀ v ∈ env.V, v ∈ names) (best : Best N) {uv : N × N}
    (huv : uv ∈ pairsOf env.V) :
    considerRev env blocked st best uv = .ok (bump best (cand env blocked st .reversal uv.1 uv.2) .reversal uv.1 uv.2) := by
  obtain ⟨u, v⟩ := uv
  obtain ⟨hu, hv⟩ := mem_pairsOf.1 huv
  obtain ⟨cu, hcu⟩ := i.cget (hV u hu)
  obtain ⟨pv, hpv⟩ := i.pget (hV v hv)
  unfold considerRev
  cases hbl : blocked .reversal u v with
  | true => simp only [if_true]; rw [cand_none (by simp [hbl]), bump_none]
  | false =>
    simp only [Bool.false_eq_true, if_false, Dict.get_of_get? hcu, Py.bind_ok]
    by_cases h1 : v ∈ cu
    · have ha : Arc st.c u v := (arc_of_get hcu).2 h1
      obtain ⟨b, hb, hbi⟩ := C28_would_cause_cycle env.fc hfc st.c i.acyclic v u true (fun _ => ha)
      have hE : EditedArc st.c v u true = MoveArc st.c .reversal u v := by
        funext a b; simp [EditedArc, MoveArc]
      rw [hE] at hbi
      rw [if_pos h1, hb]
      simp only [Py.bind_ok]
      by_cases h2 : b = false
      · rw [if_pos h2, Dict.get_of_get? hpv, cand_of _ hbl]
        · simp [parentsIn, hpv, moveDelta]
        · refine ⟨hu, hv, i.ne ha, fun w hw => ?_, ha⟩
          have := hbi.2 ⟨w, hw⟩
          rw [h2] at this; cases this
      · rw [if_neg h2, cand_none, bump_none]; rfl
        rintro ⟨⟨_, _, _, hac, _⟩, _⟩
        refine h2 ?_
        cases b with
        | false => rfl
        | true => obtain ⟨w, hw⟩ := hbi.1 rfl; exact (hac w hw).elim
    · rw [if_neg h1, cand_none, bump_none]; rfl
      rintro ⟨⟨_, _, _, _, ha⟩, _⟩
      exact h1 ((arc_of_get hcu).1 ha)

theorem bestMove_ok (hfc : FindsCycles env.fc) (i : CInv names st) (hV : ∀ v ∈ env.V, v ∈ names) :
    ∃ best, bestMove env blocked st = .ok best ∧
      BestInv (cand env blocked st) (fun _ u v => u ∈ env.V ∧ v ∈ env.V) best := by
  have h0 : BestInv (cand env blocked st) (fun _ _ _ => False) (0, none) :=
    ⟨le_rfl, fun _ => rfl, (fun _ _ _ h => by cases h), fun _ _ _ _ h => h.elim⟩
  refine ⟨_, ?_, (((h0.fold .addition (pairsOf env.V)).fold .deletion (pairsOf env.V)).fold .reversal (pairsOf env.V)).mono ?_⟩
  · unfold bestMove
    rw [scan_ok (g := fun uv => cand env blocked st .addition uv.1 uv.2) (m := .addition) _ _
      (fun b uv h => considerAdd_ok hfc i hV b h)]
    simp only [Py.bind_ok]
    rw [scan_ok (g := fun uv => cand env blocked st .deletion uv.1 uv.2) (m := .deletion) _ _
      (fun b uv h => considerDel_ok i hV b h)]
    simp only [Py.bind_ok]
    rw [scan_ok (g := fun uv => cand env blocked st .reversal uv.1 uv.2) (m := .reversal) _ _
      (fun b uv h => considerRev_ok hfc i hV b h)]
  · rintro m u v ⟨hu, hv⟩
    cases m
    · exact Or.inl (Or.inl (Or.inr ⟨rfl, mem_pairsOf.2 ⟨hu, hv⟩⟩))
    · exact Or.inl (Or.inr ⟨rfl, mem_pairsOf.2 ⟨hu, hv⟩⟩)
    · exact Or.inr ⟨rfl, mem_pairsOf.2 ⟨hu, hv⟩⟩

/-- A legal move is carried out. -/
theorem applyMove_ok (debug : Bool) (i : CInv names st) {V : List N} {r : Option (List (N × N))} (hV : ∀ v ∈ V, v ∈ names) {m : Move} {u v : N}
    (hl : Legal V r st.c m u v) :
    ∃ st', applyMove debug st m u v = .ok st' ∧ CInv names st' ∧
      (Performed debug m → ∀ a b, Arc st'.c a b ↔ MoveArc st.c m u v a b) ∧ (¬ Performed debug m → st' = st) := by
  obtain ⟨hu, hv, hne, hac, hm⟩ := hl
  cases m with
  | addition =>
    obtain ⟨st', h1, h2, h3⟩ := cpAppend_ok i (hV _ hu) (hV _ hv) hm.1 hac
    exact ⟨st', h1, h2, fun _ => h3, fun h => (h (Or.inl (by simp))).elim⟩
  | deletion =>
    obtain ⟨st', h1, h2, h3⟩ := cpRemove_ok i hm
    exact ⟨st', h1, h2, fun _ => h3, fun h => (h (Or.inl (by simp))).elim⟩
  | reversal =>
    cases debug with
    | false => exact ⟨st, rfl, i, fun h => by rcases h with h | h <;> simp at h, fun _ => rfl⟩
    | true =>
      obtain ⟨st1, st', h1, h2, h3, h4⟩ := cpReverse_ok i hm hac
      exact ⟨st', by simp only [applyMove, if_true, h1, h2, Py.bind_ok], h3, fun _ => h4, fun h => (h (Or.inr rfl)).elim⟩

/-- One pass. -/
theorem pass_ok (hfc : FindsCycles env.fc) (i : CInv names st) (hV : ∀ v ∈ env.V, v ∈ names) (blocked : Move → N → N → Bool) :
    ∃ best mv st', bestMove env blocked st = .ok best ∧ improve env.debug st best = .ok (mv, st') ∧
      CInv names st' ∧ PassOk env blocked ⟨st, mv, st'⟩ := by
  obtain ⟨best, h1, hb⟩ := bestMove_ok (blocked := blocked) hfc i hV
  have hmax : ∀ m u v d', Legal env.V env.restriction st.c m u v → blocked m u v = false →
      moveDelta env (parentsIn st v) m u v = some d' → d' ≤ best.1 := by
    intro m u v d' hl hbl hd
    exact hb.max m u v d' ⟨hl.1, hl.2.1⟩ (by rw [cand_of hl hbl, hd])
  by_cases h0 : best.1 = 0
  · refine ⟨best, none, st, h1, ?_, i, ?_⟩
    · simp [improve, h0]
    · refine ⟨by simp, ?_, by simp, by simp, fun _ => rfl⟩
      intro m u v d' hl hbl hd
      have := hmax m u v d' hl hbl hd
      rwa [h0] at this
  · cases h2 : best.2 with
    | none => exact (h0 (hb.none_iff h2)).elim
    | some x =>
      obtain ⟨m, u, v⟩ := x
      obtain ⟨hpos, hc⟩ := hb.some_pos m u v h2
      obtain ⟨hl, hbl, hd⟩ := cand_some hc
      obtain ⟨st', h3, i', h4, h5⟩ := applyMove_ok env.debug i hV hl
      refine ⟨best, some (best.1, m, u, v), st', h1, ?_, i', ?_⟩
      · simp only [improve, h2, ne_eq, h0, not_false_eq_true, if_true, h3, Py.bind_ok, Py.pure_eq]
      · refine ⟨?_, ?_, ?_, ?_, by simp⟩
        · rintro d m' u' v' h; cases h; exact ⟨hpos, hl, hbl, hd⟩
        · intro m' u' v' d' hl' hbl' hd'
          exact hmax m' u' v' d' hl' hbl' hd'
        · rintro d m' u' v' h hp; cases h; exact h4 hp
        · rintro d m' u' v' h hp; cases h; exact h5 hp

/-! ## The loops -/

theorem onePass_ok (hfc : FindsCycles env.fc) (i : CInv names st) (hV : ∀ v ∈ env.V, v ∈ names) (blocked : Move → N → N → Bool) :
    ∃ p, onePass env blocked st = .ok p ∧ p.before = st ∧ CInv names p.after ∧ PassOk env blocked p := by
  obtain ⟨best, mv, st', h1, h2, h3, h4⟩ := pass_ok hfc i hV blocked
  exact ⟨⟨st, mv, st'⟩, by simp only [onePass, h1, h2, Py.bind_ok, Py.pure_eq], rfl, h3, h4⟩

theorem climb_ok (hfc : FindsCycles env.fc) (hV : ∀ v ∈ env.V, v ∈ names) : ∀ (left : ℕ) (st : CP N), CInv names st →
    ∃ s fin tr, climb env left st = .ok (s, fin, tr) ∧ CInv names fin ∧
      History (PassOk env fun _ _ _ => false) st tr fin ∧ tr.length ≤ left + 1 ∧
      (s = .noImprovement ↔ ∃ p ∈ tr, p.move = none) ∧ (s = .limit → tr.length = left + 1) := by
  intro left
  induction left with
  | zero =>
    intro st i
    obtain ⟨p, h1, rfl, h3, h4⟩ := onePass_ok hfc i hV (fun _ _ _ => false)
    refine ⟨if p.move = none then .noImprovement else .limit, p.after, [p], by rw [climb]; simp only [h1, Py.bind_ok, Py.pure_eq], h3, History.last _ h4, by simp, ?_, by simp⟩
    by_cases h : p.move = none <;> simp [h]
  | succ left ih =>
    intro st i
    obtain ⟨p, h1, rfl, h3, h4⟩ := onePass_ok hfc i hV (fun _ _ _ => false)
    by_cases hm : p.move = none
    · refine ⟨.noImprovement, p.after, [p], by rw [climb]; simp only [h1, Py.bind_ok, Py.pure_eq, if_pos hm], h3, History.last _ h4, by simp, by simp [hm], by simp⟩
    · obtain ⟨s, fin, tr, h5, h6, h7, h8, h9, h10⟩ := ih p.after h3
      refine ⟨s, fin, p :: tr, by rw [climb]; simp only [h1, h5, Py.bind_ok, Py.pure_eq, if_neg hm], h6,
        History.cons p h4 hm h7, by simpa using h8, ?_, fun h => by simpa using h10 h⟩
      rw [h9]; simp [hm]

theorem History.restricted {ok : Pass N → Prop} {st fin : CP N} {tr : List (Pass N)} (h : History ok st tr fin) {r : List (N × N)}
    (hok : ∀ p, ok p → (∀ a b, Arc p.before.c a b → (a, b) ∈ r) → ∀ a b, Arc p.after.c a b → (a, b) ∈ r)
    (h0 : ∀ a b, Arc st.c a b → (a, b) ∈ r) : ∀ a b, Arc fin.c a b → (a, b) ∈ r := by
  induction h with
  | last p hp => exact hok p hp h0
  | cons p hp _ _ ih => exact ih (hok p hp h0)

theorem PassOk.restricted {p : Pass N} (h : PassOk env blocked p) (hd : env.debug = false) {r : List (N × N)}
    (hr : env.restriction = some r) (h0 : ∀ a b, Arc p.before.c a b → (a, b) ∈ r) : ∀ a b, Arc p.after.c a b → (a, b) ∈ r := by
  intro a b hab
  cases hm : p.move with
  | none => rw [h.still hm] at hab; exact h0 a b hab
  | some x =>
    obtain ⟨d, m, u, v⟩ := x
    by_cases hp : Performed env.debug m
    · have := (h.made d m u v hm hp a b).1 hab
      obtain ⟨_, hl, _, _⟩ := h.legal d m u v hm
      cases m with
      | addition =>
        rcases this with h' | ⟨rfl, rfl⟩
        · exact h0 a b h'
        · exact hl.2.2.2.2.2 r (by rw [hr]; rfl)
      | deletion => exact h0 a b this.1
      | reversal => rcases hp with hp | hp <;> simp_all
    · rw [h.unmade d m u v hm hp] at hab; exact h0 a b hab

theorem History.mem {ok : Pass N → Prop} {st fin : CP N} {tr : List (Pass N)} (h : History ok st tr fin) : ∀ p ∈ tr, ok p := by
  induction h with
  | last p hp => simpa using hp
  | cons p hp _ _ ih => simpa using ⟨hp, ih⟩

theorem History.ne_nil {ok : Pass N → Prop} {st fin : CP N} {tr : List (Pass N)} (h : History ok st tr fin) : tr ≠ [] := by
  cases h <;> simp

theorem History.mono {ok ok' : Pass N → Prop} (hk : ∀ p, ok p → ok' p) {st fin : CP N} {tr : List (Pass N)} (h : History ok st tr fin) :
    History ok' st tr fin := by
  induction h with
  | last p hp => exact .last p (hk p hp)
  | cons p hp hm _ ih => exact .cons p (hk p hp) hm ih

/-! ## A chosen but unperformed reversal freezes the search -/

theorem climb_frozen {st : CP N} {p : Pass N} (hp : onePass env (fun _ _ _ => false) st = .ok p) (hm : p.move ≠ none)
    (ha : p.after = st) : ∀ left, climb env left st = .ok (.limit, st, List.replicate (left + 1) p)
  | 0 => by rw [climb]; simp [hp, hm, ha]
  | left + 1 => by
      rw [climb]
      simp only [hp, Py.bind_ok, if_neg hm, ha, climb_frozen hp hm ha left, Py.pure_eq]
      rfl

theorem climb_freeze (hfc : FindsCycles env.fc) (hV : ∀ v ∈ env.V, v ∈ names) (hd : env.debug = false) :
    ∀ (left : ℕ) (st : CP N), CInv names st → ∀ {s fin tr}, climb env left st = .ok (s, fin, tr) →
      ∀ j p d u v, tr[j]? = some p → p.move = some (d, .reversal, u, v) →
        s = .limit ∧ fin = p.before ∧ tr.length = left + 1 ∧ ∀ j', j ≤ j' → j' ≤ left → tr[j']? = some p := by
  intro left
  induction left with
  | zero =>
    intro st i s fin tr h j p d u v hj hm
    obtain ⟨p', h1, rfl, h3, h4⟩ := onePass_ok hfc i hV (fun _ _ _ => false)
    rw [climb] at h
    simp only [h1, Py.bind_ok, Py.pure_eq, Except.ok.injEq, Prod.mk.injEq] at h
    obtain ⟨rfl, rfl, rfl⟩ := h
    have hj0 : j = 0 := by
      rcases j with _ | j
      · rfl
      · simp at hj
    subst hj0
    simp only [List.getElem?_cons_zero, Option.some.injEq] at hj
    subst hj
    refine ⟨by simp [hm], h4.unmade d _ u v hm (by simp [Performed, hd]), rfl, fun j' _ hj' => ?_⟩
    have : j' = 0 := by omega
    subst this; rfl
  | succ left ih =>
    intro st i s fin tr h j p d u v hj hm
    obtain ⟨p', h1, rfl, h3, h4⟩ := onePass_ok hfc i hV (fun _ _ _ => false)
    rcases j with _ | j
    · have hpp : p' = p := by
        rw [climb] at h
        simp only [h1, Py.bind_ok, Py.pure_eq] at h
        split at h
        · cases h; simpa using hj
        · obtain ⟨s', f', t', h5, -⟩ := climb_ok hfc hV left p'.after h3
          rw [h5] at h
          simp only [Py.bind_ok, Except.ok.injEq, Prod.mk.injEq] at h
          obtain ⟨rfl, rfl, rfl⟩ := h
          simpa using hj
      subst hpp
      have hfz := climb_frozen h1 (by simp [hm]) (h4.unmade d _ u v hm (by simp [Performed, hd])) (left + 1)
      rw [hfz] at h
      cases h
      refine ⟨rfl, rfl, by simp, fun j' _ hj' => ?_⟩
      rw [List.getElem?_replicate, if_pos (by omega)]
    · rw [climb] at h
      simp only [h1, Py.bind_ok, Py.pure_eq] at h
      split at h
      · cases h; simp at hj
      · obtain ⟨s', f', t', h5, -⟩ := climb_ok hfc hV left p'.after h3
        rw [h5] at h
        simp only [Py.bind_ok, Except.ok.injEq, Prod.mk.injEq] at h
        obtain ⟨rfl, rfl, rfl⟩ := h
        obtain ⟨e1, e2, e3, e4⟩ := ih _ h3 h5 j p d u v (by simpa using hj) hm
        refine ⟨e1, e2, by simp [e3], fun j' hj' hl' => ?_⟩
        rcases j' with _ | j'
        · omega
        · simpa using e4 j' (by omega) (by omega)

/-! ## tabu -/

/-- The move that undoes a move on the same arc, as the tabu tests see it. -/
def undoOf : Move → Move
  | .addition => .deletion
  | .deletion => .addition
  | .reversal => .reversal

theorem tabuBlocked_eq (tl : List (Option (N × N × Move))) (m : Move) (u v : N) :
    tabuBlocked tl m u v = decide (some (u, v, undoOf m) ∈ tl) := by
  cases m <;> rfl

/-- A pass of the tabu search: correct with respect to the tabu list of the moment. -/
def TabuPassOk (env : HcEnv N) (p : Pass N) : Prop := ∃ blocked, PassOk env blocked p

theorem tabuUpdate_ok {tl : List (Option (N × N × Move))} (h5 : 5 ≤ tl.length) (debug : Bool) (iter : ℕ)
    (mv : Option (ℚ × Move × N × N)) : ∃ tl', tabuUpdate debug tl iter mv = .ok tl' ∧ tl'.length = tl.length ∧
      (∀ s, s ≠ iter % 5 → tl'[s]? = tl[s]?) ∧
      (∀ d m u v, mv = some (d, m, u, v) → Performed debug m → tl'[iter % 5]? = some (some (u, v, m))) := by
  cases mv with
  | none => exact ⟨tl, rfl, rfl, fun _ _ => rfl, by simp⟩
  | some x =>
    obtain ⟨d, m, u, v⟩ := x
    have hlt : iter % 5 < tl.length := lt_of_lt_of_le (Nat.mod_lt _ (by omega)) h5
    simp only [tabuUpdate, tabuRecord]
    by_cases hc : m = .reversal ∧ debug = false
    · rw [if_pos hc]
      refine ⟨tl, rfl, rfl, fun _ _ => rfl, ?_⟩
      rintro d' m' u' v' h hp
      cases h
      rcases hp with hp | hp
      · exact (hp hc.1).elim
      · rw [hc.2] at hp; cases hp
    · rw [if_neg hc, if_pos hlt]
      refine ⟨_, rfl, by simp, fun s hs => ?_, ?_⟩
      · rw [List.getElem?_set_ne (Ne.symm hs)]
      · rintro d' m' u' v' h hp
        cases h
        rw [List.getElem?_set_self hlt]

theorem tabuLoop_ok (hfc : FindsCycles env.fc) (hV : ∀ v ∈ env.V, v ∈ names) :
    ∀ (left iter : ℕ) (tl : List (Option (N × N × Move))) (st : CP N), CInv names st → 5 ≤ tl.length →
    ∃ fin tr, tabuLoop env left iter tl st = .ok (fin, tr) ∧ CInv names fin ∧ History (TabuPassOk env) st tr fin ∧
      tr.length ≤ left + 1 ∧
      (∀ j p d m u v, tr[j]? = some p → p.move = some (d, m, u, v) → ∀ s : ℕ, tl[s]? = some (some (u, v, undoOf m)) →
        ∃ j' < j, (iter + j') % 5 = s) ∧
      (∀ j p d m u v, tr[j]? = some p → p.move = some (d, m, u, v) → ∀ j' p' d', j' < j → tr[j']? = some p' →
        p'.move = some (d', undoOf m, u, v) → Performed env.debug (undoOf m) → j' + 5 < j) := by
  intro left
  induction left with
  | zero =>
    intro iter tl st i h5
    obtain ⟨p, h1, rfl, h3, h4⟩ := onePass_ok hfc i hV (tabuBlocked tl)
    obtain ⟨tl', h6, -⟩ := tabuUpdate_ok h5 env.debug iter p.move
    refine ⟨p.after, [p], by rw [tabuLoop]; simp only [h1, h6, Py.bind_ok, Py.pure_eq], h3, .last p ⟨_, h4⟩, by simp, ?_, ?_⟩
    · intro j q d m u v hj hm s hs
      rcases j with _ | j
      · simp only [List.getElem?_cons_zero, Option.some.injEq] at hj
        subst hj
        have := (h4.legal d m u v hm).2.2.1
        rw [tabuBlocked_eq] at this
        exact absurd (List.mem_of_getElem? hs) (by simpa using this)
      · simp at hj
    · intro j q d m u v hj hm j' p' d' hlt
      rcases j with _ | j
      · omega
      · simp at hj
  | succ left ih =>
    intro iter tl st i h5
    obtain ⟨p, h1, rfl, h3, h4⟩ := onePass_ok hfc i hV (tabuBlocked tl)
    obtain ⟨tl', h6, hlen, hkeep, hrec⟩ := tabuUpdate_ok h5 env.debug iter p.move
    have hA0 : ∀ d m u v, p.move = some (d, m, u, v) → ∀ s : ℕ, tl[s]? ≠ some (some (u, v, undoOf m)) := by
      intro d m u v hm s hs
      have := (h4.legal d m u v hm).2.2.1
      rw [tabuBlocked_eq] at this
      exact absurd (List.mem_of_getElem? hs) (by simpa using this)
    by_cases hm0 : p.move = none
    · refine ⟨p.after, [p], by rw [tabuLoop]; simp only [h1, h6, Py.bind_ok, Py.pure_eq, if_pos hm0], h3, .last p ⟨_, h4⟩, by simp, ?_, ?_⟩
      · intro j q d m u v hj hm s hs
        rcases j with _ | j
        · simp only [List.getElem?_cons_zero, Option.some.injEq] at hj
          subst hj
          exact (hA0 d m u v hm s hs).elim
        · simp at hj
      · intro j q d m u v hj hm j' p' d' hlt
        rcases j with _ | j
        · omega
        · simp at hj
    · obtain ⟨fin, tr, g1, g2, g3, g4, gA, gB⟩ := ih (iter + 1) tl' p.after h3 (by rw [hlen]; exact h5)
      refine ⟨fin, p :: tr, by rw [tabuLoop]; simp only [h1, h6, g1, Py.bind_ok, Py.pure_eq, if_neg hm0], g2,
        .cons p ⟨_, h4⟩ hm0 g3, by simpa using g4, ?_, ?_⟩
      · intro j q d m u v hj hm s hs
        rcases j with _ | j
        · simp only [List.getElem?_cons_zero, Option.some.injEq] at hj
          subst hj
          exact (hA0 d m u v hm s hs).elim
        · simp only [List.getElem?_cons_succ] at hj
          by_cases hsi : s = iter % 5
          · exact ⟨0, by omega, by simpa using hsi.symm⟩
          · obtain ⟨j', hj', e⟩ := gA j q d m u v hj hm s (by rw [hkeep s hsi]; exact hs)
            exact ⟨j' + 1, by omega, by rw [← e]; congr 1; omega⟩
      · intro j q d m u v hj hm j' p' d' hlt hj' hm' hperf
        rcases j with _ | j
        · omega
        · simp only [List.getElem?_cons_succ] at hj
          rcases j' with _ | j'
          · simp only [List.getElem?_cons_zero, Option.some.injEq] at hj'
            subst hj'
            obtain ⟨k, hk, e⟩ := gA j q d m u v hj hm (iter % 5) (hrec d' _ u v hm' hperf)
            omega
          · simp only [List.getElem?_cons_succ] at hj'
            have := gB j q d m u v hj hm j' p' d' (by omega) hj' hm' hperf
            omega

theorem mem_append_none {tl : List (Option (N × N × Move))} {r : ℕ} {x : N × N × Move} :
    some x ∈ tl ++ List.replicate r none ↔ some x ∈ tl := by
  simp [List.mem_append, List.mem_replicate]

theorem tabuBlocked_append (tl : List (Option (N × N × Move))) (r : ℕ) : tabuBlocked (tl ++ List.replicate r none) = tabuBlocked tl := by
  funext m u v
  rw [tabuBlocked_eq, tabuBlocked_eq, decide_eq_decide]
  exact mem_append_none

/-- Entries beyond the fifth are never used. -/
theorem tabuLoop_long (r : ℕ) : ∀ (left iter : ℕ) (tl : List (Option (N × N × Move))) (st : CP N), tl.length = 5 →
    tabuLoop env left iter (tl ++ List.replicate r none) st = tabuLoop env left iter tl st := by
  have hupd : ∀ (iter : ℕ) (tl : List (Option (N × N × Move))) mv, tl.length = 5 →
      (∃ tl', tabuUpdate env.debug tl iter mv = .ok tl' ∧ tl'.length = 5 ∧
        tabuUpdate env.debug (tl ++ List.replicate r none) iter mv = .ok (tl' ++ List.replicate r none)) := by
    intro iter tl mv hl
    cases mv with
    | none => exact ⟨tl, rfl, hl, rfl⟩
    | some x =>
      obtain ⟨d, m, u, v⟩ := x
      have hlt : iter % 5 < tl.length := by rw [hl]; exact Nat.mod_lt _ (by omega)
      simp only [tabuUpdate, tabuRecord]
      by_cases hc : m = .reversal ∧ env.debug = false
      · exact ⟨tl, by rw [if_pos hc], hl, by rw [if_pos hc]⟩
      · refine ⟨tl.set (iter % 5) (some (u, v, m)), by rw [if_neg hc, if_pos hlt], by simp [hl], ?_⟩
        rw [if_neg hc, if_pos (by simp; omega), List.set_append_left _ _ hlt]
  intro left
  induction left with
  | zero =>
    intro iter tl st hl
    rw [tabuLoop, tabuLoop, tabuBlocked_append]
    cases h1 : onePass env (tabuBlocked tl) st with
    | error e => rfl
    | ok p =>
      obtain ⟨tl', h2, _, h3⟩ := hupd iter tl p.move hl
      simp only [Py.bind_ok, h2, h3]
  | succ left ih =>
    intro iter tl st hl
    rw [tabuLoop, tabuLoop, tabuBlocked_append]
    cases h1 : onePass env (tabuBlocked tl) st with
    | error e => rfl
    | ok p =>
      obtain ⟨tl', h2, hl', h3⟩ := hupd iter tl p.move hl
      simp only [Py.bind_ok, h2, h3, ih (iter + 1) tl' p.after hl']

open Classical in
/-- With fewer than five slots the run is that of five slots, up to the first performed move at a pass number whose residue
mod 5 has no slot: there it raises. -/
theorem tabuLoop_short (hfc : FindsCycles env.fc) (hV : ∀ v ∈ env.V, v ∈ names) (k : ℕ) (hk : k ≤ 5) :
    ∀ (left iter : ℕ) (tl : List (Option (N × N × Move))) (st : CP N), CInv names st → tl.length = k →
    ∃ fin tr, tabuLoop env left iter (tl ++ List.replicate (5 - k) none) st = .ok (fin, tr) ∧
      (if ∃ (j : ℕ) (p : Pass N) (d : ℚ) (m : Move) (u v : N), tr[j]? = some p ∧ p.move = some (d, m, u, v) ∧
          Performed env.debug m ∧ k ≤ (iter + j) % 5
        then tabuLoop env left iter tl st = .error .indexError
        else tabuLoop env left iter tl st = .ok (fin, tr)) := by
  classical
  have hupd : ∀ (iter : ℕ) (tl : List (Option (N × N × Move))) mv, tl.length = k →
      if ∃ (d : ℚ) (m : Move) (u v : N), mv = some (d, m, u, v) ∧ Performed env.debug m ∧ k ≤ iter % 5 then
        tabuUpdate env.debug tl iter mv = .error .indexError
      else ∃ tl', tabuUpdate env.debug tl iter mv = .ok tl' ∧ tl'.length = k ∧
        tabuUpdate env.debug (tl ++ List.replicate (5 - k) none) iter mv = .ok (tl' ++ List.replicate (5 - k) none) := by
    intro iter tl mv hl
    have hlt5 : iter % 5 < 5 := Nat.mod_lt _ (by omega)
    cases mv with
    | none => rw [if_neg (by simp)]; exact ⟨tl, rfl, hl, rfl⟩
    | some x =>
      obtain ⟨d, m, u, v⟩ := x
      simp only [tabuUpdate, tabuRecord]
      by_cases hc : m = .reversal ∧ env.debug = false
      · rw [if_neg]
        · exact ⟨tl, by rw [if_pos hc], hl, by rw [if_pos hc]⟩
        · rintro ⟨d', m', u', v', h, hp, -⟩
          cases h
          rcases hp with hp | hp
          · exact hp hc.1
          · rw [hc.2] at hp; cases hp
      · have hperf : Performed env.debug m := by
          by_contra hn
          apply hc
          simp only [Performed, not_or, not_not] at hn
          exact ⟨hn.1, by simpa using hn.2⟩
        by_cases hki : k ≤ iter % 5
        · rw [if_pos ⟨d, m, u, v, rfl, hperf, hki⟩, if_neg hc, if_neg (by omega)]
        · rw [if_neg (by rintro ⟨_, _, _, _, _, _, h⟩; exact hki h)]
          refine ⟨tl.set (iter % 5) (some (u, v, m)), by rw [if_neg hc, if_pos (by omega)], by simp [hl], ?_⟩
          rw [if_neg hc, if_pos (by simp; omega), List.set_append_left _ _ (by omega)]
  intro left
  induction left with
  | zero =>
    intro iter tl st i hl
    obtain ⟨p, h1, rfl, h3, h4⟩ := onePass_ok hfc i hV (tabuBlocked tl)
    obtain ⟨tl5, h5, -⟩ := tabuUpdate_ok (tl := tl ++ List.replicate (5 - k) none) (by simp; omega) env.debug iter p.move
    refine ⟨p.after, [p], by rw [tabuLoop, tabuBlocked_append]; simp only [h1, h5, Py.bind_ok, Py.pure_eq], ?_⟩
    have := hupd iter tl p.move hl
    by_cases hc : ∃ (d : ℚ) (m : Move) (u v : N), p.move = some (d, m, u, v) ∧ Performed env.debug m ∧ k ≤ iter % 5
    · rw [if_pos hc] at this
      obtain ⟨d, m, u, v, e1, e2, e3⟩ := hc
      rw [if_pos ⟨0, p, d, m, u, v, rfl, e1, e2, by simpa using e3⟩, tabuLoop]
      simp only [h1, this, Py.bind_ok, Py.bind_error]
    · rw [if_neg hc] at this
      obtain ⟨tl', e1, -⟩ := this
      rw [if_neg, tabuLoop]
      · simp only [h1, e1, Py.bind_ok, Py.pure_eq]
      · rintro ⟨j, q, d, m, u, v, hj, e1, e2, e3⟩
        rcases j with _ | j
        · simp only [List.getElem?_cons_zero, Option.some.injEq] at hj
          subst hj
          exact hc ⟨d, m, u, v, e1, e2, by simpa using e3⟩
        · simp at hj
  | succ left ih =>
    intro iter tl st i hl
    obtain ⟨p, h1, rfl, h3, h4⟩ := onePass_ok hfc i hV (tabuBlocked tl)
    obtain ⟨tl5, h5, hl5, -⟩ := tabuUpdate_ok (tl := tl ++ List.replicate (5 - k) none) (by simp; omega) env.debug iter p.move
    have hu := hupd iter tl p.move hl
    by_cases hm0 : p.move = none
    · refine ⟨p.after, [p], by rw [tabuLoop, tabuBlocked_append]; simp only [h1, h5, Py.bind_ok, Py.pure_eq, if_pos hm0], ?_⟩
      rw [if_neg (by rw [hm0]; simp)] at hu
      obtain ⟨tl', e1, -⟩ := hu
      rw [if_neg, tabuLoop]
      · simp only [h1, e1, Py.bind_ok, Py.pure_eq, if_pos hm0]
      · rintro ⟨j, q, d, m, u, v, hj, e1, e2, e3⟩
        rcases j with _ | j
        · simp only [List.getElem?_cons_zero, Option.some.injEq] at hj
          subst hj
          rw [hm0] at e1; cases e1
        · simp at hj
    · by_cases hc : ∃ (d : ℚ) (m : Move) (u v : N), p.move = some (d, m, u, v) ∧ Performed env.debug m ∧ k ≤ iter % 5
      · rw [if_pos hc] at hu
        obtain ⟨fin, tr, g, -⟩ := tabuLoop_ok hfc hV left (iter + 1) tl5 p.after h3 (by rw [hl5]; simp; omega)
        refine ⟨fin, p :: tr, by rw [tabuLoop, tabuBlocked_append]; simp only [h1, h5, g, Py.bind_ok, Py.pure_eq, if_neg hm0], ?_⟩
        obtain ⟨d, m, u, v, e1, e2, e3⟩ := hc
        rw [if_pos ⟨0, p, d, m, u, v, rfl, e1, e2, by simpa using e3⟩, tabuLoop]
        simp only [h1, hu, Py.bind_ok, Py.bind_error]
      · rw [if_neg hc] at hu
        obtain ⟨tl', e1, e2, e3⟩ := hu
        obtain ⟨fin, tr, g1, g2⟩ := ih (iter + 1) tl' p.after h3 e2
        refine ⟨fin, p :: tr, by rw [tabuLoop, tabuBlocked_append]; simp only [h1, e3, g1, Py.bind_ok, Py.pure_eq, if_neg hm0], ?_⟩
        split at g2
        · rename_i hex
          obtain ⟨j, q, d, m, u, v, f1, f2, f3, f4⟩ := hex
          rw [if_pos ⟨j + 1, q, d, m, u, v, by simpa using f1, f2, f3, by rw [← add_assoc, add_right_comm]; exact f4⟩, tabuLoop]
          simp only [h1, e1, g2, Py.bind_ok, Py.bind_error, if_neg hm0]
        · rename_i hex
          rw [if_neg, tabuLoop]
          · simp only [h1, e1, g2, Py.bind_ok, Py.pure_eq, if_neg hm0]
          · rintro ⟨j, q, d, m, u, v, hj, f1, f2, f3⟩
            rcases j with _ | j
            · simp only [List.getElem?_cons_zero, Option.some.injEq] at hj
              subst hj
              exact hc ⟨d, m, u, v, f1, f2, by simpa using f3⟩
            · exact hex ⟨j, q, d, m, u, v, by simpa using hj, f1, f2, by rw [add_right_comm, add_assoc]; exact f3⟩

/-! ## hc_rr -/

/-- Draws that `np.random.choice(nodes, size=2, replace=False)` can produce. -/
def ValidDraws (names : List N) (draws : List (N × N)) : Prop := ∀ uv ∈ draws, uv.1 ∈ names ∧ uv.2 ∈ names ∧ uv.1 ≠ uv.2

theorem randomOp_ok (hfc : FindsCycles env.fc) (op : ℕ) (i : CInv names st) : ∀ draws : List (N × N), ValidDraws names draws →
    (randomOp env op st draws = .error .diverges ∨
      ∃ st' rest, randomOp env op st draws = .ok (st', rest) ∧ CInv names st' ∧ ValidDraws names rest)
  | [], _ => Or.inl rfl
  | (u, v) :: draws, hd => by
      have hrest : ValidDraws names draws := fun x hx => hd x (List.mem_cons_of_mem _ hx)
      have ih := randomOp_ok hfc op i draws hrest
      obtain ⟨hu, hv, hne⟩ := hd (u, v) (List.mem_cons_self ..)
      obtain ⟨pv, hpv⟩ := i.pget hv
      have harc : Arc st.c u v ↔ u ∈ pv := by rw [i.trans, arc_of_get hpv]
      rw [randomOp]
      simp only [Dict.get_of_get? hpv, Py.bind_ok]
      by_cases h0 : op = 0
      · rw [if_pos h0]
        by_cases h1 : u ∉ pv ∧ u ≠ v
        · rw [if_pos h1]
          obtain ⟨b, hb, hbi⟩ := C28_would_cause_cycle env.fc hfc st.c i.acyclic u v false (by simp)
          rw [hb, Py.bind_ok]
          by_cases h2 : b = false
          · rw [if_pos h2]
            obtain ⟨st', e1, e2, -⟩ := cpAppend_ok i hu hv (by rw [harc]; exact h1.1) (fun w hw => by
              have := hbi.2 ⟨w, Relation.TransGen.mono (fun a b h => by simpa [EditedArc] using h) _ _ hw⟩
              rw [h2] at this; cases this)
            exact Or.inr ⟨st', draws, by rw [e1]; rfl, e2, hrest⟩
          · rw [if_neg h2]; exact ih
        · rw [if_neg h1]; exact ih
      · rw [if_neg h0]
        by_cases h1 : op = 1
        · rw [if_pos h1]
          by_cases h2 : u ∈ pv
          · rw [if_pos h2]
            obtain ⟨st', e1, e2, -⟩ := cpRemove_ok i (harc.2 h2)
            exact Or.inr ⟨st', draws, by rw [e1]; rfl, e2, hrest⟩
          · rw [if_neg h2]; exact ih
        · rw [if_neg h1]
          by_cases h2 : u ∈ pv
          · rw [if_pos h2]
            obtain ⟨b, hb, hbi⟩ := C28_would_cause_cycle env.fc hfc st.c i.acyclic v u true (fun _ => harc.2 h2)
            rw [hb, Py.bind_ok]
            by_cases h3 : b = false
            · rw [if_pos h3]
              obtain ⟨st1, st', e1, e2, e3, -⟩ := cpReverse_ok i (harc.2 h2) (fun w hw => by
                have := hbi.2 ⟨w, Relation.TransGen.mono (fun a b h => by simpa [EditedArc, MoveArc] using h) _ _ hw⟩
                rw [h3] at this; cases this)
              exact Or.inr ⟨st', draws, by rw [e1, Py.bind_ok, e2]; rfl, e3, hrest⟩
            · rw [if_neg h3]; exact ih
          · rw [if_neg h2]; exact ih

theorem randomOps_ok (hfc : FindsCycles env.fc) (h2 : 2 ≤ env.V.length) : ∀ (m : ℕ) (st : CP N) (ops : List ℕ) (draws : List (N × N)),
    CInv names st → ValidDraws names draws →
    (randomOps env m st ops draws = .error .diverges ∨
      ∃ st' ops' rest, randomOps env m st ops draws = .ok (st', ops', rest) ∧ CInv names st' ∧ ValidDraws names rest)
  | 0, st, ops, draws, i, hd => Or.inr ⟨st, ops, draws, rfl, i, hd⟩
  | _ + 1, _, [], _, _, _ => Or.inl rfl
  | m + 1, st, op :: ops, draws, i, hd => by
      rw [randomOps, if_neg (by omega)]
      rcases randomOp_ok hfc op i draws hd with h | ⟨st', rest, h, i', hd'⟩
      · rw [h]; exact Or.inl rfl
      · rw [h]; exact randomOps_ok hfc h2 m st' ops rest i' hd'

theorem rrLoop_ok (hfc : FindsCycles env.fc) (hV : ∀ v ∈ env.V, v ∈ names) (h2 : 2 ≤ env.V.length) (maxIter M : ℕ) :
    ∀ (R left : ℕ) (st : CP N) (ops : List ℕ) (draws : List (N × N)), CInv names st → ValidDraws names draws →
    (rrLoop env maxIter M R left st ops draws = .error .diverges ∨
      ∃ fin tr, rrLoop env maxIter M R left st ops draws = .ok (fin, tr) ∧ CInv names fin ∧
        (∀ p ∈ tr, PassOk env (fun _ _ _ => false) p) ∧ tr.length ≤ (left + 1) + R * maxIter) := by
  intro R
  induction R with
  | zero =>
    intro left st ops draws i hd
    obtain ⟨s, fin, tr, h1, h3, h4, h5, -⟩ := climb_ok hfc hV left st i
    exact Or.inr ⟨fin, tr, by rw [rrLoop]; simp only [h1, Py.bind_ok, Py.pure_eq], h3, h4.mem, by simpa using h5⟩
  | succ R ih =>
    intro left st ops draws i hd
    obtain ⟨s, fin, tr, h1, h3, h4, h5, -⟩ := climb_ok hfc hV left st i
    have hlen : tr.length ≤ left + 1 + (R + 1) * maxIter := h5.trans (Nat.le_add_right _ _)
    rw [rrLoop]
    simp only [h1, Py.bind_ok, Py.pure_eq]
    by_cases hs : s = .limit
    · rw [if_pos hs]; exact Or.inr ⟨fin, tr, rfl, h3, h4.mem, hlen⟩
    · rw [if_neg hs]
      rcases randomOps_ok hfc h2 M fin ops draws h3 hd with h | ⟨st', ops', rest, h, i', hd'⟩
      · rw [h]; exact Or.inl rfl
      · rw [h]
        simp only [Py.bind_ok]
        by_cases hmi : maxIter = 0
        · rw [if_pos hmi]; exact Or.inr ⟨st', tr, rfl, i', h4.mem, hlen⟩
        · rw [if_neg hmi]
          rcases ih (maxIter - 1) st' ops' rest i' hd' with e | ⟨fin', tr', e, e2, e3, e4⟩
          · rw [e]; exact Or.inl rfl
          · rw [e]
            refine Or.inr ⟨fin', tr ++ tr', rfl, e2, fun p hp => ?_, ?_⟩
            · rcases List.mem_append.1 hp with hp | hp
              · exact h4.mem p hp
              · exact e3 p hp
            · rw [List.length_append, add_mul]
              have : maxIter - 1 + 1 = maxIter := by omega
              rw [this] at e4
              omega

/-- A random deletion on a graph without arcs never ends. -/
theorem randomOp_deletion_diverges (i : CInv names st) (hno : ∀ a b, ¬ Arc st.c a b) : ∀ draws : List (N × N), ValidDraws names draws →
    ∀ op, op ≠ 0 → randomOp env op st draws = .error .diverges
  | [], _, _, _ => rfl
  | (u, v) :: draws, hd, op, h0 => by
      obtain ⟨hu, hv, hne⟩ := hd (u, v) (List.mem_cons_self ..)
      obtain ⟨pv, hpv⟩ := i.pget hv
      have hn : u ∉ pv := fun h => hno u v ((i.trans _ _).2 ((arc_of_get hpv).2 h))
      have ih := randomOp_deletion_diverges i hno draws (fun x hx => hd x (List.mem_cons_of_mem _ hx)) op h0
      rw [randomOp]
      simp only [Dict.get_of_get? hpv, Py.bind_ok, if_neg h0, if_neg hn, ih, ite_self]

end PyBN
