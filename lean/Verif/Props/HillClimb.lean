import Verif.Proofs.HillClimb
import Verif.Props.Net

/-!
# C30–C34, C61–C64: score-based structure search

All theorems hold for every outcome of `mutual_information` (hence every data set), every dictionary iteration order, and every
`nx.find_cycle` that meets its contract `FindsCycles`.
-/

set_option linter.unusedSectionVars false
namespace PyBN

theorem Py.of_map_error {α β : Type} {m : Py α} {f : α → β} {e : PyErr} (h : m.map f = .error e) : m = .error e := by
  cases m with
  | error e' => simpa [Except.map] using h
  | ok x => cases h

theorem init_run {A : Type} (h : HashOrder ℕ) (a : HcArgs) :
    ∃ bn, BayesNet.setStructure (A := A) h a.init.c none = .ok bn ∧ bn.V.Perm (List.range a.ncol) ∧
      CInv (List.range a.ncol) a.init := by
  classical
  have i : CInv (List.range a.ncol) a.init := CInv.init List.nodup_range
  obtain ⟨bn, h1, h2, -⟩ := C23_set_structure (A := A) h a.init.c none (by rw [i.ckeys]; exact i.nodup)
    (fun u v hv => by rw [i.ckeys]; exact i.child u v hv) i.acyclic (by simp)
  exact ⟨bn, h1, by rw [i.ckeys] at h2; exact h2, i⟩

theorem final_run {A : Type} (h : HashOrder ℕ) {names : List ℕ} {fin : CP ℕ} (i : CInv names fin) :
    ∃ bn, BayesNet.setStructure (A := A) h fin.c none = .ok bn ∧ bn.V.Perm names ∧ bn.E = fin.c ∧ ∀ v ∈ bn.V, ∀ u,
      u ∈ bn.parentsOf v ↔ v ∈ bn.childrenOf u := by
  classical
  obtain ⟨bn, h1, h2, h3, _, h4, -⟩ := C23_set_structure (A := A) h fin.c none (by rw [i.ckeys]; exact i.nodup)
    (fun u v hv => by rw [i.ckeys]; exact i.child u v hv) i.acyclic (by simp)
  exact ⟨bn, h1, by rw [i.ckeys] at h2; exact h2, h3, fun v hv => (h4 v hv).2⟩

/-- The whole run of `hc` in terms of the loop. -/
theorem hc_run (A : Type) (h : HashOrder ℕ) (a : HcArgs) (hfc : FindsCycles a.fc) (maxIter : ℤ) :
    ∃ V s fin bn tr, V.Perm (List.range a.ncol) ∧ hc A h a maxIter = .ok (bn, tr) ∧
      climb (a.env V) maxIter.toNat a.init = .ok (s, fin, tr) ∧
      bn.E = fin.c ∧ bn.V.Perm (List.range a.ncol) ∧ CInv (List.range a.ncol) fin ∧
      History (PassOk (a.env V) fun _ _ _ => false) a.init tr fin ∧ tr.length ≤ maxIter.toNat + 1 ∧
      (s = .noImprovement ↔ ∃ p ∈ tr, p.move = none) := by
  obtain ⟨bn0, h1, h2, i⟩ := init_run (A := A) h a
  obtain ⟨s, fin, tr, h3, h4, h5, h6, h7, -⟩ := climb_ok (env := a.env bn0.V) (names := List.range a.ncol) hfc
    (fun v hv => h2.mem_iff.1 hv) maxIter.toNat a.init i
  obtain ⟨bn, h8, h9, h10, -⟩ := final_run (A := A) h h4
  exact ⟨bn0.V, s, fin, bn, tr, h2, by simp only [hc, h1, h3, h8, Py.bind_ok, Py.pure_eq], h3, h10, h9, h4, h5, h6, h7⟩

/-! ## A concrete run

The table is what `mutual_information` yields on the data rows (100,11), (100,600), (11,600), (11,900). -/

/-- The score table of the example. -/
def exMi (cols : List ℕ) : Option ℚ :=
  if cols = [1] then some (10397/10000) else if cols = [1, 0] then some (3466/10000) else
  if cols = [0] then some (6931/10000) else if cols = [0, 1] then some (3466/10000) else
  if cols = [0, 0] then some (6931/10000) else if cols = [0, 0, 1] then some (2158/10000) else
  if cols = [1, 1] then some (10397/10000) else if cols = [1, 1, 0] then some (2158/10000) else none

/-- The example call: two columns, four rows. -/
def exArgs (debug : Bool) (restriction : Option (List (ℕ × ℕ))) : HcArgs := ⟨findCycleRef, exMi, 4, 2, restriction, debug⟩

/-! ## C30 -/

/-- C30: `hc` always returns, and the network has exactly the columns as nodes, no directed cycle, arcs only between nodes, and
parent lists that agree with the child lists. -/
theorem C30_hc_dag (A : Type) (h : HashOrder ℕ) (a : HcArgs) (hfc : FindsCycles a.fc) (maxIter : ℤ) :
    ∃ bn tr, hc A h a maxIter = .ok (bn, tr) ∧ bn.V.Perm (List.range a.ncol) ∧ NoCycle bn.E ∧
      (∀ u v, Arc bn.E u v → u < a.ncol ∧ v < a.ncol) ∧ ∀ v ∈ bn.V, ∀ u, u ∈ bn.parentsOf v ↔ v ∈ bn.childrenOf u := by
  obtain ⟨bn0, h1, h2, i⟩ := init_run (A := A) h a
  obtain ⟨s, fin, tr, h3, h4, h5, h6, h7, -⟩ := climb_ok (env := a.env bn0.V) (names := List.range a.ncol) hfc
    (fun v hv => h2.mem_iff.1 hv) maxIter.toNat a.init i
  obtain ⟨bn, h8, h9, h10, h11⟩ := final_run (A := A) h h4
  refine ⟨bn, tr, by simp only [hc, h1, h3, h8, Py.bind_ok, Py.pure_eq], h9, by rw [h10]; exact h4.acyclic, ?_, h11⟩
  intro u v huv
  rw [h10] at huv
  exact ⟨by simpa using h4.src huv, by simpa using h4.child _ _ huv⟩

/-- Witness: on the example `hc` ends with the arc 0 → 1. -/
example : FindsCycles (exArgs false none).fc ∧
    (hc Unit .id (exArgs false none) 0).map (fun r => (r.1.V, r.1.E)) = .ok ([0, 1], [(0, [1]), (1, [])]) :=
  ⟨findCycleRef_spec, by decide +kernel⟩

/-! ## C31 -/

/-- C31 (partial: without `debug`): at most `max_iter + 1` passes, and every arc of the result is in the restriction list. -/
theorem C31_restriction_partial (A : Type) (h : HashOrder ℕ) (a : HcArgs) (hfc : FindsCycles a.fc) (maxIter : ℤ)
    (hd : a.debug = false) : ∃ bn tr, hc A h a maxIter = .ok (bn, tr) ∧ tr.length ≤ maxIter.toNat + 1 ∧
      ∀ r, a.restriction = some r → ∀ u v, Arc bn.E u v → (u, v) ∈ r := by
  obtain ⟨V, s, fin, bn, tr, h1, h2, h3, h4, h5, h6, h7, h8, -⟩ := hc_run A h a hfc maxIter
  refine ⟨bn, tr, h2, h8, fun r hr u v huv => ?_⟩
  rw [h4] at huv
  exact h7.restricted (fun p hp h0 => PassOk.restricted hp hd hr h0) (fun a' b' h' => (not_arc_empty _ _ _ h').elim) u v huv

/-- C31, the number of passes, with any flags: at most `max_iter + 1` (one pass if `max_iter` is negative). -/
theorem C31_passes_partial (A : Type) (h : HashOrder ℕ) (a : HcArgs) (hfc : FindsCycles a.fc) (maxIter : ℤ) :
    ∃ bn tr, hc A h a maxIter = .ok (bn, tr) ∧ 1 ≤ tr.length ∧ tr.length ≤ maxIter.toNat + 1 := by
  obtain ⟨V, s, fin, bn, tr, h1, h2, h3, h4, h5, h6, h7, h8, -⟩ := hc_run A h a hfc maxIter
  exact ⟨bn, tr, h2, List.length_pos_iff.2 h7.ne_nil, h8⟩

/-- C31 is false with `debug`: reversals ignore the restriction.  Only 0 → 1 is allowed, the result is 1 → 0. -/
theorem C31_false : ∃ a : HcArgs, FindsCycles a.fc ∧ a.restriction = some [(0, 1)] ∧
    ∃ bn tr, hc Unit .id a 1 = .ok (bn, tr) ∧ Arc bn.E 1 0 := by
  refine ⟨exArgs true (some [(0, 1)]), findCycleRef_spec, rfl, ?_⟩
  have : (hc Unit .id (exArgs true (some [(0, 1)])) 1).map (fun r => r.1.E) = .ok [(0, []), (1, [0])] := by decide +kernel
  cases hr : hc Unit .id (exArgs true (some [(0, 1)])) 1 with
  | error e => rw [hr] at this; cases this
  | ok r =>
    rw [hr] at this
    have e : r.1.E = [(0, []), (1, [0])] := by simpa [Except.map] using this
    exact ⟨r.1, r.2, rfl, by rw [e]; exact ⟨[0], rfl, by simp⟩⟩

/-! ## C32 -/

/-- C32 (partial: reversals are performed only under `debug`): the run is a sequence of passes from the empty graph to the returned
one; in each pass the chosen move is a legal one with the largest positive score difference, nothing is chosen only if no legal
move has a positive one, and the structure changes by exactly the chosen move. -/
theorem C32_moves_made_partial (A : Type) (h : HashOrder ℕ) (a : HcArgs) (hfc : FindsCycles a.fc) (maxIter : ℤ) :
    ∃ V bn tr fin, hc A h a maxIter = .ok (bn, tr) ∧ V.Perm (List.range a.ncol) ∧ bn.E = fin.c ∧
      History (PassOk (a.env V) fun _ _ _ => false) a.init tr fin ∧ (∀ u v, ¬ Arc a.init.c u v) := by
  obtain ⟨V, s, fin, bn, tr, h1, h2, h3, h4, h5, h6, h7, h8, -⟩ := hc_run A h a hfc maxIter
  exact ⟨V, bn, tr, fin, h2, h1, h4, h7, not_arc_empty _⟩

/-- The state after the first pass of the example. -/
def exState : CP ℕ := ⟨[(0, [1]), (1, [])], [(0, []), (1, [0])]⟩

/-- C32 is false without `debug`: in the second pass of the example the best move is the reversal of 0 → 1, and nothing happens. -/
theorem C32_false : ∃ a : HcArgs, FindsCycles a.fc ∧ a.debug = false ∧ ∃ bn tr p d, hc Unit .id a 1 = .ok (bn, tr) ∧ p ∈ tr ∧
    p.move = some (d, .reversal, 0, 1) ∧ 0 < d ∧ Arc p.after.c 0 1 ∧ ¬ Arc p.after.c 1 0 := by
  refine ⟨exArgs false none, findCycleRef_spec, rfl, ?_⟩
  have : (hc Unit .id (exArgs false none) 1).map (fun r => r.2) =
      .ok [⟨(exArgs false none).init, some (6931/2500, .addition, 0, 1), exState⟩,
        ⟨exState, some (327/625, .reversal, 0, 1), exState⟩] := by decide +kernel
  cases hr : hc Unit .id (exArgs false none) 1 with
  | error e => rw [hr] at this; cases this
  | ok r =>
    rw [hr] at this
    simp only [Except.map, Except.ok.injEq] at this
    refine ⟨r.1, r.2, ⟨exState, some (327/625, .reversal, 0, 1), exState⟩, 327/625, rfl, by rw [this]; simp, rfl, by decide +kernel,
      ⟨[1], rfl, by simp⟩, ?_⟩
    rintro ⟨l, h1, h2⟩
    have : l = [] := by simpa [exState, Dict.get?] using h1.symm
    rw [this] at h2; cases h2

/-! ## C61 -/

/-- C61: without `debug`, as soon as a pass chooses a reversal the search is stuck: every later pass chooses the same reversal
again, all `max_iter + 1` passes are used, and the structure returned is the one that pass started from. -/
theorem C61_reversal_freezes (A : Type) (h : HashOrder ℕ) (a : HcArgs) (hfc : FindsCycles a.fc) (maxIter : ℤ)
    (hd : a.debug = false) : ∃ bn tr, hc A h a maxIter = .ok (bn, tr) ∧
      ∀ j p d u v, tr[j]? = some p → p.move = some (d, .reversal, u, v) →
        bn.E = p.before.c ∧ tr.length = maxIter.toNat + 1 ∧ ∀ j', j ≤ j' → j' ≤ maxIter.toNat → tr[j']? = some p := by
  obtain ⟨V, s, fin, bn, tr, h1, h2, h3, h4, h5, h6, h7, h8, -⟩ := hc_run A h a hfc maxIter
  refine ⟨bn, tr, h2, fun j p d u v hj hm => ?_⟩
  obtain ⟨-, e2, e3, e4⟩ := climb_freeze (env := a.env V) (names := List.range a.ncol) hfc (fun v hv => h1.mem_iff.1 hv) hd
    maxIter.toNat a.init (CInv.init List.nodup_range) h3 j p d u v hj hm
  exact ⟨by rw [h4, e2], e3, e4⟩

/-- Witness: see `C32_false`, whose second pass chooses a reversal; with `max_iter = 3` it is chosen three times. -/
example : (hc Unit .id (exArgs false none) 3).map (fun r => r.2.map fun p => p.move.map Prod.snd) =
    .ok [some (.addition, 0, 1), some (.reversal, 0, 1), some (.reversal, 0, 1), some (.reversal, 0, 1)] := by decide +kernel

/-! ## C62 -/

/-- C62: `hc` stops either because no legal move has a positive score difference any more (a local optimum of the code's score), or
because `max_iter + 1` passes were made. -/
theorem C62_local_optimum (A : Type) (h : HashOrder ℕ) (a : HcArgs) (hfc : FindsCycles a.fc) (maxIter : ℤ) :
    ∃ V bn tr fin, hc A h a maxIter = .ok (bn, tr) ∧ V.Perm (List.range a.ncol) ∧ bn.E = fin.c ∧
      (tr.length = maxIter.toNat + 1 ∨
        ∀ m u v d, Legal V a.restriction bn.E m u v → moveDelta (a.env V) (parentsIn fin v) m u v = some d → d ≤ 0) := by
  obtain ⟨bn0, h1, h2, i⟩ := init_run (A := A) h a
  obtain ⟨s, fin, tr, h3, h4, h5, h6, h7, h8⟩ := climb_ok (env := a.env bn0.V) (names := List.range a.ncol) hfc
    (fun v hv => h2.mem_iff.1 hv) maxIter.toNat a.init i
  obtain ⟨bn, h9, h10, h11, -⟩ := final_run (A := A) h h4
  refine ⟨bn0.V, bn, tr, fin, by simp only [hc, h1, h3, h9, Py.bind_ok, Py.pure_eq], h2, h11, ?_⟩
  cases s with
  | limit => exact Or.inl (h8 rfl)
  | noImprovement =>
    right
    have hlast : ∀ {st tr fin}, History (PassOk (a.env bn0.V) fun _ _ _ => false) st tr fin → (∃ p ∈ tr, p.move = none) →
        ∃ p, PassOk (a.env bn0.V) (fun _ _ _ => false) p ∧ p.move = none ∧ p.after = fin := by
      intro st tr fin hh
      induction hh with
      | last p hp => rintro ⟨q, hq, hm⟩; simp at hq; subst hq; exact ⟨q, hp, hm, rfl⟩
      | cons p hp hm _ ih =>
        rintro ⟨q, hq, hmq⟩
        rcases List.mem_cons.1 hq with rfl | hq
        · exact (hm hmq).elim
        · exact ih ⟨q, hq, hmq⟩
    obtain ⟨p, e1, e2, e3⟩ := hlast h5 (h7.1 rfl)
    have hbe : p.before = fin := by rw [← e3, e1.still e2]
    intro m u v d hl hdel
    have := e1.best m u v d (by rw [hbe, ← h11]; exact hl) rfl (by rw [hbe]; exact hdel)
    simpa [e2] using this

/-! ## C33 -/

theorem tabu_run (A : Type) (h : HashOrder ℕ) (a : HcArgs) (hfc : FindsCycles a.fc) (k maxIter : ℤ) (hk : 5 ≤ k) :
    ∃ V fin bn tr, V.Perm (List.range a.ncol) ∧ tabu A h a k maxIter = .ok (bn, tr) ∧ bn.E = fin.c ∧
      bn.V.Perm (List.range a.ncol) ∧ CInv (List.range a.ncol) fin ∧ History (TabuPassOk (a.env V)) a.init tr fin ∧
      tr.length ≤ maxIter.toNat + 1 ∧
      (∀ j p d m u v, tr[j]? = some p → p.move = some (d, m, u, v) → ∀ j' p' d', j' < j → tr[j']? = some p' →
        p'.move = some (d', undoOf m, u, v) → Performed a.debug (undoOf m) → j' + 5 < j) := by
  obtain ⟨bn0, h1, h2, i⟩ := init_run (A := A) h a
  obtain ⟨fin, tr, h3, h4, h5, h6, -, h8⟩ := tabuLoop_ok (env := a.env bn0.V) (names := List.range a.ncol) hfc
    (fun v hv => h2.mem_iff.1 hv) maxIter.toNat 0 (List.replicate k.toNat none) a.init i (by simp; omega)
  obtain ⟨bn, h9, h10, h11, -⟩ := final_run (A := A) h h4
  exact ⟨bn0.V, fin, bn, tr, h2, by simp only [tabu, h1, h3, h9, Py.bind_ok, Py.pure_eq], h11, h10, h4, h5, h6, h8⟩

/-- C33 (partial: `k ≥ 5`, window of five passes, additions and deletions only): `tabu` returns a DAG after at most `max_iter + 1`
passes; an arc added in one pass is not deleted, and an arc deleted in one pass is not re-added, in any of the next five passes. -/
theorem C33_no_undo_partial (A : Type) (h : HashOrder ℕ) (a : HcArgs) (hfc : FindsCycles a.fc) (k maxIter : ℤ) (hk : 5 ≤ k) :
    ∃ bn tr, tabu A h a k maxIter = .ok (bn, tr) ∧ NoCycle bn.E ∧ bn.V.Perm (List.range a.ncol) ∧
      tr.length ≤ maxIter.toNat + 1 ∧
      ∀ i j p q d d' u v, i < j → tr[i]? = some p → tr[j]? = some q →
        (p.move = some (d, .addition, u, v) → q.move = some (d', .deletion, u, v) → i + 5 < j) ∧
        (p.move = some (d, .deletion, u, v) → q.move = some (d', .addition, u, v) → i + 5 < j) := by
  obtain ⟨V, fin, bn, tr, h1, h2, h3, h4, h5, h6, h7, h8⟩ := tabu_run A h a hfc k maxIter hk
  refine ⟨bn, tr, h2, by rw [h3]; exact h5.acyclic, h4, h7, fun i j p q d d' u v hij hi hj => ⟨fun hp hq => ?_, fun hp hq => ?_⟩⟩
  · exact h8 j q d' .deletion u v hj hq i p d hij hi hp (Or.inl (by simp [undoOf]))
  · exact h8 j q d' .addition u v hj hq i p d hij hi hp (Or.inl (by simp [undoOf]))

/-- C33: without `debug` every arc of the result is in the restriction list. -/
theorem C33_restriction_partial (A : Type) (h : HashOrder ℕ) (a : HcArgs) (hfc : FindsCycles a.fc) (k maxIter : ℤ) (hk : 5 ≤ k)
    (hd : a.debug = false) : ∃ bn tr, tabu A h a k maxIter = .ok (bn, tr) ∧
      ∀ r, a.restriction = some r → ∀ u v, Arc bn.E u v → (u, v) ∈ r := by
  obtain ⟨V, fin, bn, tr, h1, h2, h3, h4, h5, h6, h7, h8⟩ := tabu_run A h a hfc k maxIter hk
  refine ⟨bn, tr, h2, fun r hr u v huv => ?_⟩
  rw [h3] at huv
  exact h6.restricted (fun p hp h0 => by obtain ⟨bl, hb⟩ := hp; exact hb.restricted hd hr h0)
    (fun a' b' h' => (not_arc_empty _ _ _ h').elim) u v huv

/-- Witness: the example with `k = 5`: the arc is added and kept. -/
example : (tabu Unit .id (exArgs false none) 5 0).map (fun r => (r.1.E, r.2.map fun p => p.move.map Prod.snd)) =
    .ok ([(0, [1]), (1, [])], [some (.addition, 0, 1)]) := by decide +kernel

/-- C33 is false: with `k = 0` the first move raises `IndexError`; with `k = 5` (and `debug`) a reversal is reversed back in the very
next pass. -/
theorem C33_false : FindsCycles (exArgs true none).fc ∧ tabu Unit .id (exArgs false none) 0 100 = .error .indexError ∧
    (tabu Unit .id (exArgs true none) 5 2).map (fun r => r.2.map fun p => p.move.map Prod.snd) =
      .ok [some (.addition, 0, 1), some (.reversal, 0, 1), some (.reversal, 1, 0)] :=
  ⟨findCycleRef_spec, Py.of_map_error (f := fun r => r.1.E) (by decide +kernel), by decide +kernel⟩

/-! ## C63 -/

/-- C63: the list length `k` does not set the tabu window.  Every `k ≥ 5` gives the same run, and a `k < 5` gives that run too,
except that `IndexError` is raised at the first performed move in a pass whose number (from 0) is `k` or more modulo 5. -/
theorem C63_tabu_window (A : Type) (h : HashOrder ℕ) (a : HcArgs) (hfc : FindsCycles a.fc) (maxIter : ℤ) :
    ∃ bn tr, (∀ k, 5 ≤ k → tabu A h a k maxIter = .ok (bn, tr)) ∧
      ∀ k, 0 ≤ k → k < 5 →
        ((∃ (j : ℕ) (p : Pass ℕ) (d : ℚ) (m : Move) (u v : ℕ), tr[j]? = some p ∧ p.move = some (d, m, u, v) ∧
            (m ≠ .reversal ∨ a.debug = true) ∧ k.toNat ≤ j % 5) → tabu A h a k maxIter = .error .indexError) ∧
        ((∀ (j : ℕ) (p : Pass ℕ) (d : ℚ) (m : Move) (u v : ℕ), tr[j]? = some p → p.move = some (d, m, u, v) →
            (m ≠ .reversal ∨ a.debug = true) → j % 5 < k.toNat) → tabu A h a k maxIter = .ok (bn, tr)) := by
  obtain ⟨bn0, h1, h2, i⟩ := init_run (A := A) h a
  have hV : ∀ v ∈ (a.env bn0.V).V, v ∈ List.range a.ncol := fun v hv => h2.mem_iff.1 hv
  obtain ⟨fin, tr, h3, h4, -⟩ := tabuLoop_ok (env := a.env bn0.V) (names := List.range a.ncol) hfc
    hV maxIter.toNat 0 (List.replicate 5 none) a.init i (by simp)
  obtain ⟨bn, h9, h10, h11, -⟩ := final_run (A := A) h h4
  refine ⟨bn, tr, fun k hk => ?_, fun k hk0 hk5 => ?_⟩
  · have e : List.replicate k.toNat (none : Option (ℕ × ℕ × Move)) = List.replicate 5 none ++ List.replicate (k.toNat - 5) none := by
      rw [List.replicate_append_replicate]; congr 1; omega
    have h3' : tabuLoop (a.env bn0.V) maxIter.toNat 0 (List.replicate k.toNat none) a.init = .ok (fin, tr) := by
      rw [e, tabuLoop_long _ _ _ _ _ (by simp), h3]
    simp only [tabu, h1, h3', h9, Py.bind_ok, Py.pure_eq]
  · obtain ⟨fin', tr', g1, g2⟩ := tabuLoop_short (env := a.env bn0.V) (names := List.range a.ncol) hfc hV k.toNat (by omega)
      maxIter.toNat 0 (List.replicate k.toNat none) a.init i (by simp)
    have e : List.replicate k.toNat (none : Option (ℕ × ℕ × Move)) ++ List.replicate (5 - k.toNat) none = List.replicate 5 none := by
      rw [List.replicate_append_replicate]; congr 1; omega
    rw [e, h3] at g1
    cases g1
    refine ⟨fun hex => ?_, fun hall => ?_⟩
    · rw [if_pos (by simpa only [zero_add, Performed, HcArgs.env] using hex)] at g2
      simp only [tabu, h1, g2, Py.bind_ok, Py.bind_error]
    · rw [if_neg (by
        rintro ⟨j, p, d, m, u, v, e1, e2, e3, e4⟩
        have := hall j p d m u v e1 e2 e3
        rw [zero_add] at e4
        omega)] at g2
      simp only [tabu, h1, g2, h9, Py.bind_ok, Py.pure_eq]

/-- Witness: `k = 1` survives a run whose only performed move is in pass 0, `k = 0` does not, `k = 7` is like `k = 5`. -/
example : (tabu Unit .id (exArgs false none) 1 2).map (fun r => r.1.E) = .ok [(0, [1]), (1, [])] ∧
    tabu Unit .id (exArgs false none) 0 2 = .error .indexError ∧
    (tabu Unit .id (exArgs false none) 7 2).map (fun r => r.1.E) = .ok [(0, [1]), (1, [])] :=
  ⟨by decide +kernel, Py.of_map_error (f := fun r => r.1.E) (by decide +kernel), by decide +kernel⟩

/-! ## C34 -/

/-- C34 (partial: it may run forever and random additions ignore the restriction): with at least two columns, for every sequence of
random draws, `hc_rr` either is still drawing when the sequence is used up, or returns a DAG over the columns after at most
`max_iter + 1 + R * max_iter` passes. -/
theorem C34_dag_if_returns_partial (A : Type) (h : HashOrder ℕ) (a : HcArgs) (hfc : FindsCycles a.fc) (M R maxIter : ℤ)
    (ops : List ℕ) (draws : List (ℕ × ℕ)) (h2 : 2 ≤ a.ncol) (hdr : ∀ uv ∈ draws, uv.1 < a.ncol ∧ uv.2 < a.ncol ∧ uv.1 ≠ uv.2) :
    hcRr A h a M R maxIter ops draws = .error .diverges ∨
      ∃ bn tr, hcRr A h a M R maxIter ops draws = .ok (bn, tr) ∧ NoCycle bn.E ∧ bn.V.Perm (List.range a.ncol) ∧
        tr.length ≤ maxIter.toNat + 1 + R.toNat * maxIter.toNat := by
  obtain ⟨bn0, h1, hp, i⟩ := init_run (A := A) h a
  have hlen : 2 ≤ (a.env bn0.V).V.length := by
    show 2 ≤ bn0.V.length
    rw [hp.length_eq]; simpa using h2
  rcases rrLoop_ok (env := a.env bn0.V) (names := List.range a.ncol) hfc (fun v hv => hp.mem_iff.1 hv) hlen maxIter.toNat M.toNat
    R.toNat maxIter.toNat a.init ops draws i (fun uv huv => by simpa using hdr uv huv) with e | ⟨fin, tr, e, i', -, hl⟩
  · left; simp only [hcRr, h1, e, Py.bind_ok, Py.bind_error]
  · obtain ⟨bn, h9, h10, h11, -⟩ := final_run (A := A) h i'
    exact Or.inr ⟨bn, tr, by simp only [hcRr, h1, e, h9, Py.bind_ok, Py.pure_eq], by rw [h11]; exact i'.acyclic, h10, hl⟩

/-- The call in which no move ever has a positive score (all scores equal): two columns, restriction `r`. -/
def flatArgs (r : Option (List (ℕ × ℕ))) : HcArgs := ⟨findCycleRef, fun _ => some 0, 1, 2, r, false⟩

/-- C34 is false.  (1) If the first random operation is a deletion or reversal while the graph has no arc, `hc_rr` never returns,
whatever is drawn.  (2) With an empty restriction list the result may contain an arc. -/
theorem C34_false :
    (∀ (op : ℕ) (ops : List ℕ) (draws : List (ℕ × ℕ)), op ≠ 0 → (∀ uv ∈ draws, uv.1 < 2 ∧ uv.2 < 2 ∧ uv.1 ≠ uv.2) →
      hcRr Unit .id (flatArgs none) 1 1 100 (op :: ops) draws = .error .diverges) ∧
    (hcRr Unit .id (flatArgs (some [])) 1 1 100 [0] [(0, 1)]).map (fun r => r.1.E) = .ok [(0, [1]), (1, [])] := by
  refine ⟨fun op ops draws h0 hd => ?_, by decide +kernel⟩
  have i : CInv (List.range 2) (flatArgs none).init := CInv.init List.nodup_range
  have hdiv := randomOp_deletion_diverges (env := (flatArgs none).env [0, 1]) i (not_arc_empty _) draws
    (fun uv huv => by simpa using hd uv huv) op h0
  have hs : (BayesNet.setStructure (A := Unit) .id (flatArgs none).init.c none).map (fun b => b.V) = .ok [0, 1] := by decide +kernel
  have hcl : climb ((flatArgs none).env [0, 1]) 100 (flatArgs none).init = .ok (.noImprovement, (flatArgs none).init,
      [⟨(flatArgs none).init, none, (flatArgs none).init⟩]) := by decide +kernel
  cases hb : BayesNet.setStructure (A := Unit) .id (flatArgs none).init.c none with
  | error e => rw [hb] at hs; cases hs
  | ok b =>
    rw [hb] at hs
    have hbV : b.V = [0, 1] := by simpa [Except.map] using hs
    simp only [hcRr, hb, Py.bind_ok, hbV]
    have : rrLoop ((flatArgs none).env [0, 1]) (100 : ℤ).toNat (1 : ℤ).toNat (1 : ℤ).toNat (100 : ℤ).toNat (flatArgs none).init
        (op :: ops) draws = .error .diverges := by
      show rrLoop ((flatArgs none).env [0, 1]) 100 1 (0 + 1) 100 (flatArgs none).init (op :: ops) draws = .error .diverges
      rw [rrLoop, hcl]
      simp only [Py.bind_ok]
      rw [if_neg (by simp), randomOps, if_neg (by simp [HcArgs.env]), hdiv]
      rfl
    rw [this]; rfl

/-- Witness for the partial theorem: a run with one restart that returns. -/
example : (hcRr Unit .id (flatArgs none) 1 1 100 [0] [(1, 0)]).map (fun r => r.1.E) = .ok [(0, []), (1, [0])] := by decide +kernel

/-! ## C64 -/

/-- C64: a call of `hc_rr` that makes no random move (`R ≤ 0`) behaves exactly like `hc`, whatever the draws. -/
theorem C64_no_restart_is_hc (A : Type) (h : HashOrder ℕ) (a : HcArgs) (M R maxIter : ℤ) (hR : R ≤ 0)
    (ops : List ℕ) (draws : List (ℕ × ℕ)) : hcRr A h a M R maxIter ops draws = hc A h a maxIter := by
  have : R.toNat = 0 := by omega
  simp only [hcRr, hc, this, rrLoop]
  cases BayesNet.setStructure (A := A) h a.init.c none with
  | error e => rfl
  | ok bn =>
    simp only [Py.bind_ok]
    cases climb (a.env bn.V) maxIter.toNat a.init with
    | error e => rfl
    | ok r => rfl

end PyBN
