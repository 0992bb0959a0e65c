import Verif.Proofs.CliqueHeap
import Verif.Spec.Clique

/-!
# Sending one message
-/

set_option linter.unusedSectionVars false
namespace PyBN
namespace Clq
variable {N A : Type _} [DecidableEq N] [DecidableEq A]
open Factor

theorem sendMessage_spec (h : HashOrder N) {c : N → ℕ} {t : Tree N} {i j : ℕ} (hij : i ≠ j) {ci cj : Clique N} (hci : Dict.get? t.C i = some ci) (hcj : Dict.get? t.C j = some cj)
    {b : FObj N} (hb : ci.belief = some b) (vb : Valid t.heap b) (wb : (t.heap.get b).WF c)
    (hms : ∀ m ∈ ci.msgs, Valid t.heap m ∧ (t.heap.get m).WF c ∧ Disj m b) (hpw : ci.msgs.Pairwise Disj) (hsc : ci.scope.Nodup)
    (hcov : ∀ v ∈ ci.scope, v ∉ cj.scope → v ∈ (t.heap.get b).scope ∨ ∃ m ∈ ci.msgs, v ∈ (t.heap.get m).scope) :
    ∃ t' b' m, sendMessage h t i j = .ok t' ∧ t'.V = t.V ∧ t'.E = t.E ∧
      (∀ k, Dict.get? t'.C k = if k = j then some { cj with msgs := cj.msgs ++ [m] } else if k = i then some { ci with belief := some b' } else Dict.get? t.C k) ∧
      Valid t'.heap m ∧ (t'.heap.get m).WF c ∧ b'.scope = m.scope ∧ b'.card = m.card ∧ b'.stride = m.stride ∧
      (∀ v, v ∈ (t'.heap.get m).scope ↔ (v ∈ (t.heap.get b).scope ∨ ∃ m ∈ ci.msgs, v ∈ (t.heap.get m).scope) ∧ ¬ (v ∈ ci.scope ∧ v ∉ cj.scope)) ∧
      (∀ a, InRange c (t'.heap.get m).scope a →
        (t'.heap.get m).val a = sumAll c (h.iter (ci.scope.filter (· ∉ cj.scope))) (fun a => (t.heap.get b).val a * prodVal (ci.msgs.map t.heap.get) a) a) ∧
      (∃ fb : Factor N, fb.WF c ∧ fb.cpt = b'.cpt ∧ (∀ v, v ∈ fb.scope ↔ v ∈ (t.heap.get b).scope ∨ ∃ m ∈ ci.msgs, v ∈ (t.heap.get m).scope) ∧
        ∀ a, InRange c fb.scope a → fb.entry a = some ((t.heap.get b).val a * prodVal (ci.msgs.map t.heap.get) a)) ∧
      ∀ q, Valid t.heap q → Disj q b → (∀ m ∈ ci.msgs, Disj q m) → Same t.heap t'.heap q ∧ Disj q m := by
  obtain ⟨H', b', m, e1, e2, e3, e4, e5, e6, e7, e8, e9, e10⟩ := beliefAndMessage_spec h vb wb hms hpw hsc hcov (rsc := cj.scope)
  have hj1 : Dict.get? (t.C.set i { ci with belief := some b' }) j = some cj := by rw [Dict.get?_set_ne _ _ hij]; exact hcj
  refine ⟨{ t with heap := H', C := (t.C.set i { ci with belief := some b' }).set j { cj with msgs := cj.msgs ++ [m] } }, b', m, ?_, rfl, rfl, ?_, e2, e3, e4, e5, e6, e7, e8, e9, e10⟩
  · unfold sendMessage
    rw [Dict.get_of_get? hci, Py.bind_ok, Dict.get_of_get? hcj, Py.bind_ok, hb]
    show (beliefAndMessage h t.heap b ci.msgs ci.scope cj.scope >>= _) = _
    rw [e1, Py.bind_ok]
    simp only []
    rw [Dict.get_of_get? hj1, Py.bind_ok]; rfl
  · intro k
    simp only []
    by_cases hkj : k = j
    · rw [hkj, Dict.get?_set_self, if_pos rfl]
    · rw [if_neg hkj, Dict.get?_set_ne _ _ (Ne.symm hkj)]
      by_cases hki : k = i
      · rw [hki, Dict.get?_set_self, if_pos rfl]
      · rw [if_neg hki, Dict.get?_set_ne _ _ (Ne.symm hki)]

/-- Summing out a variable that is not there. -/
theorem sumoutAll_missing (h : HashOrder N) {c : N → ℕ} : ∀ (vs : List N) {H : Heap N} {o : FObj N}, Valid H o → (H.get o).WF c → vs.Nodup → (∃ v ∈ vs, v ∉ (H.get o).scope) →
    H.sumoutAll h o vs = .error .keyError := by
  intro vs
  induction vs with
  | nil => intro H o _ _ _ hex; simp at hex
  | cons v vs ih =>
    intro H o vo wo hnd hex
    rw [List.nodup_cons] at hnd
    unfold Heap.sumoutAll
    by_cases hv : v ∈ (H.get o).scope
    · obtain ⟨f', f1, f2, f3, -⟩ := Factor.sumout_ok h wo hv
      obtain ⟨H1, o1, e1, v1, g1, -⟩ := sumout_heap h vo f1
      rw [e1, Py.bind_ok]
      refine ih v1 (by rw [g1]; exact f2) hnd.2 ?_
      obtain ⟨u, hu, hus⟩ := hex
      rcases List.mem_cons.1 hu with rfl | hu
      · exact absurd hv hus
      · exact ⟨u, hu, by rw [g1, f3]; exact fun h => hus (List.mem_of_mem_erase h)⟩
    · have : Factor.sumout h (H.get o) v = .error .keyError := by
        unfold Factor.sumout
        rw [Dict.get_of_none (by rw [wo.card_eq, if_neg hv])]; rfl
      unfold Heap.sumout
      rw [this]; rfl

theorem sumoutAll_nocard (h : HashOrder N) {v : N} {vs : List N} {H : Heap N} {o : FObj N} (hc : Dict.get? (H.get o).card v = none) :
    H.sumoutAll h o (v :: vs) = .error .keyError := by
  have : Factor.sumout h (H.get o) v = .error .keyError := by
    unfold Factor.sumout
    rw [Dict.get_of_none hc]; rfl
  unfold Heap.sumoutAll Heap.sumout
  rw [this]; rfl

end Clq
end PyBN
