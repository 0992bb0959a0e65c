import Verif.Model.Clique
import Verif.Proofs.FactorMore
import Verif.Spec.Inference
import Verif.Proofs.SumAll
import Mathlib.Tactic.Ring

/-!
# Operations on factor objects in the heap
-/

set_option linter.unusedSectionVars false
namespace PyBN
namespace Clq
variable {N A : Type _} [DecidableEq N] [DecidableEq A]
open Factor

/-- All references of `o` are allocated. -/
def Valid (H : Heap N) (o : FObj N) : Prop :=
  o.scope < H.scopes.length ∧ o.card < H.dicts.length ∧ o.stride < H.dicts.length ∧ o.card ≠ o.stride

/-- `o` and `p` share no list or dictionary. -/
def Disj (o p : FObj N) : Prop :=
  o.scope ≠ p.scope ∧ o.card ≠ p.card ∧ o.card ≠ p.stride ∧ o.stride ≠ p.card ∧ o.stride ≠ p.stride

theorem Disj.symm {o p : FObj N} (h : Disj o p) : Disj p o :=
  ⟨h.1.symm, h.2.1.symm, h.2.2.2.1.symm, h.2.2.1.symm, h.2.2.2.2.symm⟩

/-- `q` is not affected by going from `H` to `H'`. -/
def Same (H H' : Heap N) (q : FObj N) : Prop := Valid H' q ∧ H'.get q = H.get q

theorem Same.trans {H H' H'' : Heap N} {q : FObj N} (h1 : Same H H' q) (h2 : Same H' H'' q) : Same H H'' q :=
  ⟨h2.1, h2.2.trans h1.2⟩

theorem val_of_entry {f : Factor N} {a : Asg N} {x : ℚ} (h : f.entry a = some x) : f.val a = x := by
  unfold Factor.val; rw [h]; rfl

theorem mul_spec (h : HashOrder N) {c : N → ℕ} {H : Heap N} {o p : FObj N} (vo : Valid H o) (vp : Valid H p) (wo : (H.get o).WF c) (wp : (H.get p).WF c) :
    ∃ H' o', H.mul h o p = .ok (H', o') ∧ Valid H' o' ∧ (H'.get o').WF c ∧
      (∀ v, v ∈ (H'.get o').scope ↔ v ∈ (H.get o).scope ∨ v ∈ (H.get p).scope) ∧
      (∀ a, InRange c (H'.get o').scope a → (H'.get o').val a = (H.get o).val a * (H.get p).val a) ∧
      ∀ q, Valid H q → Disj q o → Disj q p → Same H H' q ∧ Disj q o' := by
  obtain ⟨f', g', h1, h2, -, h4, h5, -⟩ := mul_ok h wo wp
  set k := if (H.get o).scope.length ≥ (H.get p).scope.length then o.card else p.card with hk
  have hkl : k < H.dicts.length := by rw [hk]; split_ifs; exacts [vo.2.1, vp.2.1]
  let H' : Heap N := ⟨H.scopes ++ [f'.scope], H.dicts.set k f'.card ++ [f'.stride]⟩
  let o' : FObj N := ⟨f'.var, f'.cpt, H.scopes.length, k, H.dicts.length⟩
  have hget : H'.get o' = f' := by
    simp only [Heap.get, H', o']
    rw [List.getElem?_append_right le_rfl, List.getElem?_append_left (by rw [List.length_set]; exact hkl), List.getElem?_append_right (by rw [List.length_set])]
    simp [hkl]
  refine ⟨H', o', ?_, ?_, ?_, ?_, ?_, ?_⟩
  · unfold Heap.mul
    rw [h1, Py.bind_ok]; rfl
  · refine ⟨by simp [H', o'], by simp [H', o']; omega, by simp [H', o'], ?_⟩
    simp only [o']; omega
  · rw [hget]; exact h2
  · rw [hget]; exact h4
  · rw [hget]; exact fun a ha => val_of_entry (h5 a ha)
  · intro q vq d1 d2
    have hqk : q.card ≠ k ∧ q.stride ≠ k := by
      rw [hk]
      split_ifs
      · exact ⟨d1.2.1, d1.2.2.2.1⟩
      · exact ⟨d2.2.1, d2.2.2.2.1⟩
    refine ⟨⟨⟨by simp [H']; have := vq.1; omega, by simp [H']; have := vq.2.1; omega, by simp [H']; have := vq.2.2.1; omega, vq.2.2.2⟩, ?_⟩, ?_⟩
    · simp only [Heap.get, H']
      rw [List.getElem?_append_left vq.1, List.getElem?_append_left (by rw [List.length_set]; exact vq.2.1),
        List.getElem?_append_left (by rw [List.length_set]; exact vq.2.2.1), List.getElem?_set_ne hqk.1.symm, List.getElem?_set_ne hqk.2.symm]
    · exact ⟨(Nat.ne_of_lt vq.1), hqk.1, Nat.ne_of_lt vq.2.1, hqk.2, Nat.ne_of_lt vq.2.2.1⟩

theorem sumout_heap (h : HashOrder N) {H : Heap N} {o : FObj N} (vo : Valid H o) {rv : N} {f' : Factor N} (hs : Factor.sumout h (H.get o) rv = .ok f') :
    ∃ H' o', H.sumout h o rv = .ok (H', o') ∧ Valid H' o' ∧ H'.get o' = f' ∧ o'.scope = o.scope ∧ o'.card = o.card ∧ o'.stride = o.stride ∧
      (H'.scopes.length = H.scopes.length ∧ H'.dicts.length = H.dicts.length) ∧
      ∀ q, Valid H q → Disj q o → Same H H' q := by
  let H' : Heap N := ⟨H.scopes.set o.scope f'.scope, (H.dicts.set o.card f'.card).set o.stride f'.stride⟩
  let o' : FObj N := ⟨f'.var, f'.cpt, o.scope, o.card, o.stride⟩
  have hl1 : H'.scopes.length = H.scopes.length := List.length_set
  have hl2 : H'.dicts.length = H.dicts.length := by simp [H']
  refine ⟨H', o', ?_, ?_, ?_, rfl, rfl, rfl, ⟨hl1, hl2⟩, ?_⟩
  · unfold Heap.sumout
    rw [hs, Py.bind_ok]; rfl
  · exact ⟨by rw [hl1]; exact vo.1, by rw [hl2]; exact vo.2.1, by rw [hl2]; exact vo.2.2.1, vo.2.2.2⟩
  · simp only [Heap.get, H', o']
    rw [List.getElem?_set_self vo.1, List.getElem?_set_ne vo.2.2.2.symm, List.getElem?_set_self vo.2.1, List.getElem?_set_self (by rw [List.length_set]; exact vo.2.2.1)]
    rfl
  · intro q vq d
    refine ⟨⟨by rw [hl1]; exact vq.1, by rw [hl2]; exact vq.2.1, by rw [hl2]; exact vq.2.2.1, vq.2.2.2⟩, ?_⟩
    simp only [Heap.get, H']
    rw [List.getElem?_set_ne d.1.symm, List.getElem?_set_ne d.2.2.1.symm, List.getElem?_set_ne d.2.1.symm, List.getElem?_set_ne d.2.2.2.2.symm,
      List.getElem?_set_ne d.2.2.2.1.symm]

theorem sumoutAll_heap (h : HashOrder N) : ∀ (vs : List N) {H : Heap N} {o : FObj N}, Valid H o → ∀ {f' : Factor N}, Factor.sumoutList h (H.get o) vs = .ok f' →
    ∃ H' o', H.sumoutAll h o vs = .ok (H', o') ∧ Valid H' o' ∧ H'.get o' = f' ∧ o'.scope = o.scope ∧ o'.card = o.card ∧ o'.stride = o.stride ∧
      ∀ q, Valid H q → Disj q o → Same H H' q := by
  intro vs
  induction vs with
  | nil =>
    intro H o vo f' hs
    cases hs
    exact ⟨H, o, rfl, vo, rfl, rfl, rfl, rfl, fun q vq _ => ⟨vq, rfl⟩⟩
  | cons v vs ih =>
    intro H o vo f' hs
    unfold Factor.sumoutList at hs
    cases hv : Factor.sumout h (H.get o) v with
    | error e => rw [hv] at hs; cases hs
    | ok f1 =>
      rw [hv, Py.bind_ok] at hs
      obtain ⟨H1, o1, e1, v1, g1, c1, c2, c3, -, fr1⟩ := sumout_heap h vo hv
      rw [← g1] at hs
      obtain ⟨H2, o2, e2, v2, g2, d1, d2, d3, fr2⟩ := ih v1 hs
      refine ⟨H2, o2, ?_, v2, g2, d1.trans c1, d2.trans c2, d3.trans c3, ?_⟩
      · unfold Heap.sumoutAll
        rw [e1, Py.bind_ok]; exact e2
      · intro q vq d
        have s1 := fr1 q vq d
        refine s1.trans (fr2 q s1.1 ?_)
        unfold Disj
        rw [c1, c2, c3]; exact d

/-- Multiplying in a list of pairwise unrelated factors. -/
theorem mulAll_spec (h : HashOrder N) {c : N → ℕ} : ∀ (ms : List (FObj N)) {H : Heap N} {o : FObj N}, Valid H o → (H.get o).WF c →
    (∀ m ∈ ms, Valid H m ∧ (H.get m).WF c ∧ Disj m o) → ms.Pairwise Disj →
    ∃ H' o', H.mulAll h o ms = .ok (H', o') ∧ Valid H' o' ∧ (H'.get o').WF c ∧
      (∀ v, v ∈ (H'.get o').scope ↔ v ∈ (H.get o).scope ∨ ∃ m ∈ ms, v ∈ (H.get m).scope) ∧
      (∀ a, InRange c (H'.get o').scope a → (H'.get o').val a = (H.get o).val a * prodVal (ms.map H.get) a) ∧
      ∀ q, Valid H q → Disj q o → (∀ m ∈ ms, Disj q m) → Same H H' q ∧ Disj q o' := by
  intro ms
  induction ms with
  | nil =>
    intro H o vo wo _ _
    exact ⟨H, o, rfl, vo, wo, by simp, by simp [prodVal], fun q vq d _ => ⟨⟨vq, rfl⟩, d⟩⟩
  | cons m ms ih =>
    intro H o vo wo hms hpw
    rw [List.pairwise_cons] at hpw
    obtain ⟨vm, wm, dm⟩ := hms m (by simp)
    obtain ⟨H1, o1, e1, v1, w1, s1, x1, fr1⟩ := mul_spec h vo vm wo wm
    have hms1 : ∀ m' ∈ ms, Same H H1 m' ∧ Disj m' o1 := fun m' hm' =>
      fr1 m' (hms m' (by simp [hm'])).1 (hms m' (by simp [hm'])).2.2 (hpw.1 m' hm').symm
    obtain ⟨H2, o2, e2, v2, w2, s2, x2, fr2⟩ := ih v1 w1 (fun m' hm' => ⟨(hms1 m' hm').1.1, by
      rw [(hms1 m' hm').1.2]; exact (hms m' (by simp [hm'])).2.1, (hms1 m' hm').2⟩) hpw.2
    have hmap : ms.map H1.get = ms.map H.get := List.map_congr_left fun m' hm' => (hms1 m' hm').1.2
    have hsc : ∀ v, v ∈ (H2.get o2).scope ↔ v ∈ (H.get o).scope ∨ v ∈ (H.get m).scope ∨ ∃ m' ∈ ms, v ∈ (H.get m').scope := by
      intro v
      rw [s2, s1, or_assoc]
      refine or_congr Iff.rfl (or_congr Iff.rfl ?_)
      constructor
      · rintro ⟨m', hm', hv⟩; exact ⟨m', hm', by rwa [(hms1 m' hm').1.2] at hv⟩
      · rintro ⟨m', hm', hv⟩; exact ⟨m', hm', by rwa [(hms1 m' hm').1.2]⟩
    refine ⟨H2, o2, ?_, v2, w2, ?_, ?_, ?_⟩
    · unfold Heap.mulAll
      rw [e1, Py.bind_ok]; exact e2
    · intro v; rw [hsc]; simp
    · intro a ha
      rw [x2 a ha, x1 a fun v hv => ha v ((s2 v).2 (Or.inl hv)), hmap]
      simp only [prodVal, List.map_cons, List.prod_cons]
      ring
    · intro q vq d dms
      obtain ⟨a1, a2⟩ := fr1 q vq d (dms m (by simp))
      obtain ⟨b1, b2⟩ := fr2 q a1.1 a2 fun m' hm' => dms m' (by simp [hm'])
      exact ⟨a1.trans b1, b2⟩

/-- Belief and message of one `send_message`. -/
theorem beliefAndMessage_spec (h : HashOrder N) {c : N → ℕ} {H : Heap N} {o : FObj N} {ms : List (FObj N)} {sc rsc : List N} (vo : Valid H o) (wo : (H.get o).WF c)
    (hms : ∀ m ∈ ms, Valid H m ∧ (H.get m).WF c ∧ Disj m o) (hpw : ms.Pairwise Disj) (hsc : sc.Nodup)
    (hcov : ∀ v ∈ sc, v ∉ rsc → v ∈ (H.get o).scope ∨ ∃ m ∈ ms, v ∈ (H.get m).scope) :
    ∃ H' b m, beliefAndMessage h H o ms sc rsc = .ok (H', b, m) ∧ Valid H' m ∧ (H'.get m).WF c ∧ b.scope = m.scope ∧ b.card = m.card ∧ b.stride = m.stride ∧
      (∀ v, v ∈ (H'.get m).scope ↔ (v ∈ (H.get o).scope ∨ ∃ m ∈ ms, v ∈ (H.get m).scope) ∧ ¬ (v ∈ sc ∧ v ∉ rsc)) ∧
      (∀ a, InRange c (H'.get m).scope a →
        (H'.get m).val a = sumAll c (h.iter (sc.filter (· ∉ rsc))) (fun a => (H.get o).val a * prodVal (ms.map H.get) a) a) ∧
      (∃ fb : Factor N, fb.WF c ∧ fb.cpt = b.cpt ∧ (∀ v, v ∈ fb.scope ↔ v ∈ (H.get o).scope ∨ ∃ m ∈ ms, v ∈ (H.get m).scope) ∧
        ∀ a, InRange c fb.scope a → fb.entry a = some ((H.get o).val a * prodVal (ms.map H.get) a)) ∧
      ∀ q, Valid H q → Disj q o → (∀ m ∈ ms, Disj q m) → Same H H' q ∧ Disj q m := by
  obtain ⟨H1, b, e1, v1, w1, s1, x1, fr1⟩ := mulAll_spec h ms vo wo hms hpw
  set vs := h.iter (sc.filter (· ∉ rsc)) with hvs
  have hmem : ∀ v, v ∈ vs ↔ v ∈ sc ∧ v ∉ rsc := by
    intro v; rw [hvs, (h.perm _).mem_iff, List.mem_filter]; simp
  have hnd : vs.Nodup := (h.perm _).nodup_iff.2 (hsc.filter _)
  obtain ⟨f', hf1, hf2, hf3, hf4⟩ := sumoutList_ok h vs w1 hnd (fun v hv => (s1 v).2 (hcov v ((hmem v).1 hv).1 ((hmem v).1 hv).2))
  obtain ⟨H2, m, e2, v2, g2, d1, d2, d3, fr2⟩ := sumoutAll_heap h vs v1 hf1
  refine ⟨H2, b, m, ?_, v2, by rw [g2]; exact hf2, d1.symm, d2.symm, d3.symm, ?_, ?_, ⟨H1.get b, w1, rfl, s1, ?_⟩, ?_⟩
  · unfold beliefAndMessage
    rw [e1, Py.bind_ok]; simp only []
    rw [← hvs, e2, Py.bind_ok]; rfl
  · intro v
    rw [g2, hf3, s1, hmem]
  · intro a ha
    rw [g2] at ha ⊢
    rw [val_of_entry (hf4 a ha)]
    refine sumAll_congr (fun b' hb1 hb2 => ?_) hnd
    refine x1 b' fun v hv => ?_
    by_cases hvv : v ∈ vs
    · exact hb2 v hvv
    · rw [hb1 v hvv]
      exact ha v ((hf3 v).2 ⟨hv, hvv⟩)
  · intro a ha
    rw [w1.entry_eq ha, x1 a ha]
  · intro q vq d dms
    obtain ⟨a1, a2⟩ := fr1 q vq d dms
    refine ⟨a1.trans (fr2 q a1.1 a2), ?_⟩
    unfold Disj
    rw [d1, d2, d3]; exact a2

end Clq
end PyBN
