import Verif.Proofs.CliqueSend

/-!
# The upward pass
-/

set_option linter.unusedSectionVars false
namespace PyBN
namespace Clq
variable {N A : Type _} [DecidableEq N] [DecidableEq A]
open Factor

theorem sumoutList_nil (h : HashOrder N) (f : Factor N) : Factor.sumoutList h f [] = .ok f := rfl

/-- What is shared with a clique that has not sent yet is in the scope of the parent. -/
theorem Upward.sep {n r : ℕ} {par : ℕ → ℕ} {sched : List ℕ} (u : Upward n r par sched) {C : ℕ → Finset N}
    (hrip : RunningIntersection C (· < n) (fun a b => a ∈ sched ∧ par a = b)) {l1 l2 : List ℕ} {i k : ℕ} (hs : sched = l1 ++ i :: l2) (hk : k < n) (hk1 : k ∉ l1)
    (hki : k ≠ i) : C i ∩ C k ⊆ C (par i) := by
  have hnd : (r :: sched).Nodup := u.perm.nodup_iff.2 List.nodup_range
  have hi : i ∈ sched := by rw [hs]; simp
  have hin : i < n := List.mem_range.1 (u.perm.mem_iff.1 (List.mem_cons_of_mem _ hi))
  -- descendants
  let D : ℕ → Prop := Relation.ReflTransGen (fun a b => b ∈ sched ∧ par b = a) i
  have hD : ∀ x, D x → x = i ∨ x ∈ l1 := by
    intro x hx
    induction hx with
    | refl => exact Or.inl rfl
    | @tail a b _ hab ih =>
      right
      rcases ih with rfl | ha
      · exact u.children_first l1 a l2 hs b hab.1 hab.2
      · obtain ⟨m1, m2, hm⟩ := List.append_of_mem ha
        have := u.children_first m1 a (m2 ++ i :: l2) (by rw [hs, hm]; simp) b hab.1 hab.2
        rw [hm]; exact List.mem_append_left _ this
  have hkD : ¬ D k := fun h => (hD k h).elim hki hk1
  have hwalk := hrip i k hin hk
  have hmain : ∀ x, Relation.ReflTransGen (fun a b => ((a ∈ sched ∧ par a = b) ∨ (b ∈ sched ∧ par b = a)) ∧ a < n ∧ b < n ∧ C i ∩ C k ⊆ C a ∧ C i ∩ C k ⊆ C b) i x →
      D x ∨ C i ∩ C k ⊆ C (par i) := by
    intro x hx
    induction hx with
    | refl => exact Or.inl .refl
    | @tail a b _ hab ih =>
      rcases ih with ha | ha
      · obtain ⟨h1 | h1, -, -, -, h5⟩ := hab
        · by_cases hai : a = i
          · right; rw [← h1.2, hai] at h5; exact h5
          · left
            -- `a ≠ i` is below `i`, so is its parent
            rcases Relation.ReflTransGen.cases_tail ha with h | ⟨a', h2, h3⟩
            · exact absurd h hai
            · rw [← h1.2, h3.2]; exact h2
        · left; exact Relation.ReflTransGen.tail ha h1
      · exact Or.inr ha
  rcases hmain k hwalk with h | h
  · exact absurd h hkD
  · exact h

/-- The state during the upward pass: `alive` are the cliques that have not sent, `el` the variables summed out so far. -/
structure Inv (c : N → ℕ) (n : ℕ) (S : ℕ → List N) (P : ℕ → Factor N) (psi : ℕ → FObj N) (t : Tree N) (alive : List ℕ) (ms : ℕ → List (FObj N)) (el : List N) : Prop where
  clique : ∀ k ∈ alive, ∃ ck, Dict.get? t.C k = some ck ∧ ck.scope = S k ∧ ck.psi = some (psi k) ∧ ck.belief = some (psi k) ∧ ck.msgs = ms k
  good : ∀ k ∈ alive, ∀ o ∈ psi k :: ms k, Valid t.heap o ∧ (t.heap.get o).WF c ∧ ∀ v ∈ (t.heap.get o).scope, v ∈ S k
  within : ∀ k ∈ alive, (psi k :: ms k).Pairwise Disj
  across : ∀ k ∈ alive, ∀ k' ∈ alive, k ≠ k' → ∀ o ∈ psi k :: ms k, ∀ o' ∈ psi k' :: ms k', Disj o o'
  el_nodup : el.Nodup
  el_gone : ∀ x ∈ el, ∀ k ∈ alive, x ∉ S k
  el_sub : ∀ x ∈ el, ∃ k < n, x ∈ S k
  cover : ∀ k < n, ∀ x ∈ (P k).scope, x ∈ el ∨ ∃ k' ∈ alive, ∃ o ∈ psi k' :: ms k', x ∈ (t.heap.get o).scope
  value : ∀ a, (∀ k < n, ∀ v ∈ S k, a v < c v) →
    sumAll c el (fun a => ((List.range n).map fun k => (P k).val a).prod) a = (alive.map fun k => (t.heap.get (psi k)).val a * prodVal ((ms k).map t.heap.get) a).prod

theorem prod_map_update {α : Type _} [DecidableEq α] (g : α → ℚ) (j : α) (z : ℚ) : ∀ l : List α, l.Nodup → j ∈ l →
    (l.map fun k => if k = j then g k * z else g k).prod = (l.map g).prod * z := by
  intro l
  induction l with
  | nil => simp
  | cons x l ih =>
    intro hnd hj
    rw [List.nodup_cons] at hnd
    rw [List.map_cons, List.map_cons, List.prod_cons, List.prod_cons]
    by_cases hx : x = j
    · subst hx
      rw [if_pos rfl, List.map_congr_left (g := g) fun k hk => if_neg (by rintro rfl; exact hnd.1 hk)]
      ring
    · rw [if_neg hx, ih hnd.2 (by simpa [Ne.symm hx] using hj)]
      ring

theorem Inv.step (h : HashOrder N) {c : N → ℕ} {n : ℕ} {S : ℕ → List N} {P : ℕ → Factor N} {psi : ℕ → FObj N} {t : Tree N} {alive rest : List ℕ} {ms : ℕ → List (FObj N)}
    {el : List N} (I : Inv c n S P psi t alive ms el) {i j : ℕ} (hal : alive.Perm (i :: rest)) (hnd : alive.Nodup) (hlt : ∀ k ∈ alive, k < n) (hj : j ∈ rest)
    (hS : ∀ k < n, (S k).Nodup)
    (hsep : ∀ k ∈ rest, ∀ x ∈ S i, x ∈ S k → x ∈ S j) (hcov : ∀ x ∈ S i, x ∉ S j → ∃ k < n, x ∈ (P k).scope) :
    ∃ t' m, sendMessage h t i j = .ok t' ∧ t'.V = t.V ∧ t'.E = t.E ∧ Inv c n S P psi t' rest (fun k => if k = j then ms j ++ [m] else ms k) (h.iter ((S i).filter (· ∉ S j)) ++ el) := by
  have hndr : (i :: rest).Nodup := hal.nodup_iff.1 hnd
  rw [List.nodup_cons] at hndr
  have hi : i ∈ alive := hal.mem_iff.2 (by simp)
  have hr : ∀ k ∈ rest, k ∈ alive := fun k hk => hal.mem_iff.2 (by simp [hk])
  have hir : ∀ k ∈ rest, k ≠ i := fun k hk he => hndr.1 (he ▸ hk)
  have hij : i ≠ j := (hir j hj).symm
  obtain ⟨ci, i1, i2, i3, i4, i5⟩ := I.clique i hi
  obtain ⟨cj, j1, j2, j3, j4, j5⟩ := I.clique j (hr j hj)
  have gpsi := I.good i hi (psi i) (by simp)
  have wi := I.within i hi
  rw [List.pairwise_cons] at wi
  -- variables to be summed out are covered by the objects of `i`
  have hcover : ∀ v ∈ S i, v ∉ S j → v ∈ (t.heap.get (psi i)).scope ∨ ∃ m ∈ ms i, v ∈ (t.heap.get m).scope := by
    intro v hv hvj
    obtain ⟨k, hk, hvk⟩ := hcov v hv hvj
    rcases I.cover k hk v hvk with hel | ⟨k', hk', o, ho, hvo⟩
    · exact absurd hv (I.el_gone v hel i hi)
    · by_cases hki : k' = i
      · subst hki
        rcases List.mem_cons.1 ho with rfl | ho
        · exact Or.inl hvo
        · exact Or.inr ⟨o, ho, hvo⟩
      · have hk'r : k' ∈ rest := by
          have := hal.mem_iff.1 hk'
          simpa [hki] using this
        exact absurd (hsep k' hk'r v hv ((I.good k' hk' o ho).2.2 v hvo)) hvj
  obtain ⟨t', b', m, s1, sV, sE, s2, s3, s4, -, -, -, s8, s9, -, s11⟩ := sendMessage_spec h hij i1 j1 i4 gpsi.1 gpsi.2.1 (by
    intro m hm
    rw [i5] at hm
    obtain ⟨a1, a2, -⟩ := I.good i hi m (by simp [hm])
    exact ⟨a1, a2, (wi.1 m hm).symm⟩) (by rw [i5]; exact wi.2) (by rw [i2]; exact hS i (hlt i hi)) (by rw [i2, j2, i5]; exact hcover)
  rw [i2, j2] at s8 s9
  rw [i5] at s8 s9 s11
  set vs := h.iter ((S i).filter (· ∉ S j)) with hvs
  have hvmem : ∀ v, v ∈ vs ↔ v ∈ S i ∧ v ∉ S j := by
    intro v; rw [hvs, (h.perm _).mem_iff, List.mem_filter]; simp
  have hvnd : vs.Nodup := (h.perm _).nodup_iff.2 ((hS i (hlt i hi)).filter _)
  -- the other objects are not touched
  have hsame : ∀ k ∈ rest, ∀ o ∈ psi k :: ms k, Same t.heap t'.heap o ∧ Disj o m := by
    intro k hk o ho
    refine s11 o (I.good k (hr k hk) o ho).1 (I.across k (hr k hk) i hi (hir k hk) o ho _ (by simp)) fun m' hm' =>
      I.across k (hr k hk) i hi (hir k hk) o ho _ (by simp [hm'])
  have hms' : ∀ k ∈ rest, ∀ o, o ∈ psi k :: (if k = j then ms j ++ [m] else ms k) → o ∈ psi k :: ms k ∨ (k = j ∧ o = m) := by
    intro k _ o ho
    by_cases hkj : k = j
    · rw [if_pos hkj] at ho
      subst hkj
      rcases List.mem_cons.1 ho with rfl | ho
      · simp
      · rcases List.mem_append.1 ho with ho | ho
        · left; simp [ho]
        · right; exact ⟨rfl, List.mem_singleton.1 ho⟩
    · rw [if_neg hkj] at ho; exact Or.inl ho
  have hmsub : ∀ v ∈ (t'.heap.get m).scope, v ∈ S i ∧ v ∈ S j := by
    intro v hv
    obtain ⟨q1, q2⟩ := (s8 v).1 hv
    have hvi : v ∈ S i := by
      rcases q1 with q1 | ⟨m', hm', q1⟩
      · exact gpsi.2.2 v q1
      · exact (I.good i hi m' (by simp [hm'])).2.2 v q1
    refine ⟨hvi, ?_⟩
    by_contra hc
    exact q2 ⟨hvi, hc⟩
  refine ⟨t', m, s1, sV, sE, ?_⟩
  constructor
  · intro k hk
    obtain ⟨ck, c1, c2, c3, c4, c5⟩ := I.clique k (hr k hk)
    by_cases hkj : k = j
    · subst hkj
      refine ⟨{ cj with msgs := cj.msgs ++ [m] }, by rw [s2, if_pos rfl], j2, j3, j4, ?_⟩
      simp only [if_true]; rw [j5]
    · refine ⟨ck, by rw [s2, if_neg hkj, if_neg (hir k hk)]; exact c1, c2, c3, c4, ?_⟩
      rw [if_neg hkj]; exact c5
  · intro k hk o ho
    rcases hms' k hk o ho with ho | ⟨rfl, rfl⟩
    · obtain ⟨a1, a2, a3⟩ := I.good k (hr k hk) o ho
      obtain ⟨b1, -⟩ := hsame k hk o ho
      exact ⟨b1.1, by rw [b1.2]; exact a2, by rw [b1.2]; exact a3⟩
    · exact ⟨s3, s4, fun v hv => (hmsub v hv).2⟩
  · intro k hk
    have wk := I.within k (hr k hk)
    by_cases hkj : k = j
    · subst hkj
      rw [if_pos rfl, ← List.cons_append, List.pairwise_append]
      exact ⟨wk, List.pairwise_singleton _ _, fun o ho o' ho' => by rw [List.mem_singleton.1 ho']; exact (hsame k hk o ho).2⟩
    · rw [if_neg hkj]; exact wk
  · intro k hk k' hk' hne o ho o' ho'
    rcases hms' k hk o ho with hA | ⟨hA, hB⟩
    · rcases hms' k' hk' o' ho' with hA' | ⟨hA', hB'⟩
      · exact I.across k (hr k hk) k' (hr k' hk') hne o hA o' hA'
      · rw [hB']; exact (hsame k hk o hA).2
    · rcases hms' k' hk' o' ho' with hA' | ⟨hA', hB'⟩
      · rw [hB]; exact (hsame k' hk' o' hA').2.symm
      · exact absurd (hA.trans hA'.symm) hne
  · rw [List.nodup_append]
    refine ⟨hvnd, I.el_nodup, fun x hx y hy hxy => ?_⟩
    subst hxy
    exact I.el_gone x hy i hi ((hvmem x).1 hx).1
  · intro x hx k hk hxk
    rcases List.mem_append.1 hx with hx | hx
    · exact ((hvmem x).1 hx).2 (hsep k hk x ((hvmem x).1 hx).1 hxk)
    · exact I.el_gone x hx k (hr k hk) hxk
  · intro x hx
    rcases List.mem_append.1 hx with hx | hx
    · exact ⟨i, hlt i hi, ((hvmem x).1 hx).1⟩
    · exact I.el_sub x hx
  · intro k hk x hx
    rcases I.cover k hk x hx with hel | ⟨k', hk', o, ho, hxo⟩
    · exact Or.inl (List.mem_append_right _ hel)
    · by_cases hki : k' = i
      · subst hki
        by_cases hxv : x ∈ vs
        · exact Or.inl (List.mem_append_left _ hxv)
        · right
          refine ⟨j, hj, m, by simp, (s8 x).2 ⟨?_, fun hc => hxv ((hvmem x).2 hc)⟩⟩
          rcases List.mem_cons.1 ho with rfl | ho
          · exact Or.inl hxo
          · exact Or.inr ⟨o, ho, hxo⟩
      · have hk'r : k' ∈ rest := by
          have := hal.mem_iff.1 hk'
          simpa [hki] using this
        right
        refine ⟨k', hk'r, o, ?_, by rw [(hsame k' hk'r o ho).1.2]; exact hxo⟩
        by_cases hkj : k' = j
        · subst hkj
          rw [if_pos rfl]
          rcases List.mem_cons.1 ho with rfl | ho
          · simp
          · simp [ho]
        · rw [if_neg hkj]; exact ho
  · intro a ha
    rw [sumAll_append]
    have hb : ∀ b, (∀ u, u ∉ vs → b u = a u) → InRange c vs b → ∀ k < n, ∀ v ∈ S k, b v < c v := by
      intro b hb1 hb2 k hk v hv
      by_cases hvv : v ∈ vs
      · exact hb2 v hvv
      · rw [hb1 v hvv]; exact ha k hk v hv
    rw [sumAll_congr (G := fun b => (rest.map fun k => (t.heap.get (psi k)).val b * prodVal ((ms k).map t.heap.get) b).prod *
      ((t.heap.get (psi i)).val b * prodVal ((ms i).map t.heap.get) b)) (fun b hb1 hb2 => by
        rw [I.value b (hb b hb1 hb2), (hal.map _).prod_eq, List.map_cons, List.prod_cons, mul_comm]) hvnd]
    have hcongr : ∀ k ∈ rest, ∀ o ∈ psi k :: ms k, ∀ x y : Asg N, (∀ u, u ∉ vs → x u = y u) → (t.heap.get o).val x = (t.heap.get o).val y := by
      intro k hk o ho x y hxy
      refine Factor.val_congr fun v hv => hxy v fun hvv => ?_
      exact ((hvmem v).1 hvv).2 (hsep k hk v ((hvmem v).1 hvv).1 ((I.good k (hr k hk) o ho).2.2 v hv))
    rw [sumAll_mul_left (G := fun b => (rest.map fun k => (t.heap.get (psi k)).val b * prodVal ((ms k).map t.heap.get) b).prod) ?_ _ a]
    · have hm : sumAll c vs (fun b => (t.heap.get (psi i)).val b * prodVal ((ms i).map t.heap.get) b) a = (t'.heap.get m).val a :=
        (s9 a fun v hv => ha i (hlt i hi) v (hmsub v hv).1).symm
      rw [hm, ← prod_map_update (fun k => (t.heap.get (psi k)).val a * prodVal ((ms k).map t.heap.get) a) j _ rest hndr.2 hj]
      refine congrArg List.prod (List.map_congr_left fun k hk => ?_)
      have e1 : t'.heap.get (psi k) = t.heap.get (psi k) := (hsame k hk (psi k) (by simp)).1.2
      have e2 : ∀ o ∈ ms k, t'.heap.get o = t.heap.get o := fun o ho => (hsame k hk o (by simp [ho])).1.2
      by_cases hkj : k = j
      · subst hkj
        rw [if_pos rfl, if_pos rfl, e1, List.map_append, List.map_congr_left e2]
        simp only [prodVal, List.map_append, List.prod_append, List.map_cons, List.map_nil, List.prod_singleton]
        ring
      · rw [if_neg hkj, if_neg hkj, e1, List.map_congr_left e2]
    · intro x y hxy
      refine congrArg List.prod (List.map_congr_left fun k hk => ?_)
      rw [hcongr k hk (psi k) (by simp) x y hxy]
      congr 1
      unfold prodVal
      rw [List.map_map, List.map_map]
      refine congrArg List.prod (List.map_congr_left fun o ho => ?_)
      exact hcongr k hk o (by simp [ho]) x y hxy

/-- All sends of an upward pass, starting in a state with cliques in `l1` already done. -/
theorem sends_inv (h : HashOrder N) {c : N → ℕ} {n r : ℕ} {S : ℕ → List N} {P : ℕ → Factor N} {psi : ℕ → FObj N} {par : ℕ → ℕ} {sched : List ℕ} (u : Upward n r par sched)
    (hrip : RunningIntersection (fun k => (S k).toFinset) (· < n) (fun a b => a ∈ sched ∧ par a = b)) (hS : ∀ k < n, (S k).Nodup)
    (hcov : ∀ i ∈ sched, ∀ x ∈ S i, x ∉ S (par i) → ∃ k < n, x ∈ (P k).scope) :
    ∀ (l2 l1 : List ℕ) (t : Tree N) (ms : ℕ → List (FObj N)) (el : List N), sched = l1 ++ l2 → Inv c n S P psi t (r :: l2) ms el →
      ∃ t' ms' el', sendAll h t (l2.map fun i => (i, par i)) = .ok t' ∧ t'.V = t.V ∧ t'.E = t.E ∧ Inv c n S P psi t' [r] ms' el' ∧
        (∀ x, x ∈ el' ↔ x ∈ el ∨ ∃ i ∈ l2, x ∈ S i ∧ x ∉ S (par i)) := by
  intro l2
  have hnd : (r :: sched).Nodup := u.perm.nodup_iff.2 List.nodup_range
  have hlt : ∀ k ∈ r :: sched, k < n := fun k hk => List.mem_range.1 (u.perm.mem_iff.1 hk)
  induction l2 with
  | nil =>
    intro l1 t ms el _ I
    exact ⟨t, ms, el, rfl, rfl, rfl, I, by simp⟩
  | cons i l2 ih =>
    intro l1 t ms el hs I
    have hsub : ∀ k ∈ r :: i :: l2, k ∈ r :: sched := by
      intro k hk
      rw [hs]; simp at hk ⊢; tauto
    have hal : (r :: i :: l2).Nodup := by
      rw [hs, List.nodup_cons, List.nodup_append] at hnd
      rw [List.nodup_cons]
      exact ⟨fun h => hnd.1 (List.mem_append_right _ h), hnd.2.2.1⟩
    have hi : i ∈ sched := by rw [hs]; simp
    have hirest : ∀ k ∈ r :: l2, k ≠ i ∧ k ∉ l1 := by
      intro k hk
      constructor
      · rintro rfl
        rw [List.nodup_cons, List.nodup_cons] at hal
        rcases List.mem_cons.1 hk with rfl | hk
        · exact hal.1 (by simp)
        · exact hal.2.1 hk
      · intro hk1
        rw [hs, List.nodup_cons, List.nodup_append] at hnd
        rcases List.mem_cons.1 hk with rfl | hk
        · exact hnd.1 (List.mem_append_left _ hk1)
        · exact hnd.2.2.2 k hk1 k (by simp [hk]) rfl
    -- the parent has not sent yet
    have hpar : par i ∈ r :: l2 := by
      have hp : par i ∈ r :: sched := u.perm.mem_iff.2 (List.mem_range.2 (u.par_lt i hi))
      rcases List.mem_cons.1 hp with hp | hp
      · rw [hp]; simp
      · rw [hs, List.mem_append, List.mem_cons] at hp
        rcases hp with hp | hp | hp
        · exfalso
          obtain ⟨m1, m2, hm⟩ := List.append_of_mem hp
          have := u.children_first m1 (par i) (m2 ++ i :: l2) (by rw [hs, hm]; simp) i hi rfl
          rw [hs, hm, List.nodup_cons, List.nodup_append] at hnd
          exact hnd.2.2.2 i (List.mem_append_left _ this) i (by simp) rfl
        · exfalso
          have := u.children_first l1 i l2 hs i hi hp
          rw [hs, List.nodup_cons, List.nodup_append] at hnd
          exact hnd.2.2.2 i this i (by simp) rfl
        · exact List.mem_cons_of_mem _ hp
    obtain ⟨t1, m, e1, eV, eE, I1⟩ := I.step h (rest := r :: l2) (i := i) (j := par i) (List.Perm.swap i r l2) hal (fun k hk => hlt k (hsub k hk)) hpar hS (by
      intro k hk x hx hxk
      have hkn : k < n := hlt k (hsub k (by simp at hk ⊢; tauto))
      have := u.sep (C := fun k => (S k).toFinset) hrip hs hkn (hirest k hk).2 (hirest k hk).1 (Finset.mem_inter.2 ⟨List.mem_toFinset.2 hx, List.mem_toFinset.2 hxk⟩)
      exact List.mem_toFinset.1 this) (hcov i hi)
    obtain ⟨t', ms', el', f1, fV, fE, I', fel⟩ := ih (l1 ++ [i]) t1 _ _ (by rw [hs]; simp) I1
    refine ⟨t', ms', el', ?_, fV.trans eV, fE.trans eE, I', ?_⟩
    · rw [List.map_cons]
      unfold sendAll
      rw [e1, Py.bind_ok]; exact f1
    · intro x
      rw [fel, List.mem_append, (h.perm _).mem_iff, List.mem_filter]
      simp only [List.mem_cons, exists_eq_or_imp, decide_eq_true_eq]
      tauto

/-- Upward pass and `collect_beliefs` of the root. -/
theorem upward_spec (h : HashOrder N) {c : N → ℕ} {n r : ℕ} {S : ℕ → List N} {psi : ℕ → FObj N} {par : ℕ → ℕ} {sched : List ℕ} (u : Upward n r par sched)
    (hrip : RunningIntersection (fun k => (S k).toFinset) (· < n) (fun a b => a ∈ sched ∧ par a = b)) (hS : ∀ k < n, (S k).Nodup) (t : Tree N)
    (hcl : ∀ k < n, ∃ ck, Dict.get? t.C k = some ck ∧ ck.scope = S k ∧ ck.psi = some (psi k) ∧ ck.belief = some (psi k) ∧ ck.msgs = [])
    (hgood : ∀ k < n, Valid t.heap (psi k) ∧ (t.heap.get (psi k)).WF c ∧ ∀ v ∈ (t.heap.get (psi k)).scope, v ∈ S k)
    (hdisj : ∀ k < n, ∀ k' < n, k ≠ k' → Disj (psi k) (psi k'))
    (hcov : ∀ k < n, ∀ x ∈ S k, ∃ k' < n, x ∈ (t.heap.get (psi k')).scope) :
    ∃ t1 t2 cr b, sendAll h t (sched.map fun i => (i, par i)) = .ok t1 ∧ collectBeliefs h t1 r = .ok t2 ∧ Dict.get? t2.C r = some cr ∧ cr.belief = some b ∧ cr.msgs = [] ∧
      (t2.heap.get b).WF c ∧ (∀ v, v ∈ (t2.heap.get b).scope ↔ v ∈ S r) ∧
      ∀ out : List N, out.Nodup → (∀ x, x ∈ out ↔ x ∉ S r ∧ ∃ k < n, x ∈ S k) → ∀ a, (∀ k < n, ∀ v ∈ S k, a v < c v) →
        (t2.heap.get b).val a = sumAll c out (fun a => ((List.range n).map fun k => (t.heap.get (psi k)).val a).prod) a := by
  have hnd : (r :: sched).Nodup := u.perm.nodup_iff.2 List.nodup_range
  have hlt : ∀ k, k ∈ r :: sched ↔ k < n := fun k => by rw [u.perm.mem_iff, List.mem_range]
  have I0 : Inv c n S (fun k => t.heap.get (psi k)) psi t (r :: sched) (fun _ => []) [] := by
    constructor
    · intro k hk; exact hcl k ((hlt k).1 hk)
    · intro k hk o ho
      rw [List.mem_singleton.1 ho]; exact hgood k ((hlt k).1 hk)
    · intro k _; exact List.pairwise_singleton _ _
    · intro k hk k' hk' hne o ho o' ho'
      rw [List.mem_singleton.1 ho, List.mem_singleton.1 ho']
      exact hdisj k ((hlt k).1 hk) k' ((hlt k').1 hk') hne
    · exact .nil
    · simp
    · simp
    · intro k hk x hx; exact Or.inr ⟨k, (hlt k).2 hk, psi k, by simp, hx⟩
    · intro a _
      simp only [sumAll, List.map_nil, prodVal, List.prod_nil, mul_one]
      exact ((u.perm.map _).prod_eq).symm
  obtain ⟨t1, ms, el, e1, -, -, I, hel⟩ := sends_inv h u hrip hS (fun i hi x hx _ => hcov i ((hlt i).1 (by simp [hi])) x hx) sched [] t _ _ rfl I0
  obtain ⟨cr, c1, c2, c3, c4, c5⟩ := I.clique r (by simp)
  have hw := I.within r (by simp)
  rw [List.pairwise_cons] at hw
  have hrn : r < n := (hlt r).1 (by simp)
  -- everything outside the root clique has been summed out
  have helr : ∀ x, x ∈ el ↔ x ∉ S r ∧ ∃ k < n, x ∈ S k := by
    intro x
    constructor
    · exact fun hx => ⟨I.el_gone x hx r (by simp), I.el_sub x hx⟩
    · rintro ⟨hxr, k, hk, hxk⟩
      rw [hel]
      right
      -- along the walk from `k` to the root some clique has `x` while its parent does not
      by_contra hcon
      push Not at hcon
      have hall : ∀ i ∈ sched, x ∈ S i → x ∈ S (par i) := fun i hi hxi => by
        by_contra hc; exact hc (hcon i hi hxi)
      -- walk up: by the position in the schedule
      have hup : ∀ (l2 l1 : List ℕ), sched = l1 ++ l2 → ∀ i ∈ r :: l2, x ∈ S i → x ∈ S r := by
        intro l2
        induction l2 with
        | nil => intro l1 _ i hi hxi; rw [List.mem_singleton.1 hi] at hxi; exact hxi
        | cons j l2 ih =>
          intro l1 hs i hi hxi
          rcases List.mem_cons.1 hi with rfl | hi'
          · exact hxi
          · rcases List.mem_cons.1 hi' with rfl | hi''
            · have hin : i ∈ sched := by rw [hs]; simp
              have hp : par i ∈ r :: sched := (hlt _).2 (u.par_lt i hin)
              refine ih (l1 ++ [i]) (by rw [hs]; simp) (par i) ?_ (hall i hin hxi)
              rcases List.mem_cons.1 hp with hp | hp
              · rw [hp]; simp
              · have hnd' := hnd
                rw [hs, List.nodup_cons, List.nodup_append] at hnd'
                rw [hs, List.mem_append, List.mem_cons] at hp
                rcases hp with hp | hp | hp
                · exfalso
                  obtain ⟨m1, m2, hm⟩ := List.append_of_mem hp
                  have := u.children_first m1 (par i) (m2 ++ i :: l2) (by rw [hs, hm]; simp) i hin rfl
                  exact hnd'.2.2.2 i (by rw [hm]; exact List.mem_append_left _ this) i (by simp) rfl
                · exfalso
                  have := u.children_first l1 i l2 hs i hin hp
                  exact hnd'.2.2.2 i this i (by simp) rfl
                · exact List.mem_cons_of_mem _ hp
            · exact ih (l1 ++ [j]) (by rw [hs]; simp) i (List.mem_cons_of_mem _ hi'') hxi
      exact hxr (hup sched [] rfl k ((hlt k).2 hk) hxk)
  have hscope : ∀ v, v ∈ S r ↔ v ∈ (t1.heap.get (psi r)).scope ∨ ∃ m ∈ ms r, v ∈ (t1.heap.get m).scope := by
    intro v
    constructor
    · intro hv
      obtain ⟨k, hk, hvk⟩ := hcov r hrn v hv
      rcases I.cover k hk v hvk with h1 | ⟨k', hk', o, ho, h1⟩
      · exact absurd hv (I.el_gone v h1 r (by simp))
      · rw [List.mem_singleton.1 hk'] at ho
        rcases List.mem_cons.1 ho with rfl | ho
        · exact Or.inl h1
        · exact Or.inr ⟨o, ho, h1⟩
    · rintro (hv | ⟨m, hm, hv⟩)
      · exact (I.good r (by simp) (psi r) (by simp)).2.2 v hv
      · exact (I.good r (by simp) m (by simp [hm])).2.2 v hv
  have hfin : ∀ out : List N, out.Nodup → (∀ x, x ∈ out ↔ x ∉ S r ∧ ∃ k < n, x ∈ S k) → ∀ a, (∀ k < n, ∀ v ∈ S k, a v < c v) →
      (t1.heap.get (psi r)).val a * prodVal ((ms r).map t1.heap.get) a = sumAll c out (fun a => ((List.range n).map fun k => (t.heap.get (psi k)).val a).prod) a := by
    intro out hout hm a ha
    have hp : out.Perm el := (List.perm_ext_iff_of_nodup hout I.el_nodup).2 fun x => by rw [hm, helr]
    rw [sumAll_perm hp _ hout, I.value a ha]
    simp
  have gr := I.good r (by simp) (psi r) (by simp)
  cases hms : ms r with
  | nil =>
    have hcb : collectBeliefs h t1 r = .ok t1 := by
      unfold collectBeliefs
      rw [Dict.get_of_get? c1, Py.bind_ok, c5, hms]; rfl
    refine ⟨t1, t1, cr, psi r, e1, hcb, c1, c4, by rw [c5, hms], gr.2.1, ?_, ?_⟩
    · intro v; rw [hscope, hms]; simp
    · intro out h1 h2 a ha
      rw [← hfin out h1 h2 a ha, hms]; simp [prodVal]
  | cons m0 mr =>
    obtain ⟨H2, b, f1, f2, f3, f4, f5, -⟩ := mulAll_spec h (ms r) gr.1 gr.2.1 (fun m hm => by
      obtain ⟨q1, q2, -⟩ := I.good r (by simp) m (by simp [hm])
      exact ⟨q1, q2, (hw.1 m hm).symm⟩) hw.2
    have hcb : collectBeliefs h t1 r = .ok { t1 with heap := H2, C := t1.C.set r { cr with belief := some b, msgs := [] } } := by
      unfold collectBeliefs
      rw [Dict.get_of_get? c1, Py.bind_ok, c5, hms]
      simp only [c3]
      rw [← hms, f1, Py.bind_ok]; rfl
    refine ⟨t1, _, { cr with belief := some b, msgs := [] }, b, e1, hcb, by simp only []; rw [Dict.get?_set_self], rfl, rfl, f3, ?_, ?_⟩
    · intro v; rw [f4, hscope]
    · intro out h1 h2 a ha
      rw [f5 a fun v hv => ha r hrn v ((hscope v).2 ((f4 v).1 hv)), hfin out h1 h2 a ha]

end Clq
end PyBN
