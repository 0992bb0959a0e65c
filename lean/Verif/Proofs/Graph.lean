import Verif.Spec.Graph
import Verif.Model.Graph
import Verif.Proofs.Dict
import Mathlib.Order.WellFounded
import Mathlib.Data.Set.Finite.List
import Mathlib.Data.Fintype.Card

set_option linter.unusedSectionVars false

namespace PyBN
variable {N : Type _} [DecidableEq N]

theorem arc_of_get {e : Dict N (List N)} {u v : N} {l : List N} (h : Dict.get? e u = some l) : Arc e u v ↔ v ∈ l := by
  unfold Arc; rw [h]; simp

theorem arc_src {e : Dict N (List N)} {u v : N} (h : Arc e u v) : u ∈ e.keys := by
  obtain ⟨l, h1, _⟩ := h
  rw [Dict.mem_keys_iff, h1]; rfl

theorem get_of_mem_keys {e : Dict N (List N)} {u : N} (h : u ∈ e.keys) : ∃ l, Dict.get? e u = some l := by
  rw [Dict.mem_keys_iff] at h
  exact Option.isSome_iff_exists.1 h

/-- Lengths of the child lists of the keys not yet visited. -/
def pend (e : Dict N (List N)) (visited : List N) : ℕ := ((e.filter fun kv => kv.1 ∉ visited).map fun kv => kv.2.length).sum

theorem pend_nil (e : Dict N (List N)) : pend e [] = (e.vals.map List.length).sum := by
  unfold pend Dict.vals; simp [List.map_map, Function.comp_def]

theorem pend_le (e : Dict N (List N)) (visited : List N) (v : N) : pend e (visited ++ [v]) ≤ pend e visited := by
  unfold pend
  induction e with
  | nil => simp
  | cons kv e ih =>
    simp only [List.filter_cons, List.mem_append, List.mem_singleton, decide_not] at ih ⊢
    by_cases h1 : kv.1 ∈ visited
    · rw [if_neg (by simp [h1]), if_neg (by simp [h1])]; exact ih
    · by_cases h2 : kv.1 = v
      · rw [if_neg (by simp [h2]), if_pos (by simp [h1])]
        simp only [List.map_cons, List.sum_cons]; omega
      · rw [if_pos (by simp [h1, h2]), if_pos (by simp [h1])]
        simp only [List.map_cons, List.sum_cons]; omega

theorem pend_step {e : Dict N (List N)} {visited : List N} {v : N} {c : List N} (hc : Dict.get? e v = some c)
    (hv : v ∉ visited) : pend e (visited ++ [v]) + c.length ≤ pend e visited := by
  induction e with
  | nil => simp [Dict.get?] at hc
  | cons kv e ih =>
    rw [show kv = (kv.1, kv.2) from rfl, Dict.get?_cons] at hc
    by_cases h : kv.1 = v
    · rw [if_pos h] at hc
      cases hc
      have := pend_le e visited v
      unfold pend at this ⊢
      rw [List.filter_cons, List.filter_cons, if_neg (by simp [h]), if_pos (by simp [h, hv])]
      simp only [List.map_cons, List.sum_cons]
      omega
    · rw [if_neg h] at hc
      have := ih hc
      unfold pend at this ⊢
      rw [List.filter_cons, List.filter_cons]
      by_cases h1 : kv.1 ∈ visited
      · rw [if_neg (by simp [h1]), if_neg (by simp [h1])]; exact this
      · rw [if_pos (by simp [h1, h]), if_pos (by simp [h1])]
        simp only [List.map_cons, List.sum_cons]
        omega

/-- The loop never runs out of fuel, for any dictionary. -/
theorem bfsLoop_fuel (e : Dict N (List N)) : ∀ (fuel : ℕ) (queue visited : List N),
    queue.length + pend e visited ≤ fuel → bfsLoop e fuel queue visited ≠ .error .diverges := by
  intro fuel
  induction fuel with
  | zero =>
    intro queue visited h
    cases queue with
    | nil => simp [bfsLoop]
    | cons q qs => simp at h
  | succ fuel ih =>
    intro queue visited h
    cases queue with
    | nil => simp [bfsLoop]
    | cons q qs =>
      simp only [bfsLoop]
      split_ifs with hq
      · apply ih; simp only [List.length_cons] at h; omega
      · cases hg : Dict.get? e q with
        | none => rw [Dict.get_of_none hg]; intro hh; cases hh
        | some c =>
          rw [Dict.get_of_get? hg]
          have := pend_step hg hq
          apply ih
          simp only [List.length_append, List.length_cons] at h ⊢; omega

/-- What the queue loop returns. -/
theorem bfsLoop_ok {e : Dict N (List N)} (hcl : ChildrenAreKeys e) (roots : List N) : ∀ (fuel : ℕ) (queue visited : List N),
    queue.length + pend e visited ≤ fuel → (∀ q ∈ queue, q ∈ e.keys) → visited.Nodup →
    (∀ v ∈ visited, ∀ w, Arc e v w → w ∈ visited ∨ w ∈ queue) →
    (∀ q ∈ queue, q ∈ roots ∨ ∃ p ∈ visited, Arc e p q) →
    (∀ l1 v l2, visited = l1 ++ v :: l2 → v ∈ roots ∨ ∃ p ∈ l1, Arc e p v) →
    ∃ l, bfsLoop e fuel queue visited = .ok l ∧ l.Nodup ∧ (∀ v ∈ visited, v ∈ l) ∧ (∀ q ∈ queue, q ∈ l) ∧
      (∀ v ∈ l, ∀ w, Arc e v w → w ∈ l) ∧ (∀ v ∈ l, v ∈ visited ∨ ∃ q ∈ queue, Reach e q v) ∧
      (∀ l1 v l2, l = l1 ++ v :: l2 → v ∈ roots ∨ ∃ p ∈ l1, Arc e p v) := by
  intro fuel
  induction fuel with
  | zero =>
    intro queue visited h _ hn hc _ hp
    cases queue with
    | nil =>
      refine ⟨visited, rfl, hn, fun v h => h, by simp, fun v hv w hw => ?_, fun v hv => .inl hv, hp⟩
      simpa using hc v hv w hw
    | cons q qs => simp at h
  | succ fuel ih =>
    intro queue visited h hk hn hc hq hp
    cases queue with
    | nil =>
      refine ⟨visited, rfl, hn, fun v h => h, by simp, fun v hv w hw => ?_, fun v hv => .inl hv, hp⟩
      simpa using hc v hv w hw
    | cons q qs =>
      simp only [bfsLoop]
      by_cases hm : q ∈ visited
      · rw [if_pos hm]
        obtain ⟨l, h1, h2, h3, h4, h5, h6, h7⟩ := ih qs visited (by simp only [List.length_cons] at h; omega)
          (fun x hx => hk x (by simp [hx])) hn
          (fun v hv w hw => (hc v hv w hw).elim .inl fun h => by
            rcases List.mem_cons.1 h with h | h
            · exact .inl (h ▸ hm)
            · exact .inr h)
          (fun x hx => hq x (by simp [hx])) hp
        refine ⟨l, h1, h2, h3, ?_, h5, ?_, h7⟩
        · intro x hx
          rcases List.mem_cons.1 hx with hx | hx
          · exact hx ▸ h3 _ hm
          · exact h4 x hx
        · intro v hv
          rcases h6 v hv with h | ⟨x, hx, hr⟩
          · exact .inl h
          · exact .inr ⟨x, by simp [hx], hr⟩
      · rw [if_neg hm]
        obtain ⟨c, hg⟩ := get_of_mem_keys (hk q (by simp))
        rw [Dict.get_of_get? hg]
        have hst := pend_step hg hm
        obtain ⟨l, h1, h2, h3, h4, h5, h6, h7⟩ := ih (qs ++ c) (visited ++ [q])
          (by simp only [List.length_append, List.length_cons] at h ⊢; omega)
          (fun x hx => (List.mem_append.1 hx).elim (fun h => hk x (by simp [h])) fun h => hcl q x ((arc_of_get hg).2 h))
          (List.nodup_append.2 ⟨hn, by simp, by
            intro a ha b hb; simp at hb; subst hb; exact fun h => hm (h ▸ ha)⟩)
          (fun v hv w hw => by
            rcases List.mem_append.1 hv with hv | hv
            · rcases hc v hv w hw with h | h
              · exact .inl (by simp [h])
              · rcases List.mem_cons.1 h with h | h
                · exact .inl (by simp [h])
                · exact .inr (by simp [h])
            · rw [List.mem_singleton.1 hv] at hw
              exact .inr (by simp [(arc_of_get hg).1 hw]))
          (fun x hx => by
            rcases List.mem_append.1 hx with hx | hx
            · rcases hq x (by simp [hx]) with h | ⟨p, hp1, hp2⟩
              · exact .inl h
              · exact .inr ⟨p, by simp [hp1], hp2⟩
            · exact .inr ⟨q, by simp, (arc_of_get hg).2 hx⟩)
          (by
            intro l1 v l2 heq
            rcases List.append_eq_append_iff.1 heq with ⟨as, ha1, ha2⟩ | ⟨bs, hb1, hb2⟩
            · cases as with
              | nil =>
                simp only [List.append_nil, List.nil_append] at ha1 ha2
                have hvq : q = v := (List.cons.inj ha2).1
                rw [ha1, ← hvq]; exact hq q (by simp)
              | cons a as =>
                have hl := congrArg List.length ha2
                simp at hl
            · cases bs with
              | nil =>
                simp only [List.append_nil, List.nil_append] at hb1 hb2
                have hvq : v = q := (List.cons.inj hb2).1
                rw [← hb1, hvq]; exact hq q (by simp)
              | cons b bs =>
                have hbv : v = b := (List.cons.inj hb2).1
                exact hp l1 v bs (by rw [hb1, hbv]))
        refine ⟨l, h1, h2, fun v hv => h3 v (by simp [hv]), ?_, h5, ?_, h7⟩
        · intro x hx
          rcases List.mem_cons.1 hx with hx | hx
          · exact hx ▸ h3 q (by simp)
          · exact h4 x (by simp [hx])
        · intro v hv
          rcases h6 v hv with h | ⟨x, hx, hr⟩
          · rcases List.mem_append.1 h with h | h
            · exact .inl h
            · exact .inr ⟨q, by simp, by rw [List.mem_singleton.1 h]; exact .refl⟩
          · rcases List.mem_append.1 hx with hx | hx
            · exact .inr ⟨x, by simp [hx], hr⟩
            · exact .inr ⟨q, by simp, .head ((arc_of_get hg).2 hx) hr⟩

theorem hasParentKey_ok {e : Dict N (List N)} (rv : N) : ∀ ks : List N, (∀ k ∈ ks, k ∈ e.keys) →
    ∃ b, hasParentKey e rv ks = .ok b ∧ (b = true ↔ ∃ k ∈ ks, Arc e k rv) := by
  intro ks
  induction ks with
  | nil => intro _; exact ⟨false, rfl, by simp⟩
  | cons k ks ih =>
    intro h
    obtain ⟨c, hc⟩ := get_of_mem_keys (h k (by simp))
    obtain ⟨b, hb, hb'⟩ := ih fun k hk => h k (by simp [hk])
    refine ⟨decide (rv ∈ c) || b, by simp only [hasParentKey, Dict.get_of_get? hc, hb, Py.bind_ok, Py.pure_eq], ?_⟩
    simp only [Bool.or_eq_true, decide_eq_true_eq, List.mem_cons, exists_eq_or_imp, hb', arc_of_get hc]

theorem rootsLoop_ok {e : Dict N (List N)} {ks : List N} (hks : ∀ k, k ∈ ks ↔ k ∈ e.keys) : ∀ rvs : List N,
    ∃ q, rootsLoop e ks rvs = .ok q ∧ List.Sublist q rvs ∧ ∀ v, v ∈ q ↔ v ∈ rvs ∧ ∀ u, ¬ Arc e u v := by
  intro rvs
  induction rvs with
  | nil => exact ⟨[], rfl, by simp, by simp⟩
  | cons v rvs ih =>
    obtain ⟨q, h1, h2, h3⟩ := ih
    obtain ⟨b, hb, hb'⟩ := hasParentKey_ok (e := e) v ks fun k hk => (hks k).1 hk
    have hb2 : b = true ↔ ∃ u, Arc e u v := hb'.trans ⟨fun ⟨k, _, h⟩ => ⟨k, h⟩, fun ⟨k, h⟩ => ⟨k, (hks k).2 (arc_src h), h⟩⟩
    refine ⟨if b then q else v :: q, by simp only [rootsLoop, hb, h1, Py.bind_ok, Py.pure_eq], ?_, ?_⟩
    · split_ifs
      · exact h2.cons v
      · exact h2.cons_cons v
    · intro w
      split_ifs with hbt
      · rw [h3]
        constructor
        · rintro ⟨a, b⟩; exact ⟨by simp [a], b⟩
        · rintro ⟨a, b⟩
          rcases List.mem_cons.1 a with a | a
          · subst a
            obtain ⟨u, hu⟩ := hb2.1 hbt
            exact absurd hu (b u)
          · exact ⟨a, b⟩
      · have hno : ∀ u, ¬ Arc e u v := fun u hu => hbt (hb2.2 ⟨u, hu⟩)
        rw [List.mem_cons, List.mem_cons, h3]
        constructor
        · rintro (a | ⟨a, b⟩)
          · subst a; exact ⟨.inl rfl, hno⟩
          · exact ⟨.inr a, b⟩
        · rintro ⟨a | a, b⟩
          · exact .inl a
          · exact .inr ⟨a, b⟩

/-- In a finite acyclic graph every node is reachable from a node without parents. -/
theorem reach_from_root {e : Dict N (List N)} (hac : NoCycle e) : ∀ v ∈ e.keys,
    ∃ r ∈ e.keys, (∀ u, ¬ Arc e u r) ∧ Reach e r v := by
  let K := {k : N // k ∈ e.keys}
  let R : K → K → Prop := fun a b => Relation.TransGen (Arc e) a.1 b.1
  have : IsTrans K R := ⟨fun a b c h1 h2 => h1.trans h2⟩
  have : Std.Irrefl R := ⟨fun a h => hac a.1 h⟩
  have : Finite K := e.keys.finite_toSet.to_subtype
  have wf : WellFounded R := Finite.wellFounded_of_trans_of_irrefl R
  intro v hv
  have := wf.induction (C := fun k => ∃ r ∈ e.keys, (∀ u, ¬ Arc e u r) ∧ Reach e r k.1) ⟨v, hv⟩ ?_
  · exact this
  · intro ⟨k, hk⟩ ih
    by_cases h : ∃ u, Arc e u k
    · obtain ⟨u, hu⟩ := h
      obtain ⟨r, h1, h2, h3⟩ := ih ⟨u, arc_src hu⟩ (.single hu)
      exact ⟨r, h1, h2, h3.tail hu⟩
    · exact ⟨k, hk, fun u hu => h ⟨u, hu⟩, .refl⟩

theorem initQueue_none {e : Dict N (List N)} (h : HashOrder N) (hn : e.keys.Nodup) : ∃ q, initQueue h e none = .ok q ∧ q.Nodup ∧
    ∀ v, v ∈ q ↔ v ∈ e.keys ∧ ∀ u, ¬ Arc e u v := by
  obtain ⟨q, h1, h2, h3⟩ := rootsLoop_ok (e := e) (ks := h.iter e.keys) (fun k => (h.perm _).mem_iff) (h.iter e.keys)
  refine ⟨q, h1, h2.nodup ((h.perm _).nodup_iff.2 hn), fun v => ?_⟩
  rw [h3, (h.perm _).mem_iff]

theorem topsort_run {e : Dict N (List N)} (hcl : ChildrenAreKeys e) {q : List N} (hq : ∀ v ∈ q, v ∈ e.keys) :
    ∃ l, bfsLoop e (bfsFuel e q) q [] = .ok l ∧ l.Nodup ∧ (∀ v, v ∈ l ↔ ∃ r ∈ q, Reach e r v) ∧
      (∀ l1 v l2, l = l1 ++ v :: l2 → v ∈ q ∨ ∃ p ∈ l1, Arc e p v) := by
  obtain ⟨l, h1, h2, _, h4, h5, h6, h7⟩ := bfsLoop_ok hcl q (bfsFuel e q) q [] (by rw [pend_nil]; exact Nat.le_refl _) hq
    List.nodup_nil (by simp) (fun x hx => .inl hx) (by simp)
  refine ⟨l, h1, h2, fun v => ⟨fun hv => ?_, ?_⟩, h7⟩
  · simpa using h6 v hv
  · rintro ⟨r, hr, hrv⟩
    induction hrv with
    | refl => exact h4 r hr
    | tail _ hbc ih => exact h5 _ ih _ hbc

end PyBN
