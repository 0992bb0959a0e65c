import Verif.Proofs.Constraint2
import Mathlib.Tactic.Linarith

/-! Lemmas for `chow_liu` and `orient_edges_MB`. -/

set_option linter.unusedSectionVars false

namespace PyBN
namespace Constraint

/-! ## `chow_liu` -/

theorem mem_insertDesc {x y : ℕ × ℕ × ℚ} {l : List (ℕ × ℕ × ℚ)} : y ∈ insertDesc x l ↔ y = x ∨ y ∈ l := by
  induction l with
  | nil => simp [insertDesc]
  | cons z l ih =>
    rw [insertDesc]; split_ifs
    · simp
    · simp only [List.mem_cons, ih]; tauto

theorem mem_sortDesc {y : ℕ × ℕ × ℚ} {l : List (ℕ × ℕ × ℚ)} : y ∈ sortDesc l ↔ y ∈ l := by
  induction l with
  | nil => simp [sortDesc]
  | cons z l ih => rw [sortDesc, mem_insertDesc, ih, List.mem_cons]

theorem insertDesc_pairwise {x : ℕ × ℕ × ℚ} {l : List (ℕ × ℕ × ℚ)} (h : l.Pairwise fun a b => b.2.2 ≤ a.2.2) :
    (insertDesc x l).Pairwise fun a b => b.2.2 ≤ a.2.2 := by
  induction l with
  | nil => simp [insertDesc]
  | cons z l ih =>
    rw [List.pairwise_cons] at h
    rw [insertDesc]; split_ifs with hz
    · rw [List.pairwise_cons, List.pairwise_cons]
      refine ⟨fun b hb => ?_, h⟩
      rcases List.mem_cons.1 hb with rfl | hb
      · exact hz
      · exact le_trans (h.1 b hb) hz
    · rw [List.pairwise_cons]
      refine ⟨fun b hb => ?_, ih h.2⟩
      rcases mem_insertDesc.1 hb with rfl | hb
      · exact le_of_lt (not_le.1 hz)
      · exact h.1 b hb

theorem sortDesc_pairwise (l : List (ℕ × ℕ × ℚ)) : (sortDesc l).Pairwise fun a b => b.2.2 ≤ a.2.2 := by
  induction l with
  | nil => simp [sortDesc]
  | cons x l ih => exact insertDesc_pairwise ih

theorem mem_edgeList {w : ℕ → ℕ → ℚ} {n : ℕ} {i j : ℕ} {q : ℚ} : (i, j, q) ∈ edgeList w n ↔ i < j ∧ j < n ∧ q = w i j := by
  unfold edgeList
  rw [mem_sortDesc]
  simp only [List.mem_flatMap, List.mem_range, List.mem_map, List.mem_range'_1, Prod.mk.injEq]
  constructor
  · rintro ⟨a, ha, b, hb, rfl, rfl, rfl⟩; exact ⟨by omega, by omega, rfl⟩
  · rintro ⟨h1, h2, rfl⟩; exact ⟨i, by omega, j, by omega, rfl, rfl, rfl⟩

/-- Invariant of the selection loop: a tree grown from `root` over the nodes `c`. -/
structure Growing (n root : ℕ) (c : List ℕ) (t : Dict ℕ (List ℕ)) : Prop where
  keys : t.keys = List.range n
  nodup : ∀ x, (nb t x).Nodup
  root_mem : root ∈ c
  lt : ∀ v ∈ c, v < n
  arc : ∀ a b, b ∈ nb t a → a ∈ c ∧ b ∈ c ∧ b ≠ root
  parent : ∀ v ∈ c, v ≠ root → ∃ u, v ∈ nb t u ∧ ∀ u', v ∈ nb t u' → u' = u
  reach : ∀ v ∈ c, Reach t root v
  rank : ∃ r : ℕ → ℕ, (∀ v ∈ c, r v < c.length) ∧ ∀ a b, b ∈ nb t a → r a < r b

theorem Growing.add {n root : ℕ} {c : List ℕ} {t : Dict ℕ (List ℕ)} (g : Growing n root c t) {u v : ℕ} (hu : u ∈ c) (hv : v ∉ c)
    (hvn : v < n) : ∃ t', appendAt t u v = .ok t' ∧ Growing n root (c ++ [v]) t' ∧
      ∀ a b, b ∈ nb t' a ↔ b ∈ nb t a ∨ (a = u ∧ b = v) := by
  have huk : u ∈ t.keys := by rw [g.keys]; exact List.mem_range.2 (g.lt u hu)
  refine ⟨_, appendAt_ok huk v, ?_⟩
  have hm : ∀ a b, b ∈ nb (t.set u (nb t u ++ [v])) a ↔ b ∈ nb t a ∨ (a = u ∧ b = v) := by
    intro a b; rw [nb_set]
    by_cases ha : a = u
    · subst ha; simp
    · simp [ha]
  have hvno : ∀ a, v ∉ nb t a := fun a h => hv (g.arc a v h).2.1
  have hvr : v ≠ root := fun h => hv (h ▸ g.root_mem)
  refine ⟨⟨by rw [keys_set_mem huk]; exact g.keys, fun a => ?_, by simp [g.root_mem], fun x hx => ?_, fun a b => ?_, fun x hx hxr => ?_,
    fun x hx => ?_, ?_⟩, hm⟩
  · rw [nb_set]; split_ifs
    · exact List.nodup_append.2 ⟨g.nodup u, by simp, by rintro b hb _ hc rfl; simp at hc; subst hc; exact hvno _ hb⟩
    · exact g.nodup a
  · rcases List.mem_append.1 hx with h | h
    · exact g.lt x h
    · simp at h; omega
  · rw [hm]; rintro (h | ⟨rfl, rfl⟩)
    · obtain ⟨h1, h2, h3⟩ := g.arc a b h
      exact ⟨by simp [h1], by simp [h2], h3⟩
    · exact ⟨by simp [hu], by simp, hvr⟩
  · rcases List.mem_append.1 hx with h | h
    · obtain ⟨p, hp1, hp2⟩ := g.parent x h hxr
      refine ⟨p, (hm _ _).2 (.inl hp1), fun u' hu' => ?_⟩
      rcases (hm _ _).1 hu' with h1 | ⟨_, rfl⟩
      · exact hp2 u' h1
      · exact absurd h hv
    · simp at h; subst h
      refine ⟨u, (hm _ _).2 (.inr ⟨rfl, rfl⟩), fun u' hu' => ?_⟩
      rcases (hm _ _).1 hu' with h1 | ⟨rfl, _⟩
      · exact absurd h1 (hvno _)
      · rfl
  · have hmono : ∀ y, Reach t root y → Reach (t.set u (nb t u ++ [v])) root y := fun y h => by
      induction h with
      | refl => exact .refl
      | tail _ hb ih => exact ih.tail (arc_iff_nb.2 ((hm _ _).2 (.inl (arc_iff_nb.1 hb))))
    rcases List.mem_append.1 hx with h | h
    · exact hmono x (g.reach x h)
    · simp at h; subst h
      exact (hmono u (g.reach u hu)).tail (arc_iff_nb.2 ((hm _ _).2 (.inr ⟨rfl, rfl⟩)))
  · obtain ⟨r, hr1, hr2⟩ := g.rank
    refine ⟨fun x => if x = v then c.length else r x, fun x hx => ?_, fun a b h => ?_⟩
    · rcases List.mem_append.1 hx with h | h
      · have hxv : x ≠ v := fun e => hv (e ▸ h)
        simp only [if_neg hxv, List.length_append, List.length_cons, List.length_nil]
        have := hr1 x h; omega
      · simp at h; subst h; simp
    · rcases (hm _ _).1 h with h1 | ⟨rfl, rfl⟩
      · obtain ⟨k1, k2, _⟩ := g.arc a b h1
        have ha : a ≠ v := fun e => hv (e ▸ k1)
        have hb : b ≠ v := fun e => hv (e ▸ k2)
        simp only [if_neg ha, if_neg hb]; exact hr2 a b h1
      · have ha : a ≠ b := fun e => hv (e ▸ hu)
        simp only [if_neg ha, if_true]; exact hr1 a hu

theorem clLoop_ok {n root : ℕ} : ∀ (es : List (ℕ × ℕ × ℚ)) (c : List ℕ) (t : Dict ℕ (List ℕ)), Growing n root c t →
    (∀ e ∈ es, e.1 < n ∧ e.2.1 < n) →
    ∃ t' c', clLoop es c t = .ok t' ∧ Growing n root c' t' ∧ (∀ v ∈ c, v ∈ c') ∧
      (∀ e ∈ es, (e.1 ∈ c → e.2.1 ∈ c') ∧ (e.2.1 ∈ c → e.1 ∈ c')) ∧
      (∀ a b, b ∈ nb t' a → b ∈ nb t a ∨ ∃ e ∈ es, (a = e.1 ∧ b = e.2.1) ∨ (a = e.2.1 ∧ b = e.1))
  | [], c, t, g, _ => ⟨t, c, rfl, g, fun _ h => h, by simp, fun a b h => .inl h⟩
  | (i, j, q) :: es, c, t, g, he => by
      have hij := he (i, j, q) (by simp)
      simp only at hij
      by_cases h1 : i ∈ c ∧ j ∉ c
      · obtain ⟨t1, p1, p2, p3⟩ := g.add h1.1 h1.2 hij.2
        obtain ⟨t', c', r1, r2, r3, r4, r5⟩ := clLoop_ok es (c ++ [j]) t1 p2 fun e h => he e (by simp [h])
        refine ⟨t', c', by rw [clLoop, if_pos h1, p1]; exact r1, r2, fun v hv => r3 v (by simp [hv]), fun e hm => ?_, fun a b hb => ?_⟩
        · rcases List.mem_cons.1 hm with rfl | hm
          · exact ⟨fun _ => r3 j (by simp), fun _ => r3 i (by simp [h1.1])⟩
          · exact ⟨fun hh => (r4 e hm).1 (by simp [hh]), fun hh => (r4 e hm).2 (by simp [hh])⟩
        · rcases r5 a b hb with hh | ⟨e, he1, he2⟩
          · rcases (p3 a b).1 hh with hh | hh
            · exact .inl hh
            · exact .inr ⟨(i, j, q), by simp, .inl hh⟩
          · exact .inr ⟨e, by simp [he1], he2⟩
      · by_cases h2 : i ∉ c ∧ j ∈ c
        · obtain ⟨t1, p1, p2, p3⟩ := g.add h2.2 h2.1 hij.1
          obtain ⟨t', c', r1, r2, r3, r4, r5⟩ := clLoop_ok es (c ++ [i]) t1 p2 fun e h => he e (by simp [h])
          refine ⟨t', c', by rw [clLoop, if_neg h1, if_pos h2, p1]; exact r1, r2, fun v hv => r3 v (by simp [hv]), fun e hm => ?_, fun a b hb => ?_⟩
          · rcases List.mem_cons.1 hm with rfl | hm
            · exact ⟨fun _ => r3 j (by simp [h2.2]), fun _ => r3 i (by simp)⟩
            · exact ⟨fun hh => (r4 e hm).1 (by simp [hh]), fun hh => (r4 e hm).2 (by simp [hh])⟩
          · rcases r5 a b hb with hh | ⟨e, he1, he2⟩
            · rcases (p3 a b).1 hh with hh | hh
              · exact .inl hh
              · exact .inr ⟨(i, j, q), by simp, .inr hh⟩
            · exact .inr ⟨e, by simp [he1], he2⟩
        · obtain ⟨t', c', r1, r2, r3, r4, r5⟩ := clLoop_ok es c t g fun e h => he e (by simp [h])
          refine ⟨t', c', by rw [clLoop, if_neg h1, if_neg h2]; exact r1, r2, r3, fun e hm => ?_, fun a b hb => ?_⟩
          · rcases List.mem_cons.1 hm with rfl | hm
            · refine ⟨fun hh => ?_, fun hh => ?_⟩
              · by_contra hn; exact h1 ⟨hh, fun hj => hn (r3 j hj)⟩
              · by_contra hn; exact h2 ⟨fun hi => hn (r3 i hi), hh⟩
            · exact r4 e hm
          · rcases r5 a b hb with hh | ⟨e, he1, he2⟩
            · exact .inl hh
            · exact .inr ⟨e, by simp [he1], he2⟩

theorem growing_start {n root : ℕ} (h : root < n) : Growing n root [root] (emptyGraph n) where
  keys := emptyGraph_keys n
  nodup := fun x => by rw [emptyGraph_nb]; simp
  root_mem := by simp
  lt := by simpa using h
  arc := fun a b hb => by rw [emptyGraph_nb] at hb; cases hb
  parent := fun v hv hne => by simp at hv; exact absurd hv hne
  reach := fun v hv => by simp at hv; subst hv; exact .refl
  rank := ⟨fun _ => 0, by simp, fun a b hb => by rw [emptyGraph_nb] at hb; cases hb⟩

/-! ## `orient_edges_MB` only removes -/

/-- `e'` has the keys of `e` and shorter lists. -/
def Shrunk (e e' : Dict ℕ (List ℕ)) : Prop := e'.keys = e.keys ∧ ∀ a, (nb e' a).Sublist (nb e a)

theorem Shrunk.refl (e : Dict ℕ (List ℕ)) : Shrunk e e := ⟨rfl, fun _ => .refl _⟩

theorem Shrunk.trans {e e1 e2 : Dict ℕ (List ℕ)} (h1 : Shrunk e e1) (h2 : Shrunk e1 e2) : Shrunk e e2 :=
  ⟨h2.1.trans h1.1, fun a => (h2.2 a).trans (h1.2 a)⟩

theorem get_ok_inv {e : Dict ℕ (List ℕ)} {x : ℕ} {l : List ℕ} (h : e.get x = .ok l) : x ∈ e.keys ∧ l = nb e x := by
  have h' := Dict.get_eq_ok.1 h
  exact ⟨Dict.mem_keys_iff.2 (by rw [h']; rfl), by unfold nb; rw [h']; rfl⟩

theorem removeAt_shrunk {e e' : Dict ℕ (List ℕ)} {x y : ℕ} (h : removeAt e x y = .ok e') : Shrunk e e' := by
  by_cases hx : x ∈ e.keys
  · by_cases hy : y ∈ nb e x
    · rw [removeAt_ok hy] at h; cases h
      refine ⟨keys_set_mem hx _, fun a => ?_⟩
      rw [nb_set]; split_ifs with ha
      · subst ha; exact List.erase_sublist
      · exact .refl _
    · rw [removeAt_error hx hy] at h; cases h
  · unfold removeAt at h
    rw [Dict.get_of_none (Dict.get?_eq_none_iff.2 hx)] at h; cases h

theorem orientTests_shrunk {lt : List ℕ → Bool} {x y z : ℕ} : ∀ (ss : List (List ℕ)) (e e' : Dict ℕ (List ℕ)),
    orientTests lt x y z ss e = .ok e' → Shrunk e e'
  | [], e, e', h => by simp only [orientTests, Except.ok.injEq] at h; subst h; exact .refl e
  | s :: ss, e, e', h => by
      rw [orientTests] at h
      cases hg : e.get x with
      | error => rw [hg] at h; cases h
      | ok ex =>
        rw [hg] at h
        simp only [Py.bind_ok] at h
        by_cases hy : y ∈ ex
        · rw [if_pos hy] at h
          split_ifs at h with hl
          · cases hr : removeAt e x y with
            | error => rw [hr] at h; cases h
            | ok e1 => rw [hr] at h; exact (removeAt_shrunk hr).trans (orientTests_shrunk ss e1 e' h)
          · cases hr : removeAt e y x with
            | error => rw [hr] at h; cases h
            | ok e1 => rw [hr] at h; exact (removeAt_shrunk hr).trans (orientTests_shrunk ss e1 e' h)
        · rw [if_neg hy] at h
          exact orientTests_shrunk ss e e' h

theorem orientOne_shrunk {lt : List ℕ → Bool} {x y z : ℕ} {e e' : Dict ℕ (List ℕ)} (h : orientOne lt x y z e = .ok e') : Shrunk e e' := by
  unfold orientOne at h
  split_ifs at h with hl
  · cases hg : e.get x with
    | error => rw [hg] at h; cases h
    | ok ex =>
      rw [hg] at h
      simp only [Py.bind_ok] at h
      split_ifs at h with hy
      · exact removeAt_shrunk h
      · cases h; exact .refl e
  · cases hg : e.get y with
    | error => rw [hg] at h; cases h
    | ok ey =>
      rw [hg] at h
      simp only [Py.bind_ok] at h
      split_ifs at h with hy
      · exact removeAt_shrunk h
      · cases h; exact .refl e

theorem orientZ_shrunk {lt : List ℕ → Bool} {h : HashOrder ℕ} {mb : Dict ℕ (List ℕ)} {x y : ℕ} : ∀ (zs : List ℕ) (e e' : Dict ℕ (List ℕ)),
    orientZ lt h mb x y zs e = .ok e' → Shrunk e e'
  | [], e, e', hh => by simp only [orientZ, Except.ok.injEq] at hh; subst hh; exact .refl e
  | z :: zs, e, e', hh => by
      rw [orientZ] at hh
      cases h1 : mb.get y with
      | error => rw [h1] at hh; cases hh
      | ok my =>
        cases h2 : mb.get z with
        | error => rw [h1, h2] at hh; cases hh
        | ok mz =>
          rw [h1, h2] at hh
          simp only [Py.bind_ok] at hh
          split_ifs at hh with ht
          · cases hr : orientTests lt x y z ((List.range (minSet ((my.dedup.erase x).erase z) ((mz.dedup.erase x).erase y)).length).flatMap
                fun i => combinations (h.iter (minSet ((my.dedup.erase x).erase z) ((mz.dedup.erase x).erase y))) i) e with
            | error => rw [hr] at hh; cases hh
            | ok e1 => rw [hr] at hh; exact (orientTests_shrunk _ e e1 hr).trans (orientZ_shrunk zs e1 e' hh)
          · cases hr : orientOne lt x y z e with
            | error => rw [hr] at hh; cases hh
            | ok e1 => rw [hr] at hh; exact (orientOne_shrunk hr).trans (orientZ_shrunk zs e1 e' hh)

theorem orientY_shrunk {lt : List ℕ → Bool} {h : HashOrder ℕ} {mb : Dict ℕ (List ℕ)} {x : ℕ} : ∀ (k i : ℕ) (e e' : Dict ℕ (List ℕ)),
    orientY lt h mb x k i e = .ok e' → Shrunk e e'
  | 0, _, e, e', hh => by simp only [orientY, Except.ok.injEq] at hh; subst hh; exact .refl e
  | k + 1, i, e, e', hh => by
      rw [orientY] at hh
      cases h1 : e.get x with
      | error => rw [h1] at hh; cases hh
      | ok ex =>
        rw [h1] at hh
        simp only [Py.bind_ok] at hh
        cases h2 : ex[i]? with
        | none => rw [h2] at hh; cases hh; exact .refl e
        | some y =>
          rw [h2] at hh
          simp only at hh
          cases h3 : e.get y with
          | error => rw [h3] at hh; cases hh
          | ok ey =>
            rw [h3] at hh
            simp only [Py.bind_ok] at hh
            cases h4 : orientZ lt h mb x y (h.iter ((ex.dedup.filter fun v => decide (v ∉ ey)).erase y)) e with
            | error => rw [h4] at hh; cases hh
            | ok e1 => rw [h4] at hh; exact (orientZ_shrunk _ e e1 h4).trans (orientY_shrunk k (i + 1) e1 e' hh)

theorem orientX_shrunk {lt : List ℕ → Bool} {h : HashOrder ℕ} {mb : Dict ℕ (List ℕ)} : ∀ (xs : List ℕ) (e e' : Dict ℕ (List ℕ)),
    orientX lt h mb xs e = .ok e' → Shrunk e e'
  | [], e, e', hh => by simp only [orientX, Except.ok.injEq] at hh; subst hh; exact .refl e
  | x :: xs, e, e', hh => by
      rw [orientX] at hh
      cases h1 : e.get x with
      | error => rw [h1] at hh; cases hh
      | ok ex =>
        rw [h1] at hh
        simp only [Py.bind_ok] at hh
        cases h4 : orientY lt h mb x ex.length 0 e with
        | error => rw [h4] at hh; cases hh
        | ok e1 => rw [h4] at hh; exact (orientY_shrunk _ _ e e1 h4).trans (orientX_shrunk xs e1 e' hh)

end Constraint
end PyBN
