import Verif.Props.Constraint

/-!
# C254: how good the tree of `chow_liu` is
-/

set_option linter.unusedSectionVars false

namespace PyBN
open Constraint

/-- The weight of the pair `{u, v}`. -/
def pairWeight (w : ℕ → ℕ → ℚ) (u v : ℕ) : ℚ := if u < v then w u v else w v u

theorem mem_nb_append {t t1 : Dict ℕ (List ℕ)} {k v a b : ℕ} (h : appendAt t k v = .ok t1) (hb : b ∈ nb t1 a) : b ∈ nb t a ∨ (a = k ∧ b = v) := by
  unfold appendAt at h
  cases hg : t.get k with
  | error => rw [hg] at h; cases h
  | ok l =>
    rw [hg] at h; cases h
    rw [nb_set] at hb
    split_ifs at hb with hak
    · subst hak
      rw [(get_ok_inv hg).2] at hb
      rcases List.mem_append.1 hb with hb | hb
      · exact .inl hb
      · exact .inr ⟨rfl, List.mem_singleton.1 hb⟩
    · exact .inl hb

/-- The pair of the root and `v` is among the pairs still to come. -/
def Waiting (es : List (ℕ × ℕ × ℚ)) (root v : ℕ) : Prop := ∃ e ∈ es, (e.1 = root ∧ e.2.1 = v) ∨ (e.1 = v ∧ e.2.1 = root)

theorem clLoop_star (w : ℕ → ℕ → ℚ) (root : ℕ) : ∀ (es : List (ℕ × ℕ × ℚ)) (c : List ℕ) (t t' : Dict ℕ (List ℕ)), root ∈ c → (es.Pairwise fun a b => b.2.2 ≤ a.2.2) →
    (∀ e ∈ es, e.1 < e.2.1 ∧ e.2.2 = w e.1 e.2.1) → clLoop es c t = .ok t' →
    ∀ u v, v ∈ nb t' u → v ∈ nb t u ∨ (v ∉ c ∧ (Waiting es root v → pairWeight w root v ≤ pairWeight w u v))
  | [], c, t, t', _, _, _, h, u, v, huv => by rw [clLoop] at h; cases h; exact .inl huv
  | (p, q, x) :: es, c, t, t', hr, hs, hw, h, u, v, huv => by
    obtain ⟨hs1, hs2⟩ := List.pairwise_cons.1 hs
    have hw' := fun e he => hw e (List.mem_cons_of_mem _ he)
    obtain ⟨hpq, hx⟩ := hw (p, q, x) List.mem_cons_self
    dsimp only at hpq hx
    have hwt : ∀ {e : ℕ × ℕ × ℚ}, e ∈ (p, q, x) :: es → e.2.2 ≤ x := by
      intro e he
      rcases List.mem_cons.1 he with rfl | he
      · exact le_refl _
      · exact hs1 e he
    have hpw : ∀ {e : ℕ × ℕ × ℚ} {y z : ℕ}, e ∈ (p, q, x) :: es → (e.1 = y ∧ e.2.1 = z) ∨ (e.1 = z ∧ e.2.1 = y) → pairWeight w y z = e.2.2 := by
      intro e y z he hyz
      obtain ⟨h1, h2⟩ := hw e he
      unfold pairWeight
      rcases hyz with ⟨rfl, rfl⟩ | ⟨rfl, rfl⟩
      · rw [if_pos h1, h2]
      · rw [if_neg (by omega), h2]
    have hhead : ∀ y z, (p = y ∧ q = z) ∨ (p = z ∧ q = y) → pairWeight w y z = x := fun y z h => hpw List.mem_cons_self h
    -- a node attached now or later is attached by a pair no lighter than the pair with the root
    have attach : ∀ y z t1, (p = y ∧ q = z) ∨ (p = z ∧ q = y) → y ∈ c → z ∉ c → appendAt t y z = .ok t1 → clLoop es (c ++ [z]) t1 = .ok t' →
        v ∈ nb t u ∨ (v ∉ c ∧ (Waiting ((p, q, x) :: es) root v → pairWeight w root v ≤ pairWeight w u v)) := by
      intro y z t1 hyz hy hz ha hrun
      rcases clLoop_star w root es (c ++ [z]) t1 t' (by simp [hr]) hs2 hw' hrun u v huv with h1 | ⟨h1, h2⟩
      · rcases mem_nb_append ha h1 with h1 | ⟨rfl, rfl⟩
        · exact .inl h1
        · refine .inr ⟨hz, ?_⟩
          rintro ⟨e, he, hev⟩
          rw [hpw he hev, hhead _ _ hyz]
          exact hwt he
      · have h1' : v ∉ c ∧ v ≠ z := by simpa using h1
        refine .inr ⟨h1'.1, ?_⟩
        rintro ⟨e, he, hev⟩
        rcases List.mem_cons.1 he with rfl | he
        · exfalso
          dsimp only at hev
          have hvr : root ≠ v := fun e => h1'.1 (e ▸ hr)
          rcases hyz with ⟨rfl, rfl⟩ | ⟨rfl, rfl⟩ <;> rcases hev with ⟨e1, e2⟩ | ⟨e1, e2⟩
          · exact h1'.2 e2.symm
          · exact h1'.1 (e1 ▸ hy)
          · exact h1'.1 (e2 ▸ hy)
          · exact h1'.2 e1.symm
        · exact h2 ⟨e, he, hev⟩
    rw [clLoop] at h
    split_ifs at h with c1 c2
    · cases ha : appendAt t p q with
      | error => rw [ha] at h; cases h
      | ok t1 => rw [ha] at h; exact attach p q t1 (.inl ⟨rfl, rfl⟩) c1.1 c1.2 ha h
    · cases ha : appendAt t q p with
      | error => rw [ha] at h; cases h
      | ok t1 => rw [ha] at h; exact attach q p t1 (.inr ⟨rfl, rfl⟩) c2.2 c2.1 ha h
    · rcases clLoop_star w root es c t t' hr hs2 hw' h u v huv with h1 | ⟨h1, h2⟩
      · exact .inl h1
      · refine .inr ⟨h1, ?_⟩
        rintro ⟨e, he, hev⟩
        rcases List.mem_cons.1 he with rfl | he
        · exfalso
          dsimp only at hev
          rcases hev with ⟨rfl, rfl⟩ | ⟨rfl, rfl⟩
          · exact c1 ⟨hr, h1⟩
          · exact c2 ⟨h1, hr⟩
        · exact h2 ⟨e, he, hev⟩

/-- **C254**: in the tree of `chow_liu` every node is attached to its parent by a pair at least as heavy as its pair with the root; the root is the first node of a heaviest pair.  So the
tree is at least as heavy as the star around the root. -/
theorem C254_at_least_star (w : ℕ → ℕ → ℚ) (n : ℕ) (hn : 2 ≤ n) :
    ∃ t root j, clTree w n = .ok t ∧ (root < j ∧ j < n ∧ ∀ a b, a < b → b < n → w a b ≤ w root j) ∧ (∀ v < n, v ≠ root → ∃! u, Arc t u v) ∧
      (∀ u v, Arc t u v → pairWeight w root v ≤ pairWeight w u v) ∧
      ∀ parent : ℕ → ℕ, (∀ v < n, v ≠ root → Arc t (parent v) v) →
        (((List.range n).filter fun v => v ≠ root).map fun v => pairWeight w root v).sum ≤ (((List.range n).filter fun v => v ≠ root).map fun v => pairWeight w (parent v) v).sum := by
  obtain ⟨t, root, j, h1, h2, h3, h4, h5, h6, h7, h8, h9⟩ := C50_chow_liu_tree w n hn
  have key : ∀ u v, Arc t u v → pairWeight w root v ≤ pairWeight w u v := by
    intro u v huv
    obtain ⟨hu, hv⟩ := h5 u v huv
    have hvr : v ≠ root := by rintro rfl; exact h6 u huv
    unfold clTree at h1
    cases hl : edgeList w n with
    | nil => rw [hl] at h1; cases h1
    | cons a es =>
      obtain ⟨i, k, q⟩ := a
      rw [hl] at h1
      dsimp only at h1
      have hroot : i = root := by
        by_contra hne
        -- every node but the first has a parent
        have hm : (i, k, q) ∈ edgeList w n := by rw [hl]; simp
        obtain ⟨hik, hkn, -⟩ := mem_edgeList.1 hm
        obtain ⟨y, hy, -⟩ := h7 i (by omega) hne
        have hs : (edgeList w n).Pairwise fun a b => b.2.2 ≤ a.2.2 := sortDesc_pairwise _
        rw [hl] at hs
        rcases clLoop_star w i _ [i] _ t (by simp) hs (fun e he => by
          rw [← hl] at he
          obtain ⟨p1, p2, p3⟩ := e
          obtain ⟨q1, q2, q3⟩ := mem_edgeList.1 he
          exact ⟨q1, q3⟩) h1 y i (arc_iff_nb.1 hy) with h | h
        · rw [emptyGraph_nb] at h; cases h
        · exact h.1 (by simp)
      subst hroot
      have hs : (edgeList w n).Pairwise fun a b => b.2.2 ≤ a.2.2 := sortDesc_pairwise _
      rw [hl] at hs
      rcases clLoop_star w i _ [i] _ t (by simp) hs (fun e he => by
          rw [← hl] at he
          obtain ⟨p1, p2, p3⟩ := e
          obtain ⟨q1, q2, q3⟩ := mem_edgeList.1 he
          exact ⟨q1, q3⟩) h1 u v (arc_iff_nb.1 huv) with h | ⟨-, h⟩
      · rw [emptyGraph_nb] at h; cases h
      · apply h
        rw [← hl]
        rcases Nat.lt_or_gt_of_ne hvr with hlt | hlt
        · exact ⟨(v, i, w v i), mem_edgeList.2 ⟨hlt, by omega, rfl⟩, .inr ⟨rfl, rfl⟩⟩
        · exact ⟨(i, v, w i v), mem_edgeList.2 ⟨hlt, hv, rfl⟩, .inl ⟨rfl, rfl⟩⟩
  refine ⟨t, root, j, h1, h3, h7, key, fun parent hpar => ?_⟩
  refine List.sum_le_sum fun v hv => ?_
  obtain ⟨hv1, hv2⟩ := List.mem_filter.1 hv
  exact key _ _ (hpar v (List.mem_range.1 hv1) (by simpa using hv2))

/-- In the counterexample to C84 the star around the root weighs 12, the tree 19 and the heaviest tree 27. -/
example : pairWeight clW 0 1 + pairWeight clW 0 2 + pairWeight clW 0 3 = 12 ∧ pairWeight clW 0 1 + pairWeight clW 1 2 + pairWeight clW 0 3 = 19 ∧
    pairWeight clW 0 1 + pairWeight clW 1 2 + pairWeight clW 2 3 = 27 := by decide +kernel

end PyBN
