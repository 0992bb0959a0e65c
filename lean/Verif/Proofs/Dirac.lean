import Verif.Spec.Chordal
import Mathlib.Data.ZMod.Basic
import Mathlib.Data.Finset.Card
import Mathlib.Logic.Relation

/-!
# Chordal graphs have simplicial vertices (Dirac)

`adj` is a symmetric irreflexive relation, `W` a finite set of vertices.
-/

set_option linter.unusedSectionVars false
namespace PyBN
namespace Chordal
variable {V : Type _} [DecidableEq V]

/-- Every cycle of length at least four inside `W` has a chord. -/
def ChordalOn (adj : V → V → Prop) (W : Finset V) : Prop :=
  ∀ n : ℕ, 4 ≤ n → ∀ c : ZMod n → V, Function.Injective c → (∀ i, c i ∈ W) → (∀ i, adj (c i) (c (i + 1))) →
    ∃ i j, i ≠ j ∧ i ≠ j + 1 ∧ j ≠ i + 1 ∧ adj (c i) (c j)

theorem ChordalOn.mono {adj : V → V → Prop} {W W' : Finset V} (h : ChordalOn adj W) (hs : W' ⊆ W) : ChordalOn adj W' :=
  fun n hn c hc hW ha => h n hn c hc (fun i => hs (hW i)) ha

/-- A path of length `n` from `x` to `y` inside `B`. -/
def PathIn (adj : V → V → Prop) (B : V → Prop) (x y : V) (n : ℕ) (f : ℕ → V) : Prop :=
  f 0 = x ∧ f n = y ∧ (∀ i < n, adj (f i) (f (i + 1))) ∧ ∀ i ≤ n, B (f i)

theorem PathIn.of_reach {adj : V → V → Prop} {B : V → Prop} {x y : V} (hx : B x)
    (h : Relation.ReflTransGen (fun a b => adj a b ∧ B b) x y) : ∃ n f, PathIn adj B x y n f := by
  induction h with
  | refl => exact ⟨0, fun _ => x, rfl, rfl, by simp, fun _ _ => hx⟩
  | @tail b c _ hbc ih =>
    obtain ⟨n, f, h0, hn, ha, hB⟩ := ih
    refine ⟨n + 1, fun k => if k ≤ n then f k else c, by simp [h0], by simp, ?_, ?_⟩
    · intro i hi
      by_cases hin : i < n
      · have : i + 1 ≤ n := hin
        simp only [if_pos (le_of_lt hin), if_pos this]
        exact ha i hin
      · have : i = n := by omega
        subst this
        simp only [le_refl, if_true, Nat.not_succ_le_self, if_false, hn]
        exact hbc.1
    · intro i _
      dsimp only
      split_ifs with hin
      · exact hB i hin
      · exact hbc.2

/-- A shortest path has no repetitions and no chords. -/
theorem PathIn.shortest {adj : V → V → Prop} {B : V → Prop} {x y : V} (h : ∃ n f, PathIn adj B x y n f) :
    ∃ n f, PathIn adj B x y n f ∧ (∀ i j, i < j → j ≤ n → f i ≠ f j) ∧ ∀ i j, i + 2 ≤ j → j ≤ n → ¬ adj (f i) (f j) := by
  classical
  obtain ⟨f, hf⟩ := Nat.find_spec h
  set n := Nat.find h with hn
  have hmin : ∀ m < n, ∀ g, ¬ PathIn adj B x y m g := fun m hm g hg => Nat.find_min h hm ⟨g, hg⟩
  obtain ⟨h0, h1, ha, hB⟩ := hf
  refine ⟨n, f, ⟨h0, h1, ha, hB⟩, ?_, ?_⟩
  · intro i j hij hj he
    refine hmin (n - (j - i)) (by omega) (fun k => if k ≤ i then f k else f (k + (j - i))) ⟨by simp [h0], ?_, ?_, ?_⟩
    · dsimp only
      split_ifs with hc
      · have : j = n := by omega
        have h2 : n - (j - i) = i := by omega
        rw [h2, he, this, h1]
      · rw [show n - (j - i) + (j - i) = n by omega, h1]
    · intro k hk
      dsimp only
      by_cases hki : k + 1 ≤ i
      · rw [if_pos (by omega), if_pos hki]; exact ha k (by omega)
      · rw [if_neg hki]
        by_cases hk2 : k ≤ i
        · have : k = i := by omega
          subst this
          rw [if_pos le_rfl, he, show k + 1 + (j - k) = j + 1 by omega]
          exact ha j (by omega)
        · rw [if_neg hk2, show k + 1 + (j - i) = k + (j - i) + 1 by omega]
          exact ha _ (by omega)
    · intro k hk
      dsimp only
      split_ifs with hc
      · exact hB k (by omega)
      · exact hB _ (by omega)
  · intro i j hij hj hadj
    refine hmin (n - (j - i - 1)) (by omega) (fun k => if k ≤ i then f k else f (k + (j - i - 1))) ⟨by simp [h0], ?_, ?_, ?_⟩
    · dsimp only
      rw [if_neg (by omega), show n - (j - i - 1) + (j - i - 1) = n by omega, h1]
    · intro k hk
      dsimp only
      by_cases hki : k + 1 ≤ i
      · rw [if_pos (by omega), if_pos hki]; exact ha k (by omega)
      · rw [if_neg hki]
        by_cases hk2 : k ≤ i
        · have : k = i := by omega
          subst this
          rw [if_pos le_rfl, show k + 1 + (j - k - 1) = j by omega]
          exact hadj
        · rw [if_neg hk2, show k + 1 + (j - i - 1) = k + (j - i - 1) + 1 by omega]
          exact ha _ (by omega)
    · intro k hk
      dsimp only
      split_ifs with hc
      · exact hB k (by omega)
      · exact hB _ (by omega)

/-- The boundary of a component of the non-neighbours of `v` is complete. -/
theorem boundary_complete {adj : V → V → Prop} (sym : ∀ a b, adj a b → adj b a) {W : Finset V} (hch : ChordalOn adj W) {v x y : V}
    {A : V → Prop} (hvW : v ∈ W) (hAW : ∀ a, A a → a ∈ W) (hAv : ∀ a, A a → ¬ adj v a ∧ a ≠ v) (hxW : x ∈ W) (hyW : y ∈ W)
    (hvx : adj v x) (hvy : adj v y) (hxv : x ≠ v) (hyv : y ≠ v)
    (hpath : ∃ n f, PathIn adj (fun z => A z ∨ z = x ∨ z = y) x y n f) (hxy : x ≠ y) : adj x y := by
  by_contra hno
  obtain ⟨n, f, ⟨h0, h1, ha, hB⟩, hinj, hchord⟩ := PathIn.shortest hpath
  have hn2 : 2 ≤ n := by
    rcases Nat.lt_or_ge n 2 with h | h
    · rcases (by omega : n = 0 ∨ n = 1) with rfl | rfl
      · rw [h0] at h1; exact (hxy h1).elim
      · have := ha 0 (by omega); rw [h0, zero_add, h1] at this; exact (hno this).elim
    · exact h
  have hint : ∀ k, 0 < k → k < n → A (f k) := by
    intro k hk0 hkn
    rcases hB k (by omega) with h | h | h
    · exact h
    · exact (hinj 0 k hk0 (by omega) (by rw [h0, h])).elim
    · exact (hinj k n hkn le_rfl (by rw [h1, h])).elim
  have hfv : ∀ k, k ≤ n → f k ≠ v := by
    intro k hk
    rcases hB k hk with h | h | h
    · exact (hAv _ h).2
    · rw [h]; exact hxv
    · rw [h]; exact hyv
  haveI : NeZero (n + 2) := ⟨by omega⟩
  haveI : Fact (1 < n + 2) := ⟨by omega⟩
  let c : ZMod (n + 2) → V := fun i => if i.val ≤ n then f i.val else v
  have hval : ∀ i : ZMod (n + 2), i.val < n + 2 := fun i => ZMod.val_lt i
  have hsucc : ∀ i : ZMod (n + 2), i.val + 1 < n + 2 → (i + 1).val = i.val + 1 := by
    intro i hi
    rw [ZMod.val_add_of_lt (by rw [ZMod.val_one]; omega), ZMod.val_one]
  have hlast : ∀ i : ZMod (n + 2), i.val = n + 1 → (i + 1).val = 0 := by
    intro i hi
    rw [ZMod.val_add, hi, ZMod.val_one, Nat.mod_self]
  have hcinj : Function.Injective c := by
    intro i j hij
    apply ZMod.val_injective
    simp only [c] at hij
    split_ifs at hij with p q q
    · rcases lt_trichotomy i.val j.val with h | h | h
      · exact (hinj _ _ h q hij).elim
      · exact h
      · exact (hinj _ _ h p hij.symm).elim
    · exact (hfv _ p hij).elim
    · exact (hfv _ q hij.symm).elim
    · have := hval i; have := hval j; omega
  obtain ⟨i, j, hij, hij1, hji1, hadj⟩ := hch (n + 2) (by omega) c hcinj (by
      intro i
      simp only [c]
      split_ifs with p
      · rcases hB _ p with h | h | h
        · exact hAW _ h
        · rw [h]; exact hxW
        · rw [h]; exact hyW
      · exact hvW) (by
      intro i
      simp only [c]
      by_cases hi : i.val < n
      · rw [hsucc i (by omega), if_pos (by omega), if_pos (by omega)]; exact ha _ hi
      · by_cases hi2 : i.val = n
        · rw [hsucc i (by omega), if_pos (by omega), if_neg (by omega), hi2, h1]; exact sym _ _ hvy
        · have hi3 : i.val = n + 1 := by have := hval i; omega
          rw [hlast i hi3, if_neg (by omega), if_pos (by omega), h0]; exact hvx)
  have key : ∀ i j : ZMod (n + 2), i.val < j.val → j ≠ i + 1 → i ≠ j + 1 → adj (c i) (c j) → False := by
    intro i j hlt hne hne' hadj
    simp only [c] at hadj
    have hj := hval j
    rw [if_pos (by omega)] at hadj
    split_ifs at hadj with q
    · refine hchord _ _ ?_ q hadj
      by_contra hcon
      apply hne
      apply ZMod.val_injective
      rw [hsucc i (by omega)]; omega
    · have hjn : j.val = n + 1 := by omega
      have hi0 : 0 < i.val := by
        rcases Nat.eq_zero_or_pos i.val with h | h
        · exact (hne' (ZMod.val_injective _ (by rw [hlast j hjn, h]))).elim
        · exact h
      have hin : i.val < n := by
        by_contra hcon
        apply hne
        apply ZMod.val_injective
        rw [hsucc i (by omega)]; omega
      exact (hAv _ (hint _ hi0 hin)).1 (sym _ _ hadj)
  rcases lt_trichotomy i.val j.val with h | h | h
  · exact key i j h hji1 hij1 hadj
  · exact hij (ZMod.val_injective _ h)
  · exact key j i h hij1 hji1 (sym _ _ hadj)

/-- The neighbours of `u` in `W` are pairwise joined. -/
def Simplicial (adj : V → V → Prop) (W : Finset V) (u : V) : Prop :=
  u ∈ W ∧ ∀ a ∈ W, ∀ b ∈ W, adj u a → adj u b → a ≠ b → adj a b

/-- Dirac: if `v` is not joined to all of `W`, there is a simplicial vertex not joined to `v`. -/
theorem dirac {adj : V → V → Prop} (sym : ∀ a b, adj a b → adj b a) (irr : ∀ a, ¬ adj a a) : ∀ (k : ℕ) (W : Finset V), W.card = k → ChordalOn adj W →
    ∀ v ∈ W, (∃ w ∈ W, w ≠ v ∧ ¬ adj v w) → ∃ u, Simplicial adj W u ∧ u ≠ v ∧ ¬ adj v u := by
  classical
  intro k
  induction k using Nat.strong_induction_on with
  | _ k ih =>
    intro W hk hch v hv ⟨w, hw, hwv, hvw⟩
    -- the component of `w` among the non-neighbours of `v`
    let B : V → Prop := fun z => z ∈ W ∧ z ≠ v ∧ ¬ adj v z
    let A : V → Prop := fun z => Relation.ReflTransGen (fun a b => adj a b ∧ B b) w z
    have hBw : B w := ⟨hw, hwv, hvw⟩
    have hAB : ∀ z, A z → B z := by
      intro z hz
      cases hz with
      | refl => exact hBw
      | tail _ h => exact h.2
    have hAstep : ∀ a b, A a → adj a b → B b → A b := fun a b ha hab hb => ha.tail ⟨hab, hb⟩
    have hAback : ∀ a, A a → Relation.ReflTransGen (fun a b => adj a b ∧ A b) a w := by
      intro a ha
      induction ha with
      | refl => exact .refl
      | @tail b c hb hbc ihb =>
        exact Relation.ReflTransGen.head ⟨sym _ _ hbc.1, hb⟩ ihb
    have hAfwd : ∀ a, A a → Relation.ReflTransGen (fun a b => adj a b ∧ A b) w a := by
      intro a ha
      induction ha with
      | refl => exact .refl
      | @tail b c hb hbc ihb => exact ihb.tail ⟨hbc.1, hb.tail hbc⟩
    let S : V → Prop := fun s => s ∈ W ∧ adj v s ∧ ∃ a, A a ∧ adj s a
    have hScomplete : ∀ x y, S x → S y → x ≠ y → adj x y := by
      rintro x y ⟨hxW, hvx, a, ha, hxa⟩ ⟨hyW, hvy, b, hb, hyb⟩ hxy
      have hne : ∀ z, adj v z → z ≠ v := fun z hz h => irr v (h ▸ hz)
      refine boundary_complete sym hch (A := A) hv (fun a ha => (hAB a ha).1) (fun a ha => ⟨(hAB a ha).2.2, (hAB a ha).2.1⟩) hxW hyW hvx hvy
        (hne x hvx) (hne y hvy) ?_ hxy
      refine PathIn.of_reach (Or.inr (Or.inl rfl)) ?_
      have h1 : Relation.ReflTransGen (fun a b => adj a b ∧ (A b ∨ b = x ∨ b = y)) a b :=
        Relation.ReflTransGen.mono (fun p q h => ⟨h.1, Or.inl h.2⟩) _ _ ((hAback a ha).trans (hAfwd b hb))
      exact Relation.ReflTransGen.head ⟨hxa, Or.inl ha⟩ (h1.tail ⟨sym _ _ hyb, Or.inr (Or.inr rfl)⟩)
    let H : Finset V := W.filter fun z => A z ∨ S z
    have hHW : H ⊆ W := Finset.filter_subset _ _
    have hvH : v ∉ H := by
      intro h
      rcases (Finset.mem_filter.1 h).2 with h | h
      · exact (hAB v h).2.1 rfl
      · exact irr v h.2.1
    have hcard : H.card < k := by
      rw [← hk]
      exact Finset.card_lt_card ⟨hHW, fun h => hvH (h hv)⟩
    have hmemA : ∀ a, A a → a ∈ H := fun a ha => Finset.mem_filter.2 ⟨(hAB a ha).1, Or.inl ha⟩
    have hmemS : ∀ a, S a → a ∈ H := fun a ha => Finset.mem_filter.2 ⟨ha.1, Or.inr ha⟩
    -- neighbours of `A` stay in `H`
    have hnb : ∀ a, A a → ∀ b ∈ W, adj a b → b ∈ H := by
      intro a ha b hb hab
      by_cases hvb : adj v b
      · exact hmemS b ⟨hb, hvb, a, ha, sym _ _ hab⟩
      · refine hmemA b (hAstep a b ha hab ⟨hb, ?_, hvb⟩)
        rintro rfl
        exact (hAB a ha).2.2 (sym _ _ hab)
    have lift : ∀ u, A u → Simplicial adj H u → ∃ u, Simplicial adj W u ∧ u ≠ v ∧ ¬ adj v u := by
      intro u hu hs
      refine ⟨u, ⟨(hAB u hu).1, fun a ha b hb hua hub hab => hs.2 a (hnb u hu a ha hua) b (hnb u hu b hb hub) hua hub hab⟩, (hAB u hu).2.1, (hAB u hu).2.2⟩
    by_cases hS : ∃ s, S s ∧ ∃ z ∈ H, z ≠ s ∧ ¬ adj s z
    · obtain ⟨s, hs, hz⟩ := hS
      obtain ⟨u, hu, hus, hsu⟩ := ih H.card hcard H rfl (hch.mono hHW) s (hmemS s hs) hz
      rcases (Finset.mem_filter.1 hu.1).2 with h | h
      · exact lift u h hu
      · exact (hsu (hScomplete s u hs h (Ne.symm hus))).elim
    · push Not at hS
      by_cases hA : ∃ a, A a ∧ ∃ z ∈ H, z ≠ a ∧ ¬ adj a z
      · obtain ⟨a, ha, hz⟩ := hA
        obtain ⟨u, hu, hua, hau⟩ := ih H.card hcard H rfl (hch.mono hHW) a (hmemA a ha) hz
        rcases (Finset.mem_filter.1 hu.1).2 with h | h
        · exact lift u h hu
        · exact (hau (sym _ _ (hS u h a (hmemA a ha) (Ne.symm hua)))).elim
      · push Not at hA
        refine lift w .refl ⟨hmemA w .refl, ?_⟩
        intro a ha b hb _ _ hab
        rcases (Finset.mem_filter.1 ha).2 with h | h
        · exact hA a h b hb (Ne.symm hab)
        · exact hS a h b hb (Ne.symm hab)

/-- Every non-empty chordal graph has a simplicial vertex. -/
theorem exists_simplicial {adj : V → V → Prop} (sym : ∀ a b, adj a b → adj b a) (irr : ∀ a, ¬ adj a a) {W : Finset V} (hch : ChordalOn adj W)
    (hne : W.Nonempty) : ∃ u, Simplicial adj W u := by
  by_cases h : ∃ v ∈ W, ∃ w ∈ W, w ≠ v ∧ ¬ adj v w
  · obtain ⟨v, hv, hw⟩ := h
    obtain ⟨u, hu, -⟩ := dirac sym irr W.card W rfl hch v hv hw
    exact ⟨u, hu⟩
  · push Not at h
    obtain ⟨v, hv⟩ := hne
    exact ⟨v, hv, fun a ha b hb _ _ hab => h a ha b hb (Ne.symm hab)⟩

end Chordal
end PyBN
