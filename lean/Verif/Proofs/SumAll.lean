import Verif.Proofs.Radix
import Mathlib.Algebra.BigOperators.Ring.Finset
import Mathlib.Algebra.BigOperators.Intervals
import Mathlib.Algebra.Order.BigOperators.Group.Finset

/-! Nested sums over assignments. -/

set_option linter.unusedSectionVars false

namespace PyBN
variable {N : Type _} [DecidableEq N] {c : N → ℕ}

theorem list_sum_range (n : ℕ) (g : ℕ → ℚ) : ((List.range n).map g).sum = ∑ x ∈ Finset.range n, g x := by
  induction n with
  | zero => simp
  | succ n ih => rw [List.range_succ, List.map_append, List.sum_append, Finset.sum_range_succ, ih]; simp

theorem sumAll_congr {vs : List N} {F G : Asg N → ℚ} : ∀ {a : Asg N},
    (∀ b, (∀ u, u ∉ vs → b u = a u) → InRange c vs b → F b = G b) →
    vs.Nodup → sumAll c vs F a = sumAll c vs G a := by
  induction vs with
  | nil => intro a h _; exact h a (fun _ _ => rfl) (by simp [InRange])
  | cons v vs ih =>
    intro a h hn
    rw [List.nodup_cons] at hn
    simp only [sumAll]
    apply Finset.sum_congr rfl
    intro x hx
    apply ih _ hn.2
    intro b hb hr
    have hbv : b v = x := by rw [hb v hn.1, Asg.upd_self]
    apply h b
    · intro u hu
      simp only [List.mem_cons, not_or] at hu
      rw [hb u hu.2, Asg.upd_ne _ _ hu.1]
    · intro u hu
      rcases List.mem_cons.1 hu with rfl | hu
      · rw [hbv]; exact Finset.mem_range.1 hx
      · exact hr u hu

/-- `sumAll` does not look at the summed variables of the base assignment. -/
theorem sumAll_base {vs : List N} {F : Asg N → ℚ} : ∀ {a b : Asg N}, (∀ u, u ∉ vs → a u = b u) →
    sumAll c vs F a = sumAll c vs F b := by
  induction vs with
  | nil => intro a b h; simp only [sumAll]; rw [show a = b from funext fun u => h u (by simp)]
  | cons v vs ih =>
    intro a b h
    simp only [sumAll]
    apply Finset.sum_congr rfl
    intro x _
    apply ih
    intro u hu
    by_cases huv : u = v
    · subst huv; simp [Asg.upd_self]
    · rw [Asg.upd_ne _ _ huv, Asg.upd_ne _ _ huv]; exact h u (by simp [huv, hu])

theorem sumAll_swap {u v : N} (h : u ≠ v) (vs : List N) (F : Asg N → ℚ) (a : Asg N) :
    sumAll c (u :: v :: vs) F a = sumAll c (v :: u :: vs) F a := by
  simp only [sumAll]
  rw [Finset.sum_comm]
  apply Finset.sum_congr rfl; intro y _
  apply Finset.sum_congr rfl; intro x _
  rw [Asg.upd_comm _ h]

theorem sumAll_perm {vs ws : List N} (h : vs.Perm ws) (F : Asg N → ℚ) : vs.Nodup → ∀ a,
    sumAll c vs F a = sumAll c ws F a := by
  induction h with
  | nil => intros; rfl
  | cons v _ ih =>
    intro hn a
    rw [List.nodup_cons] at hn
    simp only [sumAll]
    exact Finset.sum_congr rfl fun x _ => ih hn.2 _
  | swap u v l =>
    intro hn a
    apply sumAll_swap
    rintro rfl
    simp at hn
  | trans h1 _ ih1 ih2 => intro hn a; rw [ih1 hn, ih2 (h1.nodup_iff.1 hn)]

theorem sumAll_append (vs ws : List N) (F : Asg N → ℚ) (a : Asg N) :
    sumAll c (vs ++ ws) F a = sumAll c vs (sumAll c ws F) a := by
  induction vs generalizing a with
  | nil => rfl
  | cons v vs ih => simp only [List.cons_append, sumAll, ih]

theorem sumAll_mul_left {vs : List N} {G : Asg N → ℚ} (hG : ∀ a b : Asg N, (∀ u, u ∉ vs → a u = b u) → G a = G b)
    (F : Asg N → ℚ) (a : Asg N) : sumAll c vs (fun b => G b * F b) a = G a * sumAll c vs F a := by
  induction vs generalizing a with
  | nil => rfl
  | cons v vs ih =>
    simp only [sumAll]
    rw [Finset.mul_sum]
    apply Finset.sum_congr rfl
    intro x _
    rw [ih fun a b h => hG a b fun u hu => h u fun h' => hu (by simp [h'])]
    congr 1
    apply hG
    intro u hu
    simp only [List.mem_cons, not_or] at hu
    rw [Asg.upd_ne _ _ hu.1]

theorem sum_range_mul (C T : ℕ) (g : ℕ → ℚ) :
    ∑ t ∈ Finset.range T, ∑ x ∈ Finset.range C, g (x + C * t) = ∑ s ∈ Finset.range (C * T), g s := by
  induction T with
  | zero => simp
  | succ T ih =>
    rw [Finset.sum_range_succ, ih, Nat.mul_succ, Finset.sum_range_add]
    congr 1
    apply Finset.sum_congr rfl; intro x _; rw [add_comm]

theorem sumAll_enc {o : List N} (hn : o.Nodup) (g : ℕ → ℚ) (a : Asg N) :
    sumAll c o (fun b => g (enc c o b)) a = ∑ t ∈ Finset.range ((o.map c).prod), g t := by
  induction o generalizing g a with
  | nil => simp [sumAll, enc]
  | cons v o ih =>
    rw [List.nodup_cons] at hn
    simp only [sumAll, List.map_cons, List.prod_cons]
    rw [← sum_range_mul, Finset.sum_comm]
    apply Finset.sum_congr rfl
    intro x _
    rw [← ih hn.2 (fun t => g (x + c v * t)) (a.upd v x)]
    apply sumAll_congr _ hn.2
    intro b hb _
    simp only [enc]
    rw [hb v hn.1, Asg.upd_self]

theorem sumAll_nonneg {vs : List N} {F : Asg N → ℚ} (hF : ∀ b, 0 ≤ F b) (a : Asg N) : 0 ≤ sumAll c vs F a := by
  induction vs generalizing a with
  | nil => exact hF a
  | cons v vs ih => exact Finset.sum_nonneg fun x _ => ih _

end PyBN
