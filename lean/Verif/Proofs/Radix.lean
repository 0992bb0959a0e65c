import Verif.Spec.Factor
import Mathlib.Tactic.Ring
import Mathlib.Tactic.Linarith
import Mathlib.Algebra.BigOperators.Group.List.Lemmas
import Mathlib.Data.List.Nodup

/-! Mixed-radix encodings of assignments. -/

namespace PyBN
variable {N : Type _} [DecidableEq N]

/-- Odometer increment. -/
def inc (c : N → ℕ) : List N → Asg N → Asg N
  | [], a => a
  | v :: o, a => if a v + 1 = c v then inc c o (a.upd v 0) else a.upd v (a v + 1)

theorem Asg.upd_self (a : Asg N) (v : N) (x : ℕ) : a.upd v x v = x := by simp [Asg.upd]
theorem Asg.upd_ne (a : Asg N) {v u : N} (x : ℕ) (h : u ≠ v) : a.upd v x u = a u := by simp [Asg.upd, h]
theorem Asg.upd_id (a : Asg N) (v : N) : a.upd v (a v) = a := by
  funext u; by_cases h : u = v <;> simp [Asg.upd, h]
theorem Asg.upd_comm (a : Asg N) {u v : N} (h : u ≠ v) (x y : ℕ) :
    (a.upd u x).upd v y = (a.upd v y).upd u x := by
  funext w; simp only [Asg.upd]; split_ifs with h1 h2 <;> first | rfl | (exfalso; subst h1; exact h h2.symm)

theorem Asg.upd_upd (a : Asg N) (u : N) (x y : ℕ) : (a.upd u x).upd u y = a.upd u y := by
  funext w; simp only [Asg.upd]; split_ifs <;> rfl

omit [DecidableEq N] in
theorem enc_congr {c : N → ℕ} {o : List N} {a b : Asg N} (h : ∀ v ∈ o, a v = b v) : enc c o a = enc c o b := by
  induction o with
  | nil => rfl
  | cons v o ih =>
    simp only [enc]
    rw [h v (by simp), ih fun u hu => h u (by simp [hu])]

theorem enc_upd_notMem {c : N → ℕ} {o : List N} {a : Asg N} {v : N} {x : ℕ} (h : v ∉ o) :
    enc c o (a.upd v x) = enc c o a :=
  enc_congr fun u hu => Asg.upd_ne a x (by rintro rfl; exact h hu)

omit [DecidableEq N] in
theorem enc_lt {c : N → ℕ} {o : List N} {a : Asg N} (h : InRange c o a) : enc c o a < (o.map c).prod := by
  induction o with
  | nil => simp [enc]
  | cons v o ih =>
    simp only [enc, List.map_cons, List.prod_cons]
    have h1 := h v (by simp)
    have h2 := ih fun u hu => h u (by simp [hu])
    calc a v + c v * enc c o a < c v + c v * enc c o a := by omega
      _ = c v * (enc c o a + 1) := by ring
      _ ≤ c v * (o.map c).prod := Nat.mul_le_mul_left _ h2

omit [DecidableEq N] in
theorem enc_inj {c : N → ℕ} {o : List N} {a b : Asg N} (ha : InRange c o a) (hb : InRange c o b)
    (h : enc c o a = enc c o b) : ∀ v ∈ o, a v = b v := by
  induction o with
  | nil => simp
  | cons v o ih =>
    simp only [enc] at h
    have h1 := ha v (by simp)
    have h2 := hb v (by simp)
    have hmod : a v = b v := by
      have := congrArg (· % c v) h
      simpa [Nat.add_mul_mod_self_left, Nat.mod_eq_of_lt h1, Nat.mod_eq_of_lt h2] using this
    have hc : 0 < c v := by omega
    have hrest : enc c o a = enc c o b := by
      rw [hmod] at h
      exact Nat.eq_of_mul_eq_mul_left hc (by omega)
    intro u hu
    rcases List.mem_cons.1 hu with rfl | hu
    · exact hmod
    · exact ih (fun w hw => ha w (by simp [hw])) (fun w hw => hb w (by simp [hw])) hrest u hu

theorem enc_surj {c : N → ℕ} {o : List N} (hn : o.Nodup) {i : ℕ} (h : i < (o.map c).prod) :
    ∃ a : Asg N, InRange c o a ∧ enc c o a = i := by
  induction o generalizing i with
  | nil => exact ⟨fun _ => 0, by simp [InRange], by simp at h; simp [enc, h]⟩
  | cons v o ih =>
    simp only [List.map_cons, List.prod_cons] at h
    have hc : 0 < c v := Nat.pos_of_mul_pos_left (by omega : 0 < c v * (o.map c).prod) |> fun _ => by
      rcases Nat.eq_zero_or_pos (c v) with h0 | h0
      · simp [h0] at h
      · exact h0
    rw [List.nodup_cons] at hn
    obtain ⟨a, ha, hi⟩ := ih hn.2 (i := i / c v) (Nat.div_lt_of_lt_mul h)
    refine ⟨a.upd v (i % c v), ?_, ?_⟩
    · intro u hu
      by_cases huv : u = v
      · subst huv; rw [Asg.upd_self]; exact Nat.mod_lt _ hc
      · rw [Asg.upd_ne a _ huv]; exact ha u (by simpa [huv] using hu)
    · simp only [enc, Asg.upd_self, enc_upd_notMem hn.1, hi]
      exact Nat.mod_add_div i (c v)

omit [DecidableEq N] in
theorem enc_append {c : N → ℕ} (o1 o2 : List N) (a : Asg N) :
    enc c (o1 ++ o2) a = enc c o1 a + (o1.map c).prod * enc c o2 a := by
  induction o1 with
  | nil => simp [enc]
  | cons v o ih => simp only [List.cons_append, enc, ih, List.map_cons, List.prod_cons]; ring

omit [DecidableEq N] in
theorem layout_sum {c s : N → ℕ} {o : List N} {p : ℕ} (h : IsLayout c s o p) (a : Asg N) :
    (o.map fun v => a v * s v).sum = p * enc c o a := by
  induction o generalizing p with
  | nil => simp [enc]
  | cons v o ih =>
    simp only [IsLayout] at h
    simp only [List.map_cons, List.sum_cons, enc, ih h.2, h.1]
    ring

omit [DecidableEq N] in
theorem isLayout_congr {c s s' : N → ℕ} {o : List N} {p : ℕ} (h : ∀ v ∈ o, s v = s' v) :
    IsLayout c s o p ↔ IsLayout c s' o p := by
  induction o generalizing p with
  | nil => rfl
  | cons v o ih =>
    simp only [IsLayout, h v (by simp)]
    rw [ih fun u hu => h u (by simp [hu])]

omit [DecidableEq N] in
theorem isLayout_append {c s : N → ℕ} {o1 o2 : List N} {p : ℕ} :
    IsLayout c s (o1 ++ o2) p ↔ IsLayout c s o1 p ∧ IsLayout c s o2 (p * (o1.map c).prod) := by
  induction o1 generalizing p with
  | nil => simp [IsLayout]
  | cons v o ih => simp [IsLayout, ih, and_assoc, mul_assoc]

/-! ### The odometer -/

theorem inc_inRange {c : N → ℕ} {o : List N} (hn : o.Nodup) {a : Asg N} (h : InRange c o a) :
    InRange c o (inc c o a) := by
  induction o generalizing a with
  | nil => simp [InRange]
  | cons v o ih =>
    rw [List.nodup_cons] at hn
    simp only [inc]
    have hv := h v (by simp)
    have key : ∀ (o : List N) (b : Asg N), v ∉ o → inc c o b v = b v := by
      intro o
      induction o with
      | nil => intro b _; rfl
      | cons w o ih =>
        intro b hw
        simp only [List.mem_cons, not_or] at hw
        simp only [inc]
        split
        · rw [ih _ hw.2, Asg.upd_ne _ _ hw.1]
        · rw [Asg.upd_ne _ _ hw.1]
    split
    · have hr : InRange c o (a.upd v 0) := fun u hu => by
        rw [Asg.upd_ne _ _ (by rintro rfl; exact hn.1 hu)]; exact h u (by simp [hu])
      intro u hu
      rcases List.mem_cons.1 hu with rfl | hu
      · rw [key o _ hn.1, Asg.upd_self]; omega
      · exact ih hn.2 hr u hu
    · intro u hu
      by_cases huv : u = v
      · subst huv; rw [Asg.upd_self]; omega
      · rw [Asg.upd_ne _ _ huv]; exact h u hu

theorem enc_inc {c : N → ℕ} {o : List N} (hn : o.Nodup) {a : Asg N} (h : InRange c o a)
    (hlt : enc c o a + 1 < (o.map c).prod) : enc c o (inc c o a) = enc c o a + 1 := by
  induction o generalizing a with
  | nil => simp at hlt
  | cons v o ih =>
    rw [List.nodup_cons] at hn
    have key : ∀ (o : List N) (b : Asg N), v ∉ o → inc c o b v = b v := by
      intro o
      induction o with
      | nil => intro b _; rfl
      | cons w o ih =>
        intro b hw
        simp only [List.mem_cons, not_or] at hw
        simp only [inc]
        split
        · rw [ih _ hw.2, Asg.upd_ne _ _ hw.1]
        · rw [Asg.upd_ne _ _ hw.1]
    have hv := h v (by simp)
    simp only [inc]
    split
    · rename_i hc
      have hr : InRange c o (a.upd v 0) := fun u hu => by
        rw [Asg.upd_ne _ _ (by rintro rfl; exact hn.1 hu)]; exact h u (by simp [hu])
      have he : enc c o (a.upd v 0) = enc c o a := enc_upd_notMem hn.1
      have hlt' : enc c o (a.upd v 0) + 1 < (o.map c).prod := by
        rw [he]
        simp only [enc, List.map_cons, List.prod_cons] at hlt
        have : c v * (enc c o a + 1) < c v * (o.map c).prod := by
          have : c v * (enc c o a + 1) = c v * enc c o a + c v := by ring
          omega
        exact Nat.lt_of_mul_lt_mul_left this
      simp only [enc]
      rw [key o _ hn.1, Asg.upd_self, ih hn.2 hr hlt', he]
      have : c v * (enc c o a + 1) = c v * enc c o a + c v := by ring
      omega
    · simp only [enc, Asg.upd_self, enc_upd_notMem hn.1]; omega

end PyBN
