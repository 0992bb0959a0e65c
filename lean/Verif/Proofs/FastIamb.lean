import Verif.Proofs.Iamb
import Verif.Proofs.Distance

/-!
# Proofs about `fast_iamb`
-/

set_option linter.unusedSectionVars false

namespace PyBN
namespace Constraint

theorem pyMap_error_inv {α β : Type _} (f : α → Py β) {err : PyErr} : ∀ {l : List α}, pyMap f l = .error err → ∃ x ∈ l, f x = .error err
  | [], h => by cases h
  | x :: l, h => by
      rw [pyMap] at h
      cases hx : f x with
      | error e => rw [hx] at h; cases h; exact ⟨x, by simp, hx⟩
      | ok y =>
        rw [hx, Py.bind_ok] at h
        cases hl : pyMap f l with
        | error e =>
          rw [hl] at h; cases h
          obtain ⟨z, hz, hh⟩ := pyMap_error_inv f hl
          exact ⟨z, by simp [hz], hh⟩
        | ok ys => rw [hl] at h; cases h

theorem fastStart_error {lt : List ℕ → Bool} {t : ℕ} : ∀ (l : List ℕ), (∃ a ∈ l, lt [a, t] = false) → fastStart lt t l = .error .runtimeError
  | [], h => by obtain ⟨a, ha, _⟩ := h; cases ha
  | a :: l, h => by
      rw [fastStart]
      by_cases hb : lt [a, t] = true
      · rw [if_pos hb]
        refine fastStart_error l ?_
        obtain ⟨c, hc, hl⟩ := h
        rcases List.mem_cons.1 hc with rfl | hc
        · rw [hb] at hl; cases hl
        · exact ⟨c, hc, hl⟩
      · rw [if_neg hb]

theorem fastStart_ok {lt : List ℕ → Bool} {t : ℕ} : ∀ (l : List ℕ), (∀ a ∈ l, lt [a, t] = true) → fastStart lt t l = .ok ()
  | [], _ => rfl
  | a :: l, h => by
      rw [fastStart, if_pos (h a (by simp))]
      exact fastStart_ok l fun c hc => h c (by simp [hc])

theorem fastLoop_error {lt : List ℕ → Bool} {srt : List ℕ → HashOrder ℕ} {h : HashOrder ℕ} {card : ℕ → ℕ} {n N k t : ℕ} : ∀ (fuel : ℕ) (S mb : List ℕ) (err : PyErr),
    fastLoop lt srt h card n N k t fuel S mb = .error err → err = .diverges
  | 0, _, _, err, hh => by cases hh; rfl
  | fuel + 1, S, mb, err, hh => by
      rw [fastLoop] at hh
      by_cases hS : S = []
      · rw [if_pos hS] at hh; cases hh
      · rw [if_neg hS] at hh
        simp only at hh
        split_ifs at hh
        exact fastLoop_error fuel _ _ err hh

theorem prod_card_ge (card : ℕ → ℕ) (hc : ∀ v, 1 ≤ card v) : ∀ l : List ℕ, (1 : ℚ) ≤ (l.map fun b => (card b : ℚ)).prod
  | [] => by simp
  | b :: l => by
      have h1 := prod_card_ge card hc l
      have h2 : (1 : ℚ) ≤ card b := by exact_mod_cast hc b
      rw [List.map_cons, List.prod_cons]
      nlinarith

theorem fastGrow_all {card : ℕ → ℕ} {N k t : ℕ} (hc : ∀ v, 1 ≤ card v) : ∀ (l mb : List ℕ), (∀ x ∈ l, k * card x ≤ N) → fastGrow card N k t l mb = (mb ++ l, false)
  | [], mb, _ => by simp [fastGrow]
  | x :: l, mb, h => by
      have hx : fastEnough card N k t x mb = true := by
        unfold fastEnough
        rw [decide_eq_true_iff]
        have h1 : (k : ℚ) ≤ (N : ℚ) / card x := by
          have : (0 : ℚ) < card x := by exact_mod_cast hc x
          rw [le_div_iff₀ this]
          exact_mod_cast h x (by simp)
        have h2 : (1 : ℚ) ≤ card t := by exact_mod_cast hc t
        have h3 := prod_card_ge card hc mb
        have h0 : (0 : ℚ) ≤ (N : ℚ) / card x := by positivity
        have h4 : (N : ℚ) / card x ≤ (N : ℚ) / card x * card t := le_mul_of_one_le_right h0 h2
        have h5 : (N : ℚ) / card x * card t ≤ (N : ℚ) / card x * card t * ((mb.map fun b => (card b : ℚ)).prod) :=
          le_mul_of_one_le_right (le_trans h0 h4) h3
        linarith
      rw [fastGrow, if_pos hx, fastGrow_all hc l _ fun y hy => h y (by simp [hy])]
      simp

theorem everySecond_ne : ∀ (l : List ℕ), l ≠ [] → (everySecond l).length < l.length
  | [], h => absurd rfl h
  | [x], _ => by simp [everySecond]
  | x :: y :: l, _ => by
      rw [everySecond]
      by_cases hl : l = []
      · subst hl; simp [everySecond]
      · have := everySecond_ne l hl
        simp; omega

/-- With all tests finding dependence and enough rows, the loop never ends: each shrinking phase throws out half of the blanket, which the next growing
phase puts back. -/
theorem fastLoop_diverges {lt : List ℕ → Bool} {srt : List ℕ → HashOrder ℕ} {h : HashOrder ℕ} {card : ℕ → ℕ} {n N k t : ℕ} (hlt : ∀ c, lt c = true)
    (hc : ∀ v, 1 ≤ card v) (hN : ∀ x < n, k * card x ≤ N) : ∀ (fuel : ℕ) (S mb : List ℕ), S ≠ [] → (mb ++ S).Nodup →
    (∀ v, v ∈ mb ++ S ↔ v < n ∧ v ≠ t) → fastLoop lt srt h card n N k t fuel S mb = .error .diverges
  | 0, _, _, _, _, _ => rfl
  | fuel + 1, S, mb, hS, hn, hm => by
      have hp := (srt mb).perm S
      have hL : (mb ++ (srt mb).iter S).Perm (mb ++ S) := (List.Perm.refl mb).append hp
      have hLn : (mb ++ (srt mb).iter S).Nodup := hL.nodup_iff.2 hn
      have hg : fastGrow card N k t ((srt mb).iter S) mb = (mb ++ (srt mb).iter S, false) :=
        fastGrow_all hc _ _ fun x hx => hN x ((hm x).1 (by simp [hp.mem_iff.1 hx])).1
      rw [fastLoop, if_neg hS]
      simp only [hg, Bool.false_eq_true, false_and, if_false]
      have hr := shrinkLive_run lt h t (mb ++ (srt mb).iter S).length [] (mb ++ (srt mb).iter S) (by simpa using hLn) (le_refl _)
      simp only [List.nil_append, List.length_nil] at hr
      have he := hr.all fun x L => hlt _
      have hsub := hr.sublist
      rw [List.nil_append] at he hsub
      generalize shrinkLive lt h t (mb ++ (srt mb).iter S).length 0 (mb ++ (srt mb).iter S) = mb' at he hsub
      have hne : mb ++ (srt mb).iter S ≠ [] := by
        intro hc
        have := hL.length_eq
        rw [hc] at this
        simp at this
        have := this.symm
        have : S.length = 0 := by omega
        exact hS (List.length_eq_zero_iff.1 this)
      have hmb' : ∀ v ∈ mb', v < n ∧ v ≠ t := fun v hv => (hm v).1 (hL.mem_iff.1 (hsub.subset hv))
      refine fastLoop_diverges hlt hc hN fuel _ mb' ?_ ?_ ?_
      · intro hcn
        have hlen := everySecond_ne _ hne
        rw [← he] at hlen
        have hle : (mb ++ (srt mb).iter S).length ≤ mb'.length := by
          refine (List.subperm_of_subset hLn fun v hv => ?_).length_le
          by_contra hno
          have hv' := (hm v).1 (hL.mem_iff.1 hv)
          have : v ∈ (List.range n).filter fun a => decide (a ≠ t ∧ a ∉ mb') && lt (a :: t :: mb') := by
            simp [hlt, hv'.1, hv'.2, hno]
          rw [hcn] at this; cases this
        omega
      · rw [List.nodup_append]
        refine ⟨hsub.nodup hLn, List.nodup_range.filter _, ?_⟩
        rintro a ha b hb rfl
        simp only [List.mem_filter, List.mem_range, Bool.and_eq_true, decide_eq_true_eq] at hb
        exact hb.2.1.2 ha
      · intro v
        simp only [List.mem_append, List.mem_filter, List.mem_range, Bool.and_eq_true, decide_eq_true_eq, hlt, and_true]
        constructor
        · rintro (hv | hv)
          · exact hmb' v hv
          · exact ⟨hv.1, hv.2.1⟩
        · intro hv
          by_cases hm' : v ∈ mb'
          · exact .inl hm'
          · exact .inr ⟨hv.1, hv.2, hm'⟩

end Constraint
end PyBN
