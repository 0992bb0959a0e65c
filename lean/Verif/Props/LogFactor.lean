import Verif.Model.LogFactor
import Verif.Props.Factor
import Mathlib.Analysis.SpecialFunctions.Exp
import Mathlib.Analysis.SpecialFunctions.ExpDeriv
import Mathlib.Analysis.Complex.ExponentialBounds
import Mathlib.Tactic.Linarith
import Mathlib.Tactic.NormNum
import Mathlib.Tactic.Positivity

/-!
# C152-C154: `to_log`, `from_log`
-/

set_option linter.unusedSectionVars false

namespace PyBN

theorem rintR_near (x : ℝ) : |(rintR x : ℝ) - x| ≤ 1 / 2 := by
  have h1 := Int.floor_le x
  have h2 := Int.lt_floor_add_one x
  unfold rintR
  split_ifs with a b c
  · rw [abs_le]; constructor <;> linarith
  · push_cast; rw [abs_le]; constructor <;> linarith
  · rw [abs_le]; constructor <;> linarith
  · push_cast; rw [abs_le]; constructor <;> linarith

theorem rintR_mono {x y : ℝ} (h : x ≤ y) : rintR x ≤ rintR y := by
  by_contra hc
  push Not at hc
  have h1 := abs_le.1 (rintR_near x)
  have h2 := abs_le.1 (rintR_near y)
  have h3 : (rintR y : ℝ) + 1 ≤ rintR x := by exact_mod_cast hc
  have : x = y := by linarith
  subst this
  omega

theorem rintR_eq {x : ℝ} {n : ℤ} (h : |x - n| < 1 / 2) : rintR x = n := by
  have h1 := abs_le.1 (rintR_near x)
  have h2 := abs_lt.1 h
  have a : (rintR x : ℝ) < n + 1 := by linarith
  have b : (n : ℝ) - 1 < rintR x := by linarith
  have a' : rintR x < n + 1 := by exact_mod_cast a
  have b' : n - 1 < rintR x := by exact_mod_cast b
  omega

theorem round5_near (x : ℝ) : |(round5 x : ℝ) - x| ≤ 5 / 10 ^ 6 := by
  have h := abs_le.1 (rintR_near (x * 10 ^ 5))
  unfold round5
  push_cast
  rw [abs_le]
  constructor <;> linarith

theorem round5_mono {x y : ℝ} (h : x ≤ y) : round5 x ≤ round5 y := by
  have : rintR (x * 10 ^ 5) ≤ rintR (y * 10 ^ 5) := rintR_mono (by linarith)
  have h' : (rintR (x * 10 ^ 5) : ℚ) ≤ rintR (y * 10 ^ 5) := by exact_mod_cast this
  unfold round5
  exact div_le_div_of_nonneg_right h' (by positivity)

theorem round5_eq {x : ℝ} {n : ℤ} (h : |x - n / 10 ^ 5| < 5 / 10 ^ 6) : round5 x = n / 10 ^ 5 := by
  unfold round5
  rw [rintR_eq (n := n)]
  have := abs_lt.1 h
  rw [abs_lt]
  constructor <;> linarith

theorem round5_int (n : ℤ) : round5 (n / 10 ^ 5) = n / 10 ^ 5 := round5_eq (by rw [sub_self, abs_zero]; norm_num)

theorem round5_zero : round5 0 = 0 := by have := round5_int 0; simpa using this

theorem round5_one : round5 1 = 1 := by
  have := round5_int 100000
  norm_num at this
  exact this

/-- `e^d - 1` for small `d`. -/
theorem exp_near {d : ℝ} (h : |d| ≤ 5 / 10 ^ 6) : |Real.exp d - 1| ≤ 500003 / 10 ^ 11 := by
  have h1 := Real.abs_exp_sub_one_sub_id_le (x := d) (by linarith : |d| ≤ 1)
  have h2 : d ^ 2 ≤ (5 / 10 ^ 6) ^ 2 := by rw [← sq_abs]; gcongr
  have h3 := abs_le.1 h1
  have h4 := abs_le.1 h
  rw [abs_le]
  constructor <;> linarith

namespace Factor

/-- The value `from_log` restores for the entry `x`. -/
noncomputable def restored (x : ℚ) : ℚ := if x = 0 then 0 else round5 (Real.exp (round5 (Real.log x) : ℚ))

theorem restored_eq {x : ℚ} (h : 0 ≤ x) : expEntry (logEntry x) = .fin (restored x) := by
  unfold logEntry restored
  rw [if_neg (not_lt.2 h)]
  split_ifs with h0
  · simp [expEntry, round5_zero]
  · rfl

/-- Before the last rounding. -/
theorem exp_log_near {x : ℚ} (h : 0 < x) : |Real.exp (round5 (Real.log x) : ℚ) - x| ≤ x * (500003 / 10 ^ 11) := by
  have hx : (0 : ℝ) < x := by exact_mod_cast h
  have h1 := round5_near (Real.log x)
  have h2 := exp_near h1
  have h3 : Real.exp (round5 (Real.log x) : ℚ) = x * Real.exp ((round5 (Real.log x) : ℚ) - Real.log x) := by
    rw [Real.exp_sub, Real.exp_log hx]; field_simp
  rw [h3]
  calc |(x : ℝ) * Real.exp ((round5 (Real.log x) : ℚ) - Real.log x) - x| = |(x : ℝ)| * |Real.exp ((round5 (Real.log x) : ℚ) - Real.log x) - 1| := by rw [← abs_mul]; ring_nf
    _ ≤ _ := by rw [abs_of_pos hx]; gcongr

theorem restored_near {x : ℚ} (h : 0 ≤ x) : |((restored x : ℚ) : ℝ) - x| ≤ 5 / 10 ^ 6 + x * (500003 / 10 ^ 11) := by
  unfold restored
  split_ifs with h0
  · subst h0; norm_num
  · have hx : 0 < x := lt_of_le_of_ne h (Ne.symm h0)
    have h1 := abs_le.1 (round5_near (Real.exp (round5 (Real.log x) : ℚ)))
    have h2 := abs_le.1 (exp_log_near hx)
    rw [abs_le]
    constructor <;> linarith

theorem restored_near' {x : ℚ} (h : 0 ≤ x) : |restored x - x| ≤ 5 / 10 ^ 6 + x * (500003 / 10 ^ 11) := by
  have h1 := restored_near h
  have h2 : ((|restored x - x| : ℚ) : ℝ) ≤ ((5 / 10 ^ 6 + x * (500003 / 10 ^ 11) : ℚ) : ℝ) := by push_cast; exact h1
  exact Rat.cast_le.1 h2

theorem restored_nonneg {x : ℚ} (h : 0 ≤ x) : 0 ≤ restored x := by
  unfold restored
  split_ifs with h0
  · exact le_rfl
  · rw [← round5_zero]; exact round5_mono (Real.exp_pos _).le

theorem restored_mono {x y : ℚ} (hx : 0 ≤ x) (h : x ≤ y) : restored x ≤ restored y := by
  rcases hx.eq_or_lt with h0 | h0
  · have : restored x = 0 := by rw [← h0]; simp [restored]
    rw [this]; exact restored_nonneg (hx.trans h)
  · unfold restored
    rw [if_neg h0.ne', if_neg (h0.trans_le h).ne']
    refine round5_mono (Real.exp_le_exp.2 ?_)
    exact_mod_cast round5_mono (Real.log_le_log (by exact_mod_cast h0) (by exact_mod_cast h))

theorem restored_one : restored 1 = 1 := by
  simp [restored, round5_zero, round5_one]

theorem restored_decimal {k : ℤ} (h0 : 0 ≤ (k : ℚ) / 10 ^ 5) (h1 : (k : ℚ) / 10 ^ 5 ≤ 1) : restored ((k : ℚ) / 10 ^ 5) = (k : ℚ) / 10 ^ 5 := by
  rcases h0.eq_or_lt with h | h
  · rw [← h]; simp [restored]
  have hk : k ≤ 100000 := by
    have : (k : ℚ) ≤ 100000 := by linarith
    exact_mod_cast this
  rcases hk.eq_or_lt with rfl | hk
  · norm_num; exact restored_one
  have hn := exp_log_near h
  unfold restored
  rw [if_neg h.ne']
  refine round5_eq ?_
  have hk' : (k : ℝ) ≤ 99999 := by exact_mod_cast (by omega : k ≤ 99999)
  push_cast at hn ⊢
  have := abs_le.1 hn
  rw [abs_lt]
  constructor <;> linarith

/-- C152: `to_log` followed by `from_log`.  A table with non-negative entries comes back (never `-inf` or `nan`) with every entry within 5e-6 of the old one plus
5.00003e-6 times it; 0 and 1 come back exactly; the order of any two entries is never reversed; entries between 0 and 1 stay there, and those with at most five
decimals come back exactly.  A negative entry comes back as `nan`. -/
theorem C152_log_roundtrip (cpt : List ℚ) :
    ((∀ x ∈ cpt, 0 ≤ x) → ∃ r : ℚ → ℚ, fromLog (toLog cpt) = cpt.map (fun x => .fin (r x)) ∧
      (∀ x ∈ cpt, |r x - x| ≤ 5 / 10 ^ 6 + x * (500003 / 10 ^ 11)) ∧
      (∀ x ∈ cpt, ∀ y ∈ cpt, x ≤ y → r x ≤ r y) ∧ r 0 = 0 ∧ r 1 = 1 ∧ (∀ x ∈ cpt, x ≤ 1 → 0 ≤ r x ∧ r x ≤ 1) ∧
      ∀ x ∈ cpt, x ≤ 1 → (∃ k : ℤ, x = k / 10 ^ 5) → r x = x) ∧
    (∀ (i : ℕ) (x : ℚ), cpt[i]? = some x → x < 0 → (fromLog (toLog cpt))[i]? = some LFloat.nan) := by
  constructor
  · intro h
    refine ⟨restored, ?_, ?_, fun x hx y _ hxy => restored_mono (h x hx) hxy, by simp [restored], restored_one, fun x hx h1 => ⟨restored_nonneg (h x hx), ?_⟩, ?_⟩
    · unfold fromLog toLog
      rw [List.map_map]
      exact List.map_congr_left fun x hx => restored_eq (h x hx)
    · intro x hx
      exact restored_near' (h x hx)
    · rw [← restored_one]; exact restored_mono (h x hx) h1
    · rintro x hx h1 ⟨k, rfl⟩
      exact restored_decimal (h _ hx) h1
  · intro i x hi hx
    simp [fromLog, toLog, hi, logEntry, hx, expEntry]

/-- C152, repeated conversions: after the first round trip of a table of probabilities nothing changes any more. -/
theorem C152_idempotent (cpt : List ℚ) (h : ∀ x ∈ cpt, 0 ≤ x ∧ x ≤ 1) :
    ∃ t : List ℚ, fromLog (toLog cpt) = t.map .fin ∧ fromLog (toLog t) = t.map .fin ∧ |t.sum - cpt.sum| ≤ cpt.length * (11 / 10 ^ 6) := by
  refine ⟨cpt.map restored, ?_, ?_, ?_⟩
  · unfold fromLog toLog
    rw [List.map_map, List.map_map]
    exact List.map_congr_left fun x hx => restored_eq (h x hx).1
  · unfold fromLog toLog
    rw [List.map_map, List.map_map, List.map_map]
    refine List.map_congr_left fun x hx => ?_
    show expEntry (logEntry (restored x)) = .fin (restored x)
    have h0 := restored_nonneg (h x hx).1
    have h1 : restored x ≤ 1 := by rw [← restored_one]; exact restored_mono (h x hx).1 (h x hx).2
    rw [restored_eq h0]
    obtain ⟨k, hk⟩ : ∃ k : ℤ, restored x = k / 10 ^ 5 := by
      unfold restored
      split_ifs
      · exact ⟨0, by simp⟩
      · exact ⟨_, rfl⟩
    rw [hk] at h0 h1 ⊢
    rw [restored_decimal h0 h1]
  · have key : ∀ l : List ℚ, (∀ x ∈ l, 0 ≤ x ∧ x ≤ 1) → |(l.map restored).sum - l.sum| ≤ l.length * (11 / 10 ^ 6) := by
      intro l
      induction l with
      | nil => intro _; simp
      | cons x l ih =>
        intro hl
        have h1 := abs_le.1 (ih fun y hy => hl y (by simp [hy]))
        have h2 : |restored x - x| ≤ 5 / 10 ^ 6 + x * (500003 / 10 ^ 11) := restored_near' (hl x (by simp)).1
        have h3 := abs_le.1 h2
        have h4 := hl x (by simp)
        simp only [List.map_cons, List.sum_cons, List.length_cons]
        push_cast
        rw [abs_le]
        constructor <;> linarith
    exact key cpt h

/-- C153, the part that holds: an entry of at least 6e-6 stays positive. -/
theorem C153_positive_partial (cpt : List ℚ) (h : ∀ x ∈ cpt, 6 / 10 ^ 6 ≤ x) :
    ∃ t : List ℚ, fromLog (toLog cpt) = t.map .fin ∧ ∀ y ∈ t, 0 < y := by
  refine ⟨cpt.map restored, ?_, ?_⟩
  · unfold fromLog toLog
    rw [List.map_map, List.map_map]
    exact List.map_congr_left fun x hx => restored_eq (by have := h x hx; linarith)
  · intro y hy
    obtain ⟨x, hx, rfl⟩ := List.mem_map.1 hy
    have hx6 := h x hx
    have h6 : restored (6 / 10 ^ 6) ≤ restored x := restored_mono (by norm_num) hx6
    have h7 : restored (6 / 10 ^ 6) = 1 / 10 ^ 5 := by
      have hn := exp_log_near (x := 6 / 10 ^ 6) (by norm_num)
      unfold restored
      rw [if_neg (by norm_num)]
      have : ((1 : ℤ) : ℚ) / 10 ^ 5 = 1 / 10 ^ 5 := by norm_num
      rw [← this]
      refine round5_eq ?_
      push_cast at hn ⊢
      have := abs_le.1 hn
      rw [abs_lt]
      constructor <;> linarith
    rw [h7] at h6
    linarith

/-- C153 is false of the code: every probability up to 4e-6 comes back as 0. -/
theorem C153_false (x : ℚ) (h0 : 0 < x) (h1 : x ≤ 4 / 10 ^ 6) : fromLog (toLog [x]) = [.fin 0] := by
  have h2 : restored x ≤ 0 := by
    have h3 : restored x ≤ restored (4 / 10 ^ 6) := restored_mono h0.le h1
    have h4 : restored (4 / 10 ^ 6) = 0 := by
      have hn := exp_log_near (x := 4 / 10 ^ 6) (by norm_num)
      unfold restored
      rw [if_neg (by norm_num)]
      have : ((0 : ℤ) : ℚ) / 10 ^ 5 = 0 := by norm_num
      rw [← this]
      refine round5_eq ?_
      push_cast at hn ⊢
      have := abs_le.1 hn
      rw [abs_lt]
      constructor <;> linarith
    rwa [h4] at h3
  have h5 : restored x = 0 := le_antisymm h2 (restored_nonneg h0.le)
  show [expEntry (logEntry x)] = _
  rw [restored_eq h0.le, h5]

variable {N : Type} [DecidableEq N]

/-- C154: maximising in log space loses everything: for a table of positive probabilities, `maxout_var` after `to_log` gives 0 for every entry, and `from_log` then gives 1
for every entry, whatever the table was. -/
theorem C154_max_in_log_space (c : N → ℕ) (f : Factor N) (w : f.WF c) (hp : ∀ x ∈ f.cpt, 0 < x ∧ x ≤ 1) (rv : N) (hrv : rv ∈ f.scope) :
    ∃ t : List ℚ, toLog f.cpt = t.map .fin ∧ ∃ g, Factor.maxout { f with cpt := t } rv = .ok g ∧ g.cpt ≠ [] ∧ (∀ x ∈ g.cpt, x = 0) ∧
      ∀ y ∈ fromLog (g.cpt.map .fin), y = .fin 1 := by
  have ht : toLog f.cpt = (f.cpt.map fun x : ℚ => round5 (Real.log x)).map .fin := by
    unfold toLog
    rw [List.map_map]
    refine List.map_congr_left fun x hx => ?_
    have := (hp x hx).1
    simp [logEntry, not_lt.2 this.le, this.ne']
  have hle : ∀ y ∈ f.cpt.map fun x : ℚ => round5 (Real.log x), y ≤ 0 := by
    intro y hy
    obtain ⟨x, hx, rfl⟩ := List.mem_map.1 hy
    rw [← round5_zero]
    exact round5_mono (Real.log_nonpos (by exact_mod_cast (hp x hx).1.le) (by exact_mod_cast (hp x hx).2))
  have w' : WF c { f with cpt := f.cpt.map fun x : ℚ => round5 (Real.log x) } :=
    ⟨w.scope_nodup, w.card_pos, w.card_nodup, w.card_eq, w.stride_nodup, w.stride_dom, w.layout, by rw [List.length_map]; exact w.cpt_len⟩
  obtain ⟨g, h1, h2, h3, -, h4⟩ := maxout_ok w' hrv
  have hz : ∀ x ∈ g.cpt, x = 0 := by
    intro x hx
    obtain ⟨i, hi, rfl⟩ := List.mem_iff_getElem.1 hx
    obtain ⟨o, ho, hl⟩ := h2.layout
    obtain ⟨a, ha, hai⟩ := enc_surj (c := c) (ho.nodup_iff.2 h2.scope_nodup)
      (i := i) (by rw [(ho.map c).prod_eq, ← h2.cpt_len]; exact hi)
    have := h4 a fun v hv => ha v (ho.mem_iff.2 hv)
    rw [Factor.entry, pos_eq_enc ho hl, hai, List.getElem?_eq_getElem hi] at this
    rw [Option.some.inj this]
    have hv : ∀ b, Factor.val { f with cpt := f.cpt.map fun x : ℚ => round5 (Real.log x) } b ≤ 0 := by
      intro b
      unfold Factor.val Factor.entry
      rcases he : (f.cpt.map fun x : ℚ => round5 (Real.log x))[Factor.pos { f with cpt := f.cpt.map fun x : ℚ => round5 (Real.log x) } b]? with _ | z
      · simp [he]
      · simp only [he, Option.getD_some]; exact hle z (List.mem_of_getElem? he)
    have hf : ∀ l : List ℚ, (∀ z ∈ l, z ≤ 0) → l.foldl max 0 = 0 := by
      intro l
      induction l with
      | nil => intro _; rfl
      | cons z l ih => intro hl; rw [List.foldl_cons, max_eq_left (hl z (by simp))]; exact ih fun y hy => hl y (by simp [hy])
    refine hf _ fun z hz => ?_
    obtain ⟨x, -, rfl⟩ := List.mem_map.1 hz
    exact hv _
  refine ⟨_, ht, g, h1, ?_, hz, ?_⟩
  · intro he
    have := h2.cpt_len
    rw [he, List.length_nil] at this
    obtain ⟨v, hv, hv0⟩ := List.mem_map.1 (List.prod_eq_zero_iff.1 this.symm)
    exact absurd hv0 (h2.card_pos v hv).ne'
  · intro y hy
    simp only [fromLog, List.mem_map] at hy
    obtain ⟨l, ⟨x, hx, rfl⟩, rfl⟩ := hy
    rw [hz x hx]
    simp [expEntry, round5_one]

/-- Witness for C152: a table as `mle_estimator` produces it (five decimals). -/
example : fromLog (toLog [33333 / 10 ^ 5, 0, 66667 / 10 ^ 5]) = [.fin (33333 / 10 ^ 5), .fin 0, .fin (66667 / 10 ^ 5)] := by
  have hnn : ∀ x ∈ [33333 / 10 ^ 5, 0, (66667 : ℚ) / 10 ^ 5], 0 ≤ x := by intro x hx; simp at hx; rcases hx with rfl | rfl | rfl <;> norm_num
  obtain ⟨r, h1, -, -, h0, -, -, h2⟩ := (C152_log_roundtrip [33333 / 10 ^ 5, 0, 66667 / 10 ^ 5]).1 hnn
  rw [h1]
  simp only [List.map_cons, List.map_nil, h0, h2 _ (by simp) (by norm_num : (33333 : ℚ) / 10 ^ 5 ≤ 1) ⟨33333, by norm_num⟩,
    h2 _ (by simp) (by norm_num : (66667 : ℚ) / 10 ^ 5 ≤ 1) ⟨66667, by norm_num⟩]

/-- Witness for C154: a factor over one binary variable. -/
example : ∃ f : Factor ℕ, f.WF (fun _ => 2) ∧ (∀ x ∈ f.cpt, 0 < x ∧ x ≤ 1) ∧ 0 ∈ f.scope := by
  refine ⟨⟨0, [1 / 4, 3 / 4], [0], [(0, 2)], [(0, 1)]⟩, ⟨by simp, by simp, by simp [Dict.keys], fun v => ?_, by simp [Dict.keys], fun v => ?_,
    ⟨[0], List.Perm.refl _, by simp [IsLayout, strideOf, Dict.get?_cons]⟩, by simp⟩, ?_, by simp⟩
  · simp only [Dict.get?_cons, Dict.get?_nil, List.mem_singleton, eq_comm]
  · simp only [Dict.get?_cons, Dict.get?_nil, List.mem_singleton]
    by_cases h : 0 = v
    · subst h; simp
    · simp [h, Ne.symm h]
  · intro x hx; simp at hx; rcases hx with rfl | rfl <;> norm_num

end Factor
end PyBN
