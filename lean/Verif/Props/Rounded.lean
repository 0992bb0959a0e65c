import Verif.Proofs.Rounded2
import Verif.Props.Inference
import Mathlib.Tactic.NormNum
import Mathlib.Tactic.Linarith
import Mathlib.Algebra.Order.Ring.Pow

/-!
# C166-C168: exact inference in floating point arithmetic

`Rounds u rnd` (Spec/Rounded.lean) is the standard model of floating point: every sum and product of table entries has relative error at most
`u`.  The exact functions of C13-C17 are the case `rnd = id`.
-/

namespace PyBN
open Factor Factorization

variable {N A : Type _} [DecidableEq N] [DecidableEq A] {u : ℚ} {rnd : ℚ → ℚ}

/-- The rounded model is the exact one when nothing is rounded. -/
theorem C166_exact_case (h : HashOrder N) (hE : HashOrder (N × A)) (bn : BayesNet N A) (target : N) (ev : Dict N A) :
    marginalVER id h hE bn target ev = marginalVE h hE bn target ev ∧ veMapR id h hE bn ev = veMap h hE bn ev ∧
      veMapProbR id h hE bn ev = veMapProb h hE bn ev := by
  have hc : veMapCoreR id h hE bn ev = veMapCore h hE bn ev := by
    unfold veMapCoreR veMapCore; simp only [maxElimAllR_id]
  refine ⟨?_, ?_, ?_⟩
  · unfold marginalVER marginalVE; simp only [sumElimAllR_id]
  · unfold veMapR veMap; rw [hc]
  · unfold veMapProbR veMapProb; rw [hc]

/-- Rounding to `p ≥ 1` significant binary digits is such an arithmetic, with `u = 2^-p`. -/
theorem C166_binary_rounding (p : ℕ) (hp : 1 ≤ p) : Rounds ((1 / 2) ^ p) (flBin p) where
  nonneg := by positivity
  lt_one := pow_lt_one₀ (by norm_num) (by norm_num) (by omega)
  err x := by
    unfold flBin
    simp only
    set ulp : ℚ := (2 : ℚ) ^ (Int.log 2 |x| - p + 1) with hulp
    have h0 : 0 < ulp := zpow_pos (by norm_num) _
    have h1 : |(round (x / ulp) : ℚ) - x / ulp| ≤ 1 / 2 := by rw [abs_sub_comm]; exact abs_sub_round _
    have h2 : (round (x / ulp) : ℚ) * ulp - x = ((round (x / ulp) : ℚ) - x / ulp) * ulp := by field_simp
    rw [h2, abs_mul, abs_of_pos h0]
    rcases eq_or_ne x 0 with rfl | hx
    · simp
    have h3 : (2 : ℚ) ^ Int.log 2 |x| ≤ |x| := by
      have := Int.zpow_log_le_self (b := 2) (r := |x|) (by norm_num) (abs_pos.2 hx)
      simpa using this
    have h4 : ulp = 2 * ((1 / 2) ^ p * (2 : ℚ) ^ Int.log 2 |x|) := by
      rw [hulp, zpow_add₀ (by norm_num), zpow_sub₀ (by norm_num), zpow_one, zpow_natCast, one_div, inv_pow]
      field_simp
    calc _ ≤ 1 / 2 * ulp := mul_le_mul_of_nonneg_right h1 h0.le
      _ = (1 / 2) ^ p * (2 : ℚ) ^ Int.log 2 |x| := by rw [h4]; ring
      _ ≤ _ := mul_le_mul_of_nonneg_left h3 (by positivity)

/-- C166: a legal marginal query in rounded arithmetic is answered exactly when the exact one is (and otherwise raises the same `NameError`), and the
entry it reports is the 4-decimal rounding of a number obtained from the true probability by at most
`|V| - 1 + Σ card(eliminated)` relative perturbations of size `u`, whatever the hash orders. -/
theorem C166_marginal_rounded (r : Rounds u rnd) (h : HashOrder N) (hE : HashOrder (N × A)) (bn : BayesNet N A) (wb : bn.WF)
    (hnn : bn.Nonneg) (target : N) (ev : Dict N A) (ht : target ∈ bn.V) (hte : target ∉ ev.keys) (hl : bn.LegalEvidence ev) :
    (∀ e, marginalVER rnd h hE bn target ev = .error e ↔ marginalVE h hE bn target ev = .error e) ∧
    ∀ out, marginalVER rnd h hE bn target ev = .ok out → out.length = bn.cardOf target ∧
      ∀ a, a target < bn.cardOf target → bn.Agrees ev a →
        ∃ y, out[a target]? = some (roundEven 4 y) ∧
          Near u (bn.V.length - 1 + ((bn.V.filter fun v => v ≠ target ∧ v ∉ ev.keys).map bn.cardOf).sum)
            (bn.marginal target ev a) y := by
  obtain ⟨p, e, hne, hiff, w, m, k, hk, v⟩ := marginalVER_run r h hE wb hnn ht hte hl
  obtain ⟨p', e', hne', hiff', _⟩ := marginalVE_run h hE wb ht hte hl
  by_cases hlen : p.phi.length = 1
  · obtain ⟨f, hp, hc⟩ := consolidate_of_one hlen
    obtain ⟨f', _, hc'⟩ := consolidate_of_one (hiff'.2 (hiff.1 hlen))
    have hr : marginalVER rnd h hE bn target ev = .ok (f.cpt.map (roundEven 4)) := by rw [e, hc]; rfl
    have hr' : marginalVE h hE bn target ev = .ok (f'.cpt.map (roundEven 4)) := by rw [e', hc']; rfl
    refine ⟨fun er => by rw [hr, hr']; simp, fun out ho => ?_⟩
    rw [hr] at ho
    cases ho
    have wf : f.WF bn.cardOf := w f (by rw [hp]; simp)
    have hs : ∀ u, u ∈ f.scope ↔ u = target := fun u => by rw [← m u, Mentions, hp]; simp
    obtain ⟨hsc, hcl, hpos⟩ := wf_single wf hs
    refine ⟨by rw [List.length_map, hcl], fun a ha hag => ?_⟩
    have h1 := wf.entry_eq (a := a) (fun u hu => by rw [(hs u).1 hu]; exact ha)
    rw [Factor.entry, hpos] at h1
    have h2 := v a ha hag
    rw [hp] at h2
    simp only [prodVal, List.map_cons, List.map_nil, List.prod_cons, List.prod_nil, mul_one] at h2
    refine ⟨f.val a, by rw [List.getElem?_map, h1]; rfl, ?_⟩
    have hV := List.length_pos_of_mem ht
    rwa [show bn.V.length - 1 + _ = k by omega]
  · have hr : marginalVER rnd h hE bn target ev = .error .nameError := by rw [e, consolidate_many hne hlen]; rfl
    have hr' : marginalVE h hE bn target ev = .error .nameError := by
      rw [e', consolidate_many hne' fun h0 => hlen (hiff.2 (hiff'.1 h0))]; rfl
    exact ⟨fun er => by rw [hr, hr'], fun out ho => by rw [hr] at ho; cases ho⟩

/-! ## Absolute errors -/

theorem sumAll_le_of_mem {c : N → ℕ} {F : Asg N → ℚ} (hF : ∀ b, 0 ≤ F b) : ∀ (l : List N) (a : Asg N), (∀ v ∈ l, a v < c v) → F a ≤ sumAll c l F a
  | [], a, _ => le_rfl
  | v :: l, a, h => by
      simp only [sumAll]
      have h1 := sumAll_le_of_mem (c := c) hF l a fun w hw => h w (by simp [hw])
      have h2 := Finset.single_le_sum (f := fun x => sumAll c l F (a.upd v x)) (fun x _ => sumAll_nonneg hF _)
        (Finset.mem_range.2 (h v (by simp)))
      simp only [Asg.upd_id] at h2
      exact h1.trans h2

theorem marginal_le_one {bn : BayesNet N A} (wb : bn.WF) (hnn : bn.Nonneg) (hno : bn.Normalised) (hac : bn.Acyclic) {target : N}
    {ev : Dict N A} {a : Asg N} (ha : a target < bn.cardOf target) (hag : bn.Agrees ev a) :
    bn.marginal target ev a ≤ 1 := by
  rw [← joint_sum_one wb hno hac a]
  unfold BayesNet.marginal
  set P : N → Bool := fun v => decide (v ≠ target ∧ v ∉ ev.keys) with hP
  have hp : (bn.V.filter (fun v => !P v) ++ bn.V.filter P).Perm bn.V :=
    (List.perm_append_comm).trans (List.filter_append_perm P bn.V)
  have hn : (bn.V.filter (fun v => !P v) ++ bn.V.filter P).Nodup := hp.nodup_iff.2 wb.nodup
  rw [← sumAll_perm hp _ hn, sumAll_append]
  refine sumAll_le_of_mem (fun b => sumAll_nonneg (joint_nonneg hnn) b) _ a fun v hv => ?_
  simp only [List.mem_filter, hP, Bool.not_eq_true', decide_eq_false_iff_not, not_and, not_not] at hv
  by_cases hvt : v = target
  · rw [hvt]; exact ha
  · obtain ⟨e, he, rfl⟩ := List.mem_map.1 (hv.2 hvt)
    rw [wb.card_len hv.1]
    exact (List.getElem?_eq_some_iff.1 (hag e he)).1

/-- `k` perturbations of relative size `u` move a probability by at most `(1 + u)^k - 1`, and by at most `2 k u` if `2 k u ≤ 1`. -/
theorem near_abs {k : ℕ} {x y : ℚ} (h0 : 0 ≤ u) (h1 : u < 1) (h : Near u k x y) (hx : x ≤ 1) : |y - x| ≤ (1 + u) ^ k - 1 := by
  have hk : 1 ≤ (1 + u) ^ k := one_le_pow₀ (by linarith)
  -- `1 - (1-u)^k ≤ (1+u)^k - 1`
  have hs : ∀ n : ℕ, 2 ≤ (1 - u) ^ n + (1 + u) ^ n := by
    intro n
    have a1 : 1 + (n : ℚ) * u ≤ (1 + u) ^ n := one_add_mul_le_pow (by linarith) n
    have a2 : 1 + (n : ℚ) * (-u) ≤ (1 + -u) ^ n := one_add_mul_le_pow (by linarith) n
    rw [← sub_eq_add_neg] at a2
    linarith
  have hs := hs k
  rw [abs_le]
  have hx0 := h.1
  constructor
  · nlinarith [h.2.1, h.2.2, mul_nonneg (sub_nonneg.2 hx) (sub_nonneg.2 hk), mul_nonneg hx0 (sub_nonneg.2 hs)]
  · nlinarith [h.2.2, mul_nonneg (sub_nonneg.2 hx) (sub_nonneg.2 hk)]

theorem pow_bound (h0 : 0 ≤ u) : ∀ (k : ℕ), 2 * (k : ℚ) * u ≤ 1 → (1 + u) ^ k - 1 ≤ 2 * k * u
  | 0, _ => by simp
  | k + 1, h => by
      push_cast at h
      have hku : 0 ≤ (k : ℚ) * u := mul_nonneg (Nat.cast_nonneg _) h0
      have h2 := pow_bound h0 k (by linarith)
      have h3 : 0 ≤ (1 + u) ^ k := by positivity
      rw [pow_succ]
      push_cast
      nlinarith

/-- C166: on a proper network the reported entry is within half a unit of the fourth decimal, plus `(1+u)^K - 1`, of the exact probability. -/
theorem C166_absolute_error (r : Rounds u rnd) (h : HashOrder N) (hE : HashOrder (N × A)) (bn : BayesNet N A) (wb : bn.WF)
    (hnn : bn.Nonneg) (hno : bn.Normalised) (hac : bn.Acyclic) (target : N) (ev : Dict N A) (ht : target ∈ bn.V) (hte : target ∉ ev.keys)
    (hl : bn.LegalEvidence ev) (out : List ℚ) (ho : marginalVER rnd h hE bn target ev = .ok out) (a : Asg N)
    (ha : a target < bn.cardOf target) (hag : bn.Agrees ev a) :
    ∃ z, out[a target]? = some z ∧ |z - bn.marginal target ev a| ≤
      1 / 20000 + ((1 + u) ^ (bn.V.length - 1 + ((bn.V.filter fun v => v ≠ target ∧ v ∉ ev.keys).map bn.cardOf).sum) - 1) := by
  obtain ⟨y, h1, h2⟩ := ((C166_marginal_rounded r h hE bn wb hnn target ev ht hte hl).2 out ho).2 a ha hag
  refine ⟨_, h1, ?_⟩
  have h3 := roundEven_close 4 y
  have h4 := near_abs r.nonneg r.lt_one h2 (marginal_le_one wb hnn hno hac ha hag)
  have h5 := abs_sub_le (roundEven 4 y) y (bn.marginal target ev a)
  norm_num at h3
  linarith

/-- C166, IEEE double precision (53 significant bits): as long as at most a million sums and products are involved per entry, the error is that of the
final rounding up to `2^-32`. -/
theorem C166_double (h : HashOrder N) (hE : HashOrder (N × A)) (bn : BayesNet N A) (wb : bn.WF)
    (hnn : bn.Nonneg) (hno : bn.Normalised) (hac : bn.Acyclic) (target : N) (ev : Dict N A) (ht : target ∈ bn.V) (hte : target ∉ ev.keys)
    (hl : bn.LegalEvidence ev)
    (hK : bn.V.length - 1 + ((bn.V.filter fun v => v ≠ target ∧ v ∉ ev.keys).map bn.cardOf).sum ≤ 2 ^ 20)
    (out : List ℚ) (ho : marginalVER (flBin 53) h hE bn target ev = .ok out) (a : Asg N)
    (ha : a target < bn.cardOf target) (hag : bn.Agrees ev a) :
    ∃ z, out[a target]? = some z ∧ |z - bn.marginal target ev a| ≤ 1 / 20000 + 1 / 2 ^ 32 := by
  have r := C166_binary_rounding 53 (by norm_num)
  obtain ⟨z, h1, h2⟩ := C166_absolute_error r h hE bn wb hnn hno hac target ev ht hte hl out ho a ha hag
  refine ⟨z, h1, h2.trans ?_⟩
  set K := bn.V.length - 1 + ((bn.V.filter fun v => v ≠ target ∧ v ∉ ev.keys).map bn.cardOf).sum with hKd
  have hK' : (K : ℚ) ≤ 2 ^ 20 := by exact_mod_cast hK
  have hb : 2 * (K : ℚ) * (1 / 2) ^ 53 ≤ 1 / 2 ^ 32 := by
    calc 2 * (K : ℚ) * (1 / 2) ^ 53 ≤ 2 * 2 ^ 20 * (1 / 2) ^ 53 := by gcongr
      _ = 1 / 2 ^ 32 := by norm_num
  have := pow_bound r.nonneg K (hb.trans (by norm_num))
  linarith

/-- C166: an event of probability zero is reported as exactly zero. -/
theorem C166_zero (r : Rounds u rnd) (h : HashOrder N) (hE : HashOrder (N × A)) (bn : BayesNet N A) (wb : bn.WF)
    (hnn : bn.Nonneg) (target : N) (ev : Dict N A) (ht : target ∈ bn.V) (hte : target ∉ ev.keys)
    (hl : bn.LegalEvidence ev) (out : List ℚ) (ho : marginalVER rnd h hE bn target ev = .ok out) (a : Asg N)
    (ha : a target < bn.cardOf target) (hag : bn.Agrees ev a) (h0 : bn.marginal target ev a = 0) : out[a target]? = some 0 := by
  obtain ⟨y, h1, h2⟩ := ((C166_marginal_rounded r h hE bn wb hnn target ev ht hte hl).2 out ho).2 a ha hag
  have hy : y = 0 := by
    have := h2.2.1; have h3 := h2.2.2
    rw [h0, mul_zero] at this h3
    exact le_antisymm h3 this
  rw [h1, hy]
  decide +kernel

/-- An arithmetic with relative error up to 1/8 that is always high, except on small numbers. -/
def exRnd (x : ℚ) : ℚ := if x < 1 / 16 then 7 / 8 * x else 9 / 8 * x

theorem exRnd_rounds : Rounds (1 / 8) exRnd where
  nonneg := by norm_num
  lt_one := by norm_num
  err x := by
    unfold exRnd
    split
    · rw [show 7 / 8 * x - x = -(1 / 8 * x) by ring, abs_neg, abs_mul]; norm_num
    · rw [show 9 / 8 * x - x = 1 / 8 * x by ring, abs_mul]; norm_num

/-- Witness for C166: this arithmetic changes the answer on the fork (by the permitted amount: at most `(9/8)^4 - 1` relative, four operations per entry). -/
example : exFork.V.length - 1 + ((exFork.V.filter fun v => v ≠ 1 ∧ v ∉ Dict.keys [(2, 30)]).map exFork.cardOf).sum = 4 ∧
    marginalVE .id .id exFork 1 [(2, 30)] = .ok [1/20, 3/40] ∧
    marginalVER exRnd .id .id exFork 1 [(2, 30)] = .ok [101/2500, 199/2500] := by
  refine ⟨by decide +kernel, by decide +kernel, by decide +kernel⟩

/-- Witness for C166: binary rounding, with three significant bits and with 53. -/
example : marginalVER (flBin 3) .id .id exFork 1 [(2, 30)] = .ok [469/10000, 781/10000] ∧
    marginalVER (flBin 53) .id .id exFork 1 [(2, 30)] = .ok [1/20, 3/40] := by
  refine ⟨by decide +kernel, by decide +kernel⟩

/-! ## MAP -/

/-- C167: `ve_map` in rounded arithmetic returns, for any legal evidence, a complete assignment that agrees with the evidence and whose probability is
within a factor `((1+u)/(1-u))^(|V|-1)` of the greatest one. -/
theorem C167_map_rounded (r : Rounds u rnd) (h : HashOrder N) (hE : HashOrder (N × A)) (bn : BayesNet N A) (wb : bn.WF) (hnn : bn.Nonneg)
    (ev : Dict N A) (hl : bn.LegalEvidence ev) :
    ∃ (d : Dict N A) (x : Asg N), veMapR rnd h hE bn ev = .ok d ∧ d.keys.Nodup ∧ (∀ v, v ∉ bn.V → d.get? v = none) ∧
      (∀ v ∈ bn.V, x v < bn.cardOf v ∧ d.get? v = (bn.valuesOf v)[x v]?) ∧
      (∀ e ∈ ev, d.get? e.1 = some e.2) ∧ bn.Agrees ev x ∧
      ∀ b, InRange bn.cardOf bn.V b → bn.Agrees ev b →
        (1 - u) ^ (bn.V.length - 1) * bn.joint b ≤ (1 + u) ^ (bn.V.length - 1) * bn.joint x := by
  obtain ⟨p, d, x, e, h1, h2, h3, h4, _, _, ⟨k, W, hk, hW, _, hmax⟩, hcl⟩ := veMapCoreR_run r h hE wb hnn hl
  refine ⟨d, x, by simp [veMapR, e], h1, h2, h3, fun e he => ?_, h4, fun b hb hag => ?_⟩
  · rw [(h3 e.1 (hl.legal e he).1).2]; exact h4 e he
  · have hle : k ≤ bn.V.length - 1 := by
      by_cases hV : bn.V = []
      · rw [hV] at hk ⊢; simp at hk; omega
      · have := List.length_pos_of_ne_nil (hcl hV).1; omega
    have hb0 := joint_nonneg hnn b
    have hx0 := joint_nonneg hnn x
    calc _ ≤ (1 - u) ^ k * bn.joint b := mul_le_mul_of_nonneg_right
          (pow_le_pow_of_le_one (by linarith [r.lt_one]) (by linarith [r.nonneg]) hle) hb0
      _ ≤ W := hmax b hb hag
      _ ≤ (1 + u) ^ k * bn.joint x := hW.2.2
      _ ≤ _ := mul_le_mul_of_nonneg_right (pow_le_pow_right₀ (by linarith [r.nonneg]) hle) hx0

/-- C167: so a unique optimum with a clear margin is found: if every other assignment is less probable by more than that factor, `ve_map` returns the
most probable one. -/
theorem C167_clear_winner (r : Rounds u rnd) (h : HashOrder N) (hE : HashOrder (N × A)) (bn : BayesNet N A) (wb : bn.WF) (hnn : bn.Nonneg)
    (ev : Dict N A) (hl : bn.LegalEvidence ev) (b : Asg N) (hb : InRange bn.cardOf bn.V b) (hag : bn.Agrees ev b)
    (hwin : ∀ x, InRange bn.cardOf bn.V x → bn.Agrees ev x → (∃ v ∈ bn.V, x v ≠ b v) →
      (1 + u) ^ (bn.V.length - 1) * bn.joint x < (1 - u) ^ (bn.V.length - 1) * bn.joint b) :
    ∃ d, veMapR rnd h hE bn ev = .ok d ∧ ∀ v ∈ bn.V, d.get? v = (bn.valuesOf v)[b v]? := by
  obtain ⟨d, x, e, _, _, h3, _, h4, h5⟩ := C167_map_rounded r h hE bn wb hnn ev hl
  refine ⟨d, e, fun v hv => ?_⟩
  have : x v = b v := by
    by_contra hne
    exact absurd (h5 b hb hag) (not_le.2 (hwin x (fun w hw => (h3 w hw).1) h4 ⟨v, hv, hne⟩))
  rw [(h3 v hv).2, this]

/-- Witness for C167, C168: the fork's MAP and its probability in that arithmetic. -/
example : veMapProb .id .id exFork [(2, 30)] = .ok (1/20, [(2, 30), (1, 21), (0, 11)]) ∧
    veMapProbR exRnd .id .id exFork [(2, 30)] = .ok (2461/50000, [(2, 30), (1, 21), (0, 11)]) := by
  refine ⟨by decide +kernel, by decide +kernel⟩

/-- C168: the probability reported with `prob=True` is the 5-decimal rounding of a number within `|V| - 1` relative perturbations of the probability of the
reported assignment; the assignment is that of `ve_map` without `prob`. -/
theorem C168_map_prob_rounded (r : Rounds u rnd) (h : HashOrder N) (hE : HashOrder (N × A)) (bn : BayesNet N A) (wb : bn.WF) (hnn : bn.Nonneg)
    (ev : Dict N A) (hl : bn.LegalEvidence ev) (q : ℚ) (d : Dict N A) (hr : veMapProbR rnd h hE bn ev = .ok (q, d)) :
    veMapR rnd h hE bn ev = .ok d ∧
      ∃ (x : Asg N) (y : ℚ), (∀ v ∈ bn.V, x v < bn.cardOf v ∧ d.get? v = (bn.valuesOf v)[x v]?) ∧ bn.Agrees ev x ∧
        q = roundAway 5 y ∧ Near u (bn.V.length - 1) (bn.joint x) y ∧
        ∀ b, InRange bn.cardOf bn.V b → bn.Agrees ev b → (1 - u) ^ (bn.V.length - 1) * bn.joint b ≤ y := by
  obtain ⟨p, d', x, e, h1, h2, h3, h4, w, nm, ⟨k, W, hk, hW, cst, hmax⟩, _⟩ := veMapCoreR_run r h hE wb hnn hl
  unfold veMapProbR at hr
  rw [e] at hr
  simp only [Py.bind_ok] at hr
  cases hco : p.consolidate with
  | error e => rw [hco] at hr; simp at hr
  | ok f =>
    rw [hco] at hr
    simp only [Py.bind_ok] at hr
    have hp := consolidate_one hco
    obtain ⟨hsc, hlen, hpos⟩ := wf_empty (w f (by rw [hp]; simp)) fun u hu => nm u ⟨f, by rw [hp]; simp, hu⟩
    have h0 : f.cpt[0]? = some W := by
      have h6 := (w f (by rw [hp]; simp)).entry_eq (a := fun _ => 0) (by rw [hsc]; simp [InRange])
      rw [Factor.entry, hpos] at h6
      have h7 := cst fun _ => 0
      rw [hp] at h7
      simp only [prodVal, List.map_cons, List.map_nil, List.prod_cons, List.prod_nil, mul_one] at h7
      rw [h6, h7]
    have h8 : pyIdx f.cpt 0 = .ok W := pyIdx_nat (n := 0) h0
    rw [h8] at hr
    simp only [Py.bind_ok, Py.pure_eq, Except.ok.injEq, Prod.mk.injEq] at hr
    obtain ⟨rfl, rfl⟩ := hr
    rw [hp, List.length_singleton] at hk
    obtain rfl : k = bn.V.length - 1 := by omega
    exact ⟨by simp [veMapR, e], x, W, h3, h4, rfl, hW, hmax⟩

/-- C168: `prob=True` in rounded arithmetic is answered exactly when it is in exact arithmetic. -/
theorem C168_answered_iff (r : Rounds u rnd) (h : HashOrder N) (hE : HashOrder (N × A)) (bn : BayesNet N A) (wb : bn.WF) (hnn : bn.Nonneg)
    (ev : Dict N A) (hl : bn.LegalEvidence ev) (hV : bn.V ≠ []) :
    ((∀ u ∈ bn.V, ∀ v ∈ bn.V, bn.Linked (bn.V.filter fun v => v ∉ ev.keys) u v) → ∃ out, veMapProbR rnd h hE bn ev = .ok out) ∧
    (¬ (∀ u ∈ bn.V, ∀ v ∈ bn.V, bn.Linked (bn.V.filter fun v => v ∉ ev.keys) u v) → veMapProbR rnd h hE bn ev = .error .nameError) := by
  obtain ⟨p, d, x, e, _, _, _, _, w, nm, _, hcl⟩ := veMapCoreR_run r h hE wb hnn hl
  obtain ⟨hne, hiff⟩ := hcl hV
  constructor
  · intro hlk
    obtain ⟨f, hp, hc⟩ := consolidate_of_one (hiff.2 hlk)
    obtain ⟨_, hlen, _⟩ := wf_empty (w f (by rw [hp]; simp)) fun u hu => nm u ⟨f, by rw [hp]; simp, hu⟩
    obtain ⟨y, hy⟩ := List.length_eq_one_iff.1 hlen
    have h8 : pyIdx f.cpt 0 = .ok y := pyIdx_nat (n := 0) (by rw [hy]; rfl)
    exact ⟨(roundAway 5 y, d), by simp [veMapProbR, e, hc, h8]⟩
  · intro hlk
    simp only [veMapProbR, e, Py.bind_ok]
    rw [consolidate_many hne fun h0 => hlk (hiff.1 h0)]; rfl

end PyBN
