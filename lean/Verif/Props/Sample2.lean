import Verif.Props.Sample
import Verif.Proofs.SumAll

/-!
# C38: unbiasedness of forward sampling
-/

set_option linter.unusedSectionVars false

namespace PyBN
open BayesNet Sampling MeasureTheory
variable {N A : Type} [DecidableEq N] [DecidableEq A] {K : Type} [Field K] [LinearOrder K] [IsStrictOrderedRing K]

/-- Exactly one assignment equals `b`. -/
theorem sumAll_hit {c : N → ℕ} {V : List N} {b : Asg N} : ∀ (l : List N) (a : Asg N), l.Nodup → (∀ v ∈ l, v ∈ V) → InRange c l b →
    sumAll c l (fun a => if ∀ v ∈ V, a v = b v then 1 else 0) a = if ∀ v ∈ V, v ∉ l → a v = b v then 1 else 0 := by
  intro l
  induction l with
  | nil => intro a _ _ _; simp [sumAll]
  | cons u l ih =>
    intro a hn hl hb
    rw [sumAll]
    rw [List.nodup_cons] at hn
    rw [Finset.sum_congr rfl fun x _ => ih (a.upd u x) hn.2 (fun v hv => hl v (by simp [hv])) fun v hv => hb v (by simp [hv])]
    have hx : ∀ x, (∀ v ∈ V, v ∉ l → a.upd u x v = b v) ↔ x = b u ∧ ∀ v ∈ V, v ∉ u :: l → a v = b v := by
      intro x
      constructor
      · intro h
        refine ⟨by have := h u (hl u (by simp)) hn.1; rwa [Asg.upd_self] at this, fun v hv hvl => ?_⟩
        rw [List.mem_cons, not_or] at hvl
        have := h v hv hvl.2
        rwa [Asg.upd_ne _ _ hvl.1] at this
      · rintro ⟨rfl, h⟩ v hv hvl
        by_cases hvu : v = u
        · subst hvu; rw [Asg.upd_self]
        · rw [Asg.upd_ne _ _ hvu]; exact h v hv (by simp [hvu, hvl])
    rw [Finset.sum_congr rfl fun x _ => if_congr (hx x) rfl rfl, Finset.sum_eq_single (b u)]
    · simp
    · intro x _ hne; rw [if_neg fun h => hne h.1]
    · intro h; exact absurd (Finset.mem_range.2 (hb u (by simp))) h

/-- Integrating a finite sum over assignments. -/
theorem integral_sumAll {Ω : Type} [MeasurableSpace Ω] {μ : Measure Ω} {c : N → ℕ} {F : Ω → Asg N → ℚ} {G : Asg N → ℚ}
    (hF : ∀ a, Integrable (fun u => ((F u a : ℚ) : ℝ)) μ ∧ ∫ u, ((F u a : ℚ) : ℝ) ∂μ = ((G a : ℚ) : ℝ)) : ∀ (l : List N) (a : Asg N),
    Integrable (fun u => ((sumAll c l (F u) a : ℚ) : ℝ)) μ ∧ ∫ u, ((sumAll c l (F u) a : ℚ) : ℝ) ∂μ = ((sumAll c l G a : ℚ) : ℝ) := by
  intro l
  induction l with
  | nil => intro a; exact hF a
  | cons v l ih =>
    intro a
    simp only [sumAll, Rat.cast_sum]
    refine ⟨integrable_finsetSum _ fun x _ => (ih _).1, ?_⟩
    rw [integral_finsetSum _ fun x _ => (ih _).1]
    exact Finset.sum_congr rfl fun x _ => (ih _).2

open Classical in
theorem integral_box {bn : BayesNet N A} (w : bn.WF) (hn : bn.Nonneg) (hno : bn.Normalised) {L : List N} (hL : ∀ v ∈ L, v ∈ bn.V) (n : ℕ)
    {sel : ℕ → Option (Asg N)} (hsel : ∀ t a, t < n → sel t = some a → InRange bn.cardOf bn.V a) (y : ℚ) :
    Integrable (fun u => (((if u ∈ box bn L n sel then y else 0 : ℚ)) : ℝ)) (volume.restrict (cube (n * L.length))) ∧
    ∫ u in cube (n * L.length), (((if u ∈ box bn L n sel then y else 0 : ℚ)) : ℝ) = ((selProb bn L n sel * y : ℚ) : ℝ) := by
  have hfun : (fun u => (((if u ∈ box bn L n sel then y else 0 : ℚ)) : ℝ)) = (box bn L n sel).indicator fun _ => (y : ℝ) := by
    funext u
    rw [Set.indicator_apply]
    split_ifs <;> simp
  have hms := measurableSet_box bn L n sel
  have hsub : box bn L n sel ⊆ cube (n * L.length) := fun u hu => ((mem_box w hn hno hL hsel).1 hu).1
  have hvol := volume_box hn hL n sel
  have hnn : 0 ≤ ((selProb bn L n sel : ℚ) : ℝ) := by
    have : 0 ≤ selProb bn L n sel := by
      unfold selProb
      apply Finset.prod_nonneg
      intro t _
      cases sel t with
      | none => norm_num
      | some a =>
        simp only
        rw [prod_eq_prod]
        exact Finset.prod_nonneg fun j _ => sprob_nonneg hn (hL _ (List.getElem_mem _)) a
    exact_mod_cast this
  rw [hfun]
  constructor
  · apply Integrable.indicator _ hms
    rw [integrable_const_iff]
    right
    rw [isFiniteMeasure_restrict]
    have : volume (cube (n * L.length)) = 1 := by
      unfold cube; rw [Real.volume_pi_Ico]; simp
    rw [this]; exact ENNReal.one_ne_top
  · rw [integral_indicator hms, Measure.restrict_restrict hms, Set.inter_eq_left.2 hsub, setIntegral_const, measureReal_def, hvol,
      ENNReal.toReal_ofReal hnn]
    push_cast
    rfl

theorem selProb_single (bn : BayesNet N A) {n t : ℕ} (ht : t < n) (a : Asg N) :
    selProb bn bn.V n (fun t' => if t' = t then some a else none) = bn.joint a := by
  unfold selProb BayesNet.joint
  rw [Finset.prod_eq_single t]
  · simp
  · intro s _ hs; simp [hs]
  · intro h; exact absurd (Finset.mem_range.2 ht) h

/-- C38 (expectation): the expected value, over independent uniform random numbers, of what `forward_sample(bn, n)` returns for the
`i`-th value `x` of `v` is the exact marginal `P(v = x)`. -/
theorem C38_unbiased (h : HashOrder N) (bn : BayesNet N A) (w : bn.WF) (hn : bn.Nonneg) (hno : bn.Normalised) (tol : ℚ) (h0 : 0 ≤ tol)
    (ht : tol < 1) (hpf : bn.ParentsFirst) (n : ℕ) (h1 : 1 ≤ n) (v : N) (hv : v ∈ bn.V) (a : Asg N) (x : A)
    (hx : (bn.valuesOf v)[a v]? = some x) :
    ∫ u in cube (n * bn.V.length), ((estimate (forwardSample tol h bn n (stream u)) v x : ℚ) : ℝ) = ((bn.marginal v [] a : ℚ) : ℝ) := by
  classical
  have hav : a v < bn.cardOf v := by rw [w.card_len hv]; exact (List.getElem?_eq_some_iff.1 hx).1
  have hn0 : (n : ℚ) ≠ 0 := by exact_mod_cast (by omega : n ≠ 0)
  let l := bn.V.filter fun u => u ≠ v
  have hlmem : ∀ u, u ∈ l ↔ u ∈ bn.V ∧ u ≠ v := by intro u; simp [l]
  have hln : l.Nodup := w.nodup.filter _
  let sel : ℕ → Asg N → ℕ → Option (Asg N) := fun t b t' => if t' = t then some b else none
  let F : ℕ → (Fin (n * bn.V.length) → ℝ) → Asg N → ℚ := fun t u b =>
    if InRange bn.cardOf bn.V b then (if u ∈ box bn bn.V n (sel t b) then 1 else 0) else 0
  let G : Asg N → ℚ := fun b => if InRange bn.cardOf bn.V b then bn.joint b else 0
  have hsel : ∀ {t b}, InRange bn.cardOf bn.V b → ∀ t' b', t' < n → sel t b t' = some b' → InRange bn.cardOf bn.V b' := by
    intro t b hb t' b' _ he
    simp only [sel] at he
    split_ifs at he
    cases he; exact hb
  have hrange : ∀ b, (∀ u, u ∉ l → b u = a u) → InRange bn.cardOf l b → InRange bn.cardOf bn.V b := by
    intro b hb hin u hu
    by_cases huv : u = v
    · subst huv; rw [hb u (by rw [hlmem]; tauto)]; exact hav
    · exact hin u ((hlmem u).2 ⟨hu, huv⟩)
  -- the integrand
  have hpoint : ∀ u ∈ cube (n * bn.V.length), estimate (forwardSample tol h bn n (stream u)) v x =
      ∑ t ∈ Finset.range n, (1 / n : ℚ) * sumAll bn.cardOf l (F t u) a := by
    intro u hu
    obtain ⟨d, smp, g1, g2, g3⟩ := C37_counts h bn w hn tol ht (normalised_near hno h0) hpf (stream u) (stream_mem hu) n h1
    obtain ⟨tb, k1, _, k3⟩ := g3.2 v hv
    have hest : estimate (forwardSample tol h bn n (stream u)) v x =
        (((Finset.range n).filter fun t => smp t v = a v).card : ℚ) / n := by
      rw [g1]; unfold estimate; simp only [k1, Option.bind_some, k3 _ _ hx, Option.getD_some]
    rw [hest, ← Finset.mul_sum, ← Finset.sum_boole, div_eq_mul_one_div, mul_comm]
    congr 1
    apply Finset.sum_congr rfl
    intro t htm
    have htn := Finset.mem_range.1 htm
    have hF : sumAll bn.cardOf l (F t u) a = sumAll bn.cardOf l (fun b => if ∀ w ∈ bn.V, b w = smp t w then 1 else 0) a := by
      apply sumAll_congr _ hln
      intro b hb1 hb2
      have hin := hrange b hb1 hb2
      simp only [F]
      rw [if_pos hin]
      apply if_congr _ rfl rfl
      rw [mem_box w hn hno (fun _ h => h) (hsel hin)]
      constructor
      · rintro ⟨_, hf⟩ u' hu'
        exact ((selFalls_iff w hn hno hpf (g2 t htn).1 (g2 t htn).2).1 (hf t b htn (by simp [sel])) u' hu').symm
      · intro he
        refine ⟨hu, fun t' b' ht' hs => ?_⟩
        simp only [sel] at hs
        split_ifs at hs with htt
        cases hs
        subst htt
        exact (selFalls_iff w hn hno hpf (g2 t' htn).1 (g2 t' htn).2).2 fun v hv => (he v hv).symm
    rw [hF, sumAll_hit l a hln (fun u hu => ((hlmem u).1 hu).1) fun u hu => (g2 t htn).1 u ((hlmem u).1 hu).1]
    apply if_congr _ rfl rfl
    constructor
    · intro he u' hu' hul
      have : u' = v := by by_contra hne; exact hul ((hlmem u').2 ⟨hu', hne⟩)
      subst this; exact he.symm
    · intro he
      exact (he v hv (by rw [hlmem]; tauto)).symm
  have hmsc : MeasurableSet (cube (n * bn.V.length)) := MeasurableSet.univ_pi fun _ => measurableSet_Ico
  have hint : ∀ t ∈ Finset.range n,
      Integrable (fun u => ((sumAll bn.cardOf l (F t u) a : ℚ) : ℝ)) (volume.restrict (cube (n * bn.V.length))) ∧
      ∫ u in cube (n * bn.V.length), ((sumAll bn.cardOf l (F t u) a : ℚ) : ℝ) = ((sumAll bn.cardOf l G a : ℚ) : ℝ) := by
    intro t htm
    apply integral_sumAll
    intro b
    simp only [F, G]
    by_cases hb : InRange bn.cardOf bn.V b
    · simp only [if_pos hb]
      have := integral_box w hn hno (fun _ h => h) n (hsel (t := t) hb) 1
      rw [mul_one, selProb_single bn (Finset.mem_range.1 htm)] at this
      exact this
    · simp only [if_neg hb]; simp
  rw [setIntegral_congr_fun hmsc (g := fun u => ∑ t ∈ Finset.range n, ((1 / n : ℚ) : ℝ) * ((sumAll bn.cardOf l (F t u) a : ℚ) : ℝ)) (by
    intro u hu
    simp only
    rw [hpoint u hu]; push_cast; rfl)]
  rw [integral_finsetSum _ fun t htm => ((hint t htm).1.const_mul _)]
  rw [Finset.sum_congr rfl fun t htm => by rw [integral_const_mul, (hint t htm).2]]
  rw [Finset.sum_const, Finset.card_range, nsmul_eq_mul, ← mul_assoc]
  have hG : sumAll bn.cardOf l G a = bn.marginal v [] a := by
    unfold BayesNet.marginal
    have : (bn.V.filter fun u => u ≠ v ∧ u ∉ Dict.keys ([] : Dict N A)) = l := by simp [l, Dict.keys]
    rw [this]
    apply sumAll_congr _ hln
    intro b hb1 hb2
    simp only [G]; rw [if_pos (hrange b hb1 hb2)]
  rw [hG]
  push_cast
  rw [mul_one_div_cancel (by exact_mod_cast hn0), one_mul]

end PyBN
