import Verif.Proofs.SamplePass
import Verif.Props.Sample4
import Mathlib.Probability.Moments.Variance

/-!
# Convergence of the samplers: C171 - C174

The random-number source is a sequence of independent random variables uniform on `[0, 1)` on an arbitrary probability space
(`Verif.Spec.Random`).
-/

set_option linter.unusedSectionVars false

namespace PyBN
open BayesNet Sampling MeasureTheory ProbabilityTheory Filter Topology
variable {N A : Type} [DecidableEq N] [DecidableEq A] {Ω : Type} [MeasurableSpace Ω] {P : Measure Ω} {U : ℕ → Ω → ℝ}

theorem stream_block {L t j : ℕ} (ω : Ω) (hj : j < L) : stream (blockOf U L t ω) j = U (t * L + j) ω := by
  unfold stream blockOf; rw [dif_pos hj]

theorem block_cube {L t : ℕ} {ω : Ω} (hω : ∀ i, 0 ≤ U i ω ∧ U i ω < 1) : blockOf U L t ω ∈ cube L :=
  fun j _ => ⟨(hω _).1, (hω _).2⟩

/-- What `forward_sample` returns is the mean of the contributions of the passes, each 0 or 1. -/
theorem forward_mean (h : HashOrder N) {bn : BayesNet N A} (w : bn.WF) (hn : bn.Nonneg) (hno : bn.Normalised) {tol : ℚ} (h0 : 0 ≤ tol)
    (ht : tol < 1) (hpf : bn.ParentsFirst) {v : N} (hv : v ∈ bn.V) {a : Asg N} {x : A}
    (hx : (bn.valuesOf v)[a v]? = some x) {n : ℕ} (h1 : 1 ≤ n) {ω : Ω} (hω : ∀ i, 0 ≤ U i ω ∧ U i ω < 1) :
    estimate (forwardSample tol h bn n fun i => U i ω) v x =
      (∑ t ∈ Finset.range n, passW bn [] (bn.V.filter fun u => u ≠ v) a (blockOf U _ t ω)) / n ∧
    ∀ t < n, passW bn [] (bn.V.filter fun u => u ≠ v) a (blockOf U _ t ω) = 0 ∨
      passW bn [] (bn.V.filter fun u => u ≠ v) a (blockOf U _ t ω) = 1 := by
  have hav : a v < bn.cardOf v := by rw [w.card_len hv]; exact (List.getElem?_eq_some_iff.1 hx).1
  obtain ⟨d, smp, g1, g2, g3⟩ := C37_counts h bn w hn tol ht (normalised_near hno h0) hpf (fun i => U i ω) hω n h1
  obtain ⟨tb, k1, _, k3⟩ := g3.2 v hv
  have hpass : ∀ t < n, passW bn [] (bn.V.filter fun u => u ≠ v) a (blockOf U _ t ω) = if smp t v = a v then 1 else 0 := by
    intro t htn
    rw [passW_ok w hn hno hpf (w.nodup.filter _) (by rw [freeOf_nil]; exact fun u hu => (List.mem_filter.1 hu).1) ?_
      (fun e he => absurd he (by simp)) (g2 t htn).1 (fun e he => absurd he (by simp)) (block_cube hω) ?_, evWeight_nil]
    · apply if_congr _ rfl rfl
      constructor
      · intro he; exact (he v hv (by simp)).symm
      · intro he u hu hul
        have : u = v := by by_contra hne; exact hul (List.mem_filter.2 ⟨hu, by simpa using hne⟩)
        subst this; exact he.symm
    · intro u hu hul
      have : u = v := by by_contra hne; exact hul (List.mem_filter.2 ⟨hu, by simpa using hne⟩)
      subst this; exact hav
    · intro j v' hj
      have hj' := (List.getElem?_eq_some_iff.1 hj).1
      rw [stream_block ω (by omega), one_mul]
      rw [freeOf_nil] at hj ⊢
      exact (g2 t htn).2 j v' hj
  refine ⟨?_, fun t htn => ?_⟩
  · have hest : estimate (forwardSample tol h bn n fun i => U i ω) v x =
        (((Finset.range n).filter fun t => smp t v = a v).card : ℚ) / n := by
      rw [g1]; unfold estimate; simp only [k1, Option.bind_some, k3 _ _ hx, Option.getD_some]
    rw [hest, ← Finset.sum_boole, Finset.sum_congr rfl fun t htm => hpass t (Finset.mem_range.1 htm)]
  · rw [hpass t htn]; split_ifs <;> simp

/-- The contribution of pass `t` as a real random variable. -/
theorem forward_vars (hU : Uniforms P U) {bn : BayesNet N A} (w : bn.WF) (hn : bn.Nonneg) (hno : bn.Normalised)
    {v : N} (hv : v ∈ bn.V) {a : Asg N} {x : A} (hx : (bn.valuesOf v)[a v]? = some x) :
    ∀ t, Integrable (fun ω => ((passW bn [] (bn.V.filter fun u => u ≠ v) a (blockOf U _ t ω) : ℚ) : ℝ)) P ∧
      ∫ ω, ((passW bn [] (bn.V.filter fun u => u ≠ v) a (blockOf U _ t ω) : ℚ) : ℝ) ∂P = ((bn.marginal v [] a : ℚ) : ℝ) := by
  intro t
  have hav : a v < bn.cardOf v := by rw [w.card_len hv]; exact (List.getElem?_eq_some_iff.1 hx).1
  obtain ⟨_, _, b3, b4⟩ := block_fun hU (passW_measurable bn [] (bn.V.filter fun u => u ≠ v) a)
  have hi := passW_integral w hn hno (ev := []) (w.nodup.filter fun u => decide (u ≠ v)) (a := a) (by
    intro u hu hul
    have : u = v := by by_contra hne; exact hul (List.mem_filter.2 ⟨hu, by simpa using hne⟩)
    subst this; exact hav)
  refine ⟨(b4 t).2 hi.1, ?_⟩
  rw [b3 t, hi.2]
  unfold BayesNet.marginal
  simp [Dict.keys]

/-- C171 (bias and variance): with independent uniform random numbers, what `forward_sample(bn, n)` returns for a value of `v` has mean
`p = P(v = x)` and variance `p (1 - p) / n`. -/
theorem C171_mean_variance (hU : Uniforms P U) (h : HashOrder N) (bn : BayesNet N A) (w : bn.WF) (hn : bn.Nonneg) (hno : bn.Normalised)
    (tol : ℚ) (h0 : 0 ≤ tol) (ht : tol < 1) (hpf : bn.ParentsFirst) (n : ℕ) (h1 : 1 ≤ n) (v : N) (hv : v ∈ bn.V) (a : Asg N) (x : A)
    (hx : (bn.valuesOf v)[a v]? = some x) :
    let p : ℝ := ((bn.marginal v [] a : ℚ) : ℝ)
    let est : Ω → ℝ := fun ω => ((estimate (forwardSample tol h bn n fun i => U i ω) v x : ℚ) : ℝ)
    ∫ ω, est ω ∂P = p ∧ Var[est; P] = p * (1 - p) / n := by
  intro p est
  have hP := uniforms_prob hU
  have hn0 : (n : ℝ) ≠ 0 := by exact_mod_cast (by omega : n ≠ 0)
  let X : ℕ → Ω → ℝ := fun t ω => ((passW bn [] (bn.V.filter fun u => u ≠ v) a (blockOf U _ t ω) : ℚ) : ℝ)
  have hX := forward_vars hU w hn hno hv hx
  obtain ⟨b1, b2, _, _⟩ := block_fun hU (passW_measurable bn [] (bn.V.filter fun u => u ≠ v) a)
  have h01 : ∀ t, ∀ᵐ ω ∂P, X t ω = 0 ∨ X t ω = 1 := by
    intro t
    filter_upwards [uniforms_range hU] with ω hω
    rcases (forward_mean h w hn hno h0 ht hpf hv hx (n := t + 1) (by omega) hω).2 t (by omega) with e | e
    · left; simp only [X, e, Rat.cast_zero]
    · right; simp only [X, e, Rat.cast_one]
  have hest : est =ᵐ[P] fun ω => (n : ℝ)⁻¹ * ∑ t ∈ Finset.range n, X t ω := by
    filter_upwards [uniforms_range hU] with ω hω
    simp only [est, X]
    rw [(forward_mean h w hn hno h0 ht hpf hv hx h1 hω).1]
    push_cast
    rw [div_eq_inv_mul]
  have hmem : ∀ t, MemLp (X t) 2 P := by
    intro t
    apply MemLp.of_bound (hX t).1.aestronglyMeasurable 1
    filter_upwards [h01 t] with ω hω
    show ‖X t ω‖ ≤ 1
    rcases hω with e | e <;> rw [e] <;> norm_num
  have hvar : ∀ t, Var[X t; P] = p * (1 - p) := by
    intro t
    rw [variance_eq_sub (hmem t)]
    have hsq : ∫ ω, (X t ^ 2) ω ∂P = ∫ ω, X t ω ∂P := by
      apply integral_congr_ae
      filter_upwards [h01 t] with ω hω
      rcases hω with e | e <;> simp [e]
    rw [hsq, (hX t).2]
    ring
  constructor
  · rw [integral_congr_ae hest, integral_const_mul, integral_finsetSum _ fun t _ => (hX t).1,
      Finset.sum_congr rfl fun t _ => (hX t).2, Finset.sum_const, Finset.card_range, nsmul_eq_mul, ← mul_assoc, inv_mul_cancel₀ hn0, one_mul]
  · rw [variance_congr hest, variance_const_mul]
    have := IndepFun.variance_sum (X := X) (s := Finset.range n) (μ := P) (fun t _ => hmem t)
      (fun i _ j _ hij => b1.indepFun hij)
    have e : (fun ω => ∑ t ∈ Finset.range n, X t ω) = ∑ t ∈ Finset.range n, X t := by funext ω; rw [Finset.sum_apply]
    rw [e, this, Finset.sum_congr rfl fun t _ => hvar t, Finset.sum_const, Finset.card_range, nsmul_eq_mul]
    field_simp

/-- C171 (concentration, Hoeffding): the probability that `forward_sample(bn, n)` misses the exact marginal by `ε` or more is at most
`2 exp(-2 n ε²)`. -/
theorem C171_concentration (hU : Uniforms P U) (h : HashOrder N) (bn : BayesNet N A) (w : bn.WF) (hn : bn.Nonneg) (hno : bn.Normalised)
    (tol : ℚ) (h0 : 0 ≤ tol) (ht : tol < 1) (hpf : bn.ParentsFirst) (n : ℕ) (h1 : 1 ≤ n) (v : N) (hv : v ∈ bn.V) (a : Asg N) (x : A)
    (hx : (bn.valuesOf v)[a v]? = some x) (ε : ℝ) (hε : 0 ≤ ε) :
    P.real {ω | ε ≤ |((estimate (forwardSample tol h bn n fun i => U i ω) v x : ℚ) : ℝ) - ((bn.marginal v [] a : ℚ) : ℝ)|} ≤
      2 * Real.exp (-2 * n * ε ^ 2) := by
  have hP := uniforms_prob hU
  have hn0 : (0 : ℝ) < n := by exact_mod_cast h1
  let X : ℕ → Ω → ℝ := fun t ω => ((passW bn [] (bn.V.filter fun u => u ≠ v) a (blockOf U _ t ω) : ℚ) : ℝ)
  set p : ℝ := ((bn.marginal v [] a : ℚ) : ℝ) with hp
  have hX := forward_vars hU w hn hno hv hx
  obtain ⟨b1, b2, _, _⟩ := block_fun hU (passW_measurable bn [] (bn.V.filter fun u => u ≠ v) a)
  have h01 : ∀ t, ∀ᵐ ω ∂P, X t ω ∈ Set.Icc (0 : ℝ) 1 := by
    intro t
    filter_upwards [uniforms_range hU] with ω hω
    rcases (forward_mean h w hn hno h0 ht hpf hv hx (n := t + 1) (by omega) hω).2 t (by omega) with e | e
    · simp only [X, e, Rat.cast_zero]; constructor <;> norm_num
    · simp only [X, e, Rat.cast_one]; constructor <;> norm_num
  have hsub : ∀ t, HasSubgaussianMGF (fun ω => X t ω - p) ((1 / 2) ^ 2) P := by
    intro t
    have := hasSubgaussianMGF_of_mem_Icc (hX t).1.aestronglyMeasurable.aemeasurable (h01 t)
    rw [(hX t).2] at this
    have e : (‖(1 : ℝ) - 0‖₊ / 2) ^ 2 = ((1 / 2) ^ 2 : NNReal) := by simp
    rw [e] at this
    exact this
  have hind : iIndepFun (fun t ω => X t ω - p) P := b1.comp (fun _ y => y - p) fun _ => measurable_id.sub_const p
  have hindn : iIndepFun (fun t ω => -(X t ω - p)) P := b1.comp (fun _ y => -(y - p)) fun _ => (measurable_id.sub_const p).neg
  have u1 := HasSubgaussianMGF.measure_sum_range_ge_le_of_iIndepFun hind (n := n) (fun t _ => hsub t) (ε := n * ε) (by positivity)
  have u2 := HasSubgaussianMGF.measure_sum_range_ge_le_of_iIndepFun hindn (n := n) (fun t _ => (hsub t).neg) (ε := n * ε) (by positivity)
  have hexp : -((n : ℝ) * ε) ^ 2 / (2 * n * (((1 / 2) ^ 2 : NNReal) : ℝ)) = -2 * n * ε ^ 2 := by
    push_cast
    field_simp
  rw [hexp] at u1 u2
  have hsubset : {ω | ε ≤ |((estimate (forwardSample tol h bn n fun i => U i ω) v x : ℚ) : ℝ) - p|} ≤ᵐ[P]
      ({ω | n * ε ≤ ∑ t ∈ Finset.range n, (X t ω - p)} ∪ {ω | n * ε ≤ ∑ t ∈ Finset.range n, -(X t ω - p)} : Set Ω) := by
    filter_upwards [uniforms_range hU] with ω hω hle
    have hle : ε ≤ |((estimate (forwardSample tol h bn n fun i => U i ω) v x : ℚ) : ℝ) - p| := hle
    rw [(forward_mean h w hn hno h0 ht hpf hv hx h1 hω).1] at hle
    have e : ((((∑ t ∈ Finset.range n, passW bn [] (bn.V.filter fun u => u ≠ v) a (blockOf U _ t ω)) / n : ℚ)) : ℝ) - p =
        (∑ t ∈ Finset.range n, (X t ω - p)) / n := by
      rw [Finset.sum_sub_distrib]
      simp only [X]
      push_cast
      rw [Finset.sum_const, Finset.card_range, nsmul_eq_mul]
      field_simp
    rw [e, abs_div, abs_of_pos hn0, le_div_iff₀ hn0, mul_comm, le_abs] at hle
    rcases hle with hle | hle
    · exact Or.inl hle
    · right
      rw [Set.mem_setOf_eq, Finset.sum_neg_distrib]; exact hle
  calc P.real _ ≤ P.real ({ω | n * ε ≤ ∑ t ∈ Finset.range n, (X t ω - p)} ∪ {ω | n * ε ≤ ∑ t ∈ Finset.range n, -(X t ω - p)}) :=
        ENNReal.toReal_mono (measure_ne_top _ _) (measure_mono_ae hsubset)
    _ ≤ _ := measureReal_union_le _ _
    _ ≤ _ := by linarith

/-- C172: almost surely, `forward_sample(bn, n)` converges to the exact marginals as `n` grows. -/
theorem C172_forward_converges (hU : Uniforms P U) (h : HashOrder N) (bn : BayesNet N A) (w : bn.WF) (hn : bn.Nonneg) (hno : bn.Normalised)
    (tol : ℚ) (h0 : 0 ≤ tol) (ht : tol < 1) (hpf : bn.ParentsFirst) (v : N) (hv : v ∈ bn.V) (a : Asg N) (x : A)
    (hx : (bn.valuesOf v)[a v]? = some x) :
    ∀ᵐ ω ∂P, Tendsto (fun n : ℕ => ((estimate (forwardSample tol h bn n fun i => U i ω) v x : ℚ) : ℝ)) atTop
      (𝓝 ((bn.marginal v [] a : ℚ) : ℝ)) := by
  have hX := forward_vars hU w hn hno hv hx
  obtain ⟨b1, b2, _, _⟩ := block_fun hU (passW_measurable bn [] (bn.V.filter fun u => u ≠ v) a)
  have := strong_law_ae_real _ (hX 0).1 (fun i j hij => b1.indepFun hij) b2
  rw [(hX 0).2] at this
  filter_upwards [this, uniforms_range hU] with ω hω hr
  refine hω.congr' ?_
  filter_upwards [eventually_ge_atTop 1] with n h1
  rw [(forward_mean h w hn hno h0 ht hpf hv hx h1 hr).1]
  push_cast
  rfl

/-! ## Likelihood weighting -/

/-- What `lw_sample` returns is the rounded ratio of the summed contributions of the passes. -/
theorem lw_ratio (h : HashOrder N) {bn : BayesNet N A} (w : bn.WF) (hn : bn.Nonneg) (hno : bn.Normalised) {tol : ℚ} (h0 : 0 ≤ tol)
    (ht : tol < 1) (hpf : bn.ParentsFirst) {ev : Dict N A} (hev : bn.LegalEvidence ev) {v : N} (hv : v ∈ bn.V) {a : Asg N}
    (hag : bn.Agrees ev a) {x : A} (hx : (bn.valuesOf v)[a v]? = some x) {n : ℕ} {ω : Ω}
    (hω : ∀ i, 0 ≤ U i ω ∧ U i ω < 1)
    (hD : ∑ t ∈ Finset.range n, passW bn ev (freeOf ev bn.V) a (blockOf U _ t ω) ≠ 0) :
    ∃ d, lwSample tol h bn ev n (fun i => U i ω) = .ok d ∧ estimate (.ok d) v x =
      roundAway 4 ((∑ t ∈ Finset.range n, passW bn ev ((freeOf ev bn.V).filter fun u => u ≠ v) a (blockOf U _ t ω)) /
        ∑ t ∈ Finset.range n, passW bn ev (freeOf ev bn.V) a (blockOf U _ t ω)) := by
  obtain ⟨smp, g1, g2⟩ := C39_weighted_counts h bn w hn tol ht (normalised_near hno h0) hpf ev hev (fun i => U i ω) hω n
  simp only at g2
  rw [← obsOf_eq] at g2
  rw [← freeOf_eq] at g1
  have hav : a v < bn.cardOf v := by rw [w.card_len hv]; exact (List.getElem?_eq_some_iff.1 hx).1
  have hobs : ∀ u ∈ bn.V, u ∉ freeOf ev bn.V → ∃ e, (u, e) ∈ ev := by
    intro u hu hnf
    cases hg : ev.get? u with
    | none => exact absurd (List.mem_filter.2 ⟨hu, by simp [hg]⟩) hnf
    | some e => exact ⟨e, Dict.get?_mem hg⟩
  have hev_range : ∀ b : Asg N, bn.Agrees ev b → ∀ u ∈ bn.V, u ∉ freeOf ev bn.V → b u < bn.cardOf u := by
    intro b hb u hu hnf
    obtain ⟨e, he⟩ := hobs u hu hnf
    rw [w.card_len hu]; exact (List.getElem?_eq_some_iff.1 (hb _ he)).1
  have hev_eq : ∀ t < n, ∀ u ∈ bn.V, u ∉ freeOf ev bn.V → a u = smp t u := by
    intro t htn u hu hnf
    obtain ⟨e, he⟩ := hobs u hu hnf
    exact (value_eq_iff w hu ((g1 t htn).2.1 _ he)).1 (hag _ he)
  have hfalls : ∀ t < n, ∀ j v', (freeOf ev bn.V)[j]? = some v' →
      bn.Falls (smp t) v' (stream (blockOf U (1 * (freeOf ev bn.V).length) t ω) j) := by
    intro t htn j v' hj
    have hj' := (List.getElem?_eq_some_iff.1 hj).1
    rw [stream_block ω (by omega), one_mul]
    exact (g1 t htn).2.2 j v' hj
  have hden : ∀ t < n, passW bn ev (freeOf ev bn.V) a (blockOf U _ t ω) = evWeight bn ev (smp t) := by
    intro t htn
    rw [passW_ok (l := freeOf ev bn.V) w hn hno hpf (w.nodup.filter _) (fun _ hu => hu) (hev_range a hag) hag (g1 t htn).1 (g1 t htn).2.1 (block_cube hω)
      (hfalls t htn), if_pos fun u hu hnf => hev_eq t htn u hu hnf]
  have hnum : ∀ t < n, passW bn ev ((freeOf ev bn.V).filter fun u => u ≠ v) a (blockOf U _ t ω) =
      if smp t v = a v then evWeight bn ev (smp t) else 0 := by
    intro t htn
    have hcase : ∀ u, u ∉ (freeOf ev bn.V).filter (fun u => u ≠ v) → u = v ∨ u ∉ freeOf ev bn.V := by
      intro u hu
      by_cases hne : u = v
      · exact Or.inl hne
      · exact Or.inr fun hf => hu (List.mem_filter.2 ⟨hf, by simpa using hne⟩)
    rw [passW_ok (l := (freeOf ev bn.V).filter fun u => u ≠ v) w hn hno hpf ((w.nodup.filter _).filter _) (fun u hu => (List.mem_filter.1 hu).1) ?_ hag (g1 t htn).1 (g1 t htn).2.1
      (block_cube hω) (hfalls t htn)]
    · apply if_congr _ rfl rfl
      constructor
      · intro he; exact (he v hv (by simp)).symm
      · intro he u hu hul
        rcases hcase u hul with rfl | hnf
        · exact he.symm
        · exact hev_eq t htn u hu hnf
    · intro u hu hul
      rcases hcase u hul with rfl | hnf
      · exact hav
      · exact hev_range a hag u hu hnf
  rw [Finset.sum_congr rfl fun t htm => hden t (Finset.mem_range.1 htm)] at hD ⊢
  rw [Finset.sum_congr rfl fun t htm => hnum t (Finset.mem_range.1 htm)]
  obtain ⟨d, e1, e2⟩ := g2.2 hD
  obtain ⟨tb, k1, _, k3⟩ := e2.2 v hv
  refine ⟨d, e1, ?_⟩
  unfold estimate
  simp only [k1, Option.bind_some, k3 _ _ hx, Option.getD_some]
  rw [Finset.sum_filter]
  rfl

/-- C173: for evidence of positive probability, almost surely, as `n` grows `lw_sample(bn, n, ev)` eventually always succeeds, and the
number it returns is eventually within any `δ` of the rounded conditional probability: it stays within half a unit of the fourth digit
(plus `δ`) of `P(v = x | evidence)`. -/
theorem C173_lw_converges (hU : Uniforms P U) (h : HashOrder N) (bn : BayesNet N A) (w : bn.WF) (hn : bn.Nonneg) (hno : bn.Normalised)
    (tol : ℚ) (h0 : 0 ≤ tol) (ht : tol < 1) (hpf : bn.ParentsFirst) (ev : Dict N A) (hev : bn.LegalEvidence ev) (v : N) (hv : v ∈ bn.V)
    (a : Asg N) (hag : bn.Agrees ev a) (x : A) (hx : (bn.valuesOf v)[a v]? = some x) (hpos : bn.evidenceProb ev a ≠ 0) :
    ∀ᵐ ω ∂P, (∀ᶠ n in atTop, ∃ d, lwSample tol h bn ev n (fun i => U i ω) = .ok d) ∧
      ∀ δ > 0, ∀ᶠ n in atTop, |((estimate (lwSample tol h bn ev n fun i => U i ω) v x : ℚ) : ℝ) -
        ((bn.marginal v ev a / bn.evidenceProb ev a : ℚ) : ℝ)| ≤ 1 / 20000 + δ := by
  have hav : a v < bn.cardOf v := by rw [w.card_len hv]; exact (List.getElem?_eq_some_iff.1 hx).1
  have hev_range : ∀ u ∈ bn.V, u ∉ freeOf ev bn.V → a u < bn.cardOf u := by
    intro u hu hnf
    cases hg : ev.get? u with
    | none => exact absurd (List.mem_filter.2 ⟨hu, by simp [hg]⟩) hnf
    | some e => rw [w.card_len hu]; exact (List.getElem?_eq_some_iff.1 (hag _ (Dict.get?_mem hg))).1
  have hD := passW_integral w hn hno (ev := ev) (l := freeOf ev bn.V) (w.nodup.filter _) hev_range
  have hN := passW_integral w hn hno (ev := ev) (l := (freeOf ev bn.V).filter fun u => u ≠ v) ((w.nodup.filter _).filter _) (a := a) (by
    intro u hu hul
    by_cases hne : u = v
    · subst hne; exact hav
    · exact hev_range u hu fun hf => hul (List.mem_filter.2 ⟨hf, by simpa using hne⟩))
  obtain ⟨b1, b2, b3, b4⟩ := block_fun hU (passW_measurable bn ev (freeOf ev bn.V) a)
  obtain ⟨c1, c2, c3, c4⟩ := block_fun hU (passW_measurable bn ev ((freeOf ev bn.V).filter fun u => u ≠ v) a)
  have sD := strong_law_ae_real _ ((b4 0).2 hD.1) (fun i j hij => b1.indepFun hij) b2
  have sN := strong_law_ae_real _ ((c4 0).2 hN.1) (fun i j hij => c1.indepFun hij) c2
  rw [b3 0, hD.2] at sD
  rw [c3 0, hN.2] at sN
  have eD : sumAll bn.cardOf (freeOf ev bn.V) bn.joint a = bn.evidenceProb ev a := by rw [freeOf_eq]; rfl
  have eN : sumAll bn.cardOf ((freeOf ev bn.V).filter fun u => u ≠ v) bn.joint a = bn.marginal v ev a := by
    rw [freeOf_eq, List.filter_filter]; unfold BayesNet.marginal
    congr 1; apply List.filter_congr; intro u _; simp
  rw [eD] at sD
  rw [eN] at sN
  filter_upwards [sD, sN, uniforms_range hU] with ω dω nω hr
  have hposR : ((bn.evidenceProb ev a : ℚ) : ℝ) ≠ 0 := by exact_mod_cast hpos
  have hne : ∀ᶠ n : ℕ in atTop, ∑ t ∈ Finset.range n, passW bn ev (freeOf ev bn.V) a (blockOf U _ t ω) ≠ 0 := by
    filter_upwards [dω.eventually_ne hposR] with n hnz hz
    apply hnz
    rw [← Rat.cast_sum, hz]; simp
  have hlim := nω.div dω hposR
  constructor
  · filter_upwards [hne] with n hnz
    obtain ⟨d, e, _⟩ := lw_ratio h w hn hno h0 ht hpf hev hv hag hx hr hnz
    exact ⟨d, e⟩
  · intro δ hδ
    filter_upwards [hne, hlim.eventually (Metric.closedBall_mem_nhds _ hδ), eventually_ge_atTop 1] with n hnz hcl h1
    obtain ⟨d, e, e2⟩ := lw_ratio h w hn hno h0 ht hpf hev hv hag hx hr hnz
    rw [e, e2]
    have hn0 : (n : ℝ) ≠ 0 := by exact_mod_cast (by omega : n ≠ 0)
    have hr' := roundAway_close 4 ((∑ t ∈ Finset.range n, passW bn ev ((freeOf ev bn.V).filter fun u => u ≠ v) a (blockOf U _ t ω)) /
        ∑ t ∈ Finset.range n, passW bn ev (freeOf ev bn.V) a (blockOf U _ t ω))
    rw [Real.dist_eq] at hcl
    simp only [Pi.div_apply, ← Rat.cast_sum] at hcl
    rw [div_div_div_cancel_right₀ hn0, ← Rat.cast_div] at hcl
    generalize (∑ t ∈ Finset.range n, passW bn ev ((freeOf ev bn.V).filter fun u => u ≠ v) a (blockOf U _ t ω)) /
        (∑ t ∈ Finset.range n, passW bn ev (freeOf ev bn.V) a (blockOf U _ t ω)) = q at hr' hcl
    have hr2 : |((roundAway 4 q : ℚ) : ℝ) - (q : ℝ)| ≤ 1 / 20000 := by
      have : ((|roundAway 4 q - q| : ℚ) : ℝ) ≤ ((1 / 2 / 10 ^ 4 : ℚ) : ℝ) := by exact_mod_cast hr'
      push_cast at this
      refine this.trans (le_of_eq (by norm_num))
    rw [Rat.cast_div]
    calc _ = |(((roundAway 4 q : ℚ) : ℝ) - (q : ℝ)) + ((q : ℝ) - ((bn.marginal v ev a : ℚ) : ℝ) / ((bn.evidenceProb ev a : ℚ) : ℝ))| := by
          rw [sub_add_sub_cancel]
      _ ≤ _ := abs_add_le _ _
      _ ≤ _ := add_le_add hr2 hcl

/-! ## Gibbs sampling -/

/-- C174: for a fixed burn-in, almost surely, as `n` grows `gibbs_sample(bn, n, burn)` stays within half a unit of the fourth digit
(plus any `δ`) of the exact marginal: the missing sweep in the divisor does not matter in the limit. -/
theorem C174_gibbs_converges (hU : Uniforms P U) (h : HashOrder N) (bn : BayesNet N A) (w : bn.WF) (hn : bn.Nonneg) (hno : bn.Normalised)
    (tol : ℚ) (h0 : 0 ≤ tol) (ht : tol < 1) (hpf : bn.ParentsFirst) (burn : ℕ) (v : N) (hv : v ∈ bn.V) (a : Asg N) (x : A)
    (hx : (bn.valuesOf v)[a v]? = some x) :
    ∀ᵐ ω ∂P, ∀ δ > 0, ∀ᶠ n in atTop, |((estimate (gibbsSample tol h bn n burn fun i => U i ω) v x : ℚ) : ℝ) -
      ((bn.marginal v [] a : ℚ) : ℝ)| ≤ 1 / 20000 + δ := by
  have hU' : Uniforms P fun i => U ((burn + 2) * bn.V.length + i) :=
    ⟨fun i => hU.meas _, hU.indep.precomp fun i j hij => by simpa using hij, fun i => hU.unif _⟩
  filter_upwards [C172_forward_converges hU' h bn w hn hno tol h0 ht hpf v hv a x hx, uniforms_range hU] with ω hω hr δ hδ
  have h1 : Tendsto (fun n : ℕ => n - burn - 1) atTop atTop := by
    have := (tendsto_sub_atTop_nat burn)
    exact (tendsto_sub_atTop_nat 1).comp this
  have h2 := hω.comp h1
  have h3 : Tendsto (fun n : ℕ => ((n - burn - 1 : ℕ) : ℝ) / ((n - burn : ℕ) : ℝ)) atTop (𝓝 1) := by
    have : Tendsto (fun m : ℕ => 1 - 1 / (m : ℝ)) atTop (𝓝 (1 - 0)) := tendsto_const_nhds.sub tendsto_one_div_atTop_nhds_zero_nat
    rw [sub_zero] at this
    refine (this.comp (tendsto_sub_atTop_nat burn)).congr' ?_
    filter_upwards [eventually_ge_atTop (burn + 1)] with n hn'
    have hm : 1 ≤ n - burn := by omega
    have : ((n - burn : ℕ) : ℝ) ≠ 0 := by exact_mod_cast (by omega : n - burn ≠ 0)
    simp only [Function.comp]
    rw [Nat.cast_sub hm]
    field_simp
    simp
  have h4 := h2.mul h3
  rw [mul_one] at h4
  filter_upwards [h4.eventually (Metric.closedBall_mem_nhds _ hδ), eventually_ge_atTop (burn + 2)] with n hcl hn'
  obtain ⟨d, d', g1, _, g3, g4⟩ := C69_gibbs_is_forward h bn w hn tol ht (normalised_near hno h0) hpf (fun i => U i ω) hr n burn (by omega)
  rw [g1, g4 v hv x (List.mem_of_getElem? hx)]
  rw [Real.dist_eq] at hcl
  simp only [Function.comp] at hcl
  rw [g3] at hcl
  set q := estimate (.ok d') v x * ((n - burn - 1 : ℕ) : ℚ) / ((n - burn : ℕ) : ℚ) with hq
  have hr' := roundAway_close 4 q
  have hr2 : |((roundAway 4 q : ℚ) : ℝ) - (q : ℝ)| ≤ 1 / 20000 := by
    have : ((|roundAway 4 q - q| : ℚ) : ℝ) ≤ ((1 / 2 / 10 ^ 4 : ℚ) : ℝ) := by exact_mod_cast hr'
    push_cast at this
    refine this.trans (le_of_eq (by norm_num))
  have hqR : (q : ℝ) = ((estimate (.ok d') v x : ℚ) : ℝ) * (((n - burn - 1 : ℕ) : ℝ) / ((n - burn : ℕ) : ℝ)) := by
    rw [hq]; push_cast; ring
  rw [← hqR] at hcl
  calc _ = |(((roundAway 4 q : ℚ) : ℝ) - (q : ℝ)) + ((q : ℝ) - ((bn.marginal v [] a : ℚ) : ℝ))| := by
        rw [sub_add_sub_cancel]
    _ ≤ _ := abs_add_le _ _
    _ ≤ _ := add_le_add hr2 hcl

/-! ## The hypotheses are met -/

/-- Independent uniform random numbers exist: the coordinates of the infinite product of the uniform distribution. -/
theorem uniforms_exist : Uniforms (Measure.infinitePi fun _ : ℕ => (volume.restrict (Set.Ico (0 : ℝ) 1))) (fun i ω => ω i) := by
  have : IsProbabilityMeasure (volume.restrict (Set.Ico (0 : ℝ) 1)) := ⟨by simp⟩
  refine ⟨fun i => measurable_pi_apply i, ?_, fun i => ?_⟩
  · exact iIndepFun_infinitePi (X := fun _ y => y) fun _ => measurable_id
  · exact Measure.infinitePi_map_eval _ i

/-- `forward_sample` on the example network: with 20000 samples the estimate of `P(2 = 31)` is off by 1% or more with probability at
most `2 exp(-4)`. -/
example : (Measure.infinitePi fun _ : ℕ => (volume.restrict (Set.Ico (0 : ℝ) 1))).real
    {ω | 1 / 100 ≤ |((estimate (forwardSample (1 / 10 ^ 8) HashOrder.id exNet 20000 ω) 2 31 : ℚ) : ℝ) -
      ((exNet.marginal 2 [] (fun _ => 1) : ℚ) : ℝ)|} ≤ 2 * Real.exp (-4) := by
  have := C171_concentration uniforms_exist HashOrder.id exNet exNet_wf exNet_nonneg exNet_normalised (1 / 10 ^ 8) (by norm_num) (by norm_num)
    exNet_parentsFirst 20000 (by norm_num) 2 (by decide) (fun _ => 1) 31 (by decide) (1 / 100) (by norm_num)
  refine this.trans (le_of_eq ?_)
  norm_num

/-- The evidence `{2: 31}` of the example network has positive probability, and the assignment of all ones agrees with it. -/
example : exNet.LegalEvidence [(2, 31)] ∧ exNet.Agrees [(2, 31)] (fun _ => 1) ∧ exNet.evidenceProb [(2, 31)] (fun _ => 1) ≠ 0 := by
  refine ⟨⟨by decide, by decide⟩, by intro e he; simp at he; subst he; decide, by decide +kernel⟩

/-- The probabilities spoken of are not 0 or 1. -/
example : exNet.marginal 2 [] (fun _ => 1) ≠ 0 ∧ exNet.marginal 2 [] (fun _ => 1) ≠ 1 := by decide +kernel

end PyBN
