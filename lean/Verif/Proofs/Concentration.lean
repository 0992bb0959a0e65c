import Verif.Proofs.SampleLearn
import Verif.Props.DSep
import Mathlib.Probability.Moments.SubGaussian

/-!
# Hoeffding's inequality for the passes of the samplers
-/

set_option linter.unusedSectionVars false

namespace PyBN
open BayesNet Sampling MeasureTheory ProbabilityTheory Filter Topology
variable {N A : Type} [DecidableEq N] [DecidableEq A] {Ω : Type} [MeasurableSpace Ω] {P : Measure Ω} {U : ℕ → Ω → ℝ}

/-- Hoeffding's inequality for the mean of independent variables in `[0, 1]` with a common expectation. -/
theorem hoeffding_mean [IsProbabilityMeasure P] {X : ℕ → Ω → ℝ} (hind : iIndepFun X P) (hint : ∀ t, AEMeasurable (X t) P)
    (h01 : ∀ t, ∀ᵐ ω ∂P, X t ω ∈ Set.Icc (0 : ℝ) 1) {p : ℝ} (hp : ∀ t, ∫ ω, X t ω ∂P = p) {n : ℕ} (h1 : 1 ≤ n) {ε : ℝ} (hε : 0 ≤ ε) :
    P.real {ω | ε ≤ |(∑ t ∈ Finset.range n, X t ω) / n - p|} ≤ 2 * Real.exp (-2 * n * ε ^ 2) := by
  have hn0 : (0 : ℝ) < n := by exact_mod_cast h1
  have hsub : ∀ t, HasSubgaussianMGF (fun ω => X t ω - p) ((1 / 2) ^ 2) P := by
    intro t
    have := hasSubgaussianMGF_of_mem_Icc (hint t) (h01 t)
    rw [hp t] at this
    have e : (‖(1 : ℝ) - 0‖₊ / 2) ^ 2 = ((1 / 2) ^ 2 : NNReal) := by simp
    rw [e] at this
    exact this
  have i1 : iIndepFun (fun t ω => X t ω - p) P := hind.comp (fun _ y => y - p) fun _ => measurable_id.sub_const p
  have i2 : iIndepFun (fun t ω => -(X t ω - p)) P := hind.comp (fun _ y => -(y - p)) fun _ => (measurable_id.sub_const p).neg
  have u1 := HasSubgaussianMGF.measure_sum_range_ge_le_of_iIndepFun i1 (n := n) (fun t _ => hsub t) (ε := n * ε) (by positivity)
  have u2 := HasSubgaussianMGF.measure_sum_range_ge_le_of_iIndepFun i2 (n := n) (fun t _ => (hsub t).neg) (ε := n * ε) (by positivity)
  have hexp : -((n : ℝ) * ε) ^ 2 / (2 * n * (((1 / 2) ^ 2 : NNReal) : ℝ)) = -2 * n * ε ^ 2 := by
    push_cast
    field_simp
  rw [hexp] at u1 u2
  have hsubset : {ω | ε ≤ |(∑ t ∈ Finset.range n, X t ω) / n - p|} ⊆
      ({ω | n * ε ≤ ∑ t ∈ Finset.range n, (X t ω - p)} ∪ {ω | n * ε ≤ ∑ t ∈ Finset.range n, -(X t ω - p)} : Set Ω) := by
    intro ω hle
    have e : (∑ t ∈ Finset.range n, X t ω) / n - p = (∑ t ∈ Finset.range n, (X t ω - p)) / n := by
      rw [Finset.sum_sub_distrib, Finset.sum_const, Finset.card_range, nsmul_eq_mul]
      field_simp
    rw [Set.mem_setOf_eq, e, abs_div, abs_of_pos hn0, le_div_iff₀ hn0, mul_comm, le_abs] at hle
    rcases hle with hle | hle
    · exact Or.inl hle
    · right
      rw [Set.mem_setOf_eq, Finset.sum_neg_distrib]; exact hle
  calc P.real _ ≤ P.real ({ω | n * ε ≤ ∑ t ∈ Finset.range n, (X t ω - p)} ∪ {ω | n * ε ≤ ∑ t ∈ Finset.range n, -(X t ω - p)}) :=
        measureReal_mono hsubset
    _ ≤ _ := measureReal_union_le _ _
    _ ≤ _ := by linarith

/-- The share of the passes of `random_sample` that agree with `a` on `vs` is near `P(vs = a)`. -/
theorem pass_hoeffding (hU : Uniforms P U) {bn : BayesNet N A} (w : bn.WF) (hn : bn.Nonneg) (hno : bn.Normalised) (hpf : bn.ParentsFirst) (vs : List N)
    {a : Asg N} (ha : ∀ v ∈ bn.V, v ∈ vs → a v < bn.cardOf v) {n : ℕ} (h1 : 1 ≤ n) {ε : ℝ} (hε : 0 ≤ ε) :
    P.real {ω | ε ≤ |(∑ t ∈ Finset.range n, ((passW bn [] (bn.V.filter fun u => u ∉ vs) a (blockOf U _ t ω) : ℚ) : ℝ)) / n -
      ((margOf bn vs a : ℚ) : ℝ)|} ≤ 2 * Real.exp (-2 * n * ε ^ 2) := by
  have hP := uniforms_prob hU
  obtain ⟨b1, _, b3, b4⟩ := block_fun hU (passW_measurable bn [] (bn.V.filter fun u => u ∉ vs) a)
  have hi := passW_integral w hn hno (ev := []) (l := bn.V.filter fun u => u ∉ vs) (w.nodup.filter _) (a := a) (by
    intro u hu hul
    refine ha u hu ?_
    by_contra hne; exact hul (List.mem_filter.2 ⟨hu, by simpa using hne⟩))
  refine hoeffding_mean b1 (fun t => ((b4 t).2 hi.1).aestronglyMeasurable.aemeasurable) (fun t => ?_) (fun t => (b3 t).trans hi.2) h1 hε
  filter_upwards [uniforms_range hU] with ω hω
  obtain ⟨smp, _, _, e3⟩ := random_rows (tol := 0) HashOrder.id w hn hno le_rfl one_pos hpf hω (garbage := List.replicate (t + 1) (bn.V.map fun _ => 0)) (by
    intro g hg
    rw [List.eq_of_mem_replicate hg, List.length_map])
  rw [e3 vs a ha t (by simp)]
  split_ifs <;> simp

theorem table_le_one {bn : BayesNet N A} (hn : bn.Nonneg) (hno : bn.Normalised) {v : N} (hv : v ∈ bn.V) {a : Asg N}
    (ha : InRange bn.cardOf (bn.fam v) a) : bn.prob v a ≤ 1 := by
  have h1 := hno v hv a fun u hu => ha u (List.mem_cons_of_mem _ hu)
  rw [← h1]
  have := Finset.single_le_sum (f := fun x => bn.prob v (a.upd v x)) (fun x _ => prob_nonneg hn hv _) (Finset.mem_range.2 (ha v (by simp [BayesNet.fam])))
  simpa [Asg.upd_id] using this

/-- The weight of a sample is at most 1. -/
theorem evWeight_le_one {bn : BayesNet N A} (w : bn.WF) (hn : bn.Nonneg) (hno : bn.Normalised) (ev : Dict N A) {a : Asg N} (ha : InRange bn.cardOf bn.V a) :
    evWeight bn ev a ≤ 1 := by
  unfold evWeight
  have hsub : ∀ v ∈ obsOf ev bn.V, v ∈ bn.V := fun v hv => List.mem_of_mem_filter hv
  generalize obsOf ev bn.V = l at hsub
  induction l with
  | nil => simp
  | cons v l ih =>
    rw [List.map_cons, List.prod_cons]
    have h1 : bn.prob v a ≤ 1 := table_le_one hn hno (hsub v (by simp)) fun u hu => by
      rcases List.mem_cons.1 hu with rfl | hu
      · exact ha _ (hsub u (by simp))
      · exact ha _ (w.parents_mem v (hsub v (by simp)) u hu)
    exact mul_le_one₀ h1 (List.prod_nonneg fun x hx => by
      obtain ⟨u, hu, rfl⟩ := List.mem_map.1 hx
      exact prob_nonneg hn (hsub u (List.mem_cons_of_mem _ hu)) _) (ih fun u hu => hsub u (List.mem_cons_of_mem _ hu))

/-- The passes of `lw_sample` contribute between 0 and 1. -/
theorem lw_pass_range {bn : BayesNet N A} (w : bn.WF) (hn : bn.Nonneg) (hno : bn.Normalised) (hpf : bn.ParentsFirst) {ev : Dict N A}
    (hev : bn.LegalEvidence ev) {l : List N} (hln : l.Nodup) (hl : ∀ v ∈ l, v ∈ freeOf ev bn.V) {a : Asg N} (ha : ∀ v ∈ bn.V, v ∉ l → a v < bn.cardOf v)
    (hag : bn.Agrees ev a) {ω : Ω} (hω : ∀ i, 0 ≤ U i ω ∧ U i ω < 1) (t : ℕ) :
    0 ≤ passW bn ev l a (blockOf U _ t ω) ∧ passW bn ev l a (blockOf U _ t ω) ≤ 1 := by
  obtain ⟨smp, g1, _⟩ := C39_weighted_counts HashOrder.id bn w hn 0 one_pos (normalised_near hno le_rfl) hpf ev hev (fun i => U i ω) hω (t + 1)
  rw [← freeOf_eq] at g1
  obtain ⟨q1, q2, q3⟩ := g1 t (by omega)
  rw [passW_ok w hn hno hpf hln hl ha hag q1 q2 (block_cube hω) (fun j v' hj => by
    have hj' := (List.getElem?_eq_some_iff.1 hj).1
    rw [stream_block ω (by omega), one_mul]
    exact q3 j v' hj)]
  split_ifs
  · exact ⟨evWeight_nonneg hn ev _, evWeight_le_one w hn hno ev q1⟩
  · exact ⟨le_rfl, zero_le_one⟩

/-- The mean contribution of the passes of `lw_sample` is near its expectation. -/
theorem lw_hoeffding (hU : Uniforms P U) {bn : BayesNet N A} (w : bn.WF) (hn : bn.Nonneg) (hno : bn.Normalised) (hpf : bn.ParentsFirst) {ev : Dict N A}
    (hev : bn.LegalEvidence ev) {l : List N} (hln : l.Nodup) (hl : ∀ v ∈ l, v ∈ freeOf ev bn.V) {a : Asg N} (ha : ∀ v ∈ bn.V, v ∉ l → a v < bn.cardOf v)
    (hag : bn.Agrees ev a) {n : ℕ} (h1 : 1 ≤ n) {ε : ℝ} (hε : 0 ≤ ε) :
    P.real {ω | ε ≤ |(∑ t ∈ Finset.range n, ((passW bn ev l a (blockOf U _ t ω) : ℚ) : ℝ)) / n - ((sumAll bn.cardOf l bn.joint a : ℚ) : ℝ)|} ≤
      2 * Real.exp (-2 * n * ε ^ 2) := by
  have hP := uniforms_prob hU
  obtain ⟨b1, _, b3, b4⟩ := block_fun hU (passW_measurable bn ev l a)
  have hi := passW_integral w hn hno (ev := ev) (l := l) hln ha
  refine hoeffding_mean b1 (fun t => ((b4 t).2 hi.1).aestronglyMeasurable.aemeasurable) (fun t => ?_) (fun t => (b3 t).trans hi.2) h1 hε
  filter_upwards [uniforms_range hU] with ω hω
  obtain ⟨r1, r2⟩ := lw_pass_range w hn hno hpf hev hln hl ha hag hω t
  exact ⟨by exact_mod_cast r1, by exact_mod_cast r2⟩

end PyBN
