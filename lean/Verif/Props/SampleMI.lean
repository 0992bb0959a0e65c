import Verif.Proofs.SampleMI
import Verif.Props.Recover

/-!
# `mi_test`, `are_independent` and `entropy` on samples of a network: C192, C193
-/

set_option linter.unusedSectionVars false

namespace PyBN
open BayesNet Sampling Indep MeasureTheory ProbabilityTheory Filter Topology
variable {A : Type} [DecidableEq A] {Ω : Type} [MeasurableSpace Ω] {P : Measure Ω} {U : ℕ → Ω → ℝ}

/-- Almost surely: the statistic of `mi_test` on columns `u, v` of the first `n` sampled rows converges to the smoothed mutual information. -/
theorem stat_limit (hU : Uniforms P U) (h : HashOrder ℕ) {bn : BayesNet ℕ A} (S : Sampleable bn) {tol : ℚ}
    (h0 : 0 ≤ tol) (ht : tol < 1) (garbage : ℕ → List (List ℤ)) (hgl : ∀ n, (garbage n).length = n)
    (hg : ∀ n, ∀ g ∈ garbage n, g.length = bn.V.length) {u v : ℕ} (hu : u ∈ bn.V) (hv : v ∈ bn.V) (huv : u ≠ v) :
    ∀ᵐ ω ∂P, ∃ G : ℕ → ℝ, Tendsto G atTop (𝓝 (pairMI (1 / 10 ^ 7) bn u v)) ∧ ∀ᶠ n : ℕ in atTop, ∃ rows,
      randomSample tol h bn (garbage n) (fun i => U i ω) = .ok rows ∧ rows.length = n ∧ rows ≠ [] ∧
      miStat 2 (select [u, v] (natRows rows)) = G n ∧ ddof 2 (select [u, v] (natRows rows)) = (bn.cardOf u - 1) * (bn.cardOf v - 1) := by
  let F : Ω → List ℕ → Asg ℕ → ℕ → ℝ := fun ω vs a n =>
    (∑ t ∈ Finset.range n, ((passW bn [] (bn.V.filter fun u => u ∉ vs) a (blockOf U _ t ω) : ℚ) : ℝ)) / n
  have h1 : ∀ w ∈ bn.V, ∀ᵐ ω ∂P, ∀ x, x < bn.cardOf w → Tendsto (F ω [w] fun _ => x) atTop (𝓝 (prob1 bn w x : ℝ)) := by
    intro w hw
    rw [ae_all_iff]; intro x
    by_cases hx : x < bn.cardOf w
    · filter_upwards [pass_freq hU S.wf S.nonneg S.normalised [w] (a := fun _ => x) (by
        intro z _ hz; rw [List.mem_singleton] at hz; subst hz; exact hx)] with ω hω _
      exact hω
    · exact Eventually.of_forall fun ω hx' => absurd hx' hx
  have h2 : ∀ᵐ ω ∂P, ∀ x y, x < bn.cardOf u → y < bn.cardOf v → Tendsto (F ω [u, v] (pairAsg u x y)) atTop (𝓝 (prob2 bn u v x y : ℝ)) := by
    rw [ae_all_iff]; intro x
    rw [ae_all_iff]; intro y
    by_cases hx : x < bn.cardOf u
    · by_cases hy : y < bn.cardOf v
      · filter_upwards [pass_freq hU S.wf S.nonneg S.normalised [u, v] (a := pairAsg u x y) (by
          intro z _ hz
          simp only [List.mem_cons, List.not_mem_nil, or_false] at hz
          rcases hz with rfl | rfl
          · simpa [pairAsg] using hx
          · simpa [pairAsg, huv.symm] using hy)] with ω hω _ _
        exact hω
      · exact Eventually.of_forall fun ω _ hy' => absurd hy' hy
    · exact Eventually.of_forall fun ω hx' => absurd hx' hx
  filter_upwards [h1 u hu, h1 v hv, h2, sampled_data hU h S h0 ht garbage hgl hg] with ω hω1 hω2 hω3 hd
  refine ⟨fun n => ∑ x ∈ Finset.range (bn.cardOf u), ∑ y ∈ Finset.range (bn.cardOf v),
    (F ω [u, v] (pairAsg u x y) n + 1 / 10 ^ 7) *
      Real.log ((F ω [u, v] (pairAsg u x y) n + 1 / 10 ^ 7) / (F ω [u] (fun _ => x) n * F ω [v] (fun _ => y) n + 1 / 10 ^ 7)), ?_, ?_⟩
  · unfold pairMI
    refine tendsto_finsetSum _ fun x hx => tendsto_finsetSum _ fun y hy => ?_
    rw [Finset.mem_range] at hx hy
    have hp2 : (0 : ℝ) ≤ (prob2 bn u v x y : ℝ) := by exact_mod_cast margOf_nonneg S.nonneg _ _
    have hpu : (0 : ℝ) ≤ (prob1 bn u x : ℝ) := by exact_mod_cast margOf_nonneg S.nonneg _ _
    have hpv : (0 : ℝ) ≤ (prob1 bn v y : ℝ) := by exact_mod_cast margOf_nonneg S.nonneg _ _
    have t1 := (hω3 x y hx hy).add_const ((1 : ℝ) / 10 ^ 7)
    have t2 := ((hω1 x hx).mul (hω2 y hy)).add_const ((1 : ℝ) / 10 ^ 7)
    exact t1.mul ((t1.div t2 (by positivity)).log (by positivity))
  · filter_upwards [hd, eventually_ge_atTop 1] with n hn hn1
    obtain ⟨rows, e1, e2, e3, e4, e5⟩ := hn
    have hlu := S.lt.1 hu
    have hlv := S.lt.1 hv
    have hne : rows ≠ [] := e3.ne
    obtain ⟨v0, c0⟩ := values_select (cols := [u, v]) (k := 0) (c := bn.cardOf u) rfl hlu e3.rect (e4 u hu)
    obtain ⟨v1, c1⟩ := values_select (cols := [u, v]) (k := 1) (c := bn.cardOf v) rfl hlv e3.rect (e4 v hv)
    have hne' : select [u, v] (natRows rows) ≠ [] := by
      intro h0'
      have := congrArg List.length h0'
      rw [select_length] at this
      simp [natRows] at this
      exact hne this
    have hF : ∀ (vs : List ℕ) (a : Asg ℕ), (∀ w ∈ vs, w ∈ bn.V) → (∀ w ∈ vs, a w < bn.cardOf w) →
        ((((⟨bn.V.length, rows⟩ : Data).count (fun z => upTo (bn.cardOf z)) vs a : ℕ) : ℚ) : ℝ) / rows.length = F ω vs a n := by
      intro vs a hvs ha
      rw [e5 vs _ a hvs (fun _ _ => rfl) ha, e2]
      simp only [F]
      push_cast
      rfl
    refine ⟨rows, e1, e2, hne, ?_, ?_⟩
    · rw [miStat_two_coded hne' c0 c1]
      unfold empMI
      rw [v0, v1]
      refine Finset.sum_congr rfl fun x hx => Finset.sum_congr rfl fun y hy => ?_
      rw [Finset.mem_range] at hx hy
      rw [freq_pair (c := bn.cardOf) hlu hlv e3.rect (by rintro z (rfl | rfl); exacts [e4 _ hu, e4 _ hv]) huv hx hy,
        freq_single (c := bn.cardOf) (k := 0) (cols := [u, v]) rfl hlu e3.rect (e4 u hu) hx,
        freq_single (c := bn.cardOf) (k := 1) (cols := [u, v]) rfl hlv e3.rect (e4 v hv) hy,
        hF [u, v] _ (by intro w hw; simp only [List.mem_cons, List.not_mem_nil, or_false] at hw; rcases hw with rfl | rfl; exacts [hu, hv]) (by
          intro z hz
          simp only [List.mem_cons, List.not_mem_nil, or_false] at hz
          rcases hz with rfl | rfl
          · simpa [pairAsg] using hx
          · simpa [pairAsg, huv.symm] using hy),
        hF [u] _ (by simpa using hu) (by simpa using hx), hF [v] _ (by simpa using hv) (by simpa using hy)]
      rfl
    · unfold ddof
      rw [if_pos rfl, nbins_card, nbins_card, v0, v1, Finset.card_range, Finset.card_range]

/-- C192: on columns `u`, `v` of `n` rows drawn with `random_sample`, almost surely, for every `ε > 0` and all large `n`, `mi_test(data[:, (u, v)], test=False)`
is within the rounding (`5e-5`) plus `ε` of the smoothed mutual information of the two nodes, a number that is 0 exactly when they are independent. -/
theorem C192_mi_consistent (hU : Uniforms P U) (h : HashOrder ℕ) (bn : BayesNet ℕ A) (S : Sampleable bn) (tol : ℚ)
    (h0 : 0 ≤ tol) (ht : tol < 1) (garbage : ℕ → List (List ℤ)) (hgl : ∀ n, (garbage n).length = n)
    (hg : ∀ n, ∀ g ∈ garbage n, g.length = bn.V.length) (u v : ℕ) (hu : u ∈ bn.V) (hv : v ∈ bn.V) (huv : u ≠ v) :
    0 ≤ pairMI (1 / 10 ^ 7) bn u v ∧ (pairMI (1 / 10 ^ 7) bn u v = 0 ↔ NodesIndep bn u v) ∧
    ∀ᵐ ω ∂P, ∀ ε > 0, ∀ᶠ n : ℕ in atTop, ∃ rows q, randomSample tol h bn (garbage n) (fun i => U i ω) = .ok rows ∧
      miTestMI 2 (select [u, v] (natRows rows)) = .ok q ∧ |(q : ℝ) - pairMI (1 / 10 ^ 7) bn u v| ≤ 1 / 20000 + ε := by
  refine ⟨pairMI_nonneg S hu hv huv, pairMI_zero S hu hv huv, ?_⟩
  filter_upwards [stat_limit hU h S h0 ht garbage hgl hg hu hv huv] with ω hω ε hε
  obtain ⟨G, hG, hev⟩ := hω
  filter_upwards [hev, hG.eventually (Metric.closedBall_mem_nhds _ hε)] with n hn hb
  obtain ⟨rows, e1, e2, e3, e4, _⟩ := hn
  have hne' : select [u, v] (natRows rows) ≠ [] := by
    intro h0'
    have := congrArg List.length h0'
    rw [select_length] at this
    simp [natRows] at this
    exact e3 this
  refine ⟨rows, round4 (miStat 2 (select [u, v] (natRows rows))), e1, ?_, ?_⟩
  · unfold miTestMI
    rw [if_neg (by simp [hne'])]
  · rw [e4]
    have hb' : |G n - pairMI (1 / 10 ^ 7) bn u v| ≤ ε := hb
    have := abs_sub_le (round4 (G n) : ℝ) (G n) (pairMI (1 / 10 ^ 7) bn u v)
    linarith [round4_near (G n)]

/-- C193: if the two nodes are dependent, then almost surely, for all large `n`, the "p-value" `mi_test(data[:, (u, v)])` is exactly 0, and
`are_independent(data[:, (u, v)], alpha)` answers `True`, at every level: the wrong way round. -/
theorem C193_dependence_detected (hU : Uniforms P U) (h : HashOrder ℕ) (bn : BayesNet ℕ A) (S : Sampleable bn) (tol : ℚ)
    (h0 : 0 ≤ tol) (ht : tol < 1) (garbage : ℕ → List (List ℤ)) (hgl : ∀ n, (garbage n).length = n)
    (hg : ∀ n, ∀ g ∈ garbage n, g.length = bn.V.length) (u v : ℕ) (hu : u ∈ bn.V) (hv : v ∈ bn.V) (huv : u ≠ v) (hdep : ¬ NodesIndep bn u v) :
    ∀ᵐ ω ∂P, ∀ᶠ n : ℕ in atTop, ∃ rows, randomSample tol h bn (garbage n) (fun i => U i ω) = .ok rows ∧
      miTest 2 (select [u, v] (natRows rows)) = .ok (.fin 0) ∧
      ∀ alpha > 0, areIndependent 2 (select [u, v] (natRows rows)) alpha = .ok true := by
  set df := (bn.cardOf u - 1) * (bn.cardOf v - 1) with hdf
  have hpos : 0 < pairMI (1 / 10 ^ 7) bn u v := (pairMI_nonneg S hu hv huv).lt_of_ne fun he => hdep ((pairMI_zero S hu hv huv).1 he.symm)
  -- two values at least, or the nodes would be independent
  have hdf0 : df ≠ 0 := by
    intro hz
    apply hdep
    rw [hdf, Nat.mul_eq_zero] at hz
    have hcu : 0 < bn.cardOf u := by rw [S.wf.card_len hu]; exact List.length_pos_of_ne_nil (S.wf.values_ne _ hu)
    have hcv : 0 < bn.cardOf v := by rw [S.wf.card_len hv]; exact List.length_pos_of_ne_nil (S.wf.values_ne _ hv)
    intro x hx y hy
    rcases hz with hz | hz
    · have h1 : bn.cardOf u = 1 := by omega
      have hs := prob1_sum S hu
      have hy' := prob1_eq_sum' S.wf hu huv y
      rw [h1, Finset.sum_range_one] at hs hy'
      obtain rfl : x = 0 := by omega
      rw [hs, hy', one_mul]
    · have h1 : bn.cardOf v = 1 := by omega
      have hs := prob1_sum S hv
      have hy' := prob1_eq_sum S.wf hv huv x
      rw [h1, Finset.sum_range_one] at hs hy'
      obtain rfl : y = 0 := by omega
      rw [hs, hy', mul_one]
  have hlim : Tendsto (fun z : ℝ => 2 * (z ^ ((df : ℝ) / 2 - 1) * Real.exp (-z / 2) / (2 ^ ((df : ℝ) / 2) * Real.Gamma ((df : ℝ) / 2)))) atTop (𝓝 0) := by
    have := tendsto_rpow_mul_exp_neg_mul_atTop_nhds_zero ((df : ℝ) / 2 - 1) (1 / 2) (by norm_num)
    have := (this.div_const (2 ^ ((df : ℝ) / 2) * Real.Gamma ((df : ℝ) / 2))).const_mul 2
    rw [zero_div, mul_zero] at this
    refine this.congr fun z => ?_
    rw [show -(1 / 2 : ℝ) * z = -z / 2 by ring]
  filter_upwards [stat_limit hU h S h0 ht garbage hgl hg hu hv huv] with ω hω
  obtain ⟨G, hG, hev⟩ := hω
  have hz : Tendsto (fun n : ℕ => 2 * (n : ℝ) * G n) atTop atTop := by
    have h2 : Tendsto (fun n : ℕ => 2 * (n : ℝ)) atTop atTop := tendsto_natCast_atTop_atTop.const_mul_atTop (by norm_num)
    exact h2.atTop_mul_pos hpos hG
  filter_upwards [hev, (hlim.comp hz).eventually (Metric.ball_mem_nhds _ (show (0 : ℝ) < 1 / 20000 by norm_num)), hz.eventually_gt_atTop 0] with n hn hb hpz
  obtain ⟨rows, e1, e2, e3, e4, e5⟩ := hn
  have hlen : (select [u, v] (natRows rows)).length = n := by rw [select_length]; simp [natRows, e2]
  have hne' : select [u, v] (natRows rows) ≠ [] := by
    intro h0'
    have := congrArg List.length h0'
    rw [select_length] at this
    simp [natRows] at this
    exact e3 this
  have hp : miTest 2 (select [u, v] (natRows rows)) = .ok (.fin 0) := by
    unfold miTest
    rw [if_neg (by simp [hne']), hlen, e4, e5, ← hdf]
    congr 1
    unfold chi2pdf
    rw [if_neg hdf0, if_neg (by linarith), if_neg hpz.ne']
    simp only [PFloat.twice, PFloat.round4]
    congr 1
    rw [Real.dist_eq, sub_zero] at hb
    simp only [Function.comp] at hb
    generalize 2 * ((2 * (n : ℝ) * G n) ^ ((df : ℝ) / 2 - 1) * Real.exp (-(2 * (n : ℝ) * G n) / 2) / (2 ^ ((df : ℝ) / 2) * Real.Gamma ((df : ℝ) / 2))) = z at hb
    rw [abs_lt] at hb
    have : round4 z = 0 := by
      unfold round4
      split_ifs with hz0
      · rw [show ⌊z * 10 ^ 4 + 1 / 2⌋ = 0 by rw [Int.floor_eq_iff]; constructor <;> norm_num <;> linarith]; norm_num
      · rw [show ⌊-z * 10 ^ 4 + 1 / 2⌋ = 0 by rw [Int.floor_eq_iff]; constructor <;> norm_num <;> linarith]; norm_num
    rw [this]; norm_num
  refine ⟨rows, e1, hp, fun alpha ha => ?_⟩
  unfold areIndependent
  rw [hp]
  simp [PFloat.lt, ha]

/-- C192 for entropies: `entropy(data[:, (u,)])` of sampled rows converges to the entropy of the node, up to the rounding. -/
theorem C192_entropy_consistent (hU : Uniforms P U) (h : HashOrder ℕ) (bn : BayesNet ℕ A) (S : Sampleable bn) (tol : ℚ)
    (h0 : 0 ≤ tol) (ht : tol < 1) (garbage : ℕ → List (List ℤ)) (hgl : ∀ n, (garbage n).length = n)
    (hg : ∀ n, ∀ g ∈ garbage n, g.length = bn.V.length) (u : ℕ) (hu : u ∈ bn.V) :
    ∀ᵐ ω ∂P, ∀ ε > 0, ∀ᶠ n : ℕ in atTop, ∃ rows q, randomSample tol h bn (garbage n) (fun i => U i ω) = .ok rows ∧
      entropy 1 (select [u] (natRows rows)) = .ok (some q) ∧ |(q : ℝ) - nodeH bn u| ≤ 1 / 20000 + ε := by
  let F : Ω → ℕ → ℕ → ℝ := fun ω x n =>
    (∑ t ∈ Finset.range n, ((passW bn [] (bn.V.filter fun w => w ∉ [u]) (fun _ => x) (blockOf U _ t ω) : ℚ) : ℝ)) / n
  have h1 : ∀ᵐ ω ∂P, ∀ x, x < bn.cardOf u → Tendsto (F ω x) atTop (𝓝 (prob1 bn u x : ℝ)) := by
    rw [ae_all_iff]; intro x
    by_cases hx : x < bn.cardOf u
    · filter_upwards [pass_freq hU S.wf S.nonneg S.normalised [u] (a := fun _ => x) (by
        intro z _ hz; rw [List.mem_singleton] at hz; subst hz; exact hx)] with ω hω _
      exact hω
    · exact Eventually.of_forall fun ω hx' => absurd hx' hx
  filter_upwards [h1, sampled_data hU h S h0 ht garbage hgl hg] with ω hω hd ε hε
  have hT : Tendsto (fun n => ∑ x ∈ Finset.range (bn.cardOf u), -(F ω x n * Real.log (F ω x n))) atTop (𝓝 (nodeH bn u)) := by
    unfold nodeH
    refine tendsto_finsetSum _ fun x hx => ?_
    rw [Finset.mem_range] at hx
    have hp : (0 : ℝ) < (prob1 bn u x : ℝ) := by exact_mod_cast S.possible u hu x hx
    exact ((hω x hx).mul ((hω x hx).log hp.ne')).neg
  filter_upwards [hd, hT.eventually (Metric.closedBall_mem_nhds _ hε)] with n hn hb
  obtain ⟨rows, e1, e2, e3, e4, e5⟩ := hn
  have hlu := S.lt.1 hu
  obtain ⟨v0, c0⟩ := values_select (cols := [u]) (k := 0) (c := bn.cardOf u) rfl hlu e3.rect (e4 u hu)
  have hne' : select [u] (natRows rows) ≠ [] := by
    intro h0'
    have := congrArg List.length h0'
    rw [select_length] at this
    simp [natRows] at this
    exact e3.ne this
  obtain ⟨q, q1, _, q3⟩ := C137_entropy_one (select [u] (natRows rows)) hne' (fun r hr t ht v _ hv => by
    rcases hv.lt_or_eq with hv | hv
    · exact c0 t ht v hv
    · exact ⟨t, ht, hv.symm⟩)
  refine ⟨rows, q, e1, q1, ?_⟩
  have hE : empH (select [u] (natRows rows)) = ∑ x ∈ Finset.range (bn.cardOf u), -(F ω x n * Real.log (F ω x n)) := by
    unfold empH
    rw [v0]
    refine Finset.sum_congr rfl fun x hx => ?_
    rw [Finset.mem_range] at hx
    rw [freq_single (c := bn.cardOf) (k := 0) (cols := [u]) rfl hlu e3.rect (e4 u hu) hx,
      e5 [u] _ _ (by simpa using hu) (fun _ _ => rfl) (by simpa using hx), e2]
    simp only [F]
    push_cast
    rfl
  rw [hE] at q3
  have hb' : |(∑ x ∈ Finset.range (bn.cardOf u), -(F ω x n * Real.log (F ω x n))) - nodeH bn u| ≤ ε := hb
  have := abs_sub_le (q : ℝ) (∑ x ∈ Finset.range (bn.cardOf u), -(F ω x n * Real.log (F ω x n))) (nodeH bn u)
  linarith

/-- Witness: in the example network nodes 0 and 1 are independent, nodes 0 and 2 are not. -/
example : Sampleable exNet ∧ NodesIndep exNet 0 1 ∧ ¬ NodesIndep exNet 0 2 := by
  refine ⟨exNet_same.toSampleable, ?_, ?_⟩
  · unfold NodesIndep; decide +kernel
  · unfold NodesIndep; decide +kernel

end PyBN
