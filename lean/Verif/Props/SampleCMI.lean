import Verif.Proofs.SampleCMI
import Verif.Props.SampleMI
import Verif.Props.Constraint
import Verif.Proofs.SampleBox
import Verif.Props.Inference

/-!
# The conditional independence test, and `pc`, on samples of a network: C203 - C205
-/

set_option linter.unusedSectionVars false

namespace PyBN
open BayesNet Sampling Indep Constraint MeasureTheory ProbabilityTheory Filter Topology
variable {A : Type} [DecidableEq A] {Ω : Type} [MeasurableSpace Ω] {P : Measure Ω} {U : ℕ → Ω → ℝ}

/-- Almost surely: the statistic of `mi_test` on columns `u, v, w` of the first `n` sampled rows converges to the smoothed conditional mutual information. -/
theorem stat_limit3 (hU : Uniforms P U) (h : HashOrder ℕ) {bn : BayesNet ℕ A} (S : Sampleable bn) {tol : ℚ}
    (h0 : 0 ≤ tol) (ht : tol < 1) (garbage : ℕ → List (List ℤ)) (hgl : ∀ n, (garbage n).length = n)
    (hg : ∀ n, ∀ g ∈ garbage n, g.length = bn.V.length) {u v w : ℕ} (hu : u ∈ bn.V) (hv : v ∈ bn.V) (hw : w ∈ bn.V)
    (huv : u ≠ v) (huw : u ≠ w) (hvw : v ≠ w) :
    ∀ᵐ ω ∂P, ∃ G : ℕ → ℝ, Tendsto G atTop (𝓝 (nodeCMI (1 / 10 ^ 7) bn u v w)) ∧ ∀ᶠ n : ℕ in atTop, ∃ rows,
      randomSample tol h bn (garbage n) (fun i => U i ω) = .ok rows ∧ rows.length = n ∧ rows ≠ [] ∧
      miStat 3 (select [u, v, w] (natRows rows)) = G n ∧
      ddof 3 (select [u, v, w] (natRows rows)) = (bn.cardOf u - 1) * (bn.cardOf v - 1) * bn.cardOf w := by
  let F : Ω → List ℕ → Asg ℕ → ℕ → ℝ := fun ω vs a n =>
    (∑ t ∈ Finset.range n, ((passW bn [] (bn.V.filter fun u => u ∉ vs) a (blockOf U _ t ω) : ℚ) : ℝ)) / n
  have hasg : ∀ x y z, x < bn.cardOf u → y < bn.cardOf v → z < bn.cardOf w → ∀ t ∈ [u, v, w], tripleAsg u v x y z t < bn.cardOf t := by
    intro x y z hx hy hz t ht
    simp only [List.mem_cons, List.not_mem_nil, or_false] at ht
    rcases ht with rfl | rfl | rfl
    · simpa [tripleAsg] using hx
    · simpa [tripleAsg, huv.symm] using hy
    · simpa [tripleAsg, huw.symm, hvw.symm] using hz
  have hall : ∀ vs : List ℕ, (∀ t ∈ vs, t ∈ [u, v, w]) → ∀ᵐ ω ∂P, ∀ x y z, x < bn.cardOf u → y < bn.cardOf v → z < bn.cardOf w →
      Tendsto (F ω vs (tripleAsg u v x y z)) atTop (𝓝 (margOf bn vs (tripleAsg u v x y z) : ℝ)) := by
    intro vs hvs
    rw [ae_all_iff]; intro x
    rw [ae_all_iff]; intro y
    rw [ae_all_iff]; intro z
    by_cases hx : x < bn.cardOf u ∧ y < bn.cardOf v ∧ z < bn.cardOf w
    · filter_upwards [pass_freq hU S.wf S.nonneg S.normalised vs (a := tripleAsg u v x y z) (fun t _ ht' =>
        hasg x y z hx.1 hx.2.1 hx.2.2 t (hvs t ht'))] with ω hω _ _ _
      exact hω
    · exact Eventually.of_forall fun ω h1 h2 h3 => absurd ⟨h1, h2, h3⟩ hx
  filter_upwards [hall [u, v, w] (by simp), hall [u, w] (by simp), hall [v, w] (by simp), hall [w] (by simp),
    sampled_data hU h S h0 ht garbage hgl hg] with ω t3 tuw tvw tw hd
  refine ⟨fun n => ∑ x ∈ Finset.range (bn.cardOf u), ∑ y ∈ Finset.range (bn.cardOf v), ∑ z ∈ Finset.range (bn.cardOf w),
    (F ω [u, v, w] (tripleAsg u v x y z) n + 1 / 10 ^ 7) *
      Real.log ((F ω [u, v, w] (tripleAsg u v x y z) n / (F ω [w] (tripleAsg u v x y z) n + 1 / 10 ^ 7) + 1 / 10 ^ 7) /
        (F ω [u, w] (tripleAsg u v x y z) n / (F ω [w] (tripleAsg u v x y z) n + 1 / 10 ^ 7) *
          (F ω [v, w] (tripleAsg u v x y z) n / (F ω [w] (tripleAsg u v x y z) n + 1 / 10 ^ 7)) + 1 / 10 ^ 7)), ?_, ?_⟩
  · unfold nodeCMI
    refine tendsto_finsetSum _ fun x hx => tendsto_finsetSum _ fun y hy => tendsto_finsetSum _ fun z hz => ?_
    rw [Finset.mem_range] at hx hy hz
    have hnn : ∀ vs, (0 : ℝ) ≤ (margOf bn vs (tripleAsg u v x y z) : ℝ) := fun vs => by exact_mod_cast margOf_nonneg S.nonneg _ _
    have n3 := hnn [u, v, w]
    have nuw := hnn [u, w]
    have nvw := hnn [v, w]
    have nw := hnn [w]
    have s3 := t3 x y z hx hy hz
    have suw := tuw x y z hx hy hz
    have svw := tvw x y z hx hy hz
    have sw := (tw x y z hx hy hz).add_const ((1 : ℝ) / 10 ^ 7)
    have d := (s3.div sw (by positivity)).add_const ((1 : ℝ) / 10 ^ 7)
    have d' := ((suw.div sw (by positivity)).mul (svw.div sw (by positivity))).add_const ((1 : ℝ) / 10 ^ 7)
    exact (s3.add_const ((1 : ℝ) / 10 ^ 7)).mul ((d.div d' (by positivity)).log (by positivity))
  · filter_upwards [hd, eventually_ge_atTop 1] with n hn hn1
    obtain ⟨rows, e1, e2, e3, e4, e5⟩ := hn
    have hlt : ∀ t ∈ [u, v, w], t < bn.V.length := by
      intro t ht
      simp only [List.mem_cons, List.not_mem_nil, or_false] at ht
      rcases ht with rfl | rfl | rfl
      exacts [S.lt.1 hu, S.lt.1 hv, S.lt.1 hw]
    have hV : ∀ t ∈ [u, v, w], t ∈ bn.V := fun t ht => S.lt.2 (hlt t ht)
    have hne : rows ≠ [] := e3.ne
    obtain ⟨v0, c0⟩ := values_select (cols := [u, v, w]) (k := 0) (c := bn.cardOf u) rfl (S.lt.1 hu) e3.rect (e4 u hu)
    obtain ⟨v1, c1⟩ := values_select (cols := [u, v, w]) (k := 1) (c := bn.cardOf v) rfl (S.lt.1 hv) e3.rect (e4 v hv)
    obtain ⟨v2, c2⟩ := values_select (cols := [u, v, w]) (k := 2) (c := bn.cardOf w) rfl (S.lt.1 hw) e3.rect (e4 w hw)
    have hne' : select [u, v, w] (natRows rows) ≠ [] := by
      intro h0'
      have := congrArg List.length h0'
      rw [select_length] at this
      simp [natRows] at this
      exact hne this
    refine ⟨rows, e1, e2, hne, ?_, ?_⟩
    · rw [miStat_three_coded hne' c0 c1 c2]
      unfold empCMIs
      rw [v0, v1, v2]
      refine Finset.sum_congr rfl fun x hx => Finset.sum_congr rfl fun y hy => Finset.sum_congr rfl fun z hz => ?_
      rw [Finset.mem_range] at hx hy hz
      have hfr : ∀ (vs : List ℕ) (p : List ℕ → Prop) [DecidablePred p], (∀ t ∈ vs, t ∈ [u, v, w]) →
          (∀ r : List ℕ, p ([u, v, w].map fun c => r.getD c 0) ↔ ∀ t ∈ vs, r.getD t 0 = tripleAsg u v x y z t) →
          freq (select [u, v, w] (natRows rows)) p = F ω vs (tripleAsg u v x y z) n := by
        intro vs p _ hvs hp
        rw [freq_cols (c := bn.cardOf) (fun t ht' => hlt t (hvs t ht')) e3.rect (fun t ht' => e4 t (hV t (hvs t ht')))
          (fun t ht' => hasg x y z hx hy hz t (hvs t ht')) hp,
          e5 vs _ _ (fun t ht' => hV t (hvs t ht')) (fun _ _ => rfl) (fun t ht' => hasg x y z hx hy hz t (hvs t ht')), e2]
        simp only [F]
        push_cast
        rfl
      have au : tripleAsg u v x y z u = x := by simp [tripleAsg]
      have av : tripleAsg u v x y z v = y := by simp [tripleAsg, huv.symm]
      have aw : tripleAsg u v x y z w = z := by simp [tripleAsg, huw.symm, hvw.symm]
      rw [hfr [u, v, w] (fun r => entry 0 r = x ∧ entry 1 r = y ∧ entry 2 r = z) (by simp) (by intro r; simp [entry, au, av, aw]),
        hfr [w] (fun r => entry 2 r = z) (by simp) (by intro r; simp [entry, aw]),
        hfr [u, w] (fun r => entry 0 r = x ∧ entry 2 r = z) (by simp) (by intro r; simp [entry, au, aw]),
        hfr [v, w] (fun r => entry 1 r = y ∧ entry 2 r = z) (by simp) (by intro r; simp [entry, av, aw])]
      rfl
    · unfold ddof
      rw [if_neg (by decide)]
      dsimp only
      rw [if_neg (by decide), nbins_card, nbins_card, nbins_card, v0, v1, v2, Finset.card_range, Finset.card_range, Finset.card_range]

theorem select_cols_ne {cols : List ℕ} {rows : List (List ℤ)} (h : rows ≠ []) : select cols (natRows rows) ≠ [] := by
  intro h0'
  have := congrArg List.length h0'
  rw [select_length] at this
  simp [natRows] at this
  exact h this

/-- C203: on columns `u`, `v`, `w` of `n` rows drawn with `random_sample`, almost surely, for every `ε > 0` and all large `n`,
`mi_test(data[:, (u, v, w)], test=False)` is within the rounding (`5e-5`) plus `ε` of the smoothed conditional mutual information of `u` and `v` given `w`. -/
theorem C203_conditional_mi_consistent (hU : Uniforms P U) (h : HashOrder ℕ) (bn : BayesNet ℕ A) (S : Sampleable bn) (tol : ℚ)
    (h0 : 0 ≤ tol) (ht : tol < 1) (garbage : ℕ → List (List ℤ)) (hgl : ∀ n, (garbage n).length = n)
    (hg : ∀ n, ∀ g ∈ garbage n, g.length = bn.V.length) (u v w : ℕ) (hu : u ∈ bn.V) (hv : v ∈ bn.V) (hw : w ∈ bn.V)
    (huv : u ≠ v) (huw : u ≠ w) (hvw : v ≠ w) :
    ∀ᵐ ω ∂P, ∀ ε > 0, ∀ᶠ n : ℕ in atTop, ∃ rows q, randomSample tol h bn (garbage n) (fun i => U i ω) = .ok rows ∧
      miTestMI 3 (select [u, v, w] (natRows rows)) = .ok q ∧ |(q : ℝ) - nodeCMI (1 / 10 ^ 7) bn u v w| ≤ 1 / 20000 + ε := by
  filter_upwards [stat_limit3 hU h S h0 ht garbage hgl hg hu hv hw huv huw hvw] with ω hω ε hε
  obtain ⟨G, hG, hev⟩ := hω
  filter_upwards [hev, hG.eventually (Metric.closedBall_mem_nhds _ hε)] with n hn hb
  obtain ⟨rows, e1, e2, e3, e4, _⟩ := hn
  refine ⟨rows, round4 (miStat 3 (select [u, v, w] (natRows rows))), e1, ?_, ?_⟩
  · unfold miTestMI
    rw [if_neg (by simp [select_cols_ne e3])]
  · rw [e4]
    have hb' : |G n - nodeCMI (1 / 10 ^ 7) bn u v w| ≤ ε := hb
    have := abs_sub_le (round4 (G n) : ℝ) (G n) (nodeCMI (1 / 10 ^ 7) bn u v w)
    linarith [round4_near (G n)]

/-- The p-value of the conditional test goes to 0 unless the smoothed conditional mutual information is 0. -/
theorem conditional_pvalue (hU : Uniforms P U) (h : HashOrder ℕ) {bn : BayesNet ℕ A} (S : Sampleable bn) {tol : ℚ}
    (h0 : 0 ≤ tol) (ht : tol < 1) (garbage : ℕ → List (List ℤ)) (hgl : ∀ n, (garbage n).length = n)
    (hg : ∀ n, ∀ g ∈ garbage n, g.length = bn.V.length) {u v w : ℕ} (hu : u ∈ bn.V) (hv : v ∈ bn.V) (hw : w ∈ bn.V)
    (huv : u ≠ v) (huw : u ≠ w) (hvw : v ≠ w) (hcu : 2 ≤ bn.cardOf u) (hcv : 2 ≤ bn.cardOf v) (hL : nodeCMI (1 / 10 ^ 7) bn u v w ≠ 0) :
    ∀ᵐ ω ∂P, ∀ᶠ n : ℕ in atTop, ∃ rows, randomSample tol h bn (garbage n) (fun i => U i ω) = .ok rows ∧
      miTest 3 (select [u, v, w] (natRows rows)) = .ok (.fin 0) := by
  have hcw : 0 < bn.cardOf w := by rw [S.wf.card_len hw]; exact List.length_pos_of_ne_nil (S.wf.values_ne _ hw)
  have hdf : (bn.cardOf u - 1) * (bn.cardOf v - 1) * bn.cardOf w ≠ 0 := by
    refine Nat.mul_ne_zero (Nat.mul_ne_zero ?_ ?_) ?_ <;> omega
  filter_upwards [stat_limit3 hU h S h0 ht garbage hgl hg hu hv hw huv huw hvw] with ω hω
  obtain ⟨G, hG, hev⟩ := hω
  filter_upwards [hev, pvalue_zero hdf hL hG] with n hn hp
  obtain ⟨rows, e1, e2, e3, e4, e5⟩ := hn
  refine ⟨rows, e1, ?_⟩
  unfold miTest
  rw [if_neg (by simp [select_cols_ne e3]), e4, e5, select_length, show (natRows rows).length = n by simp [natRows, e2], hp]

/-- C205: the conditional test rejects in the long run whether or not it should.  If `u` and `v` (two or more values each) are conditionally independent given `w`,
or if no combination of their values is rarer than 1/200 (dependent or not; `w` with two or more values), then almost surely, for all large `n`, the p-value
`mi_test(data[:, (u, v, w)])` on `n` rows drawn with `random_sample` is exactly 0. -/
theorem C205_conditional_test_always_rejects (hU : Uniforms P U) (h : HashOrder ℕ) (bn : BayesNet ℕ A) (S : Sampleable bn) (tol : ℚ)
    (h0 : 0 ≤ tol) (ht : tol < 1) (garbage : ℕ → List (List ℤ)) (hgl : ∀ n, (garbage n).length = n)
    (hg : ∀ n, ∀ g ∈ garbage n, g.length = bn.V.length) (u v w : ℕ) (hu : u ∈ bn.V) (hv : v ∈ bn.V) (hw : w ∈ bn.V)
    (huv : u ≠ v) (huw : u ≠ w) (hvw : v ≠ w) (hcu : 2 ≤ bn.cardOf u) (hcv : 2 ≤ bn.cardOf v)
    (hc : CondIndep bn [u] [v] [w] ∨ (NoRareCells bn u v w ∧ 2 ≤ bn.cardOf w)) :
    ∀ᵐ ω ∂P, ∀ᶠ n : ℕ in atTop, ∃ rows, randomSample tol h bn (garbage n) (fun i => U i ω) = .ok rows ∧
      miTest 3 (select [u, v, w] (natRows rows)) = .ok (.fin 0) ∧ ∀ alpha ≥ 0, dataGt (natRows rows) alpha [u, v, w] = false := by
  filter_upwards [conditional_pvalue hU h S h0 ht garbage hgl hg hu hv hw huv huw hvw hcu hcv (nodeCMI_pos S hu hv hw huv huw hvw hc).ne'] with ω hω
  filter_upwards [hω] with n hn
  obtain ⟨rows, e1, e2⟩ := hn
  refine ⟨rows, e1, e2, fun alpha ha => ?_⟩
  unfold dataGt
  rw [decide_eq_false_iff_not]
  rintro ⟨p, hp, hgt⟩
  simp only [List.length_cons, List.length_nil] at hp
  rw [e2] at hp
  cases hp
  exact absurd hgt (not_lt.2 ha)

/-- Without any assumption on the network: the p-value is eventually 0 unless the smoothed conditional mutual information happens to be 0. -/
theorem C205_general (hU : Uniforms P U) (h : HashOrder ℕ) (bn : BayesNet ℕ A) (S : Sampleable bn) (tol : ℚ)
    (h0 : 0 ≤ tol) (ht : tol < 1) (garbage : ℕ → List (List ℤ)) (hgl : ∀ n, (garbage n).length = n)
    (hg : ∀ n, ∀ g ∈ garbage n, g.length = bn.V.length) (u v w : ℕ) (hu : u ∈ bn.V) (hv : v ∈ bn.V) (hw : w ∈ bn.V)
    (huv : u ≠ v) (huw : u ≠ w) (hvw : v ≠ w) (hcu : 2 ≤ bn.cardOf u) (hcv : 2 ≤ bn.cardOf v) (hL : nodeCMI (1 / 10 ^ 7) bn u v w ≠ 0) :
    ∀ᵐ ω ∂P, ∀ᶠ n : ℕ in atTop, ∃ rows, randomSample tol h bn (garbage n) (fun i => U i ω) = .ok rows ∧
      miTest 3 (select [u, v, w] (natRows rows)) = .ok (.fin 0) :=
  conditional_pvalue hU h S h0 ht garbage hgl hg hu hv hw huv huw hvw hcu hcv hL

/-- All tests with conditioning columns at once: with no rare rows, eventually every one of them has p-value 0. -/
theorem all_conditional_pvalues (hU : Uniforms P U) (h : HashOrder ℕ) {bn : BayesNet ℕ A} (S : Sampleable bn) (hr : NoRareRows bn)
    (h2 : ∀ t ∈ bn.V, 2 ≤ bn.cardOf t) {tol : ℚ} (h0 : 0 ≤ tol) (ht : tol < 1) (garbage : ℕ → List (List ℤ)) (hgl : ∀ n, (garbage n).length = n)
    (hg : ∀ n, ∀ g ∈ garbage n, g.length = bn.V.length) :
    ∀ᵐ ω ∂P, ∀ᶠ n : ℕ in atTop, ∃ rows, randomSample tol h bn (garbage n) (fun i => U i ω) = .ok rows ∧
      ∀ c : List ℕ, 3 ≤ c.length → c.Nodup → (∀ t ∈ c, t ∈ bn.V) →
        miTest c.length (select c (natRows rows)) = .ok (.fin 0) ∧ 0 < miStat c.length (select c (natRows rows)) := by
  filter_upwards [emp_limit hU h S h0 ht garbage hgl hg] with ω hω
  obtain ⟨F, hF, hev⟩ := hω
  have hmass : ∀ r ∈ boxOf bn, (1 / 200 : ℝ) ≤ ((bn.joint (rowAsg r) : ℚ) : ℝ) := by
    intro r hrb
    have := hr (rowAsg r) fun t htv => ((mem_boxOf S).1 hrb).2 t (S.lt.1 htv)
    have h' := (Rat.cast_le (K := ℝ)).2 this
    push_cast at h'
    exact h'
  -- every legal row occurs
  have hocc : ∀ᶠ n : ℕ in atTop, ∀ r ∈ boxOf bn, 0 < F r n := by
    rw [Filter.eventually_all_finset]
    intro r hrb
    exact (hF r hrb).eventually (lt_mem_nhds (lt_of_lt_of_le (by norm_num) (hmass r hrb)))
  -- the probabilities of the legal rows sum to one
  have hsum : ∑ r ∈ boxOf bn, ((bn.joint (rowAsg r) : ℚ) : ℝ) = 1 := by
    have h1 : Tendsto (fun n => ∑ r ∈ boxOf bn, F r n) atTop (𝓝 (∑ r ∈ boxOf bn, ((bn.joint (rowAsg r) : ℚ) : ℝ))) :=
      tendsto_finsetSum _ fun r hrb => hF r hrb
    refine tendsto_nhds_unique h1 (tendsto_const_nhds.congr' ?_)
    filter_upwards [hev] with n hn
    obtain ⟨rows, _, e2, e3, e4, e5⟩ := hn
    rw [Finset.sum_congr rfl fun r hrb => (e5 r hrb).symm, ← Finset.sum_div]
    have hc := countP_box (B := boxOf bn) e4 (fun _ => True)
    simp only [Finset.filter_true, decide_true, List.countP_true] at hc
    have hpos : (0 : ℝ) < (natRows rows).length := by
      have := List.length_pos_of_ne_nil e3
      simpa [natRows] using this
    rw [eq_comm, div_eq_one_iff_eq hpos.ne']
    rw [hc]
    push_cast
    congr!
  -- finitely many tests
  have hfin : {c : List ℕ | c.Nodup ∧ ∀ t ∈ c, t ∈ bn.V}.Finite := by
    refine (Finset.finite_toSet (bn.V.toFinset.powerset.biUnion fun s => s.val.lists.toFinset)).subset ?_
    rintro c ⟨hc1, hc2⟩
    simp only [Finset.coe_biUnion, Set.mem_iUnion, Finset.mem_coe, Finset.mem_powerset]
    refine ⟨c.toFinset, fun t htc => List.mem_toFinset.2 (hc2 t (List.mem_toFinset.1 htc)), ?_⟩
    rw [Multiset.mem_toFinset, Multiset.mem_lists_iff, List.toFinset_val, hc1.dedup]
    rfl
  have hone : ∀ c ∈ hfin.toFinset, ∀ᶠ n : ℕ in atTop, ∀ rows, randomSample tol h bn (garbage n) (fun i => U i ω) = .ok rows → 3 ≤ c.length →
      miTest c.length (select c (natRows rows)) = .ok (.fin 0) ∧ 0 < miStat c.length (select c (natRows rows)) := by
    intro c hc
    obtain ⟨hc1, hc2⟩ := (Set.Finite.mem_toFinset hfin).1 hc
    by_cases hl : 3 ≤ c.length
    · obtain ⟨u, v, w, ws, rfl⟩ : ∃ u v w ws, c = u :: v :: w :: ws := by
        match c, hl with
        | u :: v :: w :: ws, _ => exact ⟨u, v, w, ws, rfl⟩
      obtain ⟨b1, b2⟩ := boxStat_pos S hr h2 hsum hc1 hc2
      have hG : Tendsto (fun n => boxStat (boxOf bn) (joinRow (u :: v :: w :: ws)) fun r => if r ∈ boxOf bn then F r n else 0) atTop
          (𝓝 (boxStat (boxOf bn) (joinRow (u :: v :: w :: ws)) fun r => ((bn.joint (rowAsg r) : ℚ) : ℝ))) := by
        refine mi3_tendsto (fun i j k => tendsto_finsetSum _ fun r hrc => ?_) fun i j k => Finset.sum_nonneg fun r hrc => ?_
        · have hrb : r ∈ boxOf bn := (Finset.mem_filter.1 hrc).1
          simp only [if_pos hrb]
          exact hF r hrb
        · exact le_trans (by norm_num) (hmass r (Finset.mem_filter.1 hrc).1)
      filter_upwards [hev, hocc, pvalue_zero b2 b1.ne' hG, hG.eventually (lt_mem_nhds b1)] with n hn hn2 hp hgp rows hrows _
      obtain ⟨rows', e1, e2, e3, e4, e5⟩ := hn
      rw [hrows] at e1
      cases e1
      have hset : ∀ r, r ∈ natRows rows ↔ r ∈ boxOf bn := by
        intro r
        refine ⟨e4 r, fun hrb => ?_⟩
        have := hn2 r hrb
        rw [← e5 r hrb] at this
        by_contra hno
        rw [List.count_eq_zero_of_not_mem hno] at this
        simp at this
      have hX : ∀ r, r ∈ (natRows rows).map (joinRow (u :: v :: w :: ws)) ↔ r ∈ (boxOf bn).toList.map (joinRow (u :: v :: w :: ws)) := by
        intro r
        simp only [List.mem_map, hset, Finset.mem_toList]
      have hst : miStat (u :: v :: w :: ws).length (select (u :: v :: w :: ws) (natRows rows)) =
          boxStat (boxOf bn) (joinRow (u :: v :: w :: ws)) fun r => if r ∈ boxOf bn then F r n else 0 := by
        rw [miStat_joinRow (by simp), stat_box hset]
        unfold boxStat
        dsimp only
        congr 1
        funext i j k
        refine Finset.sum_congr rfl fun r hrc => ?_
        rw [if_pos (Finset.mem_filter.1 hrc).1, e5 r (Finset.mem_filter.1 hrc).1]
      refine ⟨?_, by rw [hst]; exact hgp⟩
      unfold miTest
      rw [if_neg (by simp [select_cols_ne e3]), hst, ddof_joinRow (by simp), select_length, show (natRows rows).length = n by simp [natRows, e2],
        nbins_congr_mem hX, nbins_congr_mem hX, nbins_congr_mem hX, hp]
    · exact Eventually.of_forall fun n rows _ hl' => absurd hl' hl
  filter_upwards [hev, (Filter.eventually_all_finset _).2 hone] with n hn hall
  obtain ⟨rows, e1, _⟩ := hn
  exact ⟨rows, e1, fun c hc1 hc2 hc3 => hall c ((Set.Finite.mem_toFinset hfin).2 ⟨hc2, hc3⟩) rows e1 hc1⟩

theorem dataGt_false {rows : List (List ℕ)} {alpha : ℝ} (ha : 0 ≤ alpha) {c : List ℕ} (h : miTest c.length (select c rows) = .ok (.fin 0)) :
    dataGt rows alpha c = false := by
  unfold dataGt
  rw [decide_eq_false_iff_not]
  rintro ⟨p, hp, hgt⟩
  rw [h] at hp
  cases hp
  exact absurd hgt (not_lt.2 ha)

/-- C205 with any number of conditioning columns: if no combination of values of all the nodes is rarer than 1/200, then almost surely, for all large `n`, *every*
test with at least one conditioning column has p-value exactly 0 on `n` sampled rows. -/
theorem C205_every_conditional_test_rejects (hU : Uniforms P U) (h : HashOrder ℕ) (bn : BayesNet ℕ A) (S : Sampleable bn) (hr : NoRareRows bn)
    (h2 : ∀ t ∈ bn.V, 2 ≤ bn.cardOf t) (tol : ℚ) (h0 : 0 ≤ tol) (ht : tol < 1) (garbage : ℕ → List (List ℤ)) (hgl : ∀ n, (garbage n).length = n)
    (hg : ∀ n, ∀ g ∈ garbage n, g.length = bn.V.length) :
    ∀ᵐ ω ∂P, ∀ᶠ n : ℕ in atTop, ∃ rows, randomSample tol h bn (garbage n) (fun i => U i ω) = .ok rows ∧
      ∀ c : List ℕ, 3 ≤ c.length → c.Nodup → (∀ t ∈ c, t ∈ bn.V) →
        miTest c.length (select c (natRows rows)) = .ok (.fin 0) ∧ ∀ alpha ≥ 0, dataGt (natRows rows) alpha c = false := by
  filter_upwards [all_conditional_pvalues hU h S hr h2 h0 ht garbage hgl hg] with ω hω
  filter_upwards [hω] with n hn
  obtain ⟨rows, e1, e2⟩ := hn
  exact ⟨rows, e1, fun c h1 h3 h4 => ⟨(e2 c h1 h3 h4).1, fun alpha ha => dataGt_false ha (e2 c h1 h3 h4).1⟩⟩

/-- `pc` is edgeless when no test it can make finds independence. -/
theorem pc_edgeless {B : Type} [DecidableEq B] (gt : List ℕ → Bool) (h : HashOrder ℕ) (n : ℕ) (vd : Dict ℕ (List B)) (hvd : ∀ v < n, v ∈ vd.keys)
    (hgt : ∀ c : List ℕ, 3 ≤ c.length → c.Nodup → (∀ t ∈ c, t < n) → gt c = false) :
    ∃ bn, (∀ fuel ≥ n + 1, pc gt h n fuel vd = .ok bn) ∧ (∀ a c, ¬ Arc bn.E a c) ∧ ∀ v, v ∈ bn.V ↔ v < n := by
  obtain ⟨r, bn, h1, h2, h3, h4, h5, h6, h7, h8⟩ := pc_of_skeleton gt h n vd hvd
  obtain ⟨_, r', h1', h6'⟩ := C81_pc_no_marginal (A := B) gt gt h n vd fun _ _ _ _ => rfl
  have hrr : r' = r := by
    have e1 := h1 (n + 1) le_rfl
    rw [h1' (n + 1) le_rfl] at e1
    cases e1; rfl
  subst hrr
  have key : ∀ p q, p < n → q < n → p ≠ q → q ∈ nb r'.1 p := by
    intro p q hp hq hpq
    by_contra hno
    obtain ⟨z, hz, z1, z2, z3, z4, hh⟩ := h6' p q hp hq hpq hno
    have hl : 1 ≤ z.length := List.length_pos_iff.2 hz
    rcases hh with hh | hh
    · rw [hgt _ (by simp; omega) (by simp [List.nodup_cons, z1, z2, z3, hpq]) (by
        intro t ht; simp only [List.mem_cons] at ht; rcases ht with rfl | rfl | ht; exacts [hp, hq, z4 t ht])] at hh
      cases hh
    · rw [hgt _ (by simp; omega) (by simp [List.nodup_cons, z1, z2, z3, hpq.symm]) (by
        intro t ht; simp only [List.mem_cons] at ht; rcases ht with rfl | rfl | ht; exacts [hq, hp, z4 t ht])] at hh
      cases hh
  have hno : ∀ a c, ¬ Arc bn.E a c := by
    intro a c hac
    obtain ⟨hac', v, hva, hvc, hv⟩ := h7 a c hac
    obtain ⟨ha, hcn, hne⟩ := h5 a c hac'
    rcases hv with ⟨q, q'⟩ | ⟨q, q'⟩
    · exact q' (key _ _ hcn (h5 _ _ q).2.1 (Ne.symm hvc))
    · exact q' (key _ _ ha (h5 _ _ q).2.1 (Ne.symm hva))
  refine ⟨bn, h2, hno, fun v => ?_⟩
  rw [h8]
  constructor
  · rintro ⟨r, hr, _, hh⟩
    cases hh with
    | refl => exact List.mem_range.1 hr
    | tail _ hb => exact absurd hb (hno _ _)
  · intro hv; exact ⟨v, List.mem_range.2 hv, fun u => hno u v, .refl⟩

/-- C206: what `pc` learns in the long run.  From a network in which no combination of values of all the nodes is rarer than 1/200, whatever its edges, draw `n` rows
with `random_sample`; almost surely, for all large `n`, `pc(data, alpha)` returns a network over all the variables without a single edge, at every level. -/
theorem C206_pc_learns_nothing (hU : Uniforms P U) (h h' : HashOrder ℕ) (bn : BayesNet ℕ A) (S : Sampleable bn) (hr : NoRareRows bn)
    (h2 : ∀ t ∈ bn.V, 2 ≤ bn.cardOf t) (tol : ℚ) (h0 : 0 ≤ tol) (ht : tol < 1) (garbage : ℕ → List (List ℤ)) (hgl : ∀ n, (garbage n).length = n)
    (hg : ∀ n, ∀ g ∈ garbage n, g.length = bn.V.length) :
    ∀ᵐ ω ∂P, ∀ᶠ n : ℕ in atTop, ∃ rows, randomSample tol h bn (garbage n) (fun i => U i ω) = .ok rows ∧
      ∀ alpha ≥ 0, ∀ vd : Dict ℕ (List ℤ), (∀ v ∈ bn.V, v ∈ vd.keys) →
        ∃ out, (∀ fuel ≥ bn.V.length + 1, pc (dataGt (natRows rows) alpha) h' bn.V.length fuel vd = .ok out) ∧
          (∀ a c, ¬ Arc out.E a c) ∧ ∀ v, v ∈ out.V ↔ v ∈ bn.V := by
  filter_upwards [all_conditional_pvalues hU h S hr h2 h0 ht garbage hgl hg] with ω hω
  filter_upwards [hω] with n hn
  obtain ⟨rows, e1, e2⟩ := hn
  refine ⟨rows, e1, fun alpha ha vd hvd => ?_⟩
  obtain ⟨out, o1, o2, o3⟩ := pc_edgeless (dataGt (natRows rows) alpha) h' bn.V.length vd (fun v hv => hvd v (S.lt.2 hv)) (fun c c1 c2 c3 =>
    dataGt_false ha (e2 c c1 c2 fun t htc => S.lt.2 (c3 t htc)).1)
  exact ⟨out, o1, o2, fun v => by rw [o3]; exact S.lt.symm⟩

/-! ## A network with edges to which all this applies -/

theorem exFork_sampleable : Sampleable exFork where
  columns := by decide
  wf := exFork_wf
  nonneg := exFork_nonneg
  normalised := exFork_normalised
  parentsFirst := by
    intro o1 v o2 h
    rcases o1 with _ | ⟨x, _ | ⟨y, _ | ⟨z, _ | ⟨w, o1⟩⟩⟩⟩ <;> simp [exFork] at h
    · obtain ⟨rfl, rfl⟩ := h; decide
    · obtain ⟨rfl, rfl, rfl⟩ := h; decide
    · obtain ⟨rfl, rfl, rfl, rfl⟩ := h; decide
  possible := by decide +kernel

theorem exFork_at (vs : List ℕ) (hvs : ∀ t ∈ vs, t ∈ [0, 1, 2]) (a : Asg ℕ) : margOf exFork vs a = margOf exFork vs (tripleAsg 0 1 (a 0) (a 1) (a 2)) := by
  apply margOf_congr exFork_wf
  intro t ht
  have := hvs t ht
  simp only [List.mem_cons, List.not_mem_nil, or_false] at this
  rcases this with rfl | rfl | rfl <;> simp [tripleAsg]

theorem exFork_noRare : NoRareRows exFork := by
  intro a ha
  have hj : exFork.joint a = margOf exFork [0, 1, 2] a := by
    unfold margOf
    rw [List.filter_eq_nil_iff.2 (by simp [exFork])]
    rfl
  rw [hj, exFork_at _ (by simp)]
  have key : ∀ x < 2, ∀ y < 2, ∀ z < 2, 1 / 200 ≤ margOf exFork [0, 1, 2] (tripleAsg 0 1 x y z) := by decide +kernel
  exact key _ (ha 0 (by simp [exFork])) _ (ha 1 (by simp [exFork])) _ (ha 2 (by simp [exFork]))

theorem exFork_condIndep : CondIndep exFork [1] [2] [0] := by
  intro a ha
  simp only [List.cons_append, List.nil_append]
  rw [exFork_at [1, 2, 0] (by simp), exFork_at [0] (by simp), exFork_at [1, 0] (by simp), exFork_at [2, 0] (by simp)]
  have key : ∀ x < 2, ∀ y < 2, ∀ z < 2, margOf exFork [1, 2, 0] (tripleAsg 0 1 x y z) * margOf exFork [0] (tripleAsg 0 1 x y z) =
      margOf exFork [1, 0] (tripleAsg 0 1 x y z) * margOf exFork [2, 0] (tripleAsg 0 1 x y z) := by decide +kernel
  exact key _ (ha 0 (by simp)) _ (ha 1 (by simp)) _ (ha 2 (by simp))

/-- C204 is false: nodes 1 and 2 of the fork `1 <- 0 -> 2` are independent given node 0, and almost surely the conditional test reports them dependent (p-value
exactly 0) on all large samples. -/
theorem C204_false (hU : Uniforms P U) (h : HashOrder ℕ) (garbage : ℕ → List (List ℤ)) (hgl : ∀ n, (garbage n).length = n)
    (hg : ∀ n, ∀ g ∈ garbage n, g.length = 3) :
    CondIndep exFork [1] [2] [0] ∧ ∀ᵐ ω ∂P, ∀ᶠ n : ℕ in atTop, ∃ rows, randomSample (1 / 10 ^ 8) h exFork (garbage n) (fun i => U i ω) = .ok rows ∧
      miTest 3 (select [1, 2, 0] (natRows rows)) = .ok (.fin 0) := by
  refine ⟨exFork_condIndep, ?_⟩
  filter_upwards [C205_conditional_test_always_rejects hU h exFork exFork_sampleable (1 / 10 ^ 8) (by norm_num) (by norm_num) garbage hgl hg 1 2 0 (by decide)
    (by decide) (by decide) (by decide) (by decide) (by decide) (by decide) (by decide) (.inl exFork_condIndep)] with ω hω
  filter_upwards [hω] with n hn
  obtain ⟨rows, e1, e2, _⟩ := hn
  exact ⟨rows, e1, e2⟩

/-- C204, the half that holds: dependent nodes are reported dependent in the long run (if no combination of values is rare).  Missing: the other half, which is
false. -/
theorem C204_dependence_partial (hU : Uniforms P U) (h : HashOrder ℕ) (bn : BayesNet ℕ A) (S : Sampleable bn) (tol : ℚ)
    (h0 : 0 ≤ tol) (ht : tol < 1) (garbage : ℕ → List (List ℤ)) (hgl : ∀ n, (garbage n).length = n)
    (hg : ∀ n, ∀ g ∈ garbage n, g.length = bn.V.length) (u v w : ℕ) (hu : u ∈ bn.V) (hv : v ∈ bn.V) (hw : w ∈ bn.V)
    (huv : u ≠ v) (huw : u ≠ w) (hvw : v ≠ w) (hcu : 2 ≤ bn.cardOf u) (hcv : 2 ≤ bn.cardOf v) (hcw : 2 ≤ bn.cardOf w) (hr : NoRareCells bn u v w) :
    ∀ᵐ ω ∂P, ∀ᶠ n : ℕ in atTop, ∃ rows, randomSample tol h bn (garbage n) (fun i => U i ω) = .ok rows ∧
      miTest 3 (select [u, v, w] (natRows rows)) = .ok (.fin 0) := by
  filter_upwards [C205_conditional_test_always_rejects hU h bn S tol h0 ht garbage hgl hg u v w hu hv hw huv huw hvw hcu hcv (.inr ⟨hr, hcw⟩)] with ω hω
  filter_upwards [hω] with n hn
  obtain ⟨rows, e1, e2, _⟩ := hn
  exact ⟨rows, e1, e2⟩

/-- Witness for C203 - C206: the fork has two edges, no rare rows (hence no rare cells), two values per node, and a conditionally independent pair. -/
example : Sampleable exFork ∧ NoRareRows exFork ∧ (∀ t ∈ exFork.V, 2 ≤ exFork.cardOf t) ∧ NoRareCells exFork 0 1 2 ∧ CondIndep exFork [1] [2] [0] ∧
    exFork.E = [(0, [1, 2]), (1, []), (2, [])] :=
  ⟨exFork_sampleable, exFork_noRare, by decide, by unfold NoRareCells; decide +kernel, exFork_condIndep, rfl⟩

end PyBN
