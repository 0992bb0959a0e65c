import Verif.Proofs.Concentration
import Verif.Props.Project

/-!
# How many rows are enough: C220 - C225
-/

set_option linter.unusedSectionVars false

namespace PyBN
open BayesNet Sampling MeasureTheory ProbabilityTheory Filter Topology
variable {A : Type} [DecidableEq A] {Ω : Type} [MeasurableSpace Ω] {P : Measure Ω} {U : ℕ → Ω → ℝ}

/-- The share of the first `n` passes that agree with `a` on `vs`. -/
noncomputable def share (bn : BayesNet ℕ A) (U : ℕ → Ω → ℝ) (n : ℕ) (vs : List ℕ) (a : Asg ℕ) (ω : Ω) : ℝ :=
  (∑ t ∈ Finset.range n, ((passW bn [] (bn.V.filter fun u => u ∉ vs) a (blockOf U _ t ω) : ℚ) : ℝ)) / n

theorem passW_base (bn : BayesNet ℕ A) {vs : List ℕ} {a b : Asg ℕ} (hvs : ∀ u ∈ vs, a u = b u) (ω : Ω) (hω : ∀ i, 0 ≤ U i ω ∧ U i ω < 1) (w : bn.WF) (hn : bn.Nonneg)
    (hno : bn.Normalised) (hpf : bn.ParentsFirst) (ha : ∀ v ∈ bn.V, v ∈ vs → a v < bn.cardOf v) (t : ℕ) :
    passW bn [] (bn.V.filter fun u => u ∉ vs) a (blockOf U _ t ω) = passW bn [] (bn.V.filter fun u => u ∉ vs) b (blockOf U _ t ω) := by
  obtain ⟨smp, _, _, e3⟩ := random_rows (tol := 0) HashOrder.id w hn hno le_rfl one_pos hpf hω (garbage := List.replicate (t + 1) (bn.V.map fun _ => 0)) (by
    intro g hg
    rw [List.eq_of_mem_replicate hg, List.length_map])
  rw [e3 vs a ha t (by simp), e3 vs b (fun v hv h => by rw [← hvs v h]; exact ha v hv h) t (by simp)]
  refine if_congr ?_ rfl rfl
  exact ⟨fun h v hv hvv => by rw [← hvs v hvv]; exact h v hv hvv, fun h v hv hvv => by rw [hvs v hvv]; exact h v hv hvv⟩

/-- The probability that for some combination of values of `vs` the share of the rows that have it is off by `ε` or more. -/
theorem shares_off (hU : Uniforms P U) {bn : BayesNet ℕ A} (S : Sampleable bn) {vs : List ℕ} (hnd : vs.Nodup) {n : ℕ} (h1 : 1 ≤ n) {ε : ℝ} (hε : 0 ≤ ε) :
    P.real {ω | (∀ i, 0 ≤ U i ω ∧ U i ω < 1) ∧ ∃ a, InRange bn.cardOf vs a ∧ ε ≤ |share bn U n vs a ω - ((margOf bn vs a : ℚ) : ℝ)|} ≤
      (vs.map bn.cardOf).prod * (2 * Real.exp (-2 * n * ε ^ 2)) := by
  have hP := uniforms_prob hU
  choose! rep hrep using fun (i : ℕ) (hi : i < (vs.map bn.cardOf).prod) => enc_surj hnd hi
  calc _ ≤ P.real (⋃ i ∈ Finset.range (vs.map bn.cardOf).prod, {ω | ε ≤ |share bn U n vs (rep i) ω - ((margOf bn vs (rep i) : ℚ) : ℝ)|}) := by
        refine measureReal_mono ?_ (measure_ne_top _ _)
        rintro ω ⟨hω, a, ha, hle⟩
        have hlt := enc_lt ha
        obtain ⟨r1, r2⟩ := hrep _ hlt
        have heq := enc_inj r1 ha r2
        simp only [Set.mem_iUnion]
        refine ⟨_, Finset.mem_range.2 hlt, ?_⟩
        rw [Set.mem_setOf_eq, margOf_congr S.wf heq]
        have : share bn U n vs (rep (enc bn.cardOf vs a)) ω = share bn U n vs a ω := by
          unfold share
          congr 1
          exact Finset.sum_congr rfl fun t _ => by
            rw [passW_base bn heq ω hω S.wf S.nonneg S.normalised S.parentsFirst (fun v _ hv => r1 v hv) t]
        rw [this]
        exact hle
    _ ≤ _ := measureReal_biUnion_finset_le _ _
    _ ≤ ∑ i ∈ Finset.range (vs.map bn.cardOf).prod, 2 * Real.exp (-2 * n * ε ^ 2) := by
        refine Finset.sum_le_sum fun i hi => ?_
        exact pass_hoeffding hU S.wf S.nonneg S.normalised S.parentsFirst vs (fun v _ hv => (hrep i (Finset.mem_range.1 hi)).1 v hv) h1 hε
    _ = _ := by rw [Finset.sum_const, Finset.card_range, nsmul_eq_mul]

/-- Every share an estimator looks at is within `ε`, except with small probability. -/
theorem all_shares (hU : Uniforms P U) {bn : BayesNet ℕ A} (S : Sampleable bn) (par : ℕ → List ℕ) (hnd : ∀ v ∈ bn.V, (v :: par v).Nodup) {n : ℕ} (h1 : 1 ≤ n)
    {ε : ℝ} (hε : 0 ≤ ε) :
    P.real {ω | ¬ ((∀ i, 0 ≤ U i ω ∧ U i ω < 1) ∧ ∀ v ∈ bn.V, ∀ vs ∈ [[v], par v, v :: par v], ∀ a, InRange bn.cardOf vs a →
      |share bn U n vs a ω - ((margOf bn vs a : ℚ) : ℝ)| < ε)} ≤ 2 * countsTaken bn par * Real.exp (-2 * n * ε ^ 2) := by
  have hP := uniforms_prob hU
  let off : List ℕ → Set Ω := fun vs => {ω | (∀ i, 0 ≤ U i ω ∧ U i ω < 1) ∧ ∃ a, InRange bn.cardOf vs a ∧ ε ≤ |share bn U n vs a ω - ((margOf bn vs a : ℚ) : ℝ)|}
  have hsub : {ω | ¬ ((∀ i, 0 ≤ U i ω ∧ U i ω < 1) ∧ ∀ v ∈ bn.V, ∀ vs ∈ [[v], par v, v :: par v], ∀ a, InRange bn.cardOf vs a →
      |share bn U n vs a ω - ((margOf bn vs a : ℚ) : ℝ)| < ε)} ≤ᵐ[P] (⋃ v ∈ bn.V.toFinset, (off [v] ∪ off (par v)) ∪ off (v :: par v) : Set Ω) := by
    filter_upwards [uniforms_range hU] with ω hω hnot
    by_contra hc
    refine hnot ⟨hω, fun v hv vs hvs a ha => ?_⟩
    by_contra hle
    push Not at hle
    apply hc
    have hmem : ω ∈ off vs := ⟨hω, a, ha, hle⟩
    show ω ∈ (⋃ v ∈ bn.V.toFinset, (off [v] ∪ off (par v)) ∪ off (v :: par v) : Set Ω)
    simp only [Set.mem_iUnion]
    refine ⟨v, List.mem_toFinset.2 hv, ?_⟩
    simp only [List.mem_cons, List.not_mem_nil, or_false] at hvs
    rcases hvs with rfl | rfl | rfl
    · exact Or.inl (Or.inl hmem)
    · exact Or.inl (Or.inr hmem)
    · exact Or.inr hmem
  calc P.real _ ≤ P.real (⋃ v ∈ bn.V.toFinset, (off [v] ∪ off (par v)) ∪ off (v :: par v)) := ENNReal.toReal_mono (measure_ne_top _ _) (measure_mono_ae hsub)
    _ ≤ _ := measureReal_biUnion_finset_le _ _
    _ ≤ ∑ v ∈ bn.V.toFinset, ((bn.cardOf v + ((par v).map bn.cardOf).prod + ((v :: par v).map bn.cardOf).prod : ℕ) : ℝ) * (2 * Real.exp (-2 * n * ε ^ 2)) := by
        refine Finset.sum_le_sum fun v hv => ?_
        have hv := List.mem_toFinset.1 hv
        have s1 := shares_off hU S (vs := [v]) (by simp) h1 hε
        have s2 := shares_off hU S (hnd v hv).of_cons h1 hε
        have s3 := shares_off hU S (hnd v hv) h1 hε
        have u1 : P.real (off [v] ∪ off (par v)) ≤ _ := measureReal_union_le _ _
        refine (measureReal_union_le _ _).trans ?_
        simp only [List.map_cons, List.map_nil, List.prod_cons, List.prod_nil, mul_one] at s1 s3 ⊢
        push_cast at s1 s2 s3 ⊢
        simp only [off] at u1 ⊢
        linarith
    _ = _ := by
        rw [← Finset.sum_mul, List.sum_toFinset _ S.wf.nodup]
        unfold countsTaken
        push_cast
        rw [List.map_map]
        simp only [Function.comp_def]
        push_cast
        ring

/-- The form every estimate has: the smoothed ratio of two counts. -/
theorem ratio_close {X Y x y s r ε γ n : ℝ} (hX : 0 ≤ X) (hXY : X ≤ Y) (hγ : γ ≤ Y) (hε : ε < γ) (hε0 : 0 ≤ ε) (hs : 0 ≤ s) (hsr : s ≤ r) (hn : 0 < n)
    (hx : |x / n - X| < ε) (hy : |y / n - Y| < ε) : |(s + x) / (r + y) - X / Y| ≤ (2 * ε + r / n) / (γ - ε) := by
  obtain ⟨x', rfl⟩ : ∃ x', x = x' * n := ⟨x / n, by field_simp⟩
  obtain ⟨y', rfl⟩ : ∃ y', y = y' * n := ⟨y / n, by field_simp⟩
  obtain ⟨s', rfl⟩ : ∃ s', s = s' * n := ⟨s / n, by field_simp⟩
  obtain ⟨r', rfl⟩ : ∃ r', r = r' * n := ⟨r / n, by field_simp⟩
  rw [mul_div_cancel_right₀ _ hn.ne'] at hx hy ⊢
  rw [← add_mul, ← add_mul, mul_div_mul_right _ _ hn.ne']
  have hs' : 0 ≤ s' := by by_contra hc; push Not at hc; nlinarith
  have hsr' : s' ≤ r' := le_of_mul_le_mul_right hsr hn
  rw [abs_lt] at hx hy
  have hY : 0 < Y := by linarith
  have hD : γ - ε ≤ r' + y' := by linarith
  have hD0 : 0 < γ - ε := by linarith
  have hD1 : 0 < r' + y' := by linarith
  have e : (s' + x') / (r' + y') - X / Y = ((x' - X) + (s' - X / Y * r') - X / Y * (y' - Y)) / (r' + y') := by
    field_simp
    ring
  have hq0 : 0 ≤ X / Y := div_nonneg hX hY.le
  have hq1 : X / Y ≤ 1 := by rw [div_le_one hY]; exact hXY
  set q := X / Y
  have hb : |(x' - X) + (s' - q * r') - q * (y' - Y)| ≤ 2 * ε + r' := by
    rw [abs_le]
    have h1 : q * r' ≤ r' := mul_le_of_le_one_left (by linarith) hq1
    have h2 : 0 ≤ q * r' := mul_nonneg hq0 (by linarith)
    have h3 : q * (y' - Y) ≤ ε := by
      calc q * (y' - Y) ≤ q * ε := mul_le_mul_of_nonneg_left hy.2.le hq0
        _ ≤ ε := mul_le_of_le_one_left hε0 hq1
    have h4 : -ε ≤ q * (y' - Y) := by
      calc -ε ≤ -(q * ε) := neg_le_neg (mul_le_of_le_one_left hε0 hq1)
        _ = q * (-ε) := by ring
        _ ≤ _ := mul_le_mul_of_nonneg_left hy.1.le hq0
    constructor <;> linarith
  rw [e, abs_div, abs_of_pos hD1]
  exact div_le_div₀ (by linarith) hb hD0 hD

/-- What an estimator returns on `n` sampled rows, when it fills in ratios of counts: except with a probability that falls exponentially in `n`, it succeeds and every entry
is within the given distance. -/
theorem learn_finite (hU : Uniforms P U) (h : HashOrder ℕ) {bn : BayesNet ℕ A} (S : Sampleable bn) (par : ℕ → List ℕ)
    (hmem : ∀ v ∈ bn.V, ∀ u ∈ par v, u ∈ bn.V) (hnd : ∀ v ∈ bn.V, v ∉ par v ∧ (par v).Nodup) (Q : BayesNet ℕ ℤ → Prop) {tol : ℚ} (h0 : 0 ≤ tol) (ht : tol < 1) {n : ℕ} (h1 : 1 ≤ n)
    {garbage : List (List ℤ)} (hgl : garbage.length = n) (hg : ∀ g ∈ garbage, g.length = bn.V.length) (est : Data → Py (BayesNet ℕ ℤ)) (s r : ℕ → ℚ)
    (hs : ∀ v ∈ bn.V, 0 ≤ s v ∧ s v ≤ r v) {ε γ : ℝ} (hε : 0 ≤ ε) (hγ : ε < γ) (hval : ∀ v ∈ bn.V, ∀ x < bn.cardOf v, γ ≤ ((margOf bn [v] fun _ => x : ℚ) : ℝ))
    (hpar : ∀ v ∈ bn.V, ∀ a, InRange bn.cardOf (par v) a → γ ≤ ((margOf bn (par v) a : ℚ) : ℝ))
    (hest : ∀ d : Data, d.ncol = bn.V.length → d.rows.length = n → d.Fits bn.V → (∀ v ∈ bn.V, d.IsValues v (upTo (bn.cardOf v))) → ∃ bn', est d = .ok bn' ∧ Q bn' ∧ (∀ v, v ∈ bn'.V ↔ v ∈ bn.V) ∧ bn'.WF ∧
      ∀ v ∈ bn.V, bn'.parentsOf v = par v ∧ bn'.valuesOf v = upTo (bn.cardOf v) ∧
        ∀ a, InRange bn.cardOf (v :: par v) a → bn'.prob v a = roundAway 5 ((s v + d.count bn'.valuesOf (v :: par v) a) /
          (r v + d.count bn'.valuesOf (par v) a))) :
    P.real {ω | ¬ ∃ rows bn', randomSample tol h bn garbage (fun i => U i ω) = .ok rows ∧
      est ⟨bn.V.length, rows⟩ = .ok bn' ∧ Q bn' ∧ bn'.WF ∧ bn'.Nonneg ∧ ∀ v ∈ bn.V, bn'.parentsOf v = par v ∧ bn'.valuesOf v = upTo (bn.cardOf v) ∧
        ∀ a, InRange bn.cardOf (v :: par v) a →
          |((bn'.prob v a : ℚ) : ℝ) - ((condOf bn v (par v) a : ℚ) : ℝ)| ≤ 1 / 200000 + (2 * ε + r v / n) / (γ - ε)} ≤
      2 * countsTaken bn par * Real.exp (-2 * n * ε ^ 2) := by
  have hP := uniforms_prob hU
  have hn0 : (0 : ℝ) < n := by exact_mod_cast h1
  refine le_trans (measureReal_mono ?_ (measure_ne_top _ _)) (all_shares hU S par (fun v hv => List.nodup_cons.2 (hnd v hv)) h1 hε)
  intro ω hω hgood
  apply hω
  obtain ⟨hr, hsh⟩ := hgood
  have hfam : ∀ v ∈ bn.V, ∀ u ∈ (v :: par v), u ∈ bn.V := by
    intro v hv u hu
    rcases List.mem_cons.1 hu with rfl | hu
    · exact hv
    · exact hmem v hv u hu
  obtain ⟨rows, e1, e2, e3, e4, e5⟩ := sampled_data_at h S h0 ht h1 hgl hg hr (by
    intro v hv x hx
    have h2 := hsh v hv [v] (by simp) (fun _ => x) (by intro u hu; rw [List.mem_singleton.1 hu]; exact hx)
    have h3 := hval v hv x hx
    rw [abs_lt] at h2
    have h4 : 0 < share bn U n [v] (fun _ => x) ω := by linarith [h2.1]
    unfold share at h4
    rw [div_pos_iff_of_pos_right hn0, ← Rat.cast_sum] at h4
    exact_mod_cast h4)
  obtain ⟨bn', b1, bQ, b2, b3, b4⟩ := hest ⟨bn.V.length, rows⟩ rfl e2 e3 e4
  have hnn : bn'.Nonneg := by
    refine nonneg_of_prob b3 fun v hv a ha => ?_
    rw [b2] at hv
    have hfc : bn'.fam v = v :: par v := by unfold BayesNet.fam; rw [(b4 v hv).1]
    rw [(b4 v hv).2.2 a fun u hu => by
      have := ha u (by rwa [hfc])
      rwa [cardOf_upTo (b4 u (hfam v hv u hu)).2.1] at this]
    have := hs v hv
    exact roundAway_nonneg (div_nonneg (by linarith [Nat.cast_nonneg (α := ℚ) ((⟨bn.V.length, rows⟩ : Data).count bn'.valuesOf (v :: par v) a)])
      (by linarith [Nat.cast_nonneg (α := ℚ) ((⟨bn.V.length, rows⟩ : Data).count bn'.valuesOf (par v) a)]))
  refine ⟨rows, bn', e1, b1, bQ, b3, hnn, fun v hv => ⟨(b4 v hv).1, (b4 v hv).2.1, fun a ha => ?_⟩⟩
  have hap : InRange bn.cardOf (par v) a := fun u hu => ha u (List.mem_cons_of_mem _ hu)
  rw [(b4 v hv).2.2 a ha, e5 _ _ _ (hfam v hv) (fun u hu => (b4 u (hfam v hv u hu)).2.1) ha,
    e5 _ _ _ (hmem v hv) (fun u hu => (b4 u (hmem v hv u hu)).2.1) hap]
  set x := ∑ t ∈ Finset.range n, passW bn [] (bn.V.filter fun u => u ∉ v :: par v) a (blockOf U _ t ω) with hx
  set y := ∑ t ∈ Finset.range n, passW bn [] (bn.V.filter fun u => u ∉ par v) a (blockOf U _ t ω) with hy
  have kx := hsh v hv (v :: par v) (by simp) a ha
  have ky := hsh v hv (par v) (by simp) a hap
  unfold share at kx ky
  rw [← Rat.cast_sum, ← hx] at kx
  rw [← Rat.cast_sum, ← hy] at ky
  have hXY : margOf bn (v :: par v) a ≤ margOf bn (par v) a := by
    rw [margOf_split S.wf hv (hnd v hv).1 a]
    have := Finset.single_le_sum (f := fun x => margOf bn (v :: par v) (a.upd v x)) (fun x _ => margOf_nonneg S.nonneg _ _) (Finset.mem_range.2 (ha v (by simp)))
    simpa [Asg.upd_id] using this
  have hc := ratio_close (s := (s v : ℝ)) (r := (r v : ℝ)) (by exact_mod_cast margOf_nonneg S.nonneg _ _) (by exact_mod_cast hXY) (hpar v hv a hap) hγ hε
    (by exact_mod_cast (hs v hv).1) (by exact_mod_cast (hs v hv).2) hn0 kx ky
  set q := (s v + x) / (r v + y) with hq
  have hqR : (q : ℝ) = ((s v : ℝ) + x) / ((r v : ℝ) + y) := by rw [hq]; push_cast; rfl
  rw [← hqR, ← Rat.cast_div, show margOf bn (v :: par v) a / margOf bn (par v) a = condOf bn v (par v) a from rfl] at hc
  have hc6 : |((roundAway 5 q : ℚ) : ℝ) - (q : ℝ)| ≤ 1 / 200000 := by
    have : ((|roundAway 5 q - q| : ℚ) : ℝ) ≤ ((1 / 2 / 10 ^ 5 : ℚ) : ℝ) := Rat.cast_le.2 (roundAway_close 5 q)
    push_cast at this
    refine this.trans (le_of_eq (by norm_num))
  calc _ = |(((roundAway 5 q : ℚ) : ℝ) - (q : ℝ)) + ((q : ℝ) - ((condOf bn v (par v) a : ℚ) : ℝ))| := by rw [sub_add_sub_cancel]
    _ ≤ _ := abs_add_le _ _
    _ ≤ _ := add_le_add hc6 hc

/-- C220: how many rows `mle_estimator` needs. Draw `n` rows from a network with `random_sample` and fit any structure over the same nodes. Let `γ` be a lower bound for the probability of
every value of every node and of every combination of values of the parents in the structure, and `ε < γ`. With independent uniform random numbers, except with
probability at most `2 K exp(-2 n ε²)`, where `K` is the number of counts the estimator takes, sampling and fitting succeed and every table entry is within
`5e-6 + (2 ε + 1e-7 / n) / (γ - ε)` of the true conditional probability of the node given those parents. -/
theorem C220_mle_rows_needed (hU : Uniforms P U) (h : HashOrder ℕ) (hE : HashOrder (ℕ × ℤ)) (hI : HashOrder ℤ) (bn : BayesNet ℕ A)
    (target : BayesNet ℕ ℤ) (S : OtherStructure bn target) (tol : ℚ) (h0 : 0 ≤ tol) (ht : tol < 1) (n : ℕ) (h1 : 1 ≤ n) (garbage : List (List ℤ))
    (hgl : garbage.length = n) (hg : ∀ g ∈ garbage, g.length = bn.V.length) (ε γ : ℝ) (hε : 0 ≤ ε) (hγ : ε < γ)
    (hval : ∀ v ∈ bn.V, ∀ x < bn.cardOf v, γ ≤ ((margOf bn [v] fun _ => x : ℚ) : ℝ))
    (hpar : ∀ v ∈ bn.V, ∀ a, InRange bn.cardOf (target.parentsOf v) a → γ ≤ ((margOf bn (target.parentsOf v) a : ℚ) : ℝ)) :
    P.real {ω | ¬ ∃ rows bn', randomSample tol h bn garbage (fun i => U i ω) = .ok rows ∧
      mleEstimator hE hI target ⟨bn.V.length, rows⟩ none = .ok bn' ∧ bn'.V = target.V ∧ bn'.WF ∧ bn'.Nonneg ∧
      ∀ v ∈ bn.V, bn'.parentsOf v = target.parentsOf v ∧ bn'.valuesOf v = upTo (bn.cardOf v) ∧
        ∀ a, InRange bn.cardOf (v :: target.parentsOf v) a →
          |((bn'.prob v a : ℚ) : ℝ) - ((condOf bn v (target.parentsOf v) a : ℚ) : ℝ)| ≤ 1 / 200000 + (2 * ε + 1 / 10000000 / n) / (γ - ε)} ≤
      2 * countsTaken bn target.parentsOf * Real.exp (-2 * n * ε ^ 2) := by
  have key := learn_finite hU h S.toSampleable target.parentsOf S.par_mem
    (fun v hv => ⟨S.proper v hv, (S.nodes.nodup_iff.2 S.wf.nodup).sublist (S.ordered v hv)⟩) (fun bn' => bn'.V = target.V) h0 ht h1 hgl hg
    (fun d => mleEstimator hE hI target d none) (fun _ => 0) (fun _ => 1 / 10000000) (fun _ _ => ⟨le_rfl, by norm_num⟩) hε hγ hval hpar (by
      intro d _ _ hf hvals
      obtain ⟨bn', b1, b2, b3, b4, b5⟩ := S.mle hE hI hf hvals
      refine ⟨bn', b1, b2, b3, b4, fun v hv => ⟨(b5 v hv).1, (b5 v hv).2.1, fun a ha => ?_⟩⟩
      rw [(b5 v hv).2.2 a ha, zero_add, add_comm (1 / 10000000 : ℚ)])
  push_cast at key
  exact key

/-- C221: how many rows exact inference on a learned network needs. With the rows of C220, a structure that has every arc of the network (and perhaps more, all forward), and any
`δ` at least the distance of C220, except with the same small probability, sampling and fitting succeed, every table entry is within `δ`, every
query that links the structure is answered within `5e-5 + drift(δ)` of the true probability of the value together with the evidence, and the
explanation `ve_map` returns for any evidence has a true probability within `2 drift(δ)` of the best. -/
theorem C221_inference_rows_needed (hU : Uniforms P U) (h h' : HashOrder ℕ) (hE : HashOrder (ℕ × ℤ)) (hI : HashOrder ℤ) (bn : BayesNet ℕ A)
    (target : BayesNet ℕ ℤ) (S : Superset bn target) (tol : ℚ) (h0 : 0 ≤ tol) (ht : tol < 1) (n : ℕ) (h1 : 1 ≤ n) (garbage : List (List ℤ))
    (hgl : garbage.length = n) (hg : ∀ g ∈ garbage, g.length = bn.V.length) (ε γ : ℝ) (hε : 0 ≤ ε) (hγ : ε < γ)
    (hval : ∀ v ∈ bn.V, ∀ x < bn.cardOf v, γ ≤ ((margOf bn [v] fun _ => x : ℚ) : ℝ))
    (hpar : ∀ v ∈ bn.V, ∀ a, InRange bn.cardOf (target.parentsOf v) a → γ ≤ ((margOf bn (target.parentsOf v) a : ℚ) : ℝ))
    (δ : ℚ) (hδ : 1 / 200000 + (2 * ε + 1 / 10000000 / n) / (γ - ε) ≤ (δ : ℝ)) :
    P.real {ω | ¬ ∃ rows bn', randomSample tol h bn garbage (fun i => U i ω) = .ok rows ∧
      mleEstimator hE hI target ⟨bn.V.length, rows⟩ none = .ok bn' ∧
      (∀ v ∈ bn.V, bn'.parentsOf v = target.parentsOf v ∧ ∀ a, InRange bn.cardOf (v :: target.parentsOf v) a → |bn'.prob v a - bn.prob v a| ≤ δ) ∧
      (∀ t ∈ bn.V, ∀ ev : Dict ℕ ℤ, t ∉ ev.keys → CodeEvidence bn ev →
        (∀ u ∈ bn.V, ∀ v ∈ bn.V, target.Linked (bn.V.filter fun v => v ≠ t ∧ v ∉ ev.keys) u v) →
        ∃ r, marginalVE h' hE bn' t ev = .ok r ∧ r.length = bn.cardOf t ∧
          ∀ a, a t < bn.cardOf t → (∀ e ∈ ev, e.2 = (a e.1 : ℤ)) → ∃ q, r[a t]? = some q ∧
            |q - margOf bn (t :: ev.keys) a| ≤ 1 / 20000 + drift bn δ) ∧
      (∀ ev : Dict ℕ ℤ, CodeEvidence bn ev → ∃ (d : Dict ℕ ℤ) (x : Asg ℕ), veMap h' hE bn' ev = .ok d ∧
        (∀ v ∈ bn.V, x v < bn.cardOf v ∧ d.get? v = some (x v : ℤ)) ∧ (∀ e ∈ ev, e.2 = (x e.1 : ℤ)) ∧
        ∀ b, InRange bn.cardOf bn.V b → (∀ e ∈ ev, e.2 = (b e.1 : ℤ)) → bn.joint b ≤ bn.joint x + 2 * drift bn δ)} ≤
      2 * countsTaken bn target.parentsOf * Real.exp (-2 * n * ε ^ 2) := by
  have hP := uniforms_prob hU
  refine le_trans (measureReal_mono ?_ (measure_ne_top _ _)) (C220_mle_rows_needed hU h hE hI bn target S.toOtherStructure tol h0 ht n h1 garbage hgl hg ε γ hε hγ hval hpar)
  intro ω hω hgood
  apply hω
  obtain ⟨rows, bn', e1, e2, e3, ew, en, e4⟩ := hgood
  rw [S.sameOrder] at e3
  have hcl0 : ∀ v ∈ bn.V, ∀ a, InRange bn.cardOf (v :: target.parentsOf v) a → |bn'.prob v a - bn.prob v a| ≤ δ := by
    intro v hv a ha
    have hp : 0 < margOf bn (target.parentsOf v) a := by
      have := hpar v hv a fun u hu => ha u (List.mem_cons_of_mem _ hu)
      have h2 : (0 : ℝ) < ((margOf bn (target.parentsOf v) a : ℚ) : ℝ) := by linarith
      exact_mod_cast h2
    have h3 := (e4 v hv).2.2 a ha
    rw [S.cond hv ha hp] at h3
    have h2 : ((|bn'.prob v a - bn.prob v a| : ℚ) : ℝ) ≤ (δ : ℝ) := by push_cast; exact h3.trans hδ
    exact Rat.cast_le.1 h2
  have hδ0 : 0 ≤ δ := by
    have hn0 : (0 : ℝ) < n := by exact_mod_cast h1
    have : (0 : ℝ) ≤ 1 / 200000 + (2 * ε + 1 / 10000000 / n) / (γ - ε) := by
      have : 0 < γ - ε := by linarith
      positivity
    exact_mod_cast this.trans hδ
  obtain ⟨an1, an2⟩ := answers_of_close h' hE S hδ0 e3 ew en (fun v hv => ⟨(e4 v hv).1, (e4 v hv).2.1⟩) hcl0
  exact ⟨rows, bn', e1, e2, fun v hv => ⟨(e4 v hv).1, hcl0 v hv⟩, an1, an2⟩

/-- C222: how many rows `bayes_estimator` needs for a fixed positive `equiv_sample`: as C220 for the structure of the network itself, with a distance of
`5e-6 + (2 ε + (equiv / J) / n) / (γ - ε)` for a node whose parents have `J` combinations of values: `equiv / J` of the prior's imaginary rows go to each
combination. -/
theorem C222_bayes_rows_needed (hU : Uniforms P U) (h : HashOrder ℕ) (hE : HashOrder (ℕ × ℤ)) (hI : HashOrder ℤ) (bn : BayesNet ℕ A)
    (target : BayesNet ℕ ℤ) (S : SameStructure bn target) (tol : ℚ) (h0 : 0 ≤ tol) (ht : tol < 1) (equiv : ℚ) (he : 0 < equiv) (n : ℕ) (h1 : 1 ≤ n)
    (garbage : List (List ℤ)) (hgl : garbage.length = n) (hg : ∀ g ∈ garbage, g.length = bn.V.length) (ε γ : ℝ) (hε : 0 ≤ ε) (hγ : ε < γ)
    (hval : ∀ v ∈ bn.V, ∀ x < bn.cardOf v, γ ≤ ((margOf bn [v] fun _ => x : ℚ) : ℝ))
    (hpar : ∀ v ∈ bn.V, ∀ a, InRange bn.cardOf (bn.parentsOf v) a → γ ≤ ((margOf bn (bn.parentsOf v) a : ℚ) : ℝ)) :
    P.real {ω | ¬ ∃ rows bn', randomSample tol h bn garbage (fun i => U i ω) = .ok rows ∧
      bayesEstimator hE hI target ⟨bn.V.length, rows⟩ (some equiv) none = .ok bn' ∧ bn'.V = bn.V ∧ bn'.WF ∧ bn'.Nonneg ∧
      ∀ v ∈ bn.V, bn'.parentsOf v = bn.parentsOf v ∧ bn'.valuesOf v = upTo (bn.cardOf v) ∧
        ∀ a, InRange bn.cardOf (bn.fam v) a → |((bn'.prob v a : ℚ) : ℝ) - ((bn.prob v a : ℚ) : ℝ)| ≤
          1 / 200000 + (2 * ε + equiv / (((bn.parentsOf v).map bn.cardOf).prod : ℕ) / n) / (γ - ε)} ≤
      2 * countsTaken bn bn.parentsOf * Real.exp (-2 * n * ε ^ 2) := by
  have hP := uniforms_prob hU
  have hcard : ∀ v ∈ bn.V, 0 < bn.cardOf v := fun v hv => by
    rw [S.wf.card_len hv]; exact List.length_pos_of_ne_nil (S.wf.values_ne _ hv)
  have hprod : ∀ v ∈ bn.V, 0 < ((bn.parentsOf v).map bn.cardOf).prod := fun v hv => List.prod_pos fun x hx => by
    obtain ⟨u, hu, rfl⟩ := List.mem_map.1 hx
    exact hcard u (S.wf.parents_mem v hv u hu)
  have hts : ∀ v, tableSize bn v = bn.cardOf v * ((bn.parentsOf v).map bn.cardOf).prod := fun v => by
    unfold tableSize BayesNet.fam; rw [List.map_cons, List.prod_cons]
  have key := learn_finite hU h S.toSampleable bn.parentsOf S.wf.parents_mem (fun v hv => List.nodup_cons.1 (S.wf.fam_nodup v hv)) (fun bn' => bn'.V = bn.V) h0 ht h1 hgl hg
    (fun d => bayesEstimator hE hI target d (some equiv) none) (fun v => equiv / tableSize bn v) (fun v => equiv / (((bn.parentsOf v).map bn.cardOf).prod : ℕ))
    (fun v hv => by
      refine ⟨by positivity, ?_⟩
      rw [hts]
      have h2 : (0 : ℚ) < (((bn.parentsOf v).map bn.cardOf).prod : ℕ) := by exact_mod_cast hprod v hv
      apply div_le_div_of_nonneg_left he.le h2
      have : (1 : ℕ) * ((bn.parentsOf v).map bn.cardOf).prod ≤ bn.cardOf v * ((bn.parentsOf v).map bn.cardOf).prod := Nat.mul_le_mul_right _ (hcard v hv)
      rw [one_mul] at this
      exact_mod_cast this) hε hγ hval hpar (by
      intro d _ _ hf hvals
      obtain ⟨bn', b1, b2, b4, b5⟩ := bayes_learns hE hI S (some equiv) (by intro e he'; cases he'; exact he) d hf hvals
      refine ⟨bn', b1, b2, fun v => by rw [b2], b4, fun v hv => ⟨(b5 v hv).1, (b5 v hv).2.1, fun a ha => ?_⟩⟩
      rw [(b5 v hv).2.2 a ha, Option.getD_some]
      have h2 : (bn.cardOf v : ℚ) * (equiv / tableSize bn v) = equiv / (((bn.parentsOf v).map bn.cardOf).prod : ℕ) := by
        rw [hts]
        have := hcard v hv
        have := hprod v hv
        push_cast
        field_simp
      rw [h2]
      rfl)
  refine le_trans (measureReal_mono ?_ (measure_ne_top _ _)) key
  intro ω hω hgood
  apply hω
  obtain ⟨rows, bn', e1, e2, e3, ew, en, e4⟩ := hgood
  refine ⟨rows, bn', e1, e2, e3, ew, en, fun v hv => ⟨(e4 v hv).1, (e4 v hv).2.1, fun a ha => ?_⟩⟩
  have h3 := (e4 v hv).2.2 a ha
  have hp : 0 < margOf bn (bn.parentsOf v) a := by
    have := hpar v hv a fun u hu => ha u (List.mem_cons_of_mem _ hu)
    have h2 : (0 : ℝ) < ((margOf bn (bn.parentsOf v) a : ℚ) : ℝ) := by linarith
    exact_mod_cast h2
  have hc : condOf bn v (bn.parentsOf v) a = bn.prob v a := by
    have := S.super.cond hv (a := a) (by rw [S.parents v hv]; exact ha) (by rw [S.parents v hv]; exact hp)
    rwa [S.parents v hv] at this
  rw [hc] at h3
  rw [Rat.cast_div, Rat.cast_natCast] at h3
  exact h3

/-- C223: how many rows `naive_bayes` needs: as C220 for the classifier's structure, where `γ` only has to bound the probabilities of the values of every column, and the true
conditional probabilities are those of the column given the class. -/
theorem C223_naive_bayes_rows_needed (hU : Uniforms P U) (h h' : HashOrder ℕ) (hE : HashOrder (ℕ × ℤ)) (hI : HashOrder ℤ) (bn : BayesNet ℕ A)
    (S : Sampleable bn) (c : ℕ) (hc : c ∈ bn.V)
    (hal : ∀ v ∈ bn.V, bn.cardOf ((c :: (h'.iter bn.V).filter fun u => decide (u ≠ c)).idxOf v) = bn.cardOf v) (tol : ℚ) (h0 : 0 ≤ tol) (ht : tol < 1)
    (n : ℕ) (h1 : 1 ≤ n) (garbage : List (List ℤ)) (hgl : garbage.length = n) (hg : ∀ g ∈ garbage, g.length = bn.V.length) (ε γ : ℝ) (hε : 0 ≤ ε) (hγ : ε < γ)
    (hγ1 : γ ≤ 1) (hval : ∀ v ∈ bn.V, ∀ x < bn.cardOf v, γ ≤ ((margOf bn [v] fun _ => x : ℚ) : ℝ)) :
    P.real {ω | ¬ ∃ rows bn', randomSample tol h bn garbage (fun i => U i ω) = .ok rows ∧
      naiveBayes hE hI h' ⟨bn.V.length, rows⟩ c false = .ok bn' ∧ bn'.V.Perm bn.V ∧ bn'.WF ∧ bn'.Nonneg ∧
      ∀ v ∈ bn.V, bn'.parentsOf v = (if v = c then [] else [c]) ∧ bn'.valuesOf v = upTo (bn.cardOf v) ∧
        ∀ a, InRange bn.cardOf [v, c] a →
          |((bn'.prob v a : ℚ) : ℝ) - (((if v = c then margOf bn [c] a else condOf bn v [c] a) : ℚ) : ℝ)| ≤ 1 / 200000 + (2 * ε + 1 / 10000000 / n) / (γ - ε)} ≤
      2 * countsTaken bn (fun v => if v = c then [] else [c]) * Real.exp (-2 * n * ε ^ 2) := by
  have hP := uniforms_prob hU
  have hmem : ∀ v ∈ bn.V, ∀ u ∈ (if v = c then ([] : List ℕ) else [c]), u ∈ bn.V := by
    intro v hv u hu
    split_ifs at hu
    · cases hu
    · rw [List.mem_singleton.1 hu]; exact hc
  have key := learn_finite hU h S (fun v => if v = c then [] else [c]) hmem (fun v _ => by split_ifs with hvc <;> simp [hvc]) (fun bn' => bn'.V.Perm bn.V) h0 ht h1 hgl hg
    (fun d => naiveBayes hE hI h' d c false) (fun _ => 0) (fun _ => 1 / 10000000) (fun _ _ => ⟨le_rfl, by norm_num⟩) hε hγ hval (by
      intro v hv a ha
      split_ifs with hvc
      · rw [margOf_all S]; simpa using hγ1
      · rw [margOf_congr S.wf (b := fun _ => a c) (by simp)]
        exact hval c hc _ (ha c (by simp [hvc]))) (by
      intro d hnc _ hf hvals
      obtain ⟨bn', b1, b2, b3, b4, b5⟩ := naive_rows hE hI h' S hc hal hnc hf hvals
      refine ⟨bn', b1, b2, b3, b4, fun v hv => ⟨(b5 v hv).1, (b5 v hv).2.1, fun a ha => ?_⟩⟩
      rw [(b5 v hv).2.2 a ha, zero_add, add_comm (1 / 10000000 : ℚ)])
  push_cast at key
  refine le_trans (measureReal_mono ?_ (measure_ne_top _ _)) key
  intro ω hω hgood
  apply hω
  obtain ⟨rows, bn', e1, e2, e3, ew, en, e4⟩ := hgood
  refine ⟨rows, bn', e1, e2, e3, ew, en, fun v hv => ⟨(e4 v hv).1, (e4 v hv).2.1, fun a ha => ?_⟩⟩
  have p3 := (e4 v hv).2.2 a
  by_cases hvc : v = c
  · rw [if_pos hvc] at p3 ⊢
    have := p3 fun u hu => ha u (by simp at hu; simp [hu])
    unfold condOf at this
    rw [margOf_all S, div_one] at this
    rw [hvc] at this ⊢
    exact this
  · rw [if_neg hvc] at p3 ⊢
    exact p3 ha

/-! ## The samplers -/

theorem sumAll_filter_le {N : Type} [DecidableEq N] {c : N → ℕ} {l : List N} (hl : l.Nodup) {F : Asg N → ℚ} (hF : ∀ b, 0 ≤ F b) {v : N} {a : Asg N} (hav : a v < c v) :
    sumAll c (l.filter fun u => u ≠ v) F a ≤ sumAll c l F a := by
  by_cases hv : v ∈ l
  · have hp : l.Perm (v :: l.filter fun u => u ≠ v) := by
      rw [List.perm_ext_iff_of_nodup hl (List.nodup_cons.2 ⟨by simp, hl.filter _⟩)]
      intro u
      by_cases huv : u = v
      · subst huv; simp [hv]
      · simp [huv]
    rw [sumAll_perm hp F hl a]
    simp only [sumAll]
    have := Finset.single_le_sum (f := fun x => sumAll c (l.filter fun u => u ≠ v) F (a.upd v x)) (fun x _ => sumAll_nonneg hF _) (Finset.mem_range.2 hav)
    simpa [Asg.upd_id] using this
  · rw [List.filter_eq_self.2]
    intro u hu
    simp only [decide_eq_true_eq]
    rintro rfl
    exact hv hu

/-- C224: how many samples `lw_sample` needs. For evidence of probability `p > ε`, except with probability at most `4 exp(-2 n ε²)`, the call succeeds and the number it returns is within
`5e-5 + 2 ε / (p - ε)` of `P(v = x | evidence)`. -/
theorem C224_lw_samples_needed {N : Type} [DecidableEq N] (hU : Uniforms P U) (h : HashOrder N) (bn : BayesNet N A) (w : bn.WF) (hn : bn.Nonneg) (hno : bn.Normalised)
    (tol : ℚ) (h0 : 0 ≤ tol) (ht : tol < 1) (hpf : bn.ParentsFirst) (ev : Dict N A) (hev : bn.LegalEvidence ev) (v : N) (hv : v ∈ bn.V)
    (a : Asg N) (hag : bn.Agrees ev a) (x : A) (hx : (bn.valuesOf v)[a v]? = some x) (n : ℕ) (h1 : 1 ≤ n) (ε : ℝ) (hε : 0 ≤ ε)
    (hp : ε < ((bn.evidenceProb ev a : ℚ) : ℝ)) :
    P.real {ω | ¬ ∃ d, lwSample tol h bn ev n (fun i => U i ω) = .ok d ∧ |((estimate (.ok d) v x : ℚ) : ℝ) -
      ((bn.marginal v ev a / bn.evidenceProb ev a : ℚ) : ℝ)| ≤ 1 / 20000 + 2 * ε / (((bn.evidenceProb ev a : ℚ) : ℝ) - ε)} ≤ 4 * Real.exp (-2 * n * ε ^ 2) := by
  have hP := uniforms_prob hU
  have hn0 : (0 : ℝ) < n := by exact_mod_cast h1
  have hav : a v < bn.cardOf v := by rw [w.card_len hv]; exact (List.getElem?_eq_some_iff.1 hx).1
  have hev_range : ∀ u ∈ bn.V, u ∉ freeOf ev bn.V → a u < bn.cardOf u := by
    intro u hu hnf
    cases hg : ev.get? u with
    | none => exact absurd (List.mem_filter.2 ⟨hu, by simp [hg]⟩) hnf
    | some e => rw [w.card_len hu]; exact (List.getElem?_eq_some_iff.1 (hag _ (Dict.get?_mem hg))).1
  have hN_range : ∀ u ∈ bn.V, u ∉ (freeOf ev bn.V).filter (fun u => u ≠ v) → a u < bn.cardOf u := by
    intro u hu hul
    by_cases hne : u = v
    · subst hne; exact hav
    · exact hev_range u hu fun hf => hul (List.mem_filter.2 ⟨hf, by simpa using hne⟩)
  have hD := lw_hoeffding hU w hn hno hpf hev (l := freeOf ev bn.V) (w.nodup.filter _) (fun _ hu => hu) hev_range hag h1 hε
  have hN := lw_hoeffding hU w hn hno hpf hev (l := (freeOf ev bn.V).filter fun u => u ≠ v) ((w.nodup.filter _).filter _) (fun u hu => (List.mem_filter.1 hu).1) hN_range hag h1 hε
  have eD : sumAll bn.cardOf (freeOf ev bn.V) bn.joint a = bn.evidenceProb ev a := by rw [freeOf_eq]; rfl
  have eN : sumAll bn.cardOf ((freeOf ev bn.V).filter fun u => u ≠ v) bn.joint a = bn.marginal v ev a := by
    rw [freeOf_eq, List.filter_filter]; unfold BayesNet.marginal
    congr 1; apply List.filter_congr; intro u _; simp
  rw [eD] at hD
  rw [eN] at hN
  set p : ℝ := ((bn.evidenceProb ev a : ℚ) : ℝ) with hpd
  have hsub : {ω | ¬ ∃ d, lwSample tol h bn ev n (fun i => U i ω) = .ok d ∧ |((estimate (.ok d) v x : ℚ) : ℝ) -
      ((bn.marginal v ev a / bn.evidenceProb ev a : ℚ) : ℝ)| ≤ 1 / 20000 + 2 * ε / (p - ε)} ≤ᵐ[P]
      ({ω | ε ≤ |(∑ t ∈ Finset.range n, ((passW bn ev (freeOf ev bn.V) a (blockOf U _ t ω) : ℚ) : ℝ)) / n - p|} ∪
      {ω | ε ≤ |(∑ t ∈ Finset.range n, ((passW bn ev ((freeOf ev bn.V).filter fun u => u ≠ v) a (blockOf U _ t ω) : ℚ) : ℝ)) / n - ((bn.marginal v ev a : ℚ) : ℝ)|} : Set Ω) := by
    filter_upwards [uniforms_range hU] with ω hω hnot
    by_contra hc
    apply hnot
    have hc' : ¬ (ε ≤ |(∑ t ∈ Finset.range n, ((passW bn ev (freeOf ev bn.V) a (blockOf U _ t ω) : ℚ) : ℝ)) / n - p| ∨
      ε ≤ |(∑ t ∈ Finset.range n, ((passW bn ev ((freeOf ev bn.V).filter fun u => u ≠ v) a (blockOf U _ t ω) : ℚ) : ℝ)) / n - ((bn.marginal v ev a : ℚ) : ℝ)|) := hc
    push Not at hc'
    obtain ⟨kD, kN⟩ := hc'
    rw [← Rat.cast_sum] at kD kN
    set y := ∑ t ∈ Finset.range n, passW bn ev (freeOf ev bn.V) a (blockOf U _ t ω) with hy
    have hypos : (0 : ℝ) < (y : ℝ) := by
      have h2 : 0 < (y : ℝ) / n := by linarith [(abs_lt.1 kD).1]
      rwa [div_pos_iff_of_pos_right hn0] at h2
    have hne : y ≠ 0 := by
      rintro h0'
      rw [h0'] at hypos
      simp at hypos
    obtain ⟨d, e1, e2⟩ := lw_ratio h w hn hno h0 ht hpf hev hv hag hx hω hne
    refine ⟨d, e1, ?_⟩
    rw [e2, ← hy]
    set x' := ∑ t ∈ Finset.range n, passW bn ev ((freeOf ev bn.V).filter fun u => u ≠ v) a (blockOf U _ t ω) with hx'
    have hNle : bn.marginal v ev a ≤ bn.evidenceProb ev a := by
      rw [← eD, ← eN]; exact sumAll_filter_le (w.nodup.filter _) (fun b => joint_nonneg hn b) hav
    have hc := ratio_close (s := 0) (r := 0) (γ := p) (by rw [← eN]; exact_mod_cast sumAll_nonneg (fun b => joint_nonneg hn b) a) (by rw [hpd]; exact_mod_cast hNle) le_rfl hp hε le_rfl le_rfl hn0 kN kD
    rw [zero_add, zero_add, zero_div, add_zero] at hc
    have hc6 : |((roundAway 4 (x' / y) : ℚ) : ℝ) - ((x' / y : ℚ) : ℝ)| ≤ 1 / 20000 := by
      have : ((|roundAway 4 (x' / y) - x' / y| : ℚ) : ℝ) ≤ ((1 / 2 / 10 ^ 4 : ℚ) : ℝ) := Rat.cast_le.2 (roundAway_close 4 _)
      push_cast at this ⊢
      refine this.trans (le_of_eq (by norm_num))
    have hc' : |((x' / y : ℚ) : ℝ) - ((bn.marginal v ev a / bn.evidenceProb ev a : ℚ) : ℝ)| ≤ 2 * ε / (p - ε) := by push_cast; exact hc
    calc _ = |(((roundAway 4 (x' / y) : ℚ) : ℝ) - ((x' / y : ℚ) : ℝ)) + (((x' / y : ℚ) : ℝ) - ((bn.marginal v ev a / bn.evidenceProb ev a : ℚ) : ℝ))| := by rw [sub_add_sub_cancel]
      _ ≤ _ := abs_add_le _ _
      _ ≤ _ := add_le_add hc6 hc'
  calc P.real _ ≤ P.real _ := ENNReal.toReal_mono (measure_ne_top _ _) (measure_mono_ae hsub)
    _ ≤ _ := measureReal_union_le _ _
    _ ≤ _ := by linarith

/-- C225: how many sweeps `gibbs_sample` needs. For `burn + 1 < n`, except with probability at most `2 exp(-2 (n - burn - 1) ε²)`, the call succeeds and the number it returns is within
`5e-5 + ε + 1 / (n - burn)` of the exact marginal. -/
theorem C225_gibbs_sweeps_needed {N : Type} [DecidableEq N] (hU : Uniforms P U) (h : HashOrder N) (bn : BayesNet N A) (w : bn.WF) (hn : bn.Nonneg) (hno : bn.Normalised)
    (tol : ℚ) (h0 : 0 ≤ tol) (ht : tol < 1) (hpf : bn.ParentsFirst) (n burn : ℕ) (hb : burn + 1 < n) (v : N) (hv : v ∈ bn.V) (a : Asg N) (x : A)
    (hx : (bn.valuesOf v)[a v]? = some x) (ε : ℝ) (hε : 0 ≤ ε) :
    P.real {ω | ¬ ∃ d, gibbsSample tol h bn n burn (fun i => U i ω) = .ok d ∧ |((estimate (.ok d) v x : ℚ) : ℝ) - ((bn.marginal v [] a : ℚ) : ℝ)| ≤
      1 / 20000 + ε + 1 / ((n - burn : ℕ) : ℝ)} ≤ 2 * Real.exp (-2 * ((n - burn - 1 : ℕ) : ℝ) * ε ^ 2) := by
  have hP := uniforms_prob hU
  have hU' : Uniforms P fun i => U ((burn + 2) * bn.V.length + i) :=
    ⟨fun i => hU.meas _, hU.indep.precomp fun i j hij => by simpa using hij, fun i => hU.unif _⟩
  refine le_trans (ENNReal.toReal_mono (measure_ne_top _ _) (measure_mono_ae ?_))
    (C171_concentration hU' h bn w hn hno tol h0 ht hpf (n - burn - 1) (by omega) v hv a x hx ε hε)
  filter_upwards [uniforms_range hU] with ω hr hnot
  by_contra hc
  apply hnot
  have hc : ¬ (ε ≤ |((estimate (forwardSample tol h bn (n - burn - 1) fun i => U ((burn + 2) * bn.V.length + i) ω) v x : ℚ) : ℝ) - ((bn.marginal v [] a : ℚ) : ℝ)|) := hc
  push Not at hc
  obtain ⟨d, d', g1, _, g3, g4⟩ := C69_gibbs_is_forward h bn w hn tol ht (normalised_near hno h0) hpf (fun i => U i ω) hr n burn (by omega)
  refine ⟨d, g1, ?_⟩
  rw [g3] at hc
  rw [g4 v hv x (List.mem_of_getElem? hx)]
  set f := estimate (.ok d') v x with hf
  set q := f * ((n - burn - 1 : ℕ) : ℚ) / ((n - burn : ℕ) : ℚ) with hq
  have hf01 : 0 ≤ f ∧ f ≤ 1 := by
    obtain ⟨d2, smp, k1, _, k3⟩ := C37_counts h bn w hn tol ht (normalised_near hno h0) hpf (fun i => U ((burn + 2) * bn.V.length + i) ω) (fun i => hr _) (n - burn - 1) (by omega)
    rw [g3] at k1
    cases k1
    rw [hf, estimate_of k3 hv hx]
    have hm : (0 : ℚ) < ((n - burn - 1 : ℕ) : ℚ) := by exact_mod_cast (by omega : 0 < n - burn - 1)
    refine ⟨by positivity, ?_⟩
    rw [div_le_one hm]
    have := Finset.card_filter_le (Finset.range (n - burn - 1)) fun t => smp t v = a v
    rw [Finset.card_range] at this
    exact_mod_cast this
  have hm : (0 : ℚ) < ((n - burn : ℕ) : ℚ) := by exact_mod_cast (by omega : 0 < n - burn)
  have hqf : |q - f| ≤ 1 / ((n - burn : ℕ) : ℚ) := by
    have e : q - f = -(f / ((n - burn : ℕ) : ℚ)) := by
      rw [hq, Nat.cast_sub (n := n - burn) (m := 1) (by omega)]
      field_simp
      push_cast
      ring
    rw [e, abs_neg, abs_of_nonneg (div_nonneg hf01.1 hm.le)]
    exact div_le_div_of_nonneg_right hf01.2 hm.le
  have h2 : |roundAway 4 q - f| ≤ 1 / 20000 + 1 / ((n - burn : ℕ) : ℚ) := by
    have h3 := roundAway_close 4 q
    norm_num at h3
    calc _ = |(roundAway 4 q - q) + (q - f)| := by rw [sub_add_sub_cancel]
      _ ≤ _ := abs_add_le _ _
      _ ≤ _ := add_le_add h3 hqf
  have h3 := (Rat.cast_le (K := ℝ)).2 h2
  push_cast at h3
  calc _ = |(((roundAway 4 q : ℚ) : ℝ) - (f : ℝ)) + ((f : ℝ) - ((bn.marginal v [] a : ℚ) : ℝ))| := by rw [sub_add_sub_cancel]
    _ ≤ _ := abs_add_le _ _
    _ ≤ _ := by linarith

/-! ## The hypotheses can be met -/

theorem exFork_values : ∀ v ∈ exFork.V, ∀ x < exFork.cardOf v, (1 / 8 : ℝ) ≤ ((margOf exFork [v] fun _ => x : ℚ) : ℝ) := by
  have key : ∀ v ∈ exFork.V, ∀ x < exFork.cardOf v, (1 / 8 : ℚ) ≤ margOf exFork [v] fun _ => x := by decide +kernel
  intro v hv x hx
  have := (Rat.cast_le (K := ℝ)).2 (key v hv x hx)
  push_cast at this
  exact this

theorem exFork_parents : ∀ v ∈ exFork.V, ∀ a, InRange exFork.cardOf (full3.parentsOf v) a → (1 / 8 : ℝ) ≤ ((margOf exFork (full3.parentsOf v) a : ℚ) : ℝ) := by
  have key : ∀ x < 2, ∀ y < 2, ∀ v ∈ exFork.V, (1 / 8 : ℚ) ≤ margOf exFork (full3.parentsOf v) (fun u => if u = 0 then x else y) := by decide +kernel
  intro v hv a ha
  have hv' : v = 0 ∨ v = 1 ∨ v = 2 := by simpa [exFork] using hv
  have h2 : ∀ (b : Asg ℕ), (∀ u ∈ full3.parentsOf v, a u = b u) → (1 / 8 : ℚ) ≤ margOf exFork (full3.parentsOf v) b →
      (1 / 8 : ℝ) ≤ ((margOf exFork (full3.parentsOf v) a : ℚ) : ℝ) := by
    intro b hb hp
    rw [margOf_congr exFork_wf hb]
    have := (Rat.cast_le (K := ℝ)).2 hp
    push_cast at this
    exact this
  rcases hv' with rfl | rfl | rfl
  · exact h2 _ (fun u hu => absurd (show u ∈ ([] : List ℕ) from hu) (by simp)) (key 0 (by decide) 0 (by decide) 0 (by decide))
  · have a0 : a 0 < 2 := ha 0 (by decide)
    refine h2 _ ?_ (key (a 0) a0 0 (by decide) 1 (by decide))
    intro u hu
    have : u ∈ [0] := hu
    rw [List.mem_singleton.1 this]; rfl
  · have a0 : a 0 < 2 := ha 0 (by decide)
    have a1 : a 1 < 2 := ha 1 (by decide)
    refine h2 _ ?_ (key (a 0) a0 (a 1) a1 2 (by decide))
    intro u hu
    have : u = 0 ∨ u = 1 := by
      have : u ∈ [0, 1] := hu
      simpa using this
    rcases this with rfl | rfl <;> simp

theorem exp_twenty : Real.exp (-20) ≤ 1 / 1000000 := by
  have h1 : (2 : ℝ) ≤ Real.exp 1 := by have := Real.add_one_le_exp (1 : ℝ); linarith
  have h2 : Real.exp 20 = Real.exp 1 ^ 20 := by rw [← Real.exp_nat_mul]; norm_num
  have h3 : (2 : ℝ) ^ 20 ≤ Real.exp 20 := by rw [h2]; exact pow_le_pow_left₀ (by norm_num) h1 20
  rw [Real.exp_neg, ← one_div]
  exact one_div_le_one_div_of_le (by norm_num) (le_trans (by norm_num) h3)

/-- C220 and C221 with numbers: ten million rows drawn from `exFork` and a structure with one arc too many. With probability at least 0.9999, sampling and fitting succeed and
every table entry of the learned network is within 0.017 of the true one (and the answers within what C221 says for that). -/
example : ((Measure.infinitePi fun _ : ℕ => (volume.restrict (Set.Ico (0 : ℝ) 1))).real
    {ω | ¬ ∃ rows bn', randomSample (1 / 10 ^ 8) HashOrder.id exFork (List.replicate 10000000 [0, 0, 0]) (fun i => ω i) = .ok rows ∧
      mleEstimator HashOrder.id HashOrder.id full3 ⟨exFork.V.length, rows⟩ none = .ok bn' ∧
      ∀ v ∈ exFork.V, bn'.parentsOf v = full3.parentsOf v ∧ ∀ a, InRange exFork.cardOf (v :: full3.parentsOf v) a → |bn'.prob v a - exFork.prob v a| ≤ 17 / 1000}) ≤
    1 / 10000 := by
  have hP := uniforms_prob uniforms_exist
  have key := C221_inference_rows_needed uniforms_exist HashOrder.id HashOrder.id HashOrder.id HashOrder.id exFork full3 full3_super (1 / 10 ^ 8) (by norm_num) (by norm_num) 10000000
    (by norm_num) (List.replicate 10000000 [0, 0, 0]) List.length_replicate (fun g hg => by rw [List.eq_of_mem_replicate hg]; rfl) (1 / 1000) (1 / 8)
    (by norm_num) (by norm_num) exFork_values exFork_parents (17 / 1000) (by norm_num)
  refine le_trans (measureReal_mono ?_ (measure_ne_top _ _)) (key.trans ?_)
  · intro ω hω hg
    apply hω
    obtain ⟨rows, bn', e1, e2, e3, _⟩ := hg
    exact ⟨rows, bn', e1, e2, e3⟩
  · have hk : countsTaken exFork full3.parentsOf = 27 := by decide +kernel
    rw [hk]
    have e : (-2 * ((10000000 : ℕ) : ℝ) * (1 / 1000) ^ 2) = -20 := by norm_num
    rw [e]
    have := exp_twenty
    push_cast
    linarith

/-- C220: also with a structure that has nothing to do with the network. -/
example : OtherStructure exFork star2 ∧ (∀ v ∈ exFork.V, ∀ a, InRange exFork.cardOf (star2.parentsOf v) a → (1 / 8 : ℝ) ≤ ((margOf exFork (star2.parentsOf v) a : ℚ) : ℝ)) := by
  refine ⟨star2_other, fun v hv a ha => ?_⟩
  have hv' : v = 0 ∨ v = 1 ∨ v = 2 := by simpa [exFork] using hv
  have h2 : ∀ w, w ∈ exFork.V → a w < exFork.cardOf w → (1 / 8 : ℝ) ≤ ((margOf exFork [w] a : ℚ) : ℝ) := by
    intro w hw haw
    rw [margOf_congr exFork_wf (b := fun _ => a w) (by simp)]
    exact exFork_values w hw _ haw
  rcases hv' with rfl | rfl | rfl
  · exact h2 2 (by decide) (ha 2 (by decide))
  · exact h2 2 (by decide) (ha 2 (by decide))
  · rw [show star2.parentsOf 2 = [] from rfl, margOf_all exFork_sampleable]; norm_num

/-- C222: the example network with a prior of ten imaginary rows. -/
example : SameStructure exNet vNet ∧ (0 : ℚ) < 10 ∧ (∀ v ∈ exNet.V, ∀ x < exNet.cardOf v, (1 / 24 : ℝ) ≤ ((margOf exNet [v] fun _ => x : ℚ) : ℝ)) ∧
    (∀ v ∈ exNet.V, ∀ a, InRange exNet.cardOf (exNet.parentsOf v) a → (1 / 24 : ℝ) ≤ ((margOf exNet (exNet.parentsOf v) a : ℚ) : ℝ)) ∧
    countsTaken exNet exNet.parentsOf = 32 := by
  refine ⟨exNet_same, by norm_num, ?_, ?_, by decide +kernel⟩
  · have key : ∀ v ∈ exNet.V, ∀ x < exNet.cardOf v, (1 / 24 : ℚ) ≤ margOf exNet [v] fun _ => x := by decide +kernel
    intro v hv x hx
    have := (Rat.cast_le (K := ℝ)).2 (key v hv x hx)
    push_cast at this
    exact this
  · have key : ∀ x < 2, ∀ y < 3, ∀ v ∈ exNet.V, (1 / 24 : ℚ) ≤ margOf exNet (exNet.parentsOf v) (fun u => if u = 0 then x else y) := by decide +kernel
    intro v hv a ha
    have hv' : v = 0 ∨ v = 1 ∨ v = 2 := by simpa [exNet] using hv
    have h2 : ∀ (b : Asg ℕ), (∀ u ∈ exNet.parentsOf v, a u = b u) → (1 / 24 : ℚ) ≤ margOf exNet (exNet.parentsOf v) b →
        (1 / 24 : ℝ) ≤ ((margOf exNet (exNet.parentsOf v) a : ℚ) : ℝ) := by
      intro b hb hp
      rw [margOf_congr exNet_wf hb]
      have := (Rat.cast_le (K := ℝ)).2 hp
      push_cast at this
      exact this
    rcases hv' with rfl | rfl | rfl
    · exact h2 _ (fun u hu => absurd (show u ∈ ([] : List ℕ) from hu) (by simp)) (key 0 (by decide) 0 (by decide) 0 (by decide))
    · exact h2 _ (fun u hu => absurd (show u ∈ ([] : List ℕ) from hu) (by simp)) (key 0 (by decide) 0 (by decide) 1 (by decide))
    · have a0 : a 0 < 2 := ha 0 (by decide)
      have a1 : a 1 < 3 := ha 1 (by decide)
      refine h2 _ ?_ (key (a 0) a0 (a 1) a1 2 (by decide))
      intro u hu
      have : u = 0 ∨ u = 1 := by
        have : u ∈ [0, 1] := hu
        simpa using this
      rcases this with rfl | rfl <;> simp

/-- C223: the classifier for column 2 of rows drawn from `exFork`. -/
example : Sampleable exFork ∧ 2 ∈ exFork.V ∧
    (∀ v ∈ exFork.V, exFork.cardOf ((2 :: ((HashOrder.rev : HashOrder ℕ).iter exFork.V).filter fun u => decide (u ≠ 2)).idxOf v) = exFork.cardOf v) ∧
    (∀ v ∈ exFork.V, ∀ x < exFork.cardOf v, (1 / 8 : ℝ) ≤ ((margOf exFork [v] fun _ => x : ℚ) : ℝ)) ∧
    countsTaken exFork (fun v => if v = 2 then [] else [2]) = 21 :=
  ⟨exFork_sampleable, by decide, by decide, exFork_values, by decide +kernel⟩

/-- C224: the evidence `{2: 31}` of the example network has probability 301/480. -/
example : exNet.LegalEvidence [(2, 31)] ∧ exNet.Agrees [(2, 31)] (fun _ => 1) ∧ (1 / 100 : ℝ) < ((exNet.evidenceProb [(2, 31)] (fun _ => 1) : ℚ) : ℝ) := by
  refine ⟨⟨by decide, by decide⟩, by intro e he; simp at he; subst he; decide, ?_⟩
  have h1 : exNet.evidenceProb [(2, 31)] (fun _ => 1) = 301 / 480 := by decide +kernel
  rw [h1]
  norm_num

/-- C225 with numbers: after 100 sweeps of burn-in, a million sweeps miss `P(2 = 31)` by more than 0.004 with probability at most 2e-6. -/
example : (Measure.infinitePi fun _ : ℕ => (volume.restrict (Set.Ico (0 : ℝ) 1))).real
    {ω | ¬ ∃ d, gibbsSample (1 / 10 ^ 8) HashOrder.id exNet 1000101 100 (fun i => ω i) = .ok d ∧
      |((estimate (.ok d) 2 31 : ℚ) : ℝ) - ((exNet.marginal 2 [] (fun _ => 1) : ℚ) : ℝ)| ≤ 4 / 1000} ≤ 2 / 1000000 := by
  have hP := uniforms_prob uniforms_exist
  have key := C225_gibbs_sweeps_needed uniforms_exist HashOrder.id exNet exNet_wf exNet_nonneg exNet_normalised (1 / 10 ^ 8) (by norm_num) (by norm_num)
    exNet_parentsFirst 1000101 100 (by norm_num) 2 (by decide) (fun _ => 1) 31 (by decide) (32 / 10000) (by norm_num)
  refine le_trans (measureReal_mono ?_ (measure_ne_top _ _)) (key.trans ?_)
  · intro ω hω hg
    apply hω
    obtain ⟨d, e1, e2⟩ := hg
    refine ⟨d, e1, e2.trans ?_⟩
    norm_num
  · have h2 : Real.exp (-2 * ((1000101 - 100 - 1 : ℕ) : ℝ) * (32 / 10000) ^ 2) ≤ Real.exp (-20) := Real.exp_le_exp.2 (by norm_num)
    have := exp_twenty
    linarith

end PyBN
