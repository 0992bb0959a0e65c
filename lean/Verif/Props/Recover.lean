import Verif.Proofs.SampleLearn

/-!
# Learning a network back from its own samples: C188 - C190
-/

set_option linter.unusedSectionVars false

namespace PyBN
open BayesNet Sampling MeasureTheory ProbabilityTheory Filter Topology
variable {A : Type} [DecidableEq A] {Ω : Type} [MeasurableSpace Ω] {P : Measure Ω} {U : ℕ → Ω → ℝ}

theorem SameStructure.shape {bn : BayesNet ℕ A} {target : BayesNet ℕ ℤ} (S : SameStructure bn target) : target.Shape where
  nodup := by rw [S.nodes]; exact S.wf.nodup
  dom := fun v => by rw [S.nodes]; exact S.described v
  fam_nodup := fun v hv => by rw [S.nodes] at hv; rw [S.parents v hv]; exact S.wf.fam_nodup v hv
  parents_mem := fun v hv p hp => by rw [S.nodes] at hv ⊢; rw [S.parents v hv] at hp; exact S.wf.parents_mem v hv p hp

theorem Sampleable.lt {bn : BayesNet ℕ A} (S : Sampleable bn) {u : ℕ} : u ∈ bn.V ↔ u < bn.V.length := by
  conv_lhs => rw [S.columns, List.mem_range]

theorem SameStructure.idx {bn : BayesNet ℕ A} {target : BayesNet ℕ ℤ} (S : SameStructure bn target) {v : ℕ} (hv : v ∈ bn.V) :
    bn.V.idxOf v = v := by
  have h1 : bn.V[v]? = some v := by
    conv_lhs => rw [S.columns]
    rw [List.getElem?_range (S.lt.1 hv)]
  obtain ⟨h2, h3⟩ := List.getElem?_eq_some_iff.1 h1
  conv_lhs => rw [← h3]
  exact List.Nodup.idxOf_getElem S.wf.nodup v h2

/-- An assignment of the first `m` nodes, completed by zeros. -/
def extAsg {m : ℕ} (f : Fin m → ℕ) : Asg ℕ := fun u => if h : u < m then f ⟨u, h⟩ else 0

theorem upTo_length (k : ℕ) : (upTo k).length = k := by simp [upTo]

theorem cardOf_upTo {bn' : BayesNet ℕ ℤ} {v k : ℕ} (h : bn'.valuesOf v = upTo k) : bn'.cardOf v = k := by
  rw [card_eq_len]; exact (congrArg List.length h).trans (upTo_length k)

theorem nonneg_of_prob {N B : Type} [DecidableEq N] {bn : BayesNet N B} (w : bn.WF)
    (h : ∀ v ∈ bn.V, ∀ a, InRange bn.cardOf (bn.fam v) a → 0 ≤ bn.prob v a) : bn.Nonneg := by
  intro v hv x hx
  obtain ⟨i, hi, rfl⟩ := List.mem_iff_getElem.1 hx
  obtain ⟨a, ha, he⟩ := enc_surj (c := bn.cardOf) (w.fam_nodup v hv) (i := i) (by rw [← w.cpt_len v hv]; exact hi)
  have := h v hv a ha
  unfold BayesNet.prob at this
  rw [he, List.getElem?_eq_getElem hi] at this
  exact this

/-- The general step, for any structure: an estimator whose table entries are a function of the two counts converges to whatever that function of the
frequencies converges to. -/
theorem learn_limit_any (hU : Uniforms P U) (h : HashOrder ℕ) {bn : BayesNet ℕ A} (S : Sampleable bn) (par : ℕ → List ℕ)
    (hmem : ∀ v ∈ bn.V, ∀ u ∈ par v, u ∈ bn.V) (Q : BayesNet ℕ ℤ → Prop) {tol : ℚ}
    (h0 : 0 ≤ tol) (ht : tol < 1) (garbage : ℕ → List (List ℤ)) (hgl : ∀ n, (garbage n).length = n)
    (hg : ∀ n, ∀ g ∈ garbage n, g.length = bn.V.length) (est : Data → Py (BayesNet ℕ ℤ)) (g : ℕ → ℕ → ℚ → ℚ → ℚ) (L : ℕ → Asg ℕ → ℚ)
    (cond : ℕ → Asg ℕ → Prop) (hcongr : ∀ v ∈ bn.V, ∀ a b, (∀ u ∈ (v :: par v), a u = b u) → L v a = L v b ∧ (cond v a → cond v b))
    (hL : ∀ v ∈ bn.V, ∀ a, InRange bn.cardOf (v :: par v) a → cond v a → ∀ x y : ℕ → ℚ,
      Tendsto (fun n : ℕ => (x n : ℝ) / n) atTop (𝓝 ((margOf bn (v :: par v) a : ℚ) : ℝ)) →
      Tendsto (fun n : ℕ => (y n : ℝ) / n) atTop (𝓝 ((margOf bn (par v) a : ℚ) : ℝ)) →
      Tendsto (fun n : ℕ => ((g v n (x n) (y n) : ℚ) : ℝ)) atTop (𝓝 (L v a)))
    (hg0 : ∀ v n x y, 0 ≤ x → 0 ≤ y → 0 ≤ g v n x y)
    (hest : ∀ d : Data, d.ncol = bn.V.length → d.Fits bn.V → (∀ v ∈ bn.V, d.IsValues v (upTo (bn.cardOf v))) → ∃ bn', est d = .ok bn' ∧ Q bn' ∧ (∀ v, v ∈ bn'.V ↔ v ∈ bn.V) ∧ bn'.WF ∧
      ∀ v ∈ bn.V, bn'.parentsOf v = par v ∧ bn'.valuesOf v = upTo (bn.cardOf v) ∧
        ∀ a, InRange bn.cardOf (v :: par v) a → bn'.prob v a = roundAway 5 (g v d.rows.length (d.count bn'.valuesOf (v :: par v) a)
          (d.count bn'.valuesOf (par v) a))) :
    ∀ᵐ ω ∂P, ∀ ε > 0, ∀ᶠ n : ℕ in atTop, ∃ rows bn', randomSample tol h bn (garbage n) (fun i => U i ω) = .ok rows ∧
      est ⟨bn.V.length, rows⟩ = .ok bn' ∧ Q bn' ∧ bn'.WF ∧ bn'.Nonneg ∧ ∀ v ∈ bn.V, bn'.parentsOf v = par v ∧ bn'.valuesOf v = upTo (bn.cardOf v) ∧
        ∀ a, InRange bn.cardOf (v :: par v) a → cond v a → |((bn'.prob v a : ℚ) : ℝ) - (L v a : ℝ)| ≤ 1 / 200000 + ε := by
  have hfam : ∀ v ∈ bn.V, ∀ u ∈ (v :: par v), u ∈ bn.V := by
    intro v hv u hu
    rcases List.mem_cons.1 hu with rfl | hu
    · exact hv
    · exact hmem v hv u hu
  let sm : Ω → List ℕ → Asg ℕ → ℕ → ℚ := fun ω vs a n => ∑ t ∈ Finset.range n, passW bn [] (bn.V.filter fun u => u ∉ vs) a (blockOf U _ t ω)
  have hae : ∀ᵐ ω ∂P, ∀ (v : ℕ) (f : Fin bn.V.length → ℕ), v ∈ bn.V → InRange bn.cardOf (v :: par v) (extAsg f) →
      Tendsto (fun n : ℕ => (sm ω (v :: par v) (extAsg f) n : ℝ) / n) atTop (𝓝 ((margOf bn (v :: par v) (extAsg f) : ℚ) : ℝ)) ∧
      Tendsto (fun n : ℕ => (sm ω (par v) (extAsg f) n : ℝ) / n) atTop (𝓝 ((margOf bn (par v) (extAsg f) : ℚ) : ℝ)) := by
    rw [ae_all_iff]; intro v
    rw [ae_all_iff]; intro f
    by_cases hv : v ∈ bn.V
    · by_cases hr : InRange bn.cardOf (v :: par v) (extAsg f)
      · filter_upwards [pass_freq hU S.wf S.nonneg S.normalised (v :: par v) (a := extAsg f) (fun u _ hu => hr u hu),
          pass_freq hU S.wf S.nonneg S.normalised (par v) (a := extAsg f) (fun u _ hu => hr u (List.mem_cons_of_mem _ hu))] with ω h1 h2 _ _
        refine ⟨?_, ?_⟩
        · refine h1.congr fun n => ?_
          simp only [sm]; push_cast; rfl
        · refine h2.congr fun n => ?_
          simp only [sm]; push_cast; rfl
      · exact Eventually.of_forall fun ω _ h2 => absurd h2 hr
    · exact Eventually.of_forall fun ω h1 => absurd h1 hv
  filter_upwards [hae, sampled_data hU h S h0 ht garbage hgl hg] with ω hω hd ε hε
  have hev : ∀ᶠ n : ℕ in atTop, ∀ v ∈ bn.V.toFinset, ∀ f ∈ Fintype.piFinset fun i : Fin bn.V.length => Finset.range (bn.cardOf i),
      InRange bn.cardOf (v :: par v) (extAsg f) → cond v (extAsg f) →
        |((g v n (sm ω (v :: par v) (extAsg f) n) (sm ω (par v) (extAsg f) n) : ℚ) : ℝ) - (L v (extAsg f) : ℝ)| ≤ ε := by
    rw [Filter.eventually_all_finset]
    intro v hv
    rw [List.mem_toFinset] at hv
    rw [Filter.eventually_all_finset]
    intro f _
    by_cases hr : InRange bn.cardOf (v :: par v) (extAsg f)
    · by_cases hc : cond v (extAsg f)
      · obtain ⟨t1, t2⟩ := hω v f hv hr
        have := hL v hv (extAsg f) hr hc _ _ t1 t2
        filter_upwards [this.eventually (Metric.closedBall_mem_nhds _ hε)] with n hn _ _
        exact hn
      · exact Eventually.of_forall fun n _ h2 => absurd h2 hc
    · exact Eventually.of_forall fun n h1 => absurd h1 hr
  filter_upwards [hev, hd] with n hn hdn
  obtain ⟨rows, e1, e2, e3, e4, e5⟩ := hdn
  obtain ⟨bn', b1, bQ, b2, b3, b4⟩ := hest ⟨bn.V.length, rows⟩ rfl e3 e4
  have hnn : bn'.Nonneg := by
    refine nonneg_of_prob b3 fun v hv a ha => ?_
    rw [b2] at hv
    have hfc : bn'.fam v = v :: par v := by unfold BayesNet.fam; rw [(b4 v hv).1]
    rw [(b4 v hv).2.2 a fun u hu => by
      have := ha u (by rwa [hfc])
      rwa [cardOf_upTo (b4 u (hfam v hv u hu)).2.1] at this]
    exact roundAway_nonneg (hg0 _ _ _ _ (Nat.cast_nonneg _) (Nat.cast_nonneg _))
  refine ⟨rows, bn', e1, b1, bQ, b3, hnn, fun v hv => ⟨(b4 v hv).1, (b4 v hv).2.1, fun a ha hc => ?_⟩⟩
  let f : Fin bn.V.length → ℕ := fun i => if (i : ℕ) ∈ (v :: par v) then a i else 0
  have hfa : ∀ u ∈ (v :: par v), extAsg f u = a u := by
    intro u hu
    unfold extAsg
    rw [dif_pos (S.lt.1 (hfam v hv u hu))]
    simp only [f]
    rw [if_pos hu]
  have hr : InRange bn.cardOf (v :: par v) (extAsg f) := fun u hu => by rw [hfa u hu]; exact ha u hu
  have hfm : f ∈ Fintype.piFinset fun i : Fin bn.V.length => Finset.range (bn.cardOf i) := by
    rw [Fintype.mem_piFinset]
    intro i
    rw [Finset.mem_range]
    simp only [f]
    split_ifs with hi
    · exact ha _ hi
    · rw [S.wf.card_len (S.lt.2 i.2)]
      exact List.length_pos_of_ne_nil (S.wf.values_ne _ (S.lt.2 i.2))
  have key := hn v (List.mem_toFinset.2 hv) f hfm hr ((hcongr v hv a _ fun u hu => (hfa u hu).symm).2 hc)
  rw [← (hcongr v hv a _ fun u hu => (hfa u hu).symm).1] at key
  have hp : bn'.prob v a = bn'.prob v (extAsg f) := by
    apply prob_congr
    intro u hu
    unfold BayesNet.fam at hu
    rw [(b4 v hv).1] at hu
    exact (hfa u hu).symm
  rw [hp, (b4 v hv).2.2 _ hr, e5 _ _ _ (hfam v hv) (fun u hu => (b4 u (hfam v hv u hu)).2.1) hr,
    e5 _ _ _ (hmem v hv) (fun u hu => (b4 u (hfam v hv u (List.mem_cons_of_mem _ hu))).2.1) (fun u hu => hr u (List.mem_cons_of_mem _ hu)),
    show (⟨bn.V.length, rows⟩ : Data).rows.length = n from e2]
  have hc5 := roundAway_close 5 (g v n (sm ω (v :: par v) (extAsg f) n) (sm ω (par v) (extAsg f) n))
  set q := g v n (sm ω (v :: par v) (extAsg f) n) (sm ω (par v) (extAsg f) n) with hq
  have hc6 : |((roundAway 5 q : ℚ) : ℝ) - (q : ℝ)| ≤ 1 / 200000 := by
    have : ((|roundAway 5 q - q| : ℚ) : ℝ) ≤ ((1 / 2 / 10 ^ 5 : ℚ) : ℝ) := Rat.cast_le.2 hc5
    push_cast at this
    refine this.trans (by norm_num)
  calc |((roundAway 5 q : ℚ) : ℝ) - (L v a : ℝ)| ≤ |((roundAway 5 q : ℚ) : ℝ) - (q : ℝ)| + |(q : ℝ) - (L v a : ℝ)| := abs_sub_le _ _ _
    _ ≤ _ := by linarith

/-- The general step for the structure of the sampled network. -/
theorem learn_limit (hU : Uniforms P U) (h : HashOrder ℕ) {bn : BayesNet ℕ A} {target : BayesNet ℕ ℤ} (S : SameStructure bn target) {tol : ℚ}
    (h0 : 0 ≤ tol) (ht : tol < 1) (garbage : ℕ → List (List ℤ)) (hgl : ∀ n, (garbage n).length = n)
    (hg : ∀ n, ∀ g ∈ garbage n, g.length = bn.V.length) (est : Data → Py (BayesNet ℕ ℤ)) (g : ℕ → ℕ → ℚ → ℚ → ℚ) (L : ℕ → Asg ℕ → ℚ)
    (cond : ℕ → Asg ℕ → Prop) (hcongr : ∀ v ∈ bn.V, ∀ a b, (∀ u ∈ bn.fam v, a u = b u) → L v a = L v b ∧ (cond v a → cond v b))
    (hL : ∀ v ∈ bn.V, ∀ a, InRange bn.cardOf (bn.fam v) a → cond v a → ∀ x y : ℕ → ℚ,
      Tendsto (fun n : ℕ => (x n : ℝ) / n) atTop (𝓝 ((margOf bn (bn.fam v) a : ℚ) : ℝ)) →
      Tendsto (fun n : ℕ => (y n : ℝ) / n) atTop (𝓝 ((margOf bn (bn.parentsOf v) a : ℚ) : ℝ)) →
      Tendsto (fun n : ℕ => ((g v n (x n) (y n) : ℚ) : ℝ)) atTop (𝓝 (L v a)))
    (hg0 : ∀ v n x y, 0 ≤ x → 0 ≤ y → 0 ≤ g v n x y)
    (hest : ∀ d : Data, d.Fits bn.V → (∀ v ∈ bn.V, d.IsValues v (upTo (bn.cardOf v))) → ∃ bn', est d = .ok bn' ∧ bn'.V = bn.V ∧ bn'.WF ∧
      ∀ v ∈ bn.V, bn'.parentsOf v = bn.parentsOf v ∧ bn'.valuesOf v = upTo (bn.cardOf v) ∧
        ∀ a, InRange bn.cardOf (bn.fam v) a → bn'.prob v a = roundAway 5 (g v d.rows.length (d.count bn'.valuesOf (bn.fam v) a)
          (d.count bn'.valuesOf (bn.parentsOf v) a))) :
    ∀ᵐ ω ∂P, ∀ ε > 0, ∀ᶠ n : ℕ in atTop, ∃ rows bn', randomSample tol h bn (garbage n) (fun i => U i ω) = .ok rows ∧
      est ⟨bn.V.length, rows⟩ = .ok bn' ∧ bn'.V = bn.V ∧ bn'.WF ∧ bn'.Nonneg ∧ ∀ v ∈ bn.V, bn'.parentsOf v = bn.parentsOf v ∧ bn'.valuesOf v = upTo (bn.cardOf v) ∧
        ∀ a, InRange bn.cardOf (bn.fam v) a → cond v a → |((bn'.prob v a : ℚ) : ℝ) - (L v a : ℝ)| ≤ 1 / 200000 + ε := by
  refine learn_limit_any hU h S.toSampleable bn.parentsOf S.wf.parents_mem (fun bn' => bn'.V = bn.V) h0 ht garbage hgl hg est g L cond hcongr hL hg0 fun d _ hf hv => ?_
  obtain ⟨bn', b1, b2, b3, b4⟩ := hest d hf hv
  exact ⟨bn', b1, b2, fun v => by rw [b2], b3, b4⟩

/-- C188: draw `n` rows from a network with `random_sample` and hand them, with the structure of the network, to `mle_estimator`. With
independent uniform random numbers, almost surely, for any `ε > 0` and all large `n`, this succeeds, the learned network is well formed, has the same nodes,
parents and numbers of values, and every learned `P(v = x | pa)` with `P(pa) > 0` is within `5e-6 + ε` of the true one. -/
theorem C188_mle_recovers (hU : Uniforms P U) (h : HashOrder ℕ) (hE : HashOrder (ℕ × ℤ)) (hI : HashOrder ℤ) (bn : BayesNet ℕ A)
    (target : BayesNet ℕ ℤ) (S : SameStructure bn target) (tol : ℚ) (h0 : 0 ≤ tol) (ht : tol < 1) (garbage : ℕ → List (List ℤ))
    (hgl : ∀ n, (garbage n).length = n) (hg : ∀ n, ∀ g ∈ garbage n, g.length = bn.V.length) :
    ∀ᵐ ω ∂P, ∀ ε > 0, ∀ᶠ n : ℕ in atTop, ∃ rows bn', randomSample tol h bn (garbage n) (fun i => U i ω) = .ok rows ∧
      mleEstimator hE hI target ⟨bn.V.length, rows⟩ none = .ok bn' ∧ bn'.V = bn.V ∧ bn'.WF ∧ bn'.Nonneg ∧
      ∀ v ∈ bn.V, bn'.parentsOf v = bn.parentsOf v ∧ bn'.valuesOf v = upTo (bn.cardOf v) ∧
        ∀ a, InRange bn.cardOf (bn.fam v) a → 0 < margOf bn (bn.parentsOf v) a →
          |((bn'.prob v a : ℚ) : ℝ) - ((bn.prob v a : ℚ) : ℝ)| ≤ 1 / 200000 + ε := by
  refine learn_limit hU h S h0 ht garbage hgl hg (fun d => mleEstimator hE hI target d none) (fun _ _ x y => x / (y + 1 / 10000000)) (fun v a => bn.prob v a)
    (fun v a => 0 < margOf bn (bn.parentsOf v) a) ?_ ?_ (fun v n x y hx hy => by positivity) ?_
  · intro v hv a b hab
    exact ⟨prob_congr hab, fun hp => by
      rwa [margOf_congr S.wf fun u hu => (hab u (List.mem_cons_of_mem _ hu)).symm]⟩
  · intro v hv a ha hp x y hx hy
    have hp' : (0 : ℝ) < ((margOf bn (bn.parentsOf v) a : ℚ) : ℝ) := by exact_mod_cast hp
    have h1 : Tendsto (fun n : ℕ => ((y n : ℝ) + 1 / 10000000) / n) atTop (𝓝 ((margOf bn (bn.parentsOf v) a : ℚ) : ℝ)) := by
      have h2 : Tendsto (fun n : ℕ => (1 / 10000000 : ℝ) / n) atTop (𝓝 0) := tendsto_const_div_atTop_nhds_zero_nat _
      have := hy.add h2
      rw [add_zero] at this
      exact this.congr fun n => (add_div _ _ _).symm
    have := hx.div h1 hp'.ne'
    rw [show ((margOf bn (bn.fam v) a : ℚ) : ℝ) / ((margOf bn (bn.parentsOf v) a : ℚ) : ℝ) = ((bn.prob v a : ℚ) : ℝ) by
      rw [marg_family S.wf S.normalised S.parentsFirst hv ha]; push_cast; field_simp] at this
    refine this.congr' ?_
    filter_upwards [eventually_ge_atTop 1] with n hn
    have hn0 : (n : ℝ) ≠ 0 := by exact_mod_cast (by omega : n ≠ 0)
    simp only [Pi.div_apply]
    push_cast
    rw [div_div_div_cancel_right₀ hn0]
  · intro d hf hvals
    have hV := S.nodes
    obtain ⟨bn', b1, b2, b3, b4, b5⟩ := C66_mle_probabilities hE hI target S.shape d (by rw [hV]; exact hf) none (by rw [Option.getD_none])
      (fun v hv => by
        rw [hV] at hv
        rw [Option.getD_none, hV]
        exact Data.SameValues.of_eq (S.idx hv))
      (fun v hv => S.keys v (by rwa [hV] at hv))
      (fun v hv => by
        rw [hV] at hv
        rw [Option.getD_none, hV, S.parents v hv]
        exact ⟨S.ordered v hv, S.children v hv⟩)
    have hvv : ∀ v ∈ bn.V, bn'.valuesOf v = upTo (bn.cardOf v) := fun v hv => ((b5 v (by rwa [hV])).2.1).unique (hvals v hv)
    refine ⟨bn', b1, b2.trans hV, b4, fun v hv => ?_⟩
    obtain ⟨p1, p2, p3⟩ := b5 v (by rwa [hV])
    rw [S.parents v hv] at p1
    refine ⟨p1, hvv v hv, fun a ha => ?_⟩
    rw [p1] at p3
    rw [p3 a ?_]
    · rfl
    · intro u hu
      have huV : u ∈ bn.V := by
        rcases List.mem_cons.1 hu with rfl | hu
        · exact hv
        · exact S.wf.parents_mem v hv u hu
      rw [cardOf_upTo (hvv u huV)]
      exact ha u hu

/-- The number of entries of the table of `v`. -/
def tableSize (bn : BayesNet ℕ A) (v : ℕ) : ℕ := ((bn.fam v).map bn.cardOf).prod

theorem bayes_learns (hE : HashOrder (ℕ × ℤ)) (hI : HashOrder ℤ) {bn : BayesNet ℕ A}
    {target : BayesNet ℕ ℤ} (S : SameStructure bn target) (equiv : Option ℚ) (he : ∀ e ∈ equiv, 0 < e) (d : Data) (hf : d.Fits bn.V)
    (hvals : ∀ v ∈ bn.V, d.IsValues v (upTo (bn.cardOf v))) :
    ∃ bn', bayesEstimator hE hI target d equiv none = .ok bn' ∧ bn'.V = bn.V ∧ bn'.WF ∧
      ∀ v ∈ bn.V, bn'.parentsOf v = bn.parentsOf v ∧ bn'.valuesOf v = upTo (bn.cardOf v) ∧
        ∀ a, InRange bn.cardOf (bn.fam v) a → bn'.prob v a = roundAway 5 (
          (equiv.getD d.rows.length / tableSize bn v + d.count bn'.valuesOf (bn.fam v) a) /
          (bn.cardOf v * (equiv.getD d.rows.length / tableSize bn v) + d.count bn'.valuesOf (bn.parentsOf v) a)) := by
  have hV := S.nodes
  obtain ⟨bn', b1, b2, b3, b4, b5⟩ := C67_bayes_probabilities hE hI target S.shape d (by rw [hV]; exact hf) none (by rw [Option.getD_none])
    (fun v hv => by
      rw [hV] at hv
      rw [Option.getD_none, hV]
      exact Data.SameValues.of_eq (S.idx hv)) equiv he
  have hvv : ∀ v ∈ bn.V, bn'.valuesOf v = upTo (bn.cardOf v) := fun v hv => ((b5 v (by rwa [hV])).2.1).unique (hvals v hv)
  have hfam : ∀ v ∈ bn.V, ∀ u ∈ bn.fam v, u ∈ bn.V := by
    intro v hv u hu
    rcases List.mem_cons.1 hu with rfl | hu
    · exact hv
    · exact S.wf.parents_mem v hv u hu
  refine ⟨bn', b1, b2.trans hV, b4, fun v hv => ?_⟩
  obtain ⟨p1, p2, p3⟩ := b5 v (by rwa [hV])
  rw [S.parents v hv] at p1
  refine ⟨p1, hvv v hv, fun a ha => ?_⟩
  have hK : (bn'.cptOf v).length = tableSize bn v := by
    rw [b4.cpt_len v (by rw [b2, hV]; exact hv), p1]
    unfold tableSize
    congr 1
    apply List.map_congr_left
    intro u hu
    exact cardOf_upTo (hvv u (hfam v hv u hu))
  rw [p1] at p3
  rw [p3 a (fun u hu => by rw [cardOf_upTo (hvv u (hfam v hv u hu))]; exact ha u hu), hK,
    cardOf_upTo (hvv v hv)]
  rfl

/-- C189: as C188 for `bayes_estimator` with a fixed positive `equiv_sample`: the prior is washed out. -/
theorem C189_bayes_recovers (hU : Uniforms P U) (h : HashOrder ℕ) (hE : HashOrder (ℕ × ℤ)) (hI : HashOrder ℤ) (bn : BayesNet ℕ A)
    (target : BayesNet ℕ ℤ) (S : SameStructure bn target) (tol : ℚ) (h0 : 0 ≤ tol) (ht : tol < 1) (garbage : ℕ → List (List ℤ))
    (hgl : ∀ n, (garbage n).length = n) (hg : ∀ n, ∀ g ∈ garbage n, g.length = bn.V.length) (equiv : ℚ) (he : 0 < equiv) :
    ∀ᵐ ω ∂P, ∀ ε > 0, ∀ᶠ n : ℕ in atTop, ∃ rows bn', randomSample tol h bn (garbage n) (fun i => U i ω) = .ok rows ∧
      bayesEstimator hE hI target ⟨bn.V.length, rows⟩ (some equiv) none = .ok bn' ∧ bn'.V = bn.V ∧ bn'.WF ∧ bn'.Nonneg ∧
      ∀ v ∈ bn.V, bn'.parentsOf v = bn.parentsOf v ∧ bn'.valuesOf v = upTo (bn.cardOf v) ∧
        ∀ a, InRange bn.cardOf (bn.fam v) a → 0 < margOf bn (bn.parentsOf v) a →
          |((bn'.prob v a : ℚ) : ℝ) - ((bn.prob v a : ℚ) : ℝ)| ≤ 1 / 200000 + ε := by
  refine learn_limit hU h S h0 ht garbage hgl hg (fun d => bayesEstimator hE hI target d (some equiv) none) (fun v _ x y => (equiv / tableSize bn v + x) / (bn.cardOf v * (equiv / tableSize bn v) + y))
    (fun v a => bn.prob v a) (fun v a => 0 < margOf bn (bn.parentsOf v) a) ?_ ?_ (fun v n x y hx hy => by positivity) ?_
  · intro v hv a b hab
    exact ⟨prob_congr hab, fun hp => by
      rwa [margOf_congr S.wf fun u hu => (hab u (List.mem_cons_of_mem _ hu)).symm]⟩
  · intro v hv a ha hp x y hx hy
    have hp' : (0 : ℝ) < ((margOf bn (bn.parentsOf v) a : ℚ) : ℝ) := by exact_mod_cast hp
    have hc : ∀ (k : ℝ) (z : ℕ → ℚ) (l : ℝ), Tendsto (fun n : ℕ => (z n : ℝ) / n) atTop (𝓝 l) → Tendsto (fun n : ℕ => (k + z n) / n) atTop (𝓝 l) := by
      intro k z l hz
      have h2 : Tendsto (fun n : ℕ => k / n) atTop (𝓝 0) := tendsto_const_div_atTop_nhds_zero_nat _
      have := h2.add hz
      rw [zero_add] at this
      exact this.congr fun n => (add_div _ _ _).symm
    have := (hc ((equiv : ℝ) / tableSize bn v) x _ hx).div (hc ((bn.cardOf v : ℝ) * (equiv / tableSize bn v)) y _ hy) hp'.ne'
    rw [show ((margOf bn (bn.fam v) a : ℚ) : ℝ) / ((margOf bn (bn.parentsOf v) a : ℚ) : ℝ) = ((bn.prob v a : ℚ) : ℝ) by
      rw [marg_family S.wf S.normalised S.parentsFirst hv ha]; push_cast; field_simp] at this
    refine this.congr' ?_
    filter_upwards [eventually_ge_atTop 1] with n hn
    have hn0 : (n : ℝ) ≠ 0 := by exact_mod_cast (by omega : n ≠ 0)
    simp only [Pi.div_apply]
    push_cast
    rw [div_div_div_cancel_right₀ hn0]
  · intro d hf hvals
    exact bayes_learns hE hI S (some equiv) (by intro e he'; rw [Option.mem_some_iff] at he'; rwa [← he']) d hf hvals

/-- What `bayes_estimator` with its default `equiv_sample` (the number of rows) tends to: with `K` table entries,
`(1/K + P(v = x, pa)) / (card(v)/K + P(pa))`. -/
def defaultLimit (bn : BayesNet ℕ A) (v : ℕ) (a : Asg ℕ) : ℚ :=
  (1 / tableSize bn v + margOf bn (bn.fam v) a) / (bn.cardOf v / tableSize bn v + margOf bn (bn.parentsOf v) a)

/-- C191: with the default `equiv_sample` the estimates of `bayes_estimator` converge too, but to `defaultLimit`: halfway between the truth and the uniform
table for a node without parents, and at best there otherwise, however many rows there are. -/
theorem C191_default_prior_limit (hU : Uniforms P U) (h : HashOrder ℕ) (hE : HashOrder (ℕ × ℤ)) (hI : HashOrder ℤ) (bn : BayesNet ℕ A)
    (target : BayesNet ℕ ℤ) (S : SameStructure bn target) (tol : ℚ) (h0 : 0 ≤ tol) (ht : tol < 1) (garbage : ℕ → List (List ℤ))
    (hgl : ∀ n, (garbage n).length = n) (hg : ∀ n, ∀ g ∈ garbage n, g.length = bn.V.length) :
    ∀ᵐ ω ∂P, ∀ ε > 0, ∀ᶠ n : ℕ in atTop, ∃ rows bn', randomSample tol h bn (garbage n) (fun i => U i ω) = .ok rows ∧
      bayesEstimator hE hI target ⟨bn.V.length, rows⟩ none none = .ok bn' ∧ bn'.V = bn.V ∧ bn'.WF ∧ bn'.Nonneg ∧
      ∀ v ∈ bn.V, bn'.parentsOf v = bn.parentsOf v ∧ bn'.valuesOf v = upTo (bn.cardOf v) ∧
        ∀ a, InRange bn.cardOf (bn.fam v) a →
          |((bn'.prob v a : ℚ) : ℝ) - ((defaultLimit bn v a : ℚ) : ℝ)| ≤ 1 / 200000 + ε := by
  have := learn_limit hU h S h0 ht garbage hgl hg (fun d => bayesEstimator hE hI target d none none)
    (fun v n x y => (n / tableSize bn v + x) / (bn.cardOf v * (n / tableSize bn v) + y))
    (defaultLimit bn) (fun _ _ => True) ?_ ?_ (fun v n x y hx hy => by positivity) ?_
  · filter_upwards [this] with ω hω ε hε
    filter_upwards [hω ε hε] with n hn
    obtain ⟨rows, bn', e1, e2, e3, ew, en, e4⟩ := hn
    exact ⟨rows, bn', e1, e2, e3, ew, en, fun v hv => ⟨(e4 v hv).1, (e4 v hv).2.1, fun a ha => (e4 v hv).2.2 a ha trivial⟩⟩
  · intro v hv a b hab
    refine ⟨?_, fun _ => trivial⟩
    unfold defaultLimit
    rw [margOf_congr S.wf hab, margOf_congr S.wf fun u hu => hab u (List.mem_cons_of_mem _ hu)]
  · intro v hv a ha _ x y hx hy
    have hcard : ∀ u ∈ bn.V, 0 < bn.cardOf u := fun u hu => by
      rw [S.wf.card_len hu]; exact List.length_pos_of_ne_nil (S.wf.values_ne _ hu)
    have hK : (0 : ℝ) < tableSize bn v := by
      have : 0 < tableSize bn v := by
        unfold tableSize
        apply List.prod_pos
        intro k hk
        obtain ⟨u, hu, rfl⟩ := List.mem_map.1 hk
        rcases List.mem_cons.1 hu with rfl | hu
        · exact hcard _ hv
        · exact hcard _ (S.wf.parents_mem v hv u hu)
      exact_mod_cast this
    have hc0 : (0 : ℝ) < bn.cardOf v := by exact_mod_cast hcard v hv
    have hp' : (0 : ℝ) ≤ ((margOf bn (bn.parentsOf v) a : ℚ) : ℝ) := by exact_mod_cast margOf_nonneg S.nonneg _ _
    have := (hx.const_add ((1 : ℝ) / tableSize bn v)).div (hy.const_add ((bn.cardOf v : ℝ) / tableSize bn v)) (by positivity)
    rw [show ((defaultLimit bn v a : ℚ) : ℝ) = (1 / tableSize bn v + ((margOf bn (bn.fam v) a : ℚ) : ℝ)) /
      (bn.cardOf v / tableSize bn v + ((margOf bn (bn.parentsOf v) a : ℚ) : ℝ)) by unfold defaultLimit; push_cast; rfl]
    refine this.congr' ?_
    filter_upwards [eventually_ge_atTop 1] with n hn
    have hn0 : (n : ℝ) ≠ 0 := by exact_mod_cast (by omega : n ≠ 0)
    simp only [Pi.div_apply]
    push_cast
    rw [← mul_div_mul_right _ _ hn0]
    congr 1 <;> field_simp
  · intro d hf hvals
    exact bayes_learns hE hI S none (by intro e he'; cases he') d hf hvals

/-- C190 (the part that holds): the default `equiv_sample` recovers the entries that are uniform anyway. -/
theorem C190_uniform_partial (hU : Uniforms P U) (h : HashOrder ℕ) (hE : HashOrder (ℕ × ℤ)) (hI : HashOrder ℤ) (bn : BayesNet ℕ A)
    (target : BayesNet ℕ ℤ) (S : SameStructure bn target) (tol : ℚ) (h0 : 0 ≤ tol) (ht : tol < 1) (garbage : ℕ → List (List ℤ))
    (hgl : ∀ n, (garbage n).length = n) (hg : ∀ n, ∀ g ∈ garbage n, g.length = bn.V.length) :
    ∀ᵐ ω ∂P, ∀ ε > 0, ∀ᶠ n : ℕ in atTop, ∃ rows bn', randomSample tol h bn (garbage n) (fun i => U i ω) = .ok rows ∧
      bayesEstimator hE hI target ⟨bn.V.length, rows⟩ none none = .ok bn' ∧ bn'.V = bn.V ∧ bn'.WF ∧ bn'.Nonneg ∧
      ∀ v ∈ bn.V, bn'.parentsOf v = bn.parentsOf v ∧ bn'.valuesOf v = upTo (bn.cardOf v) ∧
        ∀ a, InRange bn.cardOf (bn.fam v) a → bn.prob v a = 1 / bn.cardOf v →
          |((bn'.prob v a : ℚ) : ℝ) - ((bn.prob v a : ℚ) : ℝ)| ≤ 1 / 200000 + ε := by
  filter_upwards [C191_default_prior_limit hU h hE hI bn target S tol h0 ht garbage hgl hg] with ω hω ε hε
  filter_upwards [hω ε hε] with n hn
  obtain ⟨rows, bn', e1, e2, e3, ew, en, e4⟩ := hn
  refine ⟨rows, bn', e1, e2, e3, ew, en, fun v hv => ⟨(e4 v hv).1, (e4 v hv).2.1, fun a ha hu => ?_⟩⟩
  have hcard : ∀ u ∈ bn.V, 0 < bn.cardOf u := fun u hu => by
    rw [S.wf.card_len hu]; exact List.length_pos_of_ne_nil (S.wf.values_ne _ hu)
  have hK : (0 : ℚ) < tableSize bn v := by
    have : 0 < tableSize bn v := by
      unfold tableSize
      apply List.prod_pos
      intro k hk
      obtain ⟨u, hu, rfl⟩ := List.mem_map.1 hk
      rcases List.mem_cons.1 hu with rfl | hu
      · exact hcard _ hv
      · exact hcard _ (S.wf.parents_mem v hv u hu)
    exact_mod_cast this
  have hc0 : (0 : ℚ) < bn.cardOf v := by exact_mod_cast hcard v hv
  have hp := margOf_nonneg S.nonneg (bn.parentsOf v) a
  have : bn.prob v a = defaultLimit bn v a := by
    unfold defaultLimit
    rw [marg_family S.wf S.normalised S.parentsFirst hv ha, hu]
    have : (0 : ℚ) < bn.cardOf v / tableSize bn v + margOf bn (bn.parentsOf v) a := by positivity
    rw [eq_div_iff this.ne']
    field_simp
  rw [this]
  exact (e4 v hv).2.2 a ha

/-- A coin showing its second side three times out of four, and its structure to be learned. -/
def biasedCoin : BayesNet ℕ ℕ := ⟨[0], [(0, [])], [(0, ⟨[], [0, 1], [1/4, 3/4]⟩)]⟩
def coinShape : BayesNet ℕ ℤ := ⟨[0], [(0, [])], [(0, ⟨[], [], []⟩)]⟩

theorem biasedCoin_same : SameStructure biasedCoin coinShape where
  columns := by decide
  wf := .of_dec _ (by decide) (by decide)
  nonneg := by unfold BayesNet.Nonneg; decide +kernel
  normalised := by
    intro v hv a ha
    have hv' : v = 0 := by simpa [biasedCoin] using hv
    subst hv'
    simp [biasedCoin, BayesNet.cardOf, BayesNet.prob, BayesNet.cptOf, BayesNet.parentsOf, Dict.get?, Finset.sum_range_succ, enc, Asg.upd]; norm_num
  parentsFirst := by
    intro pre v post hV p hp
    have hm : v ∈ biasedCoin.V := by rw [hV]; simp
    have hv' : v = 0 := by simpa [biasedCoin] using hm
    subst hv'
    simp [biasedCoin, BayesNet.parentsOf, Dict.get?] at hp
  possible := by decide +kernel
  nodes := rfl
  described := fun v => by rw [← Dict.mem_keys_iff]; simp [coinShape, biasedCoin, Dict.keys]
  parents := by decide
  ordered := by decide
  keys := by decide
  children := by
    intro v hv u
    have hv' : v = 0 := by simpa [biasedCoin] using hv
    subst hv'
    by_cases hu : u = 0
    · subst hu; decide
    · simp [biasedCoin, hu, BayesNet.parentsOf, Dict.get?]

/-- C190 fails: for the biased coin, almost surely, the learned probability of the first side ends up near `3/8`, and so stays more than `1/10` away
from the true `1/4`, however many rows are drawn. -/
theorem C190_false (hU : Uniforms P U) (h : HashOrder ℕ) (hE : HashOrder (ℕ × ℤ)) (hI : HashOrder ℤ) (tol : ℚ) (h0 : 0 ≤ tol) (ht : tol < 1)
    (garbage : ℕ → List (List ℤ)) (hgl : ∀ n, (garbage n).length = n) (hg : ∀ n, ∀ g ∈ garbage n, g.length = 1) :
    SameStructure biasedCoin coinShape ∧ biasedCoin.prob 0 (fun _ => 0) = 1 / 4 ∧
    ∀ᵐ ω ∂P, ∀ᶠ n : ℕ in atTop, ∃ rows bn', randomSample tol h biasedCoin (garbage n) (fun i => U i ω) = .ok rows ∧
      bayesEstimator hE hI coinShape ⟨1, rows⟩ none none = .ok bn' ∧ |((bn'.prob 0 (fun _ => 0) : ℚ) : ℝ) - 3 / 8| ≤ 1 / 100 ∧
      (1 : ℝ) / 10 < |((bn'.prob 0 (fun _ => 0) : ℚ) : ℝ) - ((biasedCoin.prob 0 (fun _ => 0) : ℚ) : ℝ)| := by
  refine ⟨biasedCoin_same, by decide +kernel, ?_⟩
  filter_upwards [C191_default_prior_limit hU h hE hI biasedCoin coinShape biasedCoin_same tol h0 ht garbage hgl hg] with ω hω
  filter_upwards [hω (1 / 200) (by norm_num)] with n hn
  obtain ⟨rows, bn', e1, e2, e3, _, _, e4⟩ := hn
  have := (e4 0 (by decide)).2.2 (fun _ => 0) (by unfold InRange; decide)
  rw [show defaultLimit biasedCoin 0 (fun _ => 0) = 3 / 8 by decide +kernel] at this
  rw [show biasedCoin.prob 0 (fun _ => 0) = 1 / 4 by decide +kernel]
  push_cast at this ⊢
  refine ⟨rows, bn', e1, e2, this.trans (by norm_num), ?_⟩
  rw [abs_le] at this
  rw [lt_abs]
  left
  linarith [this.1]

/-- Witness for C188, C189 and C191: a network with a collider, and its bare structure. -/
theorem exNet_same : SameStructure exNet vNet where
  columns := by decide
  wf := exNet_wf
  nonneg := exNet_nonneg
  normalised := exNet_normalised
  parentsFirst := exNet_parentsFirst
  possible := by decide +kernel
  nodes := rfl
  described := fun v => by rw [← Dict.mem_keys_iff]; simp [vNet, exNet, Dict.keys]
  parents := by decide
  ordered := by decide
  keys := by decide
  children := by
    intro v hv u
    have hv' : v = 0 ∨ v = 1 ∨ v = 2 := by simpa [exNet] using hv
    by_cases hu : u < 3
    · interval_cases u <;> rcases hv' with rfl | rfl | rfl <;> decide
    · have : u ∉ exNet.V := by simp [exNet]; omega
      constructor
      · intro hp; exact absurd (exNet_wf.parents_mem v hv u hp) this
      · rintro ⟨hc, _⟩; exact absurd hc this

/-- Witness: such random numbers exist, `np.empty` may hold anything, and `3/8` is what the limit is for the coin; a parent configuration of
positive probability and a table entry different from its limit under the default prior. -/
example : (∃ (Ω : Type) (_ : MeasurableSpace Ω) (P : Measure Ω) (U : ℕ → Ω → ℝ), Uniforms P U) ∧
    SameStructure exNet vNet ∧ InRange exNet.cardOf (exNet.fam 2) (fun _ => 0) ∧ 0 < margOf exNet (exNet.parentsOf 2) (fun _ => 0) ∧
    margOf exNet (exNet.parentsOf 2) (fun _ => 0) = 1 / 8 ∧ exNet.prob 2 (fun _ => 0) = 1 / 2 ∧
    defaultLimit exNet 0 (fun _ => 0) = 3 / 8 ∧ (∀ n : ℕ, (List.replicate n [7, 7, 7]).length = n) := by
  refine ⟨?_, exNet_same, by unfold InRange; decide, by decide +kernel, by decide +kernel, by decide +kernel, by decide +kernel, by simp⟩
  exact ⟨_, _, _, _, uniforms_exist⟩

end PyBN
