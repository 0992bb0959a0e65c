import Verif.Proofs.SampleMI
import Verif.Proofs.SmoothCMI
import Verif.Spec.CondRecover

/-!
# Three columns of sampled rows
-/

set_option linter.unusedSectionVars false

namespace PyBN
open BayesNet Sampling Indep MeasureTheory ProbabilityTheory Filter Topology
variable {A : Type} [DecidableEq A] {Ω : Type} [MeasurableSpace Ω] {P : Measure Ω} {U : ℕ → Ω → ℝ}

theorem margOf_mem {bn : BayesNet ℕ A} {vs vs' : List ℕ} (h : ∀ z, z ∈ vs ↔ z ∈ vs') (a : Asg ℕ) : margOf bn vs a = margOf bn vs' a := by
  unfold margOf
  congr 1
  apply List.filter_congr
  intro z _
  exact decide_eq_decide.2 (not_congr (h z))

theorem margOf_split {bn : BayesNet ℕ A} (w : bn.WF) {vs : List ℕ} {v : ℕ} (hv : v ∈ bn.V) (hvs : v ∉ vs) (a : Asg ℕ) :
    margOf bn vs a = ∑ y ∈ Finset.range (bn.cardOf v), margOf bn (v :: vs) (a.upd v y) := by
  have hp : (bn.V.filter fun t => t ∉ vs).Perm (v :: bn.V.filter fun t => t ∉ v :: vs) := by
    rw [List.perm_ext_iff_of_nodup (w.nodup.filter _) (List.nodup_cons.2 ⟨by simp, w.nodup.filter _⟩)]
    intro z
    simp only [List.mem_filter, List.mem_cons, decide_eq_true_eq, not_or]
    constructor
    · rintro ⟨h1, h2⟩
      by_cases hz : z = v
      · exact .inl hz
      · exact .inr ⟨h1, hz, h2⟩
    · rintro (rfl | ⟨h1, h2, h3⟩)
      · exact ⟨hv, hvs⟩
      · exact ⟨h1, h3⟩
  unfold margOf
  rw [sumAll_perm hp _ (w.nodup.filter _)]
  rfl

theorem margOf_all {bn : BayesNet ℕ A} (S : Sampleable bn) (a : Asg ℕ) : margOf bn [] a = 1 := by
  have h1 := sumAll_suffix S.normalised bn.V [] (by simpa using S.wf.nodup) (fun v hv => hv)
    (fun o1 v o2 he p hp => by simpa using S.parentsFirst o1 v o2 he p hp) (fun _ => 0) (by simp [InRange])
  rw [margOf_congr (b := fun _ => 0) S.wf (by simp)]
  unfold margOf
  rw [List.filter_eq_self.2 (by simp)]
  exact h1

/-- The three-way table of `u, v` given `w` and its margins. -/
theorem triple_margins {bn : BayesNet ℕ A} (wf : bn.WF) {u v w : ℕ} (hu : u ∈ bn.V) (hv : v ∈ bn.V) (huv : u ≠ v) (huw : u ≠ w) (hvw : v ≠ w) (x y z : ℕ) :
    margOf bn [u, w] (tripleAsg u v x y z) = ∑ y' ∈ Finset.range (bn.cardOf v), margOf bn [u, v, w] (tripleAsg u v x y' z) ∧
    margOf bn [v, w] (tripleAsg u v x y z) = ∑ x' ∈ Finset.range (bn.cardOf u), margOf bn [u, v, w] (tripleAsg u v x' y z) ∧
    margOf bn [w] (tripleAsg u v x y z) = ∑ x' ∈ Finset.range (bn.cardOf u), ∑ y' ∈ Finset.range (bn.cardOf v), margOf bn [u, v, w] (tripleAsg u v x' y' z) := by
  have hA : ∀ x y, margOf bn [u, w] (tripleAsg u v x y z) = ∑ y' ∈ Finset.range (bn.cardOf v), margOf bn [u, v, w] (tripleAsg u v x y' z) := by
    intro x y
    rw [margOf_split wf hv (by simp [huv.symm, hvw])]
    refine Finset.sum_congr rfl fun y' _ => ?_
    rw [margOf_mem (vs' := [u, v, w]) (by intro t; simp; tauto)]
    apply margOf_congr wf
    intro t ht
    by_cases htv : t = v
    · subst htv; simp [Asg.upd, tripleAsg, huv.symm]
    · rw [Asg.upd_ne _ _ htv]; simp [tripleAsg, htv]
  refine ⟨hA x y, ?_, ?_⟩
  · rw [margOf_split wf hu (by simp [huv, huw])]
    refine Finset.sum_congr rfl fun x' _ => ?_
    apply margOf_congr wf
    intro t ht
    by_cases htu : t = u
    · subst htu; simp [Asg.upd, tripleAsg]
    · rw [Asg.upd_ne _ _ htu]; simp [tripleAsg, htu]
  · rw [margOf_split wf hu (by simp [huw])]
    refine Finset.sum_congr rfl fun x' _ => ?_
    rw [← hA x' y]
    apply margOf_congr wf
    intro t ht
    by_cases htu : t = u
    · subst htu; simp [Asg.upd, tripleAsg]
    · rw [Asg.upd_ne _ _ htu]; simp [tripleAsg, htu]

/-- The frequency of a condition that fixes the columns `vs`. -/
theorem freq_cols {m : ℕ} {rows : List (List ℤ)} {cols vs : List ℕ} {c : ℕ → ℕ} {a : Asg ℕ} {p : List ℕ → Prop} [DecidablePred p]
    (hvs : ∀ z ∈ vs, z < m) (hf : ∀ r ∈ rows, r.length = m) (hval : ∀ z ∈ vs, (⟨m, rows⟩ : Data).IsValues z (upTo (c z))) (ha : ∀ z ∈ vs, a z < c z)
    (hp : ∀ r : List ℕ, p (cols.map fun c => r.getD c 0) ↔ ∀ z ∈ vs, r.getD z 0 = a z) :
    freq (select cols (natRows rows)) p = ((((⟨m, rows⟩ : Data).count (fun z => upTo (c z)) vs a : ℕ) : ℚ) : ℝ) / rows.length := by
  unfold freq
  rw [select_length, show (natRows rows).length = rows.length by simp [natRows]]
  congr 1
  rw [← List.countP_eq_length_filter]
  unfold select natRows Data.count
  rw [List.countP_map, List.countP_map]
  push_cast
  congr 1
  apply List.countP_congr
  intro r hr
  simp only [Function.comp, decide_eq_true_eq]
  rw [hp]
  unfold Matches
  refine forall_congr' fun z => forall_congr' fun hz => ?_
  obtain ⟨i, hi, h1, h2⟩ := nat_entry (hvs z hz) hf (hval z hz) hr
  rw [h2, upTo_get, if_pos (ha z hz), h1]
  constructor
  · rintro rfl; exact ⟨rfl, rfl⟩
  · intro h; have := Option.some.inj h.2; exact_mod_cast this

/-- Twice the chi-square density at `2 n G(n)`, rounded, is 0 for all large `n` if `G` has a limit other than 0. -/
theorem pvalue_zero {df : ℕ} (hdf : df ≠ 0) {G : ℕ → ℝ} {L : ℝ} (hL : L ≠ 0) (hG : Tendsto G atTop (𝓝 L)) :
    ∀ᶠ n : ℕ in atTop, (chi2pdf (2 * n * G n) df).twice.round4 = .fin 0 := by
  have h2 : Tendsto (fun n : ℕ => 2 * (n : ℝ)) atTop atTop := tendsto_natCast_atTop_atTop.const_mul_atTop (by norm_num)
  rcases lt_or_gt_of_ne hL with hneg | hpos
  · have hz : Tendsto (fun n : ℕ => 2 * (n : ℝ) * G n) atTop atBot := h2.atTop_mul_neg hneg hG
    filter_upwards [hz.eventually_lt_atBot 0] with n hn
    unfold chi2pdf
    rw [if_neg hdf, if_pos hn]
    simp only [PFloat.twice, PFloat.round4, mul_zero]
    congr 1
    unfold round4
    norm_num
  have hlim : Tendsto (fun z : ℝ => 2 * (z ^ ((df : ℝ) / 2 - 1) * Real.exp (-z / 2) / (2 ^ ((df : ℝ) / 2) * Real.Gamma ((df : ℝ) / 2)))) atTop (𝓝 0) := by
    have := tendsto_rpow_mul_exp_neg_mul_atTop_nhds_zero ((df : ℝ) / 2 - 1) (1 / 2) (by norm_num)
    have := (this.div_const (2 ^ ((df : ℝ) / 2) * Real.Gamma ((df : ℝ) / 2))).const_mul 2
    rw [zero_div, mul_zero] at this
    refine this.congr fun z => ?_
    rw [show -(1 / 2 : ℝ) * z = -z / 2 by ring]
  have hz : Tendsto (fun n : ℕ => 2 * (n : ℝ) * G n) atTop atTop := h2.atTop_mul_pos hpos hG
  filter_upwards [(hlim.comp hz).eventually (Metric.ball_mem_nhds _ (show (0 : ℝ) < 1 / 20000 by norm_num)), hz.eventually_gt_atTop 0] with n hb hpz
  unfold chi2pdf
  rw [if_neg hdf, if_neg (by linarith), if_neg hpz.ne']
  simp only [PFloat.twice, PFloat.round4]
  congr 1
  rw [Real.dist_eq, sub_zero] at hb
  simp only [Function.comp] at hb
  generalize 2 * ((2 * (n : ℝ) * G n) ^ ((df : ℝ) / 2 - 1) * Real.exp (-(2 * (n : ℝ) * G n) / 2) / (2 ^ ((df : ℝ) / 2) * Real.Gamma ((df : ℝ) / 2))) = z at hb
  rw [abs_lt] at hb
  have : round4 z = 0 := by
    unfold round4
    split_ifs with hz0
    · rw [show ⌊z * 10 ^ 4 + 1 / 2⌋ = 0 by rw [Int.floor_eq_iff]; constructor <;> norm_num <;> linarith]; norm_num
    · rw [show ⌊-z * 10 ^ 4 + 1 / 2⌋ = 0 by rw [Int.floor_eq_iff]; constructor <;> norm_num <;> linarith]; norm_num
  rw [this]; norm_num

/-- The smoothed conditional mutual information is positive, not only under dependence. -/
theorem nodeCMI_pos {bn : BayesNet ℕ A} (S : Sampleable bn) {u v w : ℕ} (hu : u ∈ bn.V) (hv : v ∈ bn.V) (hw : w ∈ bn.V) (huv : u ≠ v) (huw : u ≠ w) (hvw : v ≠ w)
    (h : CondIndep bn [u] [v] [w] ∨ (NoRareCells bn u v w ∧ 2 ≤ bn.cardOf w)) : 0 < nodeCMI (1 / 10 ^ 7) bn u v w := by
  have hcu : 0 < bn.cardOf u := by rw [S.wf.card_len hu]; exact List.length_pos_of_ne_nil (S.wf.values_ne _ hu)
  have hcv : 0 < bn.cardOf v := by rw [S.wf.card_len hv]; exact List.length_pos_of_ne_nil (S.wf.values_ne _ hv)
  have hcw : 0 < bn.cardOf w := by rw [S.wf.card_len hw]; exact List.length_pos_of_ne_nil (S.wf.values_ne _ hw)
  have hmw : ∀ x y z, z < bn.cardOf w → (0 : ℝ) < (margOf bn [w] (tripleAsg u v x y z) : ℝ) := by
    intro x y z hz
    have := S.possible w hw z hz
    rw [margOf_congr (b := tripleAsg u v x y z) S.wf (by intro t ht; rw [List.mem_singleton] at ht; subst ht; simp [tripleAsg, huw.symm, hvw.symm])] at this
    exact_mod_cast this
  rcases h with hci | ⟨hrare, h2⟩
  · have hcell : ∀ x < bn.cardOf u, ∀ y < bn.cardOf v, ∀ z < bn.cardOf w,
        (margOf bn [u, v, w] (tripleAsg u v x y z) : ℝ) * (margOf bn [w] (tripleAsg u v x y z) : ℝ) =
        (margOf bn [u, w] (tripleAsg u v x y z) : ℝ) * (margOf bn [v, w] (tripleAsg u v x y z) : ℝ) := by
      intro x hx y hy z hz
      have := hci (tripleAsg u v x y z) (by
        intro t ht
        simp only [List.cons_append, List.nil_append, List.mem_cons, List.not_mem_nil, or_false] at ht
        rcases ht with rfl | rfl | rfl
        · simpa [tripleAsg] using hx
        · simpa [tripleAsg, huv.symm] using hy
        · simpa [tripleAsg, huw.symm, hvw.symm] using hz)
      simp only [List.cons_append, List.nil_append] at this
      exact_mod_cast this
    have hnn : ∀ x y z, (0 : ℝ) ≤ (margOf bn [u, v, w] (tripleAsg u v x y z) : ℝ) := fun x y z => by exact_mod_cast margOf_nonneg S.nonneg _ _
    -- some cell is possible
    obtain ⟨x0, hx0, y0, hy0, hp0⟩ : ∃ x < bn.cardOf u, ∃ y < bn.cardOf v, (0 : ℝ) < (margOf bn [u, v, w] (tripleAsg u v x y 0) : ℝ) := by
      by_contra hno
      push Not at hno
      have h1 := hmw 0 0 0 hcw
      rw [(triple_margins S.wf hu hv huv huw hvw 0 0 0).2.2] at h1
      push_cast at h1
      refine absurd h1 (not_lt.2 (Finset.sum_nonpos fun x hx => Finset.sum_nonpos fun y hy => hno x (Finset.mem_range.1 hx) y (Finset.mem_range.1 hy)))
    have hterm : ∀ x ∈ Finset.range (bn.cardOf u), ∀ y ∈ Finset.range (bn.cardOf v), ∀ z ∈ Finset.range (bn.cardOf w), _ := fun x hx y hy z hz =>
      (cell_bounds (hnn x y z) (hmw x y z (Finset.mem_range.1 hz)) (show (0 : ℝ) < 1 / 10 ^ 7 by norm_num)
        (hcell x (Finset.mem_range.1 hx) y (Finset.mem_range.1 hy) z (Finset.mem_range.1 hz))).1
    unfold nodeCMI
    refine Finset.sum_pos' (fun x hx => Finset.sum_nonneg fun y hy => Finset.sum_nonneg fun z hz => hterm x hx y hy z hz) ⟨x0, Finset.mem_range.2 hx0, ?_⟩
    refine Finset.sum_pos' (fun y hy => Finset.sum_nonneg fun z hz => hterm x0 (Finset.mem_range.2 hx0) y hy z hz) ⟨y0, Finset.mem_range.2 hy0, ?_⟩
    refine Finset.sum_pos' (fun z hz => hterm x0 (Finset.mem_range.2 hx0) y0 (Finset.mem_range.2 hy0) z hz) ⟨0, Finset.mem_range.2 hcw, ?_⟩
    exact cell_pos hp0 (hmw x0 y0 0 hcw) (by norm_num) (hcell x0 hx0 y0 hy0 0 hcw)
  · unfold nodeCMI
    rw [Finset.sum_congr rfl fun x _ => Finset.sum_comm, Finset.sum_comm]
    refine Finset.sum_pos (fun z hz => ?_) ⟨0, Finset.mem_range.2 hcw⟩
    rw [Finset.mem_range] at hz
    have hcells : ∀ x < bn.cardOf u, ∀ y < bn.cardOf v, (1 / 200 : ℝ) ≤ (margOf bn [u, v, w] (tripleAsg u v x y z) : ℝ) := by
      intro x hx y hy
      have h' : (((1 / 200 : ℚ)) : ℝ) ≤ ((margOf bn [u, v, w] (tripleAsg u v x y z) : ℚ) : ℝ) := Rat.cast_le.2 (hrare x hx y hy z hz)
      push_cast at h'
      exact h'
    -- another value of the third variable leaves room
    have hroom : (∑ x ∈ Finset.range (bn.cardOf u), ∑ y ∈ Finset.range (bn.cardOf v), (margOf bn [u, v, w] (tripleAsg u v x y z) : ℝ)) + 1 / 10 ^ 7 ≤ 1 := by
      obtain ⟨z', hz', hne⟩ : ∃ z' < bn.cardOf w, z' ≠ z := by
        by_cases hz0 : z = 0
        · exact ⟨1, by omega, by omega⟩
        · exact ⟨0, by omega, fun h => hz0 h.symm⟩
      have hsum : ∑ t ∈ Finset.range (bn.cardOf w), margOf bn [w] (tripleAsg u v 0 0 t) = 1 := by
        rw [← margOf_all S (tripleAsg u v 0 0 0), margOf_split S.wf hw (by simp)]
        refine Finset.sum_congr rfl fun t _ => ?_
        apply margOf_congr S.wf
        intro s hs
        rw [List.mem_singleton] at hs
        subst hs; simp [Asg.upd, tripleAsg, huw.symm, hvw.symm]
      have hpair : margOf bn [w] (tripleAsg u v 0 0 z) + margOf bn [w] (tripleAsg u v 0 0 z') ≤ 1 := by
        rw [← hsum, ← Finset.sum_pair (f := fun t => margOf bn [w] (tripleAsg u v 0 0 t)) hne.symm]
        refine Finset.sum_le_sum_of_subset_of_nonneg ?_ fun t _ _ => margOf_nonneg S.nonneg _ _
        intro t ht
        simp only [Finset.mem_insert, Finset.mem_singleton] at ht
        rcases ht with rfl | rfl <;> exact Finset.mem_range.2 (by assumption)
      have hz'pos : (1 / 200 : ℚ) ≤ margOf bn [w] (tripleAsg u v 0 0 z') := by
        rw [(triple_margins S.wf hu hv huv huw hvw 0 0 z').2.2]
        refine le_trans (hrare 0 hcu 0 hcv z' hz') ?_
        refine le_trans ?_ (Finset.single_le_sum (f := fun x' => ∑ y' ∈ Finset.range (bn.cardOf v), margOf bn [u, v, w] (tripleAsg u v x' y' z'))
          (fun x _ => Finset.sum_nonneg fun y _ => margOf_nonneg S.nonneg _ _) (Finset.mem_range.2 hcu))
        exact Finset.single_le_sum (f := fun y' => margOf bn [u, v, w] (tripleAsg u v 0 y' z')) (fun y _ => margOf_nonneg S.nonneg _ _) (Finset.mem_range.2 hcv)
      have hq : margOf bn [w] (tripleAsg u v 0 0 z) + 1 / 10 ^ 7 ≤ 1 := by
        have : (1 : ℚ) / 10 ^ 7 ≤ 1 / 200 := by norm_num
        linarith
      rw [(triple_margins S.wf hu hv huv huw hvw 0 0 z).2.2] at hq
      have h' := (Rat.cast_le (K := ℝ)).2 hq
      push_cast at h'
      exact h'
    have := block_pos hcu hcv (e := 1 / 10 ^ 7) (q := 1 / 200) (by norm_num) (by norm_num) (by norm_num) hcells hroom
    refine lt_of_lt_of_eq this ?_
    refine Finset.sum_congr rfl fun x _ => Finset.sum_congr rfl fun y _ => ?_
    obtain ⟨m1, m2, m3⟩ := triple_margins S.wf hu hv huv huw hvw x y z
    dsimp only
    rw [m1, m2, m3]
    push_cast
    rfl

end PyBN
