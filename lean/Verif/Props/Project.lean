import Verif.Spec.Project
import Verif.Props.Perturb
import Verif.Props.NaiveBayes
import Verif.Props.SampleCMI

/-!
# Learning the tables of another structure: C217 - C219
-/

set_option linter.unusedSectionVars false

namespace PyBN
open BayesNet Sampling MeasureTheory ProbabilityTheory Filter Topology
variable {A : Type} [DecidableEq A] {Ω : Type} [MeasurableSpace Ω] {P : Measure Ω} {U : ℕ → Ω → ℝ}

section
variable {bn : BayesNet ℕ A} {target : BayesNet ℕ ℤ}

theorem OtherStructure.mem (S : OtherStructure bn target) {v : ℕ} : v ∈ target.V ↔ v ∈ bn.V := S.nodes.mem_iff

theorem OtherStructure.par_mem (S : OtherStructure bn target) : ∀ v ∈ bn.V, ∀ u ∈ target.parentsOf v, u ∈ bn.V :=
  fun v hv u hu => S.mem.1 ((S.ordered v hv).subset hu)

theorem OtherStructure.shape (S : OtherStructure bn target) : target.Shape where
  nodup := S.nodes.nodup_iff.2 S.wf.nodup
  dom := fun v => by rw [S.mem]; exact S.described v
  fam_nodup := fun v hv => by
    rw [S.mem] at hv
    exact List.nodup_cons.2 ⟨S.proper v hv, (S.nodes.nodup_iff.2 S.wf.nodup).sublist (S.ordered v hv)⟩
  parents_mem := fun v hv p hp => by
    rw [S.mem] at hv ⊢
    exact S.par_mem v hv p hp

/-- Two columns of sampled rows with as many values have the same values. -/
theorem same_of_card {d : Data} (hvals : ∀ v ∈ bn.V, d.IsValues v (upTo (bn.cardOf v))) {u v : ℕ} (hu : u ∈ bn.V) (hv : v ∈ bn.V)
    (h : bn.cardOf u = bn.cardOf v) : d.SameValues u v := by
  intro x
  rw [← (hvals u hu).2, ← (hvals v hv).2, h]

theorem OtherStructure.same (S : OtherStructure bn target) {d : Data} (hvals : ∀ v ∈ bn.V, d.IsValues v (upTo (bn.cardOf v))) {v : ℕ} (hv : v ∈ bn.V) :
    d.SameValues (target.V.idxOf v) v := by
  refine same_of_card hvals ?_ hv (S.aligned v hv)
  rw [S.lt, ← S.nodes.length_eq]
  exact List.idxOf_lt_length_of_mem (S.mem.2 hv)

end

theorem drift_mono {N : Type} [DecidableEq N] {bn : BayesNet N A} {δ δ' : ℚ} (h0 : 0 ≤ δ) (h : δ ≤ δ') : drift bn δ ≤ drift bn δ' := by
  unfold drift
  refine sub_le_sub_right ?_ _
  generalize bn.V = l
  induction l with
  | nil => simp
  | cons v l ih =>
    simp only [List.map_cons, List.prod_cons]
    have h1 : 0 ≤ (bn.cardOf v : ℚ) := Nat.cast_nonneg _
    refine mul_le_mul (by nlinarith) ih (List.prod_nonneg fun x hx => ?_) (by nlinarith)
    obtain ⟨u, _, rfl⟩ := List.mem_map.1 hx
    positivity

/-- The limit of the estimate `x / (y + 1e-7)`. -/
theorem mle_ratio_limit {X Y : ℚ} (hp : 0 < Y) {x y : ℕ → ℚ} (hx : Tendsto (fun n : ℕ => (x n : ℝ) / n) atTop (𝓝 (X : ℝ)))
    (hy : Tendsto (fun n : ℕ => (y n : ℝ) / n) atTop (𝓝 (Y : ℝ))) :
    Tendsto (fun n : ℕ => ((x n / (y n + 1 / 10000000) : ℚ) : ℝ)) atTop (𝓝 ((X / Y : ℚ) : ℝ)) := by
  have hp' : (0 : ℝ) < (Y : ℝ) := by exact_mod_cast hp
  have h1 : Tendsto (fun n : ℕ => ((y n : ℝ) + 1 / 10000000) / n) atTop (𝓝 (Y : ℝ)) := by
    have h2 : Tendsto (fun n : ℕ => (1 / 10000000 : ℝ) / n) atTop (𝓝 0) := tendsto_const_div_atTop_nhds_zero_nat _
    have := hy.add h2
    rw [add_zero] at this
    exact this.congr fun n => (add_div _ _ _).symm
  have := hx.div h1 hp'.ne'
  rw [Rat.cast_div]
  refine this.congr' ?_
  filter_upwards [eventually_ge_atTop 1] with n hn
  have hn0 : (n : ℝ) ≠ 0 := by exact_mod_cast (by omega : n ≠ 0)
  simp only [Pi.div_apply]
  push_cast
  rw [div_div_div_cancel_right₀ hn0]

theorem cond_congr {bn : BayesNet ℕ A} (w : bn.WF) {v : ℕ} {W : List ℕ} {a b : Asg ℕ} (h : ∀ u ∈ v :: W, a u = b u) :
    condOf bn v W a = condOf bn v W b ∧ (0 < margOf bn W a → 0 < margOf bn W b) := by
  have h1 : margOf bn W a = margOf bn W b := margOf_congr w fun u hu => h u (List.mem_cons_of_mem _ hu)
  refine ⟨?_, fun hp => by rwa [← h1]⟩
  unfold condOf
  rw [h1, margOf_congr w h]

/-- What `mle_estimator` returns on rows that show every value of every column. -/
theorem OtherStructure.mle {bn : BayesNet ℕ A} {target : BayesNet ℕ ℤ} (S : OtherStructure bn target) (hE : HashOrder (ℕ × ℤ)) (hI : HashOrder ℤ) {d : Data}
    (hf : d.Fits bn.V) (hvals : ∀ v ∈ bn.V, d.IsValues v (upTo (bn.cardOf v))) :
    ∃ bn', mleEstimator hE hI target d none = .ok bn' ∧ bn'.V = target.V ∧ (∀ v, v ∈ bn'.V ↔ v ∈ bn.V) ∧ bn'.WF ∧
      ∀ v ∈ bn.V, bn'.parentsOf v = target.parentsOf v ∧ bn'.valuesOf v = upTo (bn.cardOf v) ∧
        ∀ a, InRange bn.cardOf (v :: target.parentsOf v) a → bn'.prob v a = roundAway 5 ((d.count bn'.valuesOf (v :: target.parentsOf v) a) /
          (d.count bn'.valuesOf (target.parentsOf v) a + 1 / 10000000)) := by
  have hf' : d.Fits target.V := ⟨hf.ne, hf.rect, fun v hv => hf.cols v (S.mem.1 hv)⟩
  obtain ⟨bn', b1, b2, b3, b4, b5⟩ := C66_mle_probabilities hE hI target S.shape d hf' none (by rw [Option.getD_none])
    (fun v hv => by rw [Option.getD_none]; exact S.same hvals (S.mem.1 hv))
    (fun v hv => S.keys v (S.mem.1 hv))
    (fun v hv => by
      rw [Option.getD_none]
      refine ⟨S.ordered v (S.mem.1 hv), fun u => ?_⟩
      rw [S.mem]; exact S.children v (S.mem.1 hv) u)
  have hvv : ∀ v ∈ bn.V, bn'.valuesOf v = upTo (bn.cardOf v) := fun v hv => ((b5 v (S.mem.2 hv)).2.1).unique (hvals v hv)
  refine ⟨bn', b1, b2, fun v => by rw [b2, S.mem], b4, fun v hv => ?_⟩
  obtain ⟨p1, p2, p3⟩ := b5 v (S.mem.2 hv)
  refine ⟨p1, hvv v hv, fun a ha => ?_⟩
  rw [p1] at p3
  refine p3 a fun u hu => ?_
  have huV : u ∈ bn.V := by
    rcases List.mem_cons.1 hu with rfl | hu
    · exact hv
    · exact S.par_mem v hv u hu
  rw [cardOf_upTo (hvv u huV)]
  exact ha u hu

/-- C217: draw `n` rows from a network with `random_sample` and hand them to `mle_estimator` with another structure over the same nodes, whatever its arcs.
With independent uniform random numbers, almost surely, for any `ε > 0` and all large `n`, this succeeds, keeps the nodes and parents of the structure it
was given, and every table entry is within `5e-6 + ε` of the probability `P(v = x | parents)` that the network the rows came from gives to the node
given the values of its parents in the other structure, where those have positive probability. -/
theorem C217_mle_other_structure (hU : Uniforms P U) (h : HashOrder ℕ) (hE : HashOrder (ℕ × ℤ)) (hI : HashOrder ℤ) (bn : BayesNet ℕ A)
    (target : BayesNet ℕ ℤ) (S : OtherStructure bn target) (tol : ℚ) (h0 : 0 ≤ tol) (ht : tol < 1) (garbage : ℕ → List (List ℤ))
    (hgl : ∀ n, (garbage n).length = n) (hg : ∀ n, ∀ g ∈ garbage n, g.length = bn.V.length) :
    ∀ᵐ ω ∂P, ∀ ε > 0, ∀ᶠ n : ℕ in atTop, ∃ rows bn', randomSample tol h bn (garbage n) (fun i => U i ω) = .ok rows ∧
      mleEstimator hE hI target ⟨bn.V.length, rows⟩ none = .ok bn' ∧ bn'.V = target.V ∧ bn'.WF ∧ bn'.Nonneg ∧
      ∀ v ∈ bn.V, bn'.parentsOf v = target.parentsOf v ∧ bn'.valuesOf v = upTo (bn.cardOf v) ∧
        ∀ a, InRange bn.cardOf (v :: target.parentsOf v) a → 0 < margOf bn (target.parentsOf v) a →
          |((bn'.prob v a : ℚ) : ℝ) - ((condOf bn v (target.parentsOf v) a : ℚ) : ℝ)| ≤ 1 / 200000 + ε := by
  refine learn_limit_any hU h S.toSampleable target.parentsOf S.par_mem (fun bn' => bn'.V = target.V) h0 ht garbage hgl hg
    (fun d => mleEstimator hE hI target d none) (fun _ _ x y => x / (y + 1 / 10000000)) (fun v a => condOf bn v (target.parentsOf v) a)
    (fun v a => 0 < margOf bn (target.parentsOf v) a) (fun v hv a b hab => cond_congr S.wf hab) ?_ (fun v n x y hx hy => by positivity) ?_
  · intro v hv a ha hp x y hx hy
    exact mle_ratio_limit hp hx hy
  · intro d _ hf hvals
    exact S.mle hE hI hf hvals

theorem Sampleable.split {bn : BayesNet ℕ A} (S : Sampleable bn) {v : ℕ} (hv : v ∈ bn.V) :
    bn.V = List.range v ++ v :: (List.range (bn.V.length - v - 1)).map (v + 1 + ·) := by
  have hlt : v < bn.V.length := S.lt.1 hv
  conv_lhs => rw [S.columns]
  obtain ⟨k, hk⟩ : ∃ k, bn.V.length = v + 1 + k := ⟨bn.V.length - v - 1, by omega⟩
  rw [hk, List.range_add, List.range_succ, List.append_assoc]
  rw [show v + 1 + k - v - 1 = k by omega]
  simp

theorem SameStructure.super {bn : BayesNet ℕ A} {target : BayesNet ℕ ℤ} (S : SameStructure bn target) : Superset bn target where
  toSampleable := S.toSampleable
  nodes := by rw [S.nodes]
  aligned := fun v hv => by rw [S.nodes, S.idx hv]
  described := S.described
  proper := fun v hv => by rw [S.parents v hv]; exact (List.nodup_cons.1 (S.wf.fam_nodup v hv)).1
  ordered := fun v hv => by rw [S.parents v hv, S.nodes]; exact S.ordered v hv
  keys := S.keys
  children := fun v hv u => by rw [S.parents v hv]; exact S.children v hv u
  sameOrder := S.nodes
  more := fun v hv u hu => by rw [S.parents v hv]; exact hu
  earlier := fun v hv u hu => by
    rw [S.parents v hv] at hu
    exact List.mem_range.1 (S.parentsFirst _ _ _ (S.toSampleable.split hv) u hu)

/-- With more parents than needed, all of them earlier, the conditional probability is the table entry. -/
theorem Superset.cond {bn : BayesNet ℕ A} {target : BayesNet ℕ ℤ} (S : Superset bn target) {v : ℕ} (hv : v ∈ bn.V) {a : Asg ℕ}
    (ha : InRange bn.cardOf (v :: target.parentsOf v) a) (hp : 0 < margOf bn (target.parentsOf v) a) :
    condOf bn v (target.parentsOf v) a = bn.prob v a := by
  have hsplit := S.toSampleable.split hv
  unfold condOf
  rw [marg_within S.wf S.normalised S.parentsFirst hsplit (fun p hp => S.more v hv p hp) (fun p hp => List.mem_range.2 (S.earlier v hv p hp)) ha]
  field_simp

/-- The answers of exact inference on a network with the arcs of `target` whose tables are within `δ` of those of `bn`. -/
theorem answers_of_close (h' : HashOrder ℕ) (hE : HashOrder (ℕ × ℤ)) {bn : BayesNet ℕ A} {target bn' : BayesNet ℕ ℤ} (S : Superset bn target) {δ : ℚ} (hδ' : 0 ≤ δ)
    (e3 : bn'.V = bn.V) (ew : bn'.WF) (en : bn'.Nonneg) (e4 : ∀ v ∈ bn.V, bn'.parentsOf v = target.parentsOf v ∧ bn'.valuesOf v = upTo (bn.cardOf v))
    (hcl0 : ∀ v ∈ bn.V, ∀ a, InRange bn.cardOf (v :: target.parentsOf v) a → |bn'.prob v a - bn.prob v a| ≤ δ) :
    (∀ t ∈ bn.V, ∀ ev : Dict ℕ ℤ, t ∉ ev.keys → CodeEvidence bn ev →
        (∀ u ∈ bn.V, ∀ v ∈ bn.V, target.Linked (bn.V.filter fun v => v ≠ t ∧ v ∉ ev.keys) u v) →
        ∃ r, marginalVE h' hE bn' t ev = .ok r ∧ r.length = bn.cardOf t ∧
          ∀ a, a t < bn.cardOf t → (∀ e ∈ ev, e.2 = (a e.1 : ℤ)) → ∃ q, r[a t]? = some q ∧
            |q - margOf bn (t :: ev.keys) a| ≤ 1 / 20000 + drift bn δ) ∧
      (∀ ev : Dict ℕ ℤ, CodeEvidence bn ev → ∃ (d : Dict ℕ ℤ) (x : Asg ℕ), veMap h' hE bn' ev = .ok d ∧
        (∀ v ∈ bn.V, x v < bn.cardOf v ∧ d.get? v = some (x v : ℤ)) ∧ (∀ e ∈ ev, e.2 = (x e.1 : ℤ)) ∧
        ∀ b, InRange bn.cardOf bn.V b → (∀ e ∈ ev, e.2 = (b e.1 : ℤ)) → bn.joint b ≤ bn.joint x + 2 * drift bn δ) := by
  have hac : bn.Acyclic := ⟨bn.V, List.Perm.refl _, S.parentsFirst⟩
  have hcd : ∀ v ∈ bn.V, bn'.cardOf v = bn.cardOf v := fun v hv => cardOf_upTo (e4 v hv).2
  have hcl : ∀ v ∈ bn.V, ∀ a, InRange bn.cardOf bn.V a → |bn'.prob v a - bn.prob v a| ≤ δ := by
    intro v hv a ha
    refine hcl0 v hv a fun u hu => ?_
    rcases List.mem_cons.1 hu with rfl | hu
    · exact ha _ hv
    · exact ha u (S.par_mem v hv u hu)
  have hle : ∀ ev : Dict ℕ ℤ, CodeEvidence bn ev → bn'.LegalEvidence ev := fun ev hev => ⟨hev.nodup, fun e he => by
    obtain ⟨p1, k, p2, p3⟩ := hev.legal e he
    rw [e3, (e4 _ p1).2]
    exact ⟨p1, List.mem_of_getElem? (upTo_getElem?.2 ⟨p2, p3⟩)⟩⟩
  have hag : ∀ (ev : Dict ℕ ℤ) (a : Asg ℕ), CodeEvidence bn ev → (∀ e ∈ ev, e.2 = (a e.1 : ℤ)) →
      bn'.Agrees ev a ∧ ∀ v ∈ ev.keys, a v < bn.cardOf v := by
    intro ev a hev ha
    have hk : ∀ e ∈ ev, a e.1 < bn.cardOf e.1 := by
      intro e he
      obtain ⟨p1, k, p2, p3⟩ := hev.legal e he
      have := ha e he
      rw [p3] at this
      have h5 : k = a e.1 := by exact_mod_cast this
      rwa [← h5]
    refine ⟨fun e he => ?_, fun v hv => ?_⟩
    · rw [(e4 _ (hev.legal e he).1).2]
      exact upTo_getElem?.2 ⟨hk e he, ha e he⟩
    · obtain ⟨e, he, rfl⟩ := List.mem_map.1 hv
      exact hk e he
  refine ⟨?_, ?_⟩
  · intro t htV ev hte hev hlk
    have hl := hle ev hev
    obtain ⟨r, hr⟩ := (C52_answered_iff h' hE bn' ew t ev (by rw [e3]; exact htV) hte hl).1 (by
      rw [e3]
      intro u hu v hv
      exact (Linked.transfer (bn := target) (by rw [e3, S.sameOrder]) (fun v hv => (e4 v (by rwa [S.sameOrder] at hv)).1) (by rwa [S.sameOrder]) (hlk u hu v hv)).1)
    obtain ⟨_, _, _, hlen, hval⟩ := C13_marginal_exact h' hE bn' ew t ev hl.nodup r hr
    refine ⟨r, hr, by rw [hlen, hcd t htV], fun a hat hae => ?_⟩
    obtain ⟨ha1, ha2⟩ := hag ev a hev hae
    refine ⟨_, hval a (by rw [hcd t htV]; exact hat) ha1, ?_⟩
    rw [marginal_eq_marg]
    have hm := marg_drift' hδ' S.wf S.nonneg S.normalised hac e3 hcd hcl (t :: ev.keys) (a := a) (by
      intro v hv hvk
      rcases List.mem_cons.1 hvk with rfl | hvk
      · exact hat
      · exact ha2 v hvk)
    have c1 := roundEven_close 4 (margOf bn' (t :: ev.keys) a)
    set x := margOf bn' (t :: ev.keys) a
    set y := margOf bn (t :: ev.keys) a
    norm_num at c1
    rw [abs_le] at *
    constructor <;> linarith [hm.1, hm.2, c1.1, c1.2]
  · intro ev hev
    obtain ⟨d, x, f1, _, _, f2, _, f3, f4⟩ := C16_map_is_most_probable h' hE bn' ew en ev (hle ev hev)
    have hx : ∀ v ∈ bn.V, x v < bn.cardOf v ∧ d.get? v = some (x v : ℤ) := by
      intro v hv
      have := f2 v (by rw [e3]; exact hv)
      rw [hcd v hv, (e4 v hv).2] at this
      exact ⟨this.1, this.2.trans (upTo_getElem?.2 ⟨this.1, rfl⟩)⟩
    refine ⟨d, x, f1, hx, fun e he => ?_, fun b hb hbe => ?_⟩
    · have := f3 e he
      rw [(e4 _ (hev.legal e he).1).2] at this
      exact (upTo_getElem?.1 this).2
    · have h1 := f4 b (by
        rw [e3]
        intro v hv
        rw [hcd v hv]; exact hb v hv) (hag ev b hev hbe).1
      have h2 := abs_le.1 (joint_point' hδ' S.wf S.nonneg S.normalised hac e3 hcl hb)
      have h3 := abs_le.1 (joint_point' hδ' S.wf S.nonneg S.normalised hac e3 hcl fun v hv => (hx v hv).1)
      linarith [h2.1, h3.2]

/-- C218: the structure handed to `mle_estimator` may have more arcs than the network the rows came from, as long as they go forward in the node order: the
learned tables still converge to the true ones, and so do the answers of `marginal_ve_e` and `ve_map` on the learned network. Almost surely, for any
`ε > 0` and all large `n`: every query that links the structure is answered within `drift + 5e-5 + ε` of the true probability of the value together
with the evidence; every explanation has a true probability within `2 (drift + ε)` of the best. (Every combination of values of the parents, in the structure, must
be possible.) -/
theorem C218_extra_arcs (hU : Uniforms P U) (h h' : HashOrder ℕ) (hE : HashOrder (ℕ × ℤ)) (hI : HashOrder ℤ) (bn : BayesNet ℕ A)
    (target : BayesNet ℕ ℤ) (S : Superset bn target)
    (hpos : ∀ v ∈ bn.V, ∀ a, InRange bn.cardOf (target.parentsOf v) a → 0 < margOf bn (target.parentsOf v) a) (tol : ℚ) (h0 : 0 ≤ tol) (ht : tol < 1)
    (garbage : ℕ → List (List ℤ)) (hgl : ∀ n, (garbage n).length = n) (hg : ∀ n, ∀ g ∈ garbage n, g.length = bn.V.length) :
    ∀ᵐ ω ∂P, ∀ ε > 0, ∀ᶠ n : ℕ in atTop, ∃ rows bn', randomSample tol h bn (garbage n) (fun i => U i ω) = .ok rows ∧
      mleEstimator hE hI target ⟨bn.V.length, rows⟩ none = .ok bn' ∧
      (∀ v ∈ bn.V, bn'.parentsOf v = target.parentsOf v ∧ ∀ a, InRange bn.cardOf (v :: target.parentsOf v) a →
        |((bn'.prob v a : ℚ) : ℝ) - ((bn.prob v a : ℚ) : ℝ)| ≤ 1 / 200000 + ε) ∧
      (∀ t ∈ bn.V, ∀ ev : Dict ℕ ℤ, t ∉ ev.keys → CodeEvidence bn ev →
        (∀ u ∈ bn.V, ∀ v ∈ bn.V, target.Linked (bn.V.filter fun v => v ≠ t ∧ v ∉ ev.keys) u v) →
        ∃ r, marginalVE h' hE bn' t ev = .ok r ∧ r.length = bn.cardOf t ∧
          ∀ a, a t < bn.cardOf t → (∀ e ∈ ev, e.2 = (a e.1 : ℤ)) → ∃ q, r[a t]? = some q ∧
            |((q : ℚ) : ℝ) - ((margOf bn (t :: ev.keys) a : ℚ) : ℝ)| ≤ 1 / 20000 + ((drift bn (1 / 200000) : ℚ) : ℝ) + ε) ∧
      (∀ ev : Dict ℕ ℤ, CodeEvidence bn ev → ∃ (d : Dict ℕ ℤ) (x : Asg ℕ), veMap h' hE bn' ev = .ok d ∧
        (∀ v ∈ bn.V, x v < bn.cardOf v ∧ d.get? v = some (x v : ℤ)) ∧ (∀ e ∈ ev, e.2 = (x e.1 : ℤ)) ∧
        ∀ b, InRange bn.cardOf bn.V b → (∀ e ∈ ev, e.2 = (b e.1 : ℤ)) →
          ((bn.joint b : ℚ) : ℝ) ≤ ((bn.joint x : ℚ) : ℝ) + 2 * (((drift bn (1 / 200000) : ℚ) : ℝ) + ε)) := by
  filter_upwards [C217_mle_other_structure hU h hE hI bn target S.toOtherStructure tol h0 ht garbage hgl hg] with ω hω ε hε
  obtain ⟨δ1, hδ1, hdr1⟩ := exists_drift bn (1 / 200000) hε
  obtain ⟨δ2, hδ2, hδε⟩ := exists_rat_btwn hε
  have hδ2' : (0 : ℚ) < δ2 := by exact_mod_cast hδ2
  set δ := min δ1 δ2 with hδd
  have hδ : 0 < δ := lt_min hδ1 hδ2'
  have hdr : ((drift bn (1 / 200000 + δ) : ℚ) : ℝ) ≤ ((drift bn (1 / 200000) : ℚ) : ℝ) + ε :=
    le_trans (Rat.cast_le.2 (drift_mono (by positivity) (by linarith [min_le_left δ1 δ2]))) hdr1
  filter_upwards [hω (δ : ℝ) (by exact_mod_cast hδ)] with n hn
  obtain ⟨rows, bn', e1, e2, e3, ew, en, e4⟩ := hn
  rw [S.sameOrder] at e3
  have hδ' : (0 : ℚ) ≤ 1 / 200000 + δ := by positivity
  have hcl0 : ∀ v ∈ bn.V, ∀ a, InRange bn.cardOf (v :: target.parentsOf v) a → |bn'.prob v a - bn.prob v a| ≤ 1 / 200000 + δ := by
    intro v hv a ha
    have hp := hpos v hv a fun u hu => ha u (List.mem_cons_of_mem _ hu)
    have := (e4 v hv).2.2 a ha hp
    rw [S.cond hv ha hp] at this
    have h2 : ((|bn'.prob v a - bn.prob v a| : ℚ) : ℝ) ≤ ((1 / 200000 + δ : ℚ) : ℝ) := by push_cast; exact this
    exact Rat.cast_le.1 h2
  obtain ⟨an1, an2⟩ := answers_of_close h' hE S hδ' e3 ew en (fun v hv => ⟨(e4 v hv).1, (e4 v hv).2.1⟩) hcl0
  refine ⟨rows, bn', e1, e2, fun v hv => ⟨(e4 v hv).1, fun a ha => ?_⟩, ?_, ?_⟩
  · have h1 : ((|bn'.prob v a - bn.prob v a| : ℚ) : ℝ) ≤ ((1 / 200000 + δ2 : ℚ) : ℝ) :=
      Rat.cast_le.2 ((hcl0 v hv a ha).trans (by linarith [min_le_right δ1 δ2]))
    push_cast at h1
    linarith
  · intro t htV ev hte hev hlk
    obtain ⟨r, r1, r2, r3⟩ := an1 t htV ev hte hev hlk
    refine ⟨r, r1, r2, fun a hat hae => ?_⟩
    obtain ⟨q, q1, q2⟩ := r3 a hat hae
    refine ⟨q, q1, ?_⟩
    have h6 := (Rat.cast_le (K := ℝ)).2 q2
    push_cast at h6 hdr ⊢
    linarith
  · intro ev hev
    obtain ⟨d, x, f1, f2, f3, f4⟩ := an2 ev hev
    refine ⟨d, x, f1, f2, f3, fun b hb hbe => ?_⟩
    have h5 := (Rat.cast_le (K := ℝ)).2 (f4 b hb hbe)
    push_cast at h5 hdr ⊢
    linarith

/-- What `naive_bayes` returns on rows that show every value of every column. -/
theorem naive_rows (hE : HashOrder (ℕ × ℤ)) (hI : HashOrder ℤ) (h' : HashOrder ℕ) {bn : BayesNet ℕ A} (S : Sampleable bn) {c : ℕ} (hc : c ∈ bn.V)
    (hal : ∀ v ∈ bn.V, bn.cardOf ((c :: (h'.iter bn.V).filter fun u => decide (u ≠ c)).idxOf v) = bn.cardOf v) {d : Data} (hnc : d.ncol = bn.V.length)
    (hf : d.Fits bn.V) (hvals : ∀ v ∈ bn.V, d.IsValues v (upTo (bn.cardOf v))) :
    ∃ bn', naiveBayes hE hI h' d c false = .ok bn' ∧ bn'.V.Perm bn.V ∧ (∀ v, v ∈ bn'.V ↔ v ∈ bn.V) ∧ bn'.WF ∧
      ∀ v ∈ bn.V, bn'.parentsOf v = (if v = c then [] else [c]) ∧ bn'.valuesOf v = upTo (bn.cardOf v) ∧
        ∀ a, InRange bn.cardOf (v :: (if v = c then [] else [c])) a → bn'.prob v a = roundAway 5 ((d.count bn'.valuesOf (v :: (if v = c then [] else [c])) a) /
          (d.count bn'.valuesOf (if v = c then [] else [c]) a + 1 / 10000000)) := by
  have hmem : ∀ v ∈ bn.V, ∀ u ∈ (if v = c then ([] : List ℕ) else [c]), u ∈ bn.V := by
    intro v hv u hu
    split_ifs at hu
    · cases hu
    · rw [List.mem_singleton.1 hu]; exact hc
  have hrange : List.range d.ncol = bn.V := by rw [hnc]; exact S.columns.symm
  have hlt : ∀ {v}, v ∈ bn.V ↔ v < d.ncol := fun {v} => by rw [hnc]; exact S.lt
  obtain ⟨bn', b1, bw, bp, _, bpar, _⟩ := C131_naive_structure hE hI h' d hf.ne hf.rect c (hlt.1 hc) false
  rw [hrange] at bp
  obtain ⟨bn2, c1, c2, c3⟩ := C132_naive_frequencies_partial hE hI h' d hf.ne hf.rect c (hlt.1 hc) false (fun v hv => by
    rw [hrange]
    refine same_of_card hvals ?_ (hlt.2 hv) (hal v (hlt.2 hv))
    rw [S.lt]
    have hpm : (c :: (h'.iter bn.V).filter fun u => decide (u ≠ c)).Perm bn.V := by
      have hn : (h'.iter bn.V).Nodup := (h'.perm _).nodup_iff.2 S.wf.nodup
      refine ((h'.perm bn.V).symm.trans ?_).symm
      rw [List.perm_ext_iff_of_nodup hn (List.nodup_cons.2 ⟨by simp, hn.filter _⟩)]
      intro u
      by_cases huc : u = c
      · subst huc; simp [(h'.perm bn.V).mem_iff, hc]
      · simp [huc]
    rw [← hpm.length_eq]
    exact List.idxOf_lt_length_of_mem (hpm.mem_iff.2 (hlt.2 hv)))
  rw [b1] at c1
  cases c1
  have hvv : ∀ v ∈ bn.V, bn'.valuesOf v = upTo (bn.cardOf v) := fun v hv => (c2 v (hlt.1 hv)).unique (hvals v hv)
  refine ⟨bn', b1, bp, fun v => bp.mem_iff, bw, fun v hv => ?_⟩
  have p1 := bpar v (hlt.1 hv)
  refine ⟨p1, hvv v hv, fun a ha => ?_⟩
  have p3 := c3 v (hlt.1 hv)
  rw [p1] at p3
  rw [p3 a fun u hu => ?_]
  · rfl
  have huV : u ∈ bn.V := by
    rcases List.mem_cons.1 hu with rfl | hu
    · exact hv
    · exact hmem v hv u hu
  rw [cardOf_upTo (hvv u huV)]
  exact ha u hu

/-- C219: draw `n` rows from any network and hand them to `naive_bayes` with a class column (and the `mle` estimator). When every column has as many values as the
column at its node's position, almost surely, for any `ε > 0` and all large `n`, the classifier has the class without parents and every other column with the class as its
only parent, `P(class)` is within `5e-6 + ε` of the class's true distribution, and the table of every other column within `5e-6 + ε` of the true conditional
distribution of the column given the class - whatever dependences between the columns the classifier leaves out. -/
theorem C219_naive_bayes_in_the_long_run (hU : Uniforms P U) (h h' : HashOrder ℕ) (hE : HashOrder (ℕ × ℤ)) (hI : HashOrder ℤ) (bn : BayesNet ℕ A)
    (S : Sampleable bn) (c : ℕ) (hc : c ∈ bn.V)
    (hal : ∀ v ∈ bn.V, bn.cardOf ((c :: (h'.iter bn.V).filter fun u => decide (u ≠ c)).idxOf v) = bn.cardOf v) (tol : ℚ) (h0 : 0 ≤ tol) (ht : tol < 1)
    (garbage : ℕ → List (List ℤ)) (hgl : ∀ n, (garbage n).length = n) (hg : ∀ n, ∀ g ∈ garbage n, g.length = bn.V.length) :
    ∀ᵐ ω ∂P, ∀ ε > 0, ∀ᶠ n : ℕ in atTop, ∃ rows bn', randomSample tol h bn (garbage n) (fun i => U i ω) = .ok rows ∧
      naiveBayes hE hI h' ⟨bn.V.length, rows⟩ c false = .ok bn' ∧ bn'.V.Perm bn.V ∧ bn'.WF ∧ bn'.Nonneg ∧
      ∀ v ∈ bn.V, bn'.parentsOf v = (if v = c then [] else [c]) ∧ bn'.valuesOf v = upTo (bn.cardOf v) ∧
        ∀ a, InRange bn.cardOf [v, c] a →
          |((bn'.prob v a : ℚ) : ℝ) - (((if v = c then margOf bn [c] a else condOf bn v [c] a) : ℚ) : ℝ)| ≤ 1 / 200000 + ε := by
  have hcr : c < bn.V.length := S.lt.1 hc
  have hmem : ∀ v ∈ bn.V, ∀ u ∈ (if v = c then ([] : List ℕ) else [c]), u ∈ bn.V := by
    intro v hv u hu
    split_ifs at hu
    · cases hu
    · rw [List.mem_singleton.1 hu]; exact hc
  have key := learn_limit_any hU h S (fun v => if v = c then [] else [c]) hmem (fun bn' => bn'.V.Perm bn.V) h0 ht garbage hgl hg
    (fun d => naiveBayes hE hI h' d c false) (fun _ _ x y => x / (y + 1 / 10000000)) (fun v a => condOf bn v (if v = c then [] else [c]) a)
    (fun v a => 0 < margOf bn (if v = c then [] else [c]) a) (fun v hv a b hab => cond_congr S.wf hab)
    (fun v hv a ha hp x y hx hy => mle_ratio_limit hp hx hy) (fun v n x y hx hy => by positivity) ?_
  · filter_upwards [key] with ω hω ε hε
    filter_upwards [hω ε hε] with n hn
    obtain ⟨rows, bn', e1, e2, e3, ew, en, e4⟩ := hn
    refine ⟨rows, bn', e1, e2, e3, ew, en, fun v hv => ?_⟩
    obtain ⟨p1, p2, p3⟩ := e4 v hv
    refine ⟨p1, p2, fun a ha => ?_⟩
    have hpc : 0 < margOf bn [c] a := by
      rw [margOf_congr S.wf (b := fun _ => a c) (by simp)]
      exact S.possible c hc _ (ha c (by simp))
    by_cases hvc : v = c
    · have h1 : margOf bn [] a = 1 := margOf_all S a
      have := p3 a (by rw [if_pos hvc]; intro u hu; exact ha u (by simp at hu; simp [hu])) (by rw [if_pos hvc, h1]; exact one_pos)
      rw [if_pos hvc] at this ⊢
      unfold condOf at this
      rw [h1, div_one] at this
      rw [hvc] at this ⊢
      exact this
    · have := p3 a (by rw [if_neg hvc]; exact ha) (by rw [if_neg hvc]; exact hpc)
      rw [if_neg hvc] at this ⊢
      exact this
  · intro d hnc hf hvals
    exact naive_rows hE hI h' S hc hal hnc hf hvals

/-! ## The hypotheses can be met -/

/-- All arcs out of node 2, listed first: nodes 0 and 1, parent and child in `exFork`, are now unrelated. -/
def star2 : BayesNet ℕ ℤ := ⟨[2, 0, 1], [(2, [0, 1]), (0, []), (1, [])], [(0, ⟨[2], [], []⟩), (1, ⟨[2], [], []⟩), (2, ⟨[], [], []⟩)]⟩

/-- `exFork` with the arc `1 → 2` added. -/
def full3 : BayesNet ℕ ℤ := ⟨[0, 1, 2], [(0, [1, 2]), (1, [2]), (2, [])], [(0, ⟨[], [], []⟩), (1, ⟨[0], [], []⟩), (2, ⟨[0, 1], [], []⟩)]⟩

theorem star2_other : OtherStructure exFork star2 where
  toSampleable := exFork_sampleable
  nodes := by decide
  aligned := by decide
  described := fun v => by rw [← Dict.mem_keys_iff]; simp [star2, exFork, Dict.keys]
  proper := by decide
  ordered := by decide
  keys := by decide
  children := by
    intro v hv u
    have hv' : v = 0 ∨ v = 1 ∨ v = 2 := by simpa [exFork] using hv
    by_cases hu : u < 3
    · interval_cases u <;> rcases hv' with rfl | rfl | rfl <;> decide
    · have h1 : u ∉ exFork.V := by simp [exFork]; omega
      have h2 : ∀ v ∈ exFork.V, ∀ u ∈ star2.parentsOf v, u ∈ exFork.V := by decide
      exact ⟨fun hp => absurd (h2 v hv u hp) h1, fun hp => absurd hp.1 h1⟩

theorem full3_super : Superset exFork full3 where
  toSampleable := exFork_sampleable
  nodes := by decide
  aligned := by decide
  described := fun v => by rw [← Dict.mem_keys_iff]; simp [full3, exFork, Dict.keys]
  proper := by decide
  ordered := by decide
  keys := by decide
  children := by
    intro v hv u
    have hv' : v = 0 ∨ v = 1 ∨ v = 2 := by simpa [exFork] using hv
    by_cases hu : u < 3
    · interval_cases u <;> rcases hv' with rfl | rfl | rfl <;> decide
    · have h1 : u ∉ exFork.V := by simp [exFork]; omega
      have h2 : ∀ v ∈ exFork.V, ∀ u ∈ full3.parentsOf v, u ∈ exFork.V := by decide
      exact ⟨fun hp => absurd (h2 v hv u hp) h1, fun hp => absurd hp.1 h1⟩
  sameOrder := rfl
  more := by decide
  earlier := by decide

/-- C217: a structure with other arcs, and a conditional probability that no table of `exFork` holds. -/
example : (∃ (Ω : Type) (_ : MeasurableSpace Ω) (P : Measure Ω) (U : ℕ → Ω → ℝ), Uniforms P U) ∧ OtherStructure exFork star2 ∧
    0 < margOf exFork (star2.parentsOf 0) (fun _ => 0) ∧ condOf exFork 0 (star2.parentsOf 0) (fun _ => 0) = 2 / 5 :=
  ⟨⟨_, _, _, _, uniforms_exist⟩, star2_other, by decide +kernel, by decide +kernel⟩

/-- C218: a structure with an arc too many, all of whose parent combinations are possible, and a query that links it. -/
example : (∃ (Ω : Type) (_ : MeasurableSpace Ω) (P : Measure Ω) (U : ℕ → Ω → ℝ), Uniforms P U) ∧ Superset exFork full3 ∧
    (∀ v ∈ exFork.V, ∀ a, InRange exFork.cardOf (full3.parentsOf v) a → 0 < margOf exFork (full3.parentsOf v) a) ∧
    CodeEvidence exFork [(1, 1)] ∧ (∀ u ∈ exFork.V, ∀ v ∈ exFork.V, full3.Linked (exFork.V.filter fun v => v ≠ 2 ∧ v ∉ Dict.keys ([(1, 1)] : Dict ℕ ℤ)) u v) ∧
    drift exFork (1 / 200000) < 1 / 20000 := by
  refine ⟨⟨_, _, _, _, uniforms_exist⟩, full3_super, ?_, ⟨by decide, ?_⟩, ?_, by decide +kernel⟩
  · have key : ∀ x < 2, ∀ y < 2, ∀ v ∈ exFork.V, 0 < margOf exFork (full3.parentsOf v) (fun u => if u = 0 then x else y) := by decide +kernel
    intro v hv a ha
    have hv' : v = 0 ∨ v = 1 ∨ v = 2 := by simpa [exFork] using hv
    have h2 : ∀ (b : Asg ℕ), (∀ u ∈ full3.parentsOf v, a u = b u) → 0 < margOf exFork (full3.parentsOf v) b → 0 < margOf exFork (full3.parentsOf v) a := by
      intro b hb hp
      rwa [margOf_congr exFork_wf hb]
    rcases hv' with rfl | rfl | rfl
    · exact h2 _ (fun u hu => absurd (show u ∈ ([] : List ℕ) from hu) (by simp)) (key 0 (by decide) 0 (by decide) 0 (by decide))
    · have a0 : a 0 < 2 := ha 0 (by decide)
      refine h2 _ ?_ (key (a 0) a0 0 (by decide) 1 (by decide))
      intro u hu
      have : u ∈ [0] := hu
      rw [List.mem_singleton.1 this]; rfl
    · have a0 : a 0 < 2 := ha 0 (by decide)
      have a1 : a 1 < 2 := ha 1 (by decide)
      refine h2 _ ?_ (key (a 0) a0 (a 1) a1 2 (by decide))
      intro u hu
      have : u = 0 ∨ u = 1 := by
        have : u ∈ [0, 1] := hu
        simpa using this
      rcases this with rfl | rfl <;> simp
  · intro e he
    rw [List.mem_singleton] at he
    subst he
    exact ⟨by decide, 1, by decide, rfl⟩
  · intro u hu v hv
    have hu' : u = 0 ∨ u = 1 ∨ u = 2 := by simpa [exFork] using hu
    have hv' : v = 0 ∨ v = 1 ∨ v = 2 := by simpa [exFork] using hv
    rcases hu' with rfl | rfl | rfl <;> rcases hv' with rfl | rfl | rfl <;>
      exact .step (x := 0) (.refl _) (by decide) (by decide) (by decide) (by decide)

/-- C219: the classifier for column 2 of rows drawn from `exFork`: `P(column 0 = 0 | column 2 = 0) = 2/5`. -/
example : (∃ (Ω : Type) (_ : MeasurableSpace Ω) (P : Measure Ω) (U : ℕ → Ω → ℝ), Uniforms P U) ∧ Sampleable exFork ∧ 2 ∈ exFork.V ∧
    (∀ v ∈ exFork.V, exFork.cardOf ((2 :: ((HashOrder.rev : HashOrder ℕ).iter exFork.V).filter fun u => decide (u ≠ 2)).idxOf v) = exFork.cardOf v) ∧
    condOf exFork 0 [2] (fun _ => 0) = 2 / 5 :=
  ⟨⟨_, _, _, _, uniforms_exist⟩, exFork_sampleable, by decide, by decide, by decide +kernel⟩

end PyBN
