import Verif.Proofs.Perturb
import Verif.Props.Recover

/-!
# Robustness of inference, and learning followed by inference: C194, C195
-/

set_option linter.unusedSectionVars false

namespace PyBN
open BayesNet Sampling MeasureTheory ProbabilityTheory Filter Topology

section
variable {N A : Type} [DecidableEq N] [DecidableEq A]

theorem drift_nonneg {bn : BayesNet N A} {δ : ℚ} (hδ : 0 ≤ δ) : 0 ≤ drift bn δ := by
  unfold drift
  rw [sub_nonneg]
  generalize bn.V = l
  induction l with
  | nil => simp
  | cons v l ih =>
    simp only [List.map_cons, List.prod_cons]
    have : 0 ≤ (bn.cardOf v : ℚ) * δ := by positivity
    nlinarith

theorem Perturbed.card {δ : ℚ} {bn bn' : BayesNet N A} (pt : Perturbed δ bn bn') (wb : bn.WF) (wb' : bn'.WF) {v : N} (hv : v ∈ bn.V) :
    bn'.cardOf v = bn.cardOf v := by
  rw [wb.card_len hv, wb'.card_len (by rw [pt.nodes]; exact hv), pt.values v hv]

theorem Perturbed.agrees {δ : ℚ} {bn bn' : BayesNet N A} (pt : Perturbed δ bn bn') {ev : Dict N A} (hl : bn.LegalEvidence ev) {a : Asg N} :
    bn'.Agrees ev a ↔ bn.Agrees ev a := by
  refine forall₂_congr fun e he => ?_
  rw [pt.values _ (hl.legal e he).1]

theorem Perturbed.legal {δ : ℚ} {bn bn' : BayesNet N A} (pt : Perturbed δ bn bn') {ev : Dict N A} (hl : bn.LegalEvidence ev) : bn'.LegalEvidence ev where
  nodup := hl.nodup
  legal := fun e he => by
    rw [pt.nodes, pt.values _ (hl.legal e he).1]; exact hl.legal e he

/-- A legal query has an assignment that agrees with the evidence and gives the target any value. -/
theorem exists_agrees {bn : BayesNet N A} {target : N} {ev : Dict N A} (hte : target ∉ ev.keys) (hl : bn.LegalEvidence ev) (i : ℕ) :
    ∃ a : Asg N, a target = i ∧ bn.Agrees ev a := by
  refine ⟨fun v => if v = target then i else ((ev.get? v).map fun x => (bn.valuesOf v).idxOf x).getD 0, by simp, fun e he => ?_⟩
  have hk : e.1 ∈ ev.keys := List.mem_map.2 ⟨e, he, rfl⟩
  have hne : e.1 ≠ target := fun h => hte (h ▸ hk)
  simp only [if_neg hne]
  rw [Dict.get?_of_mem hl.nodup he]
  simp only [Option.map_some, Option.getD_some]
  have hm := (hl.legal e he).2
  rw [List.getElem?_eq_getElem (List.idxOf_lt_length_of_mem hm), List.getElem_idxOf]

/-- C194: change every table entry of a network by at most `δ`, leaving the structure and the values as they are. A query `marginal_ve_e` answers, it
still answers, and no entry of the answer moves by more than `∏ (1 + card(v) δ) - 1`, up to the rounding of the two answers to four decimals. -/
theorem C194_marginal_robust (h h' : HashOrder N) (hE hE' : HashOrder (N × A)) (δ : ℚ) (hδ : 0 ≤ δ) (bn bn' : BayesNet N A) (wb : bn.WF) (wb' : bn'.WF)
    (hnn : bn.Nonneg) (hno : bn.Normalised) (hac : bn.Acyclic) (pt : Perturbed δ bn bn') (target : N) (ev : Dict N A) (hn : ev.keys.Nodup)
    (r : List ℚ) (hr : marginalVE h hE bn target ev = .ok r) :
    ∃ r', marginalVE h' hE' bn' target ev = .ok r' ∧ r'.length = r.length ∧
      ∀ (i : ℕ) (q q' : ℚ), r[i]? = some q → r'[i]? = some q' → |q' - q| ≤ 1 / 10000 + drift bn δ := by
  obtain ⟨ht, hte, hl, hlen, hval⟩ := C13_marginal_exact h hE bn wb target ev hn r hr
  have hlk : ∀ u ∈ bn.V, ∀ v ∈ bn.V, bn.Linked (bn.V.filter fun v => v ≠ target ∧ v ∉ ev.keys) u v := by
    by_contra hc
    rw [(C52_answered_iff h hE bn wb target ev ht hte hl).2 hc] at hr
    cases hr
  obtain ⟨r', hr'⟩ := (C52_answered_iff h' hE' bn' wb' target ev (by rw [pt.nodes]; exact ht) hte (pt.legal hl)).1 (by
    rw [pt.nodes]
    intro u hu v hv
    exact (Linked.transfer pt.nodes pt.parents hu (hlk u hu v hv)).1)
  obtain ⟨_, _, _, hlen', hval'⟩ := C13_marginal_exact h' hE' bn' wb' target ev hn r' hr'
  refine ⟨r', hr', by rw [hlen, hlen', pt.card wb wb' ht], fun i q q' hq hq' => ?_⟩
  have hi : i < bn.cardOf target := by rw [← hlen]; exact (List.getElem?_eq_some_iff.1 hq).1
  obtain ⟨a, rfl, hag⟩ := exists_agrees hte hl i
  rw [hval a hi hag, Option.some.injEq] at hq
  rw [hval' a (by rw [pt.card wb wb' ht]; exact hi) ((pt.agrees hl).2 hag), Option.some.injEq] at hq'
  rw [marginal_eq_marg] at hq hq'
  have hm := marg_drift hδ wb hnn hno hac pt.nodes (fun v hv => pt.card wb wb' hv) pt.close (target :: ev.keys) (a := a) (by
    intro v hv hvk
    rcases List.mem_cons.1 hvk with rfl | hvk
    · exact hi
    · obtain ⟨e, he, rfl⟩ := List.mem_map.1 hvk
      rw [wb.card_len hv]
      exact (List.getElem?_eq_some_iff.1 (hag e he)).1)
  have c1 := roundEven_close 4 (margOf bn (target :: ev.keys) a)
  have c2 := roundEven_close 4 (margOf bn' (target :: ev.keys) a)
  rw [hq] at c1
  rw [hq'] at c2
  norm_num at c1 c2
  rw [abs_le] at *
  constructor <;> linarith [hm.1, hm.2, c1.1, c1.2, c2.1, c2.2]

/-- Pointwise version of the drift of the joint. -/
theorem joint_point' {B : Type} [DecidableEq B] {δ : ℚ} (hδ : 0 ≤ δ) {bn : BayesNet N A} {bn' : BayesNet N B} (w : bn.WF) (hn : bn.Nonneg) (hno : bn.Normalised)
    (hac : bn.Acyclic) (hV : bn'.V = bn.V) (hc : ∀ v ∈ bn.V, ∀ a, InRange bn.cardOf bn.V a → |bn'.prob v a - bn.prob v a| ≤ δ) {a : Asg N}
    (ha : InRange bn.cardOf bn.V a) : |bn'.joint a - bn.joint a| ≤ drift bn δ :=
  (sumAll_le_of_mem (F := fun b => |bn'.joint b - bn.joint b|) (fun _ => abs_nonneg _) bn.V a ha).trans (joint_drift' hδ w hn hno hac hV hc a)

theorem joint_point {B : Type} [DecidableEq B] {δ : ℚ} (hδ : 0 ≤ δ) {bn : BayesNet N A} {bn' : BayesNet N B} (w : bn.WF) (hn : bn.Nonneg) (hno : bn.Normalised)
    (hac : bn.Acyclic) (hV : bn'.V = bn.V) (hc : ∀ v ∈ bn.V, ∀ a, InRange bn.cardOf (bn.fam v) a → |bn'.prob v a - bn.prob v a| ≤ δ) {a : Asg N}
    (ha : InRange bn.cardOf bn.V a) : |bn'.joint a - bn.joint a| ≤ drift bn δ :=
  (sumAll_le_of_mem (F := fun b => |bn'.joint b - bn.joint b|) (fun _ => abs_nonneg _) bn.V a ha).trans (joint_drift hδ w hn hno hac hV hc a)

/-- C194: … and the explanation `ve_map` returns for the changed network is almost as probable under the original one as the best: short of it by at most twice
the drift. -/
theorem C194_map_robust (h : HashOrder N) (hE : HashOrder (N × A)) (δ : ℚ) (hδ : 0 ≤ δ) (bn bn' : BayesNet N A) (wb : bn.WF) (wb' : bn'.WF)
    (hnn : bn.Nonneg) (hnn' : bn'.Nonneg) (hno : bn.Normalised) (hac : bn.Acyclic) (pt : Perturbed δ bn bn') (ev : Dict N A) (hl : bn.LegalEvidence ev) :
    ∃ (d : Dict N A) (x : Asg N), veMap h hE bn' ev = .ok d ∧ (∀ v ∈ bn.V, x v < bn.cardOf v ∧ d.get? v = (bn.valuesOf v)[x v]?) ∧ bn.Agrees ev x ∧
      ∀ b, InRange bn.cardOf bn.V b → bn.Agrees ev b → bn.joint b ≤ bn.joint x + 2 * drift bn δ := by
  obtain ⟨d, x, e1, _, _, e2, _, e3, e4⟩ := C16_map_is_most_probable h hE bn' wb' hnn' ev (pt.legal hl)
  have hx : ∀ v ∈ bn.V, x v < bn.cardOf v ∧ d.get? v = (bn.valuesOf v)[x v]? := by
    intro v hv
    have := e2 v (by rw [pt.nodes]; exact hv)
    rwa [pt.card wb wb' hv, pt.values v hv] at this
  refine ⟨d, x, e1, hx, (pt.agrees hl).1 e3, fun b hb hag => ?_⟩
  have h1 := e4 b (by
    rw [pt.nodes]
    intro v hv
    rw [pt.card wb wb' hv]; exact hb v hv) ((pt.agrees hl).2 hag)
  have h2 := abs_le.1 (joint_point hδ wb hnn hno hac pt.nodes pt.close hb)
  have h3 := abs_le.1 (joint_point hδ wb hnn hno hac pt.nodes pt.close fun v hv => (hx v hv).1)
  linarith [h2.1, h3.2]

end

variable {A : Type} [DecidableEq A] {Ω : Type} [MeasurableSpace Ω] {P : Measure Ω} {U : ℕ → Ω → ℝ}

theorem upTo_getElem? {k i : ℕ} {x : ℤ} : (upTo k)[i]? = some x ↔ i < k ∧ x = (i : ℤ) := by
  unfold upTo
  rw [List.getElem?_map, Option.map_eq_some_iff]
  constructor
  · rintro ⟨j, hj, rfl⟩
    obtain ⟨hi, rfl⟩ := List.getElem?_eq_some_iff.1 hj
    rw [List.length_range] at hi
    rw [List.getElem_range]
    exact ⟨hi, rfl⟩
  · rintro ⟨hi, rfl⟩
    exact ⟨i, List.getElem?_range hi, rfl⟩

theorem drift_continuous (bn : BayesNet ℕ A) : Continuous (drift bn) := by
  unfold drift
  refine Continuous.sub (continuous_list_prod _ fun v _ => ?_) continuous_const
  fun_prop

theorem exists_drift (bn : BayesNet ℕ A) (x : ℚ) {ε : ℝ} (hε : 0 < ε) : ∃ δ : ℚ, 0 < δ ∧ ((drift bn (x + δ) : ℚ) : ℝ) ≤ ((drift bn x : ℚ) : ℝ) + ε := by
  obtain ⟨e, he0, he⟩ := exists_rat_btwn hε
  have he0' : (0 : ℚ) < e := by exact_mod_cast he0
  have := Metric.continuous_iff.1 (drift_continuous bn) x e (by exact_mod_cast he0)
  obtain ⟨d, hd, hc⟩ := this
  obtain ⟨δ, h1, h2⟩ := exists_rat_btwn hd
  have h1' : (0 : ℚ) < δ := by exact_mod_cast h1
  refine ⟨δ, h1', ?_⟩
  have h3 := hc (x + δ) (by
    rw [Rat.dist_eq]; push_cast
    rw [add_sub_cancel_left, abs_of_pos (by exact_mod_cast h1')]
    exact h2)
  rw [Rat.dist_eq, abs_lt] at h3
  linarith [h3.2]

/-- C195: draw `n` rows from a network, learn the tables of its structure back with `mle_estimator`, and ask the learned network. Almost surely, for any `ε > 0`
and all large `n`: every query that links the network is answered, with one entry per value of the target, within `drift + 5e-5 + ε` of the true
probability of that value together with the evidence; and every explanation by `ve_map` has a true probability within `2 (drift + ε)` of the best, where
`drift = ∏ (1 + 5e-6 card(v)) - 1`. (Every combination of parent values must be possible.) -/
theorem C195_learn_then_infer (hU : Uniforms P U) (h h' : HashOrder ℕ) (hE : HashOrder (ℕ × ℤ)) (hI : HashOrder ℤ) (bn : BayesNet ℕ A)
    (target : BayesNet ℕ ℤ) (S : SameStructure bn target)
    (hpos : ∀ v ∈ bn.V, ∀ a, InRange bn.cardOf (bn.parentsOf v) a → 0 < margOf bn (bn.parentsOf v) a) (tol : ℚ) (h0 : 0 ≤ tol) (ht : tol < 1)
    (garbage : ℕ → List (List ℤ)) (hgl : ∀ n, (garbage n).length = n) (hg : ∀ n, ∀ g ∈ garbage n, g.length = bn.V.length) :
    ∀ᵐ ω ∂P, ∀ ε > 0, ∀ᶠ n : ℕ in atTop, ∃ rows bn', randomSample tol h bn (garbage n) (fun i => U i ω) = .ok rows ∧
      mleEstimator hE hI target ⟨bn.V.length, rows⟩ none = .ok bn' ∧
      (∀ t ∈ bn.V, ∀ ev : Dict ℕ ℤ, t ∉ ev.keys → CodeEvidence bn ev →
        (∀ u ∈ bn.V, ∀ v ∈ bn.V, bn.Linked (bn.V.filter fun v => v ≠ t ∧ v ∉ ev.keys) u v) →
        ∃ r, marginalVE h' hE bn' t ev = .ok r ∧ r.length = bn.cardOf t ∧
          ∀ a, a t < bn.cardOf t → (∀ e ∈ ev, e.2 = (a e.1 : ℤ)) → ∃ q, r[a t]? = some q ∧
            |((q : ℚ) : ℝ) - ((margOf bn (t :: ev.keys) a : ℚ) : ℝ)| ≤ 1 / 20000 + ((drift bn (1 / 200000) : ℚ) : ℝ) + ε) ∧
      (∀ ev : Dict ℕ ℤ, CodeEvidence bn ev → ∃ (d : Dict ℕ ℤ) (x : Asg ℕ), veMap h' hE bn' ev = .ok d ∧
        (∀ v ∈ bn.V, x v < bn.cardOf v ∧ d.get? v = some (x v : ℤ)) ∧ (∀ e ∈ ev, e.2 = (x e.1 : ℤ)) ∧
        ∀ b, InRange bn.cardOf bn.V b → (∀ e ∈ ev, e.2 = (b e.1 : ℤ)) →
          ((bn.joint b : ℚ) : ℝ) ≤ ((bn.joint x : ℚ) : ℝ) + 2 * (((drift bn (1 / 200000) : ℚ) : ℝ) + ε)) := by
  filter_upwards [C188_mle_recovers hU h hE hI bn target S tol h0 ht garbage hgl hg] with ω hω ε hε
  obtain ⟨δ, hδ, hdr⟩ := exists_drift bn (1 / 200000) hε
  filter_upwards [hω (δ : ℝ) (by exact_mod_cast hδ)] with n hn
  obtain ⟨rows, bn', e1, e2, e3, ew, en, e4⟩ := hn
  have hac : bn.Acyclic := ⟨bn.V, List.Perm.refl _, S.parentsFirst⟩
  have hcd : ∀ v ∈ bn.V, bn'.cardOf v = bn.cardOf v := fun v hv => cardOf_upTo (e4 v hv).2.1
  have hδ' : (0 : ℚ) ≤ 1 / 200000 + δ := by positivity
  have hcl : ∀ v ∈ bn.V, ∀ a, InRange bn.cardOf (bn.fam v) a → |bn'.prob v a - bn.prob v a| ≤ 1 / 200000 + δ := by
    intro v hv a ha
    have := (e4 v hv).2.2 a ha (hpos v hv a fun u hu => ha u (List.mem_cons_of_mem _ hu))
    have h2 : ((|bn'.prob v a - bn.prob v a| : ℚ) : ℝ) ≤ ((1 / 200000 + δ : ℚ) : ℝ) := by push_cast; exact this
    exact Rat.cast_le.1 h2
  have hle : ∀ ev : Dict ℕ ℤ, CodeEvidence bn ev → bn'.LegalEvidence ev := fun ev hev => ⟨hev.nodup, fun e he => by
    obtain ⟨p1, k, p2, p3⟩ := hev.legal e he
    rw [e3, (e4 _ p1).2.1]
    exact ⟨p1, List.mem_of_getElem? (upTo_getElem?.2 ⟨p2, p3⟩)⟩⟩
  have hag : ∀ (ev : Dict ℕ ℤ) (a : Asg ℕ), CodeEvidence bn ev → (∀ e ∈ ev, e.2 = (a e.1 : ℤ)) →
      bn'.Agrees ev a ∧ ∀ v ∈ ev.keys, a v < bn.cardOf v := by
    intro ev a hev ha
    have hk : ∀ e ∈ ev, a e.1 < bn.cardOf e.1 := by
      intro e he
      obtain ⟨p1, k, p2, p3⟩ := hev.legal e he
      have := ha e he
      rw [p3] at this
      have h5 : k = a e.1 := by exact_mod_cast this
      rwa [← h5]
    refine ⟨fun e he => ?_, fun v hv => ?_⟩
    · rw [(e4 _ (hev.legal e he).1).2.1]
      exact upTo_getElem?.2 ⟨hk e he, ha e he⟩
    · obtain ⟨e, he, rfl⟩ := List.mem_map.1 hv
      exact hk e he
  refine ⟨rows, bn', e1, e2, ?_, ?_⟩
  · intro t htV ev hte hev hlk
    have hl := hle ev hev
    obtain ⟨r, hr⟩ := (C52_answered_iff h' hE bn' ew t ev (by rw [e3]; exact htV) hte hl).1 (by
      rw [e3]
      intro u hu v hv
      exact (Linked.transfer e3 (fun v hv => (e4 v hv).1) hu (hlk u hu v hv)).1)
    obtain ⟨_, _, _, hlen, hval⟩ := C13_marginal_exact h' hE bn' ew t ev hl.nodup r hr
    refine ⟨r, hr, by rw [hlen, hcd t htV], fun a hat hae => ?_⟩
    obtain ⟨ha1, ha2⟩ := hag ev a hev hae
    refine ⟨_, hval a (by rw [hcd t htV]; exact hat) ha1, ?_⟩
    rw [marginal_eq_marg]
    have hm := marg_drift hδ' S.wf S.nonneg S.normalised hac e3 hcd hcl (t :: ev.keys) (a := a) (by
      intro v hv hvk
      rcases List.mem_cons.1 hvk with rfl | hvk
      · exact hat
      · exact ha2 v hvk)
    have c1 := roundEven_close 4 (margOf bn' (t :: ev.keys) a)
    set x := margOf bn' (t :: ev.keys) a
    set y := margOf bn (t :: ev.keys) a
    have h5 : |roundEven 4 x - y| ≤ 1 / 20000 + drift bn (1 / 200000 + δ) := by
      norm_num at c1
      rw [abs_le] at *
      constructor <;> linarith [hm.1, hm.2, c1.1, c1.2]
    have h6 : ((|roundEven 4 x - y| : ℚ) : ℝ) ≤ ((1 / 20000 + drift bn (1 / 200000 + δ) : ℚ) : ℝ) := Rat.cast_le.2 h5
    push_cast at h6 hdr ⊢
    linarith
  · intro ev hev
    obtain ⟨d, x, f1, _, _, f2, _, f3, f4⟩ := C16_map_is_most_probable h' hE bn' ew en ev (hle ev hev)
    have hx : ∀ v ∈ bn.V, x v < bn.cardOf v ∧ d.get? v = some (x v : ℤ) := by
      intro v hv
      have := f2 v (by rw [e3]; exact hv)
      rw [hcd v hv, (e4 v hv).2.1] at this
      exact ⟨this.1, this.2.trans (upTo_getElem?.2 ⟨this.1, rfl⟩)⟩
    refine ⟨d, x, f1, hx, fun e he => ?_, fun b hb hbe => ?_⟩
    · have := f3 e he
      rw [(e4 _ (hev.legal e he).1).2.1] at this
      exact (upTo_getElem?.1 this).2
    · have h1 := f4 b (by
        rw [e3]
        intro v hv
        rw [hcd v hv]; exact hb v hv) (hag ev b hev hbe).1
      have h2 := abs_le.1 (joint_point hδ' S.wf S.nonneg S.normalised hac e3 hcl hb)
      have h3 := abs_le.1 (joint_point hδ' S.wf S.nonneg S.normalised hac e3 hcl fun v hv => (hx v hv).1)
      have h4 : bn.joint b ≤ bn.joint x + 2 * drift bn (1 / 200000 + δ) := by linarith [h2.1, h3.2]
      have h5 : ((bn.joint b : ℚ) : ℝ) ≤ ((bn.joint x + 2 * drift bn (1 / 200000 + δ) : ℚ) : ℝ) := Rat.cast_le.2 h4
      push_cast at h5 hdr ⊢
      linarith

/-! ## The hypotheses can be met -/

/-- `exFork` with its tables moved a little. -/
def exForkB : BayesNet ℕ ℕ where
  V := [0, 1, 2]
  E := [(0, [1, 2]), (1, []), (2, [])]
  F := [(0, ⟨[], [10, 11], [26/100, 74/100]⟩),
        (1, ⟨[0], [20, 21], [1/2, 1/2, 33/100, 67/100]⟩),
        (2, ⟨[0], [30, 31], [21/100, 79/100, 1/10, 9/10]⟩)]

theorem exForkB_card : exForkB.cardOf = exFork.cardOf := by
  funext v
  by_cases h0 : v = 0
  · subst h0; decide
  by_cases h1 : v = 1
  · subst h1; decide
  by_cases h2 : v = 2
  · subst h2; decide
  have e0 : ¬ 0 = v := fun h => h0 h.symm
  have e1 : ¬ 1 = v := fun h => h1 h.symm
  have e2 : ¬ 2 = v := fun h => h2 h.symm
  simp [exForkB, exFork, BayesNet.cardOf, Dict.get?, e0, e1, e2]

theorem exForkB_perturbed : Perturbed (1 / 100) exFork exForkB where
  nodes := rfl
  parents := by decide
  values := by decide
  close := by
    have key : ∀ v ∈ exFork.V, ∀ i < 4, |((exForkB.cptOf v)[i]?).getD 0 - ((exFork.cptOf v)[i]?).getD 0| ≤ 1 / 100 := by decide +kernel
    have hlen : ∀ v ∈ exFork.V, ((v :: exFork.parentsOf v).map exFork.cardOf).prod ≤ 4 := by decide
    have hp : ∀ v ∈ exFork.V, exForkB.parentsOf v = exFork.parentsOf v := by decide
    intro v hv a ha
    unfold BayesNet.prob
    rw [exForkB_card, hp v hv]
    exact key v hv _ (lt_of_lt_of_le (enc_lt ha) (hlen v hv))

/-- `ve_map` and `marginal_ve_e` on the two networks. -/
example : (0 : ℚ) ≤ 1 / 100 ∧ exFork.WF ∧ exForkB.WF ∧ exFork.Nonneg ∧ exForkB.Nonneg ∧ exFork.Normalised ∧ exFork.Acyclic ∧ Perturbed (1 / 100) exFork exForkB ∧
    exFork.LegalEvidence [(2, 30)] ∧
    (marginalVE .id .id exFork 1 [(2, 30)]).okAnd (fun r => r = [1/20, 3/40]) ∧
    (marginalVE .rev .id exForkB 1 [(2, 30)]).okAnd (fun r => r = [517/10000, 769/10000]) ∧ 1 / 1000 < drift exFork (1 / 100) ∧ drift exFork (1 / 100) < 7 / 100 := by
  refine ⟨by norm_num, exFork_wf, .of_dec _ (by decide) (by decide), exFork_nonneg, by unfold BayesNet.Nonneg; decide +kernel, exFork_normalised, exFork_acyclic,
    exForkB_perturbed, exFork_ev, ?_, ?_, by decide +kernel, by decide +kernel⟩
  · decide +kernel
  · decide +kernel

/-- C195: a sampler, a network all of whose parent combinations are possible, and a query that links it. -/
example : (∃ (Ω : Type) (_ : MeasurableSpace Ω) (P : Measure Ω) (U : ℕ → Ω → ℝ), Uniforms P U) ∧ SameStructure exNet vNet ∧
    (∀ v ∈ exNet.V, ∀ a, InRange exNet.cardOf (exNet.parentsOf v) a → 0 < margOf exNet (exNet.parentsOf v) a) ∧
    CodeEvidence exNet [(0, 1)] ∧ (∀ u ∈ exNet.V, ∀ v ∈ exNet.V, exNet.Linked (exNet.V.filter fun v => v ≠ 2 ∧ v ∉ Dict.keys ([] : Dict ℕ ℤ)) u v) ∧
    drift exNet (1 / 200000) < 1 / 20000 := by
  refine ⟨⟨_, _, _, _, uniforms_exist⟩, exNet_same, ?_, ⟨by decide, ?_⟩, ?_, by decide +kernel⟩
  · have key : ∀ x < 2, ∀ y < 3, ∀ v ∈ exNet.V, 0 < margOf exNet (exNet.parentsOf v) (fun u => if u = 0 then x else y) := by decide +kernel
    intro v hv a ha
    have hv' : v = 0 ∨ v = 1 ∨ v = 2 := by simpa [exNet] using hv
    have h2 : ∀ (b : Asg ℕ), (∀ u ∈ exNet.parentsOf v, a u = b u) → 0 < margOf exNet (exNet.parentsOf v) b → 0 < margOf exNet (exNet.parentsOf v) a := by
      intro b hb hp
      rwa [margOf_congr exNet_wf hb]
    rcases hv' with rfl | rfl | rfl
    · exact h2 _ (fun u hu => absurd (show u ∈ ([] : List ℕ) from hu) (by simp)) (key 0 (by decide) 0 (by decide) 0 (by decide))
    · exact h2 _ (fun u hu => absurd (show u ∈ ([] : List ℕ) from hu) (by simp)) (key 0 (by decide) 0 (by decide) 1 (by decide))
    · have a0 : a 0 < 2 := ha 0 (by decide)
      have a1 : a 1 < 3 := ha 1 (by decide)
      refine h2 _ ?_ (key (a 0) a0 (a 1) a1 2 (by decide))
      intro u hu
      have : u = 0 ∨ u = 1 := by
        have : u ∈ [0, 1] := hu
        simpa using this
      rcases this with rfl | rfl <;> simp
  · intro e he
    rw [List.mem_singleton] at he
    subst he
    exact ⟨by decide, 1, by decide, rfl⟩
  · have l2 : ∀ u ∈ exNet.V, exNet.Linked (exNet.V.filter fun v => v ≠ 2 ∧ v ∉ Dict.keys ([] : Dict ℕ ℤ)) u 2 := by
      intro u hu
      have hu' : u = 0 ∨ u = 1 ∨ u = 2 := by simpa [exNet] using hu
      rcases hu' with rfl | rfl | rfl
      · exact .step (x := 0) (.refl _) (by decide) (by decide) (by decide) (by decide)
      · exact .step (x := 1) (.refl _) (by decide) (by decide) (by decide) (by decide)
      · exact .refl _
    intro u hu v hv
    have hv' : v = 0 ∨ v = 1 ∨ v = 2 := by simpa [exNet] using hv
    rcases hv' with rfl | rfl | rfl
    · exact .step (x := 0) (l2 u hu) (by decide) (by decide) (by decide) (by decide)
    · exact .step (x := 1) (l2 u hu) (by decide) (by decide) (by decide) (by decide)
    · exact l2 u hu

end PyBN
