import Verif.Spec.Perturb
import Verif.Proofs.SampleLearn
import Verif.Props.Rounded

/-!
# Sensitivity of the joint distribution to the tables
-/

set_option linter.unusedSectionVars false

namespace PyBN
open BayesNet
variable {N A B : Type} [DecidableEq N] [DecidableEq A] [DecidableEq B]

/-- Product of perturbed numbers. -/
theorem prod_perturb {δ : ℚ} (hδ : 0 ≤ δ) (f g : N → ℚ) : ∀ l : List N, (∀ v ∈ l, 0 ≤ f v) → (∀ v ∈ l, |g v - f v| ≤ δ) →
    |(l.map g).prod - (l.map f).prod| ≤ (l.map fun v => f v + δ).prod - (l.map f).prod ∧ 0 ≤ (l.map f).prod
  | [], _, _ => by simp
  | v :: l, h0, hc => by
      obtain ⟨ih, hF⟩ := prod_perturb hδ f g l (fun u hu => h0 u (by simp [hu])) fun u hu => hc u (by simp [hu])
      simp only [List.map_cons, List.prod_cons]
      have hf := h0 v (by simp)
      have hg := hc v (by simp)
      set F := (l.map f).prod
      set G := (l.map g).prod
      set H := (l.map fun v => f v + δ).prod
      refine ⟨?_, mul_nonneg hf hF⟩
      have hg' : |g v| ≤ f v + δ := by
        have := abs_le.1 hg
        rw [abs_le]; constructor <;> linarith
      calc |g v * G - f v * F| = |g v * (G - F) + (g v - f v) * F| := by congr 1; ring
        _ ≤ |g v * (G - F)| + |(g v - f v) * F| := abs_add_le _ _
        _ = |g v| * |G - F| + |g v - f v| * F := by rw [abs_mul, abs_mul, abs_of_nonneg hF]
        _ ≤ (f v + δ) * (H - F) + δ * F := by
            have : 0 ≤ |G - F| := abs_nonneg _
            gcongr
        _ = (f v + δ) * H - f v * F := by ring

/-- Summing a product of functions of the families, parents first, when each sums to a constant over its own node. -/
theorem sumAll_const {bn : BayesNet N A} (G : N → Asg N → ℚ) (K : N → ℚ)
    (hG : ∀ v (a b : Asg N), (∀ u ∈ bn.fam v, a u = b u) → G v a = G v b)
    (hK : ∀ v ∈ bn.V, ∀ a, InRange bn.cardOf (bn.parentsOf v) a → ∑ x ∈ Finset.range (bn.cardOf v), G v (a.upd v x) = K v) :
    ∀ (o : List N), o.Nodup → (∀ v ∈ o, v ∈ bn.V) → (∀ o1 v o2, o = o1 ++ v :: o2 → ∀ p ∈ bn.parentsOf v, p ∈ o1) → ∀ a,
    sumAll bn.cardOf o (fun b => (o.map fun v => G v b).prod) a = (o.map K).prod := by
  intro o
  induction o using List.reverseRecOn with
  | nil => intro _ _ _ a; simp [sumAll]
  | append_singleton o v ih =>
    intro hn hV ht a
    rw [List.nodup_append] at hn
    have hvo : v ∉ o := fun hv => hn.2.2 v hv v (by simp) rfl
    rw [sumAll_append, List.map_append, List.prod_append, List.map_singleton, List.prod_singleton]
    have ih' := ih hn.1 (fun u hu => hV u (by simp [hu])) (fun o1 u o2 he p hp => ht o1 u (o2 ++ [v]) (by simp [he]) p hp) a
    rw [← ih', mul_comm, ← sumAll_mul_left (G := fun _ => K v) (fun _ _ _ => rfl)]
    apply sumAll_congr _ hn.1
    intro b hb hr
    have hpar : ∀ p ∈ bn.parentsOf v, p ∈ o := fun p hp => ht o v [] (by simp) p hp
    have h1 : ∀ x, ((o.map fun u => G u (b.upd v x)).prod) = (o.map fun u => G u b).prod := by
      intro x
      congr 1
      apply List.map_congr_left
      intro u hu
      apply hG
      intro w hw
      apply Asg.upd_ne
      rintro rfl
      rcases List.mem_cons.1 hw with rfl | hw
      · exact hvo hu
      · obtain ⟨o1, o2, rfl⟩ := List.append_of_mem hu
        exact hvo (by simp [ht o1 u (o2 ++ [w]) (by simp) w hw])
    simp only [sumAll, List.map_append, List.map_cons, List.map_nil, List.prod_append, List.prod_cons, List.prod_nil, mul_one]
    simp only [h1]
    rw [← Finset.mul_sum, hK v (hV v (by simp)) b (fun p hp => hr p (hpar p hp)), mul_comm]

theorem sumAll_sub {c : N → ℕ} {F G : Asg N → ℚ} : ∀ (l : List N) (a : Asg N),
    sumAll c l (fun b => F b - G b) a = sumAll c l F a - sumAll c l G a
  | [], _ => rfl
  | v :: l, a => by
      simp only [sumAll]
      rw [← Finset.sum_sub_distrib]
      exact Finset.sum_congr rfl fun x _ => sumAll_sub l _

theorem sumAll_mono {c : N → ℕ} {F G : Asg N → ℚ} : ∀ (l : List N) (a : Asg N), l.Nodup →
    (∀ b, (∀ u, u ∉ l → b u = a u) → InRange c l b → F b ≤ G b) → sumAll c l F a ≤ sumAll c l G a
  | [], a, _, h => h a (fun _ _ => rfl) (by simp [InRange])
  | v :: l, a, hn, h => by
      rw [List.nodup_cons] at hn
      simp only [sumAll]
      apply Finset.sum_le_sum
      intro x hx
      apply sumAll_mono l _ hn.2
      intro b hb hr
      apply h b
      · intro u hu
        rw [List.mem_cons, not_or] at hu
        rw [hb u hu.2, Asg.upd_ne _ _ hu.1]
      · intro u hu
        rcases List.mem_cons.1 hu with rfl | hu
        · rw [hb u hn.1, Asg.upd_self]; exact Finset.mem_range.1 hx
        · exact hr u hu

theorem sumAll_abs {c : N → ℕ} {F : Asg N → ℚ} : ∀ (l : List N) (a : Asg N), |sumAll c l F a| ≤ sumAll c l (fun b => |F b|) a
  | [], _ => le_rfl
  | v :: l, a => by
      simp only [sumAll]
      exact (Finset.abs_sum_le_sum_abs _ _).trans (Finset.sum_le_sum fun x _ => sumAll_abs l _)

/-- The joint distributions of two networks with the same nodes and close tables (but maybe different parents), in total variation. -/
theorem joint_drift' {δ : ℚ} (hδ : 0 ≤ δ) {bn : BayesNet N A} {bn' : BayesNet N B} (w : bn.WF) (hn : bn.Nonneg) (hno : bn.Normalised)
    (hac : bn.Acyclic) (hV : bn'.V = bn.V) (hc : ∀ v ∈ bn.V, ∀ a, InRange bn.cardOf bn.V a → |bn'.prob v a - bn.prob v a| ≤ δ) (a : Asg N) :
    sumAll bn.cardOf bn.V (fun b => |bn'.joint b - bn.joint b|) a ≤ drift bn δ := by
  have hbound : sumAll bn.cardOf bn.V (fun b => (bn.V.map fun v => bn.prob v b + δ).prod) a = (bn.V.map fun v => 1 + bn.cardOf v * δ).prod := by
    obtain ⟨o, ho, hto⟩ := hac
    have hon : o.Nodup := ho.nodup_iff.2 w.nodup
    have := sumAll_const (bn := bn) (fun v b => bn.prob v b + δ) (fun v => 1 + bn.cardOf v * δ)
      (fun v a b hab => congrArg (· + δ) (prob_congr hab))
      (fun v hv b hb => by
        rw [Finset.sum_add_distrib, hno v hv b hb, Finset.sum_const, Finset.card_range, nsmul_eq_mul])
      o hon (fun v hv => ho.subset hv) hto a
    rw [sumAll_perm ho _ hon] at this
    rw [← (ho.map _).prod_eq, ← this]
    congr 1
    funext b
    exact ((ho.map _).prod_eq).symm
  calc sumAll bn.cardOf bn.V (fun b => |bn'.joint b - bn.joint b|) a
      ≤ sumAll bn.cardOf bn.V (fun b => (bn.V.map fun v => bn.prob v b + δ).prod - bn.joint b) a := by
        apply sumAll_mono _ _ w.nodup
        intro b _ hr
        unfold BayesNet.joint
        rw [hV]
        refine (prod_perturb hδ (fun v => bn.prob v b) (fun v => bn'.prob v b) bn.V (fun v hv => prob_nonneg hn hv b) fun v hv => hc v hv b hr).1
    _ = drift bn δ := by rw [sumAll_sub, hbound, joint_sum_one w hno hac]; rfl

theorem range_fam {bn : BayesNet N A} (w : bn.WF) {v : N} (hv : v ∈ bn.V) {a : Asg N} (ha : InRange bn.cardOf bn.V a) : InRange bn.cardOf (bn.fam v) a := by
  intro u hu
  rcases List.mem_cons.1 hu with rfl | hu
  · exact ha _ hv
  · exact ha _ (w.parents_mem v hv u hu)

/-- The joint distributions of two networks with the same shape and close tables, in total variation. -/
theorem joint_drift {δ : ℚ} (hδ : 0 ≤ δ) {bn : BayesNet N A} {bn' : BayesNet N B} (w : bn.WF) (hn : bn.Nonneg) (hno : bn.Normalised)
    (hac : bn.Acyclic) (hV : bn'.V = bn.V) (hc : ∀ v ∈ bn.V, ∀ a, InRange bn.cardOf (bn.fam v) a → |bn'.prob v a - bn.prob v a| ≤ δ) (a : Asg N) :
    sumAll bn.cardOf bn.V (fun b => |bn'.joint b - bn.joint b|) a ≤ drift bn δ :=
  joint_drift' hδ w hn hno hac hV (fun v hv a ha => hc v hv a (range_fam w hv ha)) a

/-- Summing a nonnegative function over all nodes gives at least the sum over some of them. -/
theorem sum_some_le {c : N → ℕ} {F : Asg N → ℚ} {V : List N} (hV : V.Nodup) (hF : ∀ b, 0 ≤ F b) (vs : List N) {a : Asg N}
    (ha : ∀ v ∈ V, v ∈ vs → a v < c v) : sumAll c (V.filter fun v => decide (v ∉ vs)) F a ≤ sumAll c V F a := by
  have hperm : (V.filter (fun v => !decide (v ∉ vs)) ++ V.filter (fun v => decide (v ∉ vs))).Perm V :=
    (List.perm_append_comm).trans (List.filter_append_perm _ V)
  have hnd := hperm.nodup_iff.2 hV
  rw [← sumAll_perm hperm _ hnd, sumAll_append]
  refine sumAll_le_of_mem (fun b => sumAll_nonneg (fun _ => hF _) b) _ a fun v hv => ?_
  rw [List.mem_filter] at hv
  refine ha v hv.1 ?_
  simpa using hv.2

/-- … and so any probability of values of some nodes. -/
theorem marg_drift' {δ : ℚ} (hδ : 0 ≤ δ) {bn : BayesNet N A} {bn' : BayesNet N B} (w : bn.WF) (hn : bn.Nonneg) (hno : bn.Normalised)
    (hac : bn.Acyclic) (hV : bn'.V = bn.V) (hcard : ∀ v ∈ bn.V, bn'.cardOf v = bn.cardOf v)
    (hc : ∀ v ∈ bn.V, ∀ a, InRange bn.cardOf bn.V a → |bn'.prob v a - bn.prob v a| ≤ δ) (vs : List N) {a : Asg N}
    (ha : ∀ v ∈ bn.V, v ∈ vs → a v < bn.cardOf v) : |margOf bn' vs a - margOf bn vs a| ≤ drift bn δ := by
  have hcd : ∀ (l : List N), (∀ v ∈ l, v ∈ bn.V) → ∀ F b, sumAll bn'.cardOf l F b = sumAll bn.cardOf l F b := by
    intro l
    induction l with
    | nil => intro _ F b; rfl
    | cons v l ih =>
      intro hl F b
      simp only [sumAll]
      rw [hcard v (hl v (by simp))]
      exact Finset.sum_congr rfl fun x _ => ih (fun u hu => hl u (by simp [hu])) F _
  unfold margOf
  rw [hV, hcd _ fun v hv => List.mem_of_mem_filter hv, ← sumAll_sub]
  refine (sumAll_abs _ _).trans (le_trans ?_ (joint_drift' hδ w hn hno hac hV hc a))
  exact sum_some_le w.nodup (fun _ => abs_nonneg _) vs ha

theorem marg_drift {δ : ℚ} (hδ : 0 ≤ δ) {bn : BayesNet N A} {bn' : BayesNet N B} (w : bn.WF) (hn : bn.Nonneg) (hno : bn.Normalised)
    (hac : bn.Acyclic) (hV : bn'.V = bn.V) (hcard : ∀ v ∈ bn.V, bn'.cardOf v = bn.cardOf v)
    (hc : ∀ v ∈ bn.V, ∀ a, InRange bn.cardOf (bn.fam v) a → |bn'.prob v a - bn.prob v a| ≤ δ) (vs : List N) {a : Asg N}
    (ha : ∀ v ∈ bn.V, v ∈ vs → a v < bn.cardOf v) : |margOf bn' vs a - margOf bn vs a| ≤ drift bn δ :=
  marg_drift' hδ w hn hno hac hV hcard (fun v hv a ha => hc v hv a (range_fam w hv ha)) vs ha

theorem marginal_eq_marg {bn : BayesNet N A} (target : N) (ev : Dict N A) (a : Asg N) :
    bn.marginal target ev a = margOf bn (target :: ev.keys) a := by
  unfold BayesNet.marginal margOf
  congr 1
  apply List.filter_congr
  intro v _
  simp [List.mem_cons, not_or]

theorem Linked.transfer {bn : BayesNet N A} {bn' : BayesNet N B} (hV : bn'.V = bn.V) (hp : ∀ v ∈ bn.V, bn'.parentsOf v = bn.parentsOf v)
    {O : List N} {u v : N} (hu : u ∈ bn.V) (h : bn.Linked O u v) : bn'.Linked O u v ∧ v ∈ bn.V := by
  induction h with
  | refl => exact ⟨.refl _, hu⟩
  | step h1 hw hx hxv hxw ih =>
    obtain ⟨i1, i2⟩ := ih
    unfold BayesNet.fam at hxv hxw
    refine ⟨.step i1 (by rw [hV]; exact hw) hx ?_ ?_, hw⟩
    · unfold BayesNet.fam; rw [hp _ i2]; exact hxv
    · unfold BayesNet.fam; rw [hp _ hw]; exact hxw

end PyBN
