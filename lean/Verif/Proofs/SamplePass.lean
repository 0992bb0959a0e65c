import Verif.Proofs.SampleLaw
import Verif.Props.Sample3

/-!
# One pass of the samplers as a function of its block of random numbers
-/

set_option linter.unusedSectionVars false

namespace PyBN
open BayesNet Sampling MeasureTheory ProbabilityTheory
variable {N A : Type} [DecidableEq N] [DecidableEq A]

open Classical in
/-- The weight one pass contributes to the assignments that agree with `a` outside `l`. -/
noncomputable def passW (bn : BayesNet N A) (ev : Dict N A) (l : List N) (a : Asg N) (u : Fin (1 * (freeOf ev bn.V).length) → ℝ) : ℚ :=
  sumAll bn.cardOf l (fun b => if InRange bn.cardOf bn.V b then
    (if u ∈ box bn (freeOf ev bn.V) 1 (fun _ => some b) then evWeight bn ev b else 0) else 0) a

theorem freeOf_mem {bn : BayesNet N A} {ev : Dict N A} : ∀ v ∈ freeOf ev bn.V, v ∈ bn.V := fun _ hv => (List.mem_filter.1 hv).1

theorem evWeight_congr {bn : BayesNet N A} (w : bn.WF) {ev : Dict N A} {a b : Asg N} (h : ∀ v ∈ bn.V, a v = b v) :
    evWeight bn ev a = evWeight bn ev b := by
  unfold evWeight
  apply congrArg
  apply List.map_congr_left
  intro v hv
  have hvV := (List.mem_filter.1 hv).1
  apply sprob_congr
  intro u' hu'
  rcases List.mem_cons.1 hu' with rfl | hu'
  · exact h _ hvV
  · exact h u' (w.parents_mem v hvV u' hu')

theorem evWeight_nonneg {bn : BayesNet N A} (hn : bn.Nonneg) (ev : Dict N A) (a : Asg N) : 0 ≤ evWeight bn ev a := by
  apply List.prod_nonneg
  intro y hy
  obtain ⟨v, hv, rfl⟩ := List.mem_map.1 hy
  exact sprob_nonneg hn (List.mem_filter.1 hv).1 _

theorem free_obs_joint (bn : BayesNet N A) (ev : Dict N A) (a : Asg N) :
    ((freeOf ev bn.V).map fun v => bn.prob v a).prod * evWeight bn ev a = bn.joint a := by
  have hperm : (freeOf ev bn.V ++ obsOf ev bn.V).Perm bn.V := by
    have hneg : (fun v => (ev.get? v).isNone) = fun v => !(ev.get? v).isSome := by
      funext v; cases ev.get? v <;> rfl
    unfold freeOf obsOf
    rw [hneg]
    exact (List.perm_append_comm).trans (List.filter_append_perm (fun v => (ev.get? v).isSome) bn.V)
  unfold evWeight BayesNet.joint
  rw [← ((hperm.map fun v => bn.prob v a).prod_eq), List.map_append, List.prod_append]

/-- The box of an assignment that agrees with the evidence is the set of random numbers for which the pass draws it. -/
theorem box_iff {bn : BayesNet N A} (w : bn.WF) (hn : bn.Nonneg) (hno : bn.Normalised) (hpf : bn.ParentsFirst) {ev : Dict N A}
    {a b : Asg N} (ha : InRange bn.cardOf bn.V a) (haa : bn.Agrees ev a)
    (hb : InRange bn.cardOf bn.V b) (hba : bn.Agrees ev b) {u : Fin (1 * (freeOf ev bn.V).length) → ℝ} (hu : u ∈ cube _)
    (hf : ∀ j v, (freeOf ev bn.V)[j]? = some v → bn.Falls b v (stream u j)) :
    u ∈ box bn (freeOf ev bn.V) 1 (fun _ => some a) ↔ ∀ v ∈ bn.V, a v = b v := by
  rw [mem_box w hn hno freeOf_mem (by intro t b ht he; cases he; exact ha)]
  constructor
  · rintro ⟨_, hf'⟩
    have hf' := hf' 0 a (by norm_num) rfl
    intro v hv
    refine (falls_all_unique w hn (tol := 0) (by norm_num) (normalised_near hno (le_refl _)) hpf
      (u := fun v => stream u ((freeOf ev bn.V).idxOf v)) (obs := fun v => (ev.get? v).isSome = true) hb ?_ ?_ ?_ v hv).symm
    · intro v hv ho
      obtain ⟨e, he⟩ := Option.isSome_iff_exists.1 ho
      have k1 := hba _ (Dict.get?_mem he)
      have k2 := haa _ (Dict.get?_mem he)
      exact ((value_eq_iff w hv k1).1 k2).symm
    · intro v hv ho
      have hm : v ∈ freeOf ev bn.V := List.mem_filter.2 ⟨hv, by simpa using ho⟩
      exact hf _ v (List.getElem?_idxOf hm)
    · intro v hv ho
      have hm : v ∈ freeOf ev bn.V := List.mem_filter.2 ⟨hv, by simpa using ho⟩
      have := hf' _ v (List.getElem?_idxOf hm)
      rwa [zero_mul, zero_add] at this
  · intro he
    refine ⟨hu, fun t a' ht' hs j v hj => ?_⟩
    cases hs
    obtain rfl : t = 0 := by omega
    have hv := freeOf_mem v (List.mem_of_getElem? hj)
    rw [← falls_congr (a := b)]
    · have := hf j v hj
      rwa [zero_mul, zero_add]
    · intro u' hu'
      rcases List.mem_cons.1 hu' with rfl | hu'
      · exact (he _ hv).symm
      · exact (he u' (w.parents_mem v hv u' hu')).symm

/-- What one pass contributes. -/
theorem passW_ok {bn : BayesNet N A} (w : bn.WF) (hn : bn.Nonneg) (hno : bn.Normalised) (hpf : bn.ParentsFirst) {ev : Dict N A}
    {l : List N} (hln : l.Nodup) (hl : ∀ v ∈ l, v ∈ freeOf ev bn.V)
    {a b : Asg N} (ha : ∀ v ∈ bn.V, v ∉ l → a v < bn.cardOf v) (haa : bn.Agrees ev a)
    (hb : InRange bn.cardOf bn.V b) (hba : bn.Agrees ev b) {u : Fin (1 * (freeOf ev bn.V).length) → ℝ} (hu : u ∈ cube _)
    (hf : ∀ j v, (freeOf ev bn.V)[j]? = some v → bn.Falls b v (stream u j)) :
    passW bn ev l a u = if ∀ v ∈ bn.V, v ∉ l → a v = b v then evWeight bn ev b else 0 := by
  classical
  unfold passW
  have h1 : sumAll bn.cardOf l (fun b => if InRange bn.cardOf bn.V b then
      (if u ∈ box bn (freeOf ev bn.V) 1 (fun _ => some b) then evWeight bn ev b else 0) else 0) a =
      sumAll bn.cardOf l (fun b' => evWeight bn ev b * (if ∀ v ∈ bn.V, b' v = b v then 1 else 0)) a := by
    apply sumAll_congr _ hln
    intro b' hb1 hb2
    have hin : InRange bn.cardOf bn.V b' := by
      intro v hv
      by_cases hvl : v ∈ l
      · exact hb2 v hvl
      · rw [hb1 v hvl]; exact ha v hv hvl
    have hag : bn.Agrees ev b' := by
      intro e he
      have hnl : e.1 ∉ l := by
        intro hm
        have h2 := (List.mem_filter.1 (hl _ hm)).2
        have h3 : (ev.get? e.1).isSome := Dict.mem_keys_iff.1 (List.mem_map_of_mem he)
        cases hg : ev.get? e.1 <;> simp [hg] at h2 h3
      rw [hb1 _ hnl]; exact haa e he
    rw [if_pos hin]
    have := box_iff w hn hno hpf hin hag hb hba hu hf
    by_cases hc : ∀ v ∈ bn.V, b' v = b v
    · rw [if_pos (this.2 hc), if_pos hc, mul_one, evWeight_congr w hc]
    · rw [if_neg fun h => hc (this.1 h), if_neg hc, mul_zero]
  rw [h1, sumAll_mul_left (G := fun _ => evWeight bn ev b) (fun _ _ _ => rfl),
    sumAll_hit l a hln (fun v hv => freeOf_mem v (hl v hv)) fun v hv => hb v (freeOf_mem v (hl v hv))]
  split_ifs <;> simp

theorem passW_measurable (bn : BayesNet N A) (ev : Dict N A) (l : List N) (a : Asg N) :
    Measurable fun u => ((passW bn ev l a u : ℚ) : ℝ) := by
  classical
  unfold passW
  have key : ∀ (F : (Fin (1 * (freeOf ev bn.V).length) → ℝ) → Asg N → ℚ), (∀ b, Measurable fun u => ((F u b : ℚ) : ℝ)) →
      ∀ (l : List N) (a : Asg N), Measurable fun u => ((sumAll bn.cardOf l (F u) a : ℚ) : ℝ) := by
    intro F hF l
    induction l with
    | nil => intro a; exact hF a
    | cons v l ih =>
      intro a
      simp only [sumAll, Rat.cast_sum]
      exact Finset.measurable_fun_sum _ fun x _ => ih _
  apply key
  intro b
  by_cases hb : InRange bn.cardOf bn.V b
  · simp only [if_pos hb]
    have : (fun u => (((if u ∈ box bn (freeOf ev bn.V) 1 (fun _ => some b) then evWeight bn ev b else 0 : ℚ)) : ℝ)) =
        (box bn (freeOf ev bn.V) 1 (fun _ => some b)).indicator fun _ => ((evWeight bn ev b : ℚ) : ℝ) := by
      funext u
      rw [Set.indicator_apply]
      split_ifs <;> simp
    rw [this]
    exact measurable_const.indicator (measurableSet_box _ _ _ _)
  · simp only [if_neg hb]; exact measurable_const

/-- Its mean is the joint probability summed over `l`. -/
theorem passW_integral {bn : BayesNet N A} (w : bn.WF) (hn : bn.Nonneg) (hno : bn.Normalised) {ev : Dict N A}
    {l : List N} (hln : l.Nodup) {a : Asg N} (ha : ∀ v ∈ bn.V, v ∉ l → a v < bn.cardOf v) :
    Integrable (fun u => ((passW bn ev l a u : ℚ) : ℝ)) (volume.restrict (cube (1 * (freeOf ev bn.V).length))) ∧
    ∫ u in cube (1 * (freeOf ev bn.V).length), ((passW bn ev l a u : ℚ) : ℝ) = ((sumAll bn.cardOf l bn.joint a : ℚ) : ℝ) := by
  classical
  have h1 : sumAll bn.cardOf l bn.joint a =
      sumAll bn.cardOf l (fun b => if InRange bn.cardOf bn.V b then bn.joint b else 0) a := by
    apply sumAll_congr _ hln
    intro b' hb1 hb2
    have hin : InRange bn.cardOf bn.V b' := by
      intro v hv
      by_cases hvl : v ∈ l
      · exact hb2 v hvl
      · rw [hb1 v hvl]; exact ha v hv hvl
    rw [if_pos hin]
  rw [h1]
  unfold passW
  apply integral_sumAll
  intro b
  by_cases hb : InRange bn.cardOf bn.V b
  · simp only [if_pos hb]
    have := integral_box w hn hno (L := freeOf ev bn.V) freeOf_mem 1 (sel := fun _ => some b)
      (by intro t b' ht he; cases he; exact hb) (evWeight bn ev b)
    refine ⟨this.1, ?_⟩
    rw [this.2]
    congr 1
    unfold selProb
    rw [Finset.prod_range_one]
    exact free_obs_joint bn ev b
  · simp only [if_neg hb]; simp

end PyBN
