import Verif.Spec.Random
import Verif.Spec.Sampling
import Mathlib.Probability.Independence.InfinitePi
import Mathlib.Probability.StrongLaw
import Mathlib.Probability.Moments.SubGaussian
import Mathlib.MeasureTheory.Constructions.Pi

/-!
# The blocks of random numbers consumed by successive passes are independent and uniform on the cube
-/

namespace PyBN
open MeasureTheory ProbabilityTheory

variable {Ω : Type} [MeasurableSpace Ω] {P : Measure Ω} {U : ℕ → Ω → ℝ}

/-- The random numbers of pass `t` if every pass consumes `L` of them. -/
def blockOf (U : ℕ → Ω → ℝ) (L t : ℕ) (ω : Ω) : Fin L → ℝ := fun j => U (t * L + j) ω

theorem uniforms_prob (hU : Uniforms P U) : IsProbabilityMeasure P := hU.indep.isProbabilityMeasure

theorem blockOf_measurable (hU : Uniforms P U) (L t : ℕ) : Measurable (blockOf U L t) :=
  measurable_pi_lambda _ fun _ => hU.meas _

theorem block_index_inj (L : ℕ) : Function.Injective fun p : ℕ × Fin L => p.1 * L + (p.2 : ℕ) := by
  rintro ⟨t, j⟩ ⟨t', j'⟩ h
  simp only at h
  have hL : 0 < L := by have := j.2; omega
  have h1 : (t * L + j) / L = t := by rw [mul_comm, Nat.mul_add_div hL, Nat.div_eq_of_lt j.2, add_zero]
  have h2 : (t' * L + j') / L = t' := by rw [mul_comm, Nat.mul_add_div hL, Nat.div_eq_of_lt j'.2, add_zero]
  have ht : t = t' := by rw [← h1, h, h2]
  subst ht
  have : (j : ℕ) = j' := by omega
  rw [Prod.mk.injEq]; exact ⟨rfl, Fin.ext this⟩

/-- The blocks of different passes are independent. -/
theorem blocks_indep (hU : Uniforms P U) (L : ℕ) : iIndepFun (blockOf U L) P := by
  have hP := uniforms_prob hU
  have h1 : iIndepFun (fun p : ℕ × Fin L => U (p.1 * L + p.2)) P := hU.indep.precomp (block_index_inj L)
  rw [iIndepFun_iff_map_fun_eq_infinitePi_map (fun p => hU.meas _)] at h1
  have hpr : ∀ i, IsProbabilityMeasure (P.map (U i)) := fun i => Measure.isProbabilityMeasure_map (hU.meas i).aemeasurable
  have h2 : ∀ t : ℕ, P.map (blockOf U L t) = Measure.infinitePi fun j : Fin L => P.map (U (t * L + j)) := by
    intro t
    have : iIndepFun (fun j : Fin L => U (t * L + j)) P :=
      hU.indep.precomp (g := fun j : Fin L => t * L + (j : ℕ)) fun a b hab => Fin.ext (by simpa using hab)
    exact (iIndepFun_iff_map_fun_eq_infinitePi_map (fun j => hU.meas _)).1 this
  rw [iIndepFun_iff_map_fun_eq_infinitePi_map (fun t => blockOf_measurable hU L t)]
  have h3 := congrArg (Measure.map (MeasurableEquiv.curry ℕ (Fin L) ℝ)) h1
  rw [Measure.infinitePi_map_curry (fun (t : ℕ) (j : Fin L) => P.map (U (t * L + (j : ℕ)))), Measure.map_map (by fun_prop)
    (measurable_pi_lambda _ fun p => hU.meas _)] at h3
  have h4 : (fun t : ℕ => P.map (blockOf U L t)) = fun t => Measure.infinitePi fun j : Fin L => P.map (U (t * L + j)) := funext h2
  rw [h4, ← h3]
  rfl

/-- Every block is uniform on the cube. -/
theorem block_law (hU : Uniforms P U) (L t : ℕ) : P.map (blockOf U L t) = volume.restrict (cube L) := by
  have hP := uniforms_prob hU
  have : iIndepFun (fun j : Fin L => U (t * L + j)) P :=
    hU.indep.precomp (g := fun j : Fin L => t * L + (j : ℕ)) fun a b hab => Fin.ext (by simpa using hab)
  have h1 := (iIndepFun_iff_map_fun_eq_pi_map (fun j => (hU.meas _).aemeasurable)).1 this
  have h2 : P.map (blockOf U L t) = Measure.pi fun j : Fin L => P.map (U (t * L + j)) := h1
  rw [h2]
  simp only [hU.unif]
  unfold cube
  rw [volume_pi, Measure.restrict_pi_pi]

/-- Almost surely all random numbers are in `[0, 1)`. -/
theorem uniforms_range (hU : Uniforms P U) : ∀ᵐ ω ∂P, ∀ i, 0 ≤ U i ω ∧ U i ω < 1 := by
  rw [ae_all_iff]
  intro i
  have : ∀ᵐ x ∂(P.map (U i)), x ∈ Set.Ico (0 : ℝ) 1 := by
    rw [hU.unif]; exact ae_restrict_mem measurableSet_Ico
  exact ae_of_ae_map (hU.meas i).aemeasurable this

/-- Functions of the blocks: independent, identically distributed, with the integral over the cube as mean. -/
theorem block_fun (hU : Uniforms P U) {L : ℕ} {g : (Fin L → ℝ) → ℝ} (hg : Measurable g) :
    iIndepFun (fun t ω => g (blockOf U L t ω)) P ∧
    (∀ t, IdentDistrib (fun ω => g (blockOf U L t ω)) (fun ω => g (blockOf U L 0 ω)) P P) ∧
    (∀ t, ∫ ω, g (blockOf U L t ω) ∂P = ∫ u in cube L, g u) ∧
    (∀ t, Integrable (fun ω => g (blockOf U L t ω)) P ↔ Integrable g (volume.restrict (cube L))) := by
  refine ⟨(blocks_indep hU L).comp (fun _ => g) fun _ => hg, fun t => ?_, fun t => ?_, fun t => ?_⟩
  · have : IdentDistrib (blockOf U L t) (blockOf U L 0) P P :=
      ⟨(blockOf_measurable hU L t).aemeasurable, (blockOf_measurable hU L 0).aemeasurable, by rw [block_law hU, block_law hU]⟩
    exact this.comp hg
  · rw [← block_law hU L t, integral_map (blockOf_measurable hU L t).aemeasurable hg.aestronglyMeasurable]
  · rw [← block_law hU L t, integrable_map_measure hg.aestronglyMeasurable (blockOf_measurable hU L t).aemeasurable]
    rfl

end PyBN
