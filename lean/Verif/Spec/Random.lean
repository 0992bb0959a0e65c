import Mathlib.Probability.Independence.Basic
import Mathlib.MeasureTheory.Measure.Lebesgue.Basic

/-!
# Specification: the random-number source

What `np.random` is assumed to deliver: a sequence of independent random numbers, each uniform on `[0, 1)`, on some probability space.
-/

namespace PyBN
open MeasureTheory ProbabilityTheory

/-- `U 0, U 1, …` are independent and each is uniformly distributed on `[0, 1)` (Lebesgue measure). -/
structure Uniforms {Ω : Type} [MeasurableSpace Ω] (P : Measure Ω) (U : ℕ → Ω → ℝ) : Prop where
  meas : ∀ i, Measurable (U i)
  indep : iIndepFun U P
  unif : ∀ i, P.map (U i) = volume.restrict (Set.Ico 0 1)

end PyBN
