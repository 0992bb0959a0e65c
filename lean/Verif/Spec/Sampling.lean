import Verif.Spec.BayesNet
import Mathlib.Algebra.Order.Field.Basic
import Mathlib.MeasureTheory.Measure.Lebesgue.Basic

/-!
# Specification of sampling

None of these definitions is used by the model.
-/

namespace PyBN
namespace BayesNet
variable {N A : Type _} [DecidableEq N]

/-- Every node is listed after all its parents. -/
def ParentsFirst (bn : BayesNet N A) : Prop :=
  ∀ pre v post, bn.V = pre ++ v :: post → ∀ p ∈ bn.parentsOf v, p ∈ pre

/-- `P(v's index < i | parents)`: the cumulative probability of the first `i` values of `v`. -/
def cum (bn : BayesNet N A) (v : N) (a : Asg N) (i : ℕ) : ℚ := ∑ x ∈ Finset.range i, bn.prob v (a.upd v x)

/-- Every CPT row sums to one up to `tol`. -/
def NearNormalised (bn : BayesNet N A) (tol : ℚ) : Prop :=
  ∀ v ∈ bn.V, ∀ a, InRange bn.cardOf (bn.parentsOf v) a → |bn.cum v a (bn.cardOf v) - 1| ≤ tol

/-- The sample `s` (node to value) is the assignment `a` (node to value index). -/
def Shows (bn : BayesNet N A) (s : Dict N A) (a : Asg N) : Prop :=
  ∀ v ∈ bn.V, ∃ x, s.get? v = some x ∧ (bn.valuesOf v)[a v]? = some x

/-- The random number `u` falls into the part of `[0, 1)` belonging to the value `a v` of `v`: the unit interval is divided among the
values of `v` in proportion to `P(v = x | parents)`. -/
def Falls {K : Type _} [Field K] [LinearOrder K] (bn : BayesNet N A) (a : Asg N) (v : N) (u : K) : Prop :=
  ((bn.cum v a (a v) / bn.cum v a (bn.cardOf v) : ℚ) : K) ≤ u ∧ u < ((bn.cum v a (a v + 1) / bn.cum v a (bn.cardOf v) : ℚ) : K)

/-- `d` is a table of estimates: one sub-table per node, over exactly the node's values, the entry of the `i`-th value of `v` being
`g v i`. -/
def Estimates (bn : BayesNet N A) [DecidableEq A] (d : Dict N (Dict A ℚ)) (g : N → ℕ → ℚ) : Prop :=
  d.keys = bn.V ∧ ∀ v ∈ bn.V, ∃ t, d.get? v = some t ∧ t.keys = bn.valuesOf v ∧
    ∀ i x, (bn.valuesOf v)[i]? = some x → t.get? x = some (g v i)

end BayesNet

/-- The number returned for value `x` of node `v` (0 if there is none). -/
def estimate {N A : Type _} [DecidableEq N] [DecidableEq A] (r : Py (Dict N (Dict A ℚ))) (v : N) (x : A) : ℚ :=
  match r with
  | .ok d => ((d.get? v).bind fun t => t.get? x).getD 0
  | .error _ => 0

/-- The unit cube `[0, 1)^m`; with Lebesgue measure it is the probability space of `m` independent uniform random numbers. -/
def cube (m : ℕ) : Set (Fin m → ℝ) := Set.univ.pi fun _ => Set.Ico 0 1

/-- The generator producing the numbers `u` (and nothing of interest afterwards). -/
def stream {m : ℕ} (u : Fin m → ℝ) : ℕ → ℝ := fun i => if h : i < m then u ⟨i, h⟩ else 0

end PyBN
