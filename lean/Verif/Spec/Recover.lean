import Verif.Spec.Inference
import Verif.Spec.Sampling
import Verif.Spec.Learn
import Mathlib.Analysis.SpecialFunctions.Log.Basic

/-!
# Specification: learning a network back from its own samples
-/

namespace PyBN
variable {N A : Type _} [DecidableEq N] [DecidableEq A]

/-- `P(vs = a)`: the joint probability summed over all values of all other nodes. -/
def margOf (bn : BayesNet N A) (vs : List N) (a : Asg N) : ℚ := sumAll bn.cardOf (bn.V.filter fun u => u ∉ vs) bn.joint a

/-- A network whose samples are a data array showing all values: the nodes are the column numbers `0, 1, 2, …`, parents before children; the tables are
distributions; every value of every node has positive probability. -/
structure Sampleable (bn : BayesNet ℕ A) : Prop where
  columns : bn.V = List.range bn.V.length
  wf : bn.WF
  nonneg : bn.Nonneg
  normalised : bn.Normalised
  parentsFirst : bn.ParentsFirst
  possible : ∀ v ∈ bn.V, ∀ x < bn.cardOf v, 0 < margOf bn [v] fun _ => x

/-- A network `bn` to draw rows from and a network `target` to be given parameters: `target` has the structure of `bn`, with parents in node order and
matching children lists (as `BayesNet(edges)` builds it), its values and tables are whatever they are. -/
structure SameStructure (bn : BayesNet ℕ A) (target : BayesNet ℕ ℤ) : Prop extends Sampleable bn where
  nodes : target.V = bn.V
  described : ∀ v, (target.F.get? v).isSome ↔ v ∈ bn.V
  parents : ∀ v ∈ bn.V, target.parentsOf v = bn.parentsOf v
  ordered : ∀ v ∈ bn.V, (bn.parentsOf v).Sublist bn.V
  keys : ∀ v ∈ bn.V, v ∈ target.E.keys
  children : ∀ v ∈ bn.V, ∀ u, u ∈ bn.parentsOf v ↔ u ∈ bn.V ∧ v ∈ target.childrenOf u

/-- Evidence in terms of the value numbers `0, 1, 2, …` that occur in sampled rows. -/
structure CodeEvidence (bn : BayesNet ℕ A) (ev : Dict ℕ ℤ) : Prop where
  nodup : ev.keys.Nodup
  legal : ∀ e ∈ ev, e.1 ∈ bn.V ∧ ∃ k : ℕ, k < bn.cardOf e.1 ∧ e.2 = (k : ℤ)

/-- `x` for node `u`, `y` for the others. -/
def pairAsg (u x y : ℕ) : Asg ℕ := fun w => if w = u then x else y

/-- `P(u = x)`. -/
def prob1 (bn : BayesNet ℕ A) (u x : ℕ) : ℚ := margOf bn [u] fun _ => x

/-- `P(u = x, v = y)`. -/
def prob2 (bn : BayesNet ℕ A) (u v x y : ℕ) : ℚ := margOf bn [u, v] (pairAsg u x y)

/-- The mutual information of two nodes, with `e` added to every joint and product probability; `e = 0` gives the textbook quantity. -/
noncomputable def pairMI (e : ℝ) (bn : BayesNet ℕ A) (u v : ℕ) : ℝ :=
  ∑ x ∈ Finset.range (bn.cardOf u), ∑ y ∈ Finset.range (bn.cardOf v),
    ((prob2 bn u v x y : ℝ) + e) * Real.log (((prob2 bn u v x y : ℝ) + e) / ((prob1 bn u x : ℝ) * (prob1 bn v y : ℝ) + e))

/-- Two nodes are independent. -/
def NodesIndep (bn : BayesNet ℕ A) (u v : ℕ) : Prop :=
  ∀ x < bn.cardOf u, ∀ y < bn.cardOf v, prob2 bn u v x y = prob1 bn u x * prob1 bn v y

/-- The entropy of a node. -/
noncomputable def nodeH (bn : BayesNet ℕ A) (u : ℕ) : ℝ :=
  ∑ x ∈ Finset.range (bn.cardOf u), -((prob1 bn u x : ℝ) * Real.log (prob1 bn u x : ℝ))

/-- An array of (non-negative) integers read as natural numbers. -/
def natRows (rows : List (List ℤ)) : List (List ℕ) := rows.map fun r => r.map Int.toNat

end PyBN
