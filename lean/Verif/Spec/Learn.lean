import Verif.Spec.BayesNet
import Verif.Model.Learn

/-!
# Specification of parameter learning

None of these definitions is used by the model.
-/

namespace PyBN

/-- A network structure whose tables need not have been filled in: distinct nodes, every node described, known and
distinct parents. -/
structure BayesNet.Shape (bn : BayesNet ℕ ℤ) : Prop where
  nodup : bn.V.Nodup
  dom : ∀ v, (bn.F.get? v).isSome ↔ v ∈ bn.V
  fam_nodup : ∀ v ∈ bn.V, (v :: bn.parentsOf v).Nodup
  parents_mem : ∀ v ∈ bn.V, ∀ p ∈ bn.parentsOf v, p ∈ bn.V

/-- A rectangular array with at least one row and a column for every node. -/
structure Data.Fits (d : Data) (V : List ℕ) : Prop where
  ne : d.rows ≠ []
  rect : ∀ row ∈ d.rows, row.length = d.ncol
  cols : ∀ v ∈ V, v < d.ncol

/-- `vs` lists the distinct entries of column `i` in increasing order. -/
def Data.IsValues (d : Data) (i : ℕ) (vs : List ℤ) : Prop :=
  vs.Pairwise (· < ·) ∧ ∀ x, x ∈ vs ↔ ∃ row ∈ d.rows, row[i]? = some x

/-- Columns `i` and `j` have the same distinct entries (always the case when `i = j`, or when both take, say, the values 0 and 1). -/
def Data.SameValues (d : Data) (i j : ℕ) : Prop := ∀ x, (∃ row ∈ d.rows, row[i]? = some x) ↔ ∃ row ∈ d.rows, row[j]? = some x

/-- The row shows, for every variable of `fam`, the value that has index `a u` among the variable's values. -/
def Matches (vals : ℕ → List ℤ) (fam : List ℕ) (a : Asg ℕ) (row : List ℤ) : Prop :=
  ∀ u ∈ fam, (vals u)[a u]?.isSome ∧ row[u]? = (vals u)[a u]?

instance (vals : ℕ → List ℤ) (fam : List ℕ) (a : Asg ℕ) (row : List ℤ) : Decidable (Matches vals fam a row) := by
  unfold Matches; infer_instance

/-- The number of rows showing a configuration. -/
def Data.count (d : Data) (vals : ℕ → List ℤ) (fam : List ℕ) (a : Asg ℕ) : ℕ :=
  d.rows.countP fun row => decide (Matches vals fam a row)

/-- The index under which an observation is counted: its index among `vs`, or the last index when it is not in `vs`. -/
def seenAs (vs : List ℤ) (x : ℤ) : ℕ := if x ∈ vs then vs.idxOf x else vs.length - 1

/-- As `Matches`, but an observation outside the variable's values stands for the last value. -/
def MatchesOrLast (vals : ℕ → List ℤ) (fam : List ℕ) (a : Asg ℕ) (row : List ℤ) : Prop :=
  ∀ u ∈ fam, ∃ x ∈ row[u]?, a u = seenAs (vals u) x

instance (vals : ℕ → List ℤ) (fam : List ℕ) (a : Asg ℕ) (row : List ℤ) : Decidable (MatchesOrLast vals fam a row) := by
  unfold MatchesOrLast; infer_instance

end PyBN
