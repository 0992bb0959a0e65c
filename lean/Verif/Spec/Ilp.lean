import Verif.Spec.BayesNet
import Verif.Model.Ilp

/-!
# What a solver of a 0/1 program must return
-/

namespace PyBN
variable {N A : Type _}

/-- A row holds for the values `s` of the variables. -/
def LpRow.Holds (s : N × ℤ → ℤ) : LpRow N → Prop
  | .sumOne l => (l.map s).sum = 1
  | .le x l => s x ≤ (l.map s).sum

/-- All variables are 0 or 1 and all rows hold. -/
def Ilp.Feasible (m : Ilp N A) (s : N × ℤ → ℤ) : Prop :=
  (∀ x ∈ m.vars, s x.key = 0 ∨ s x.key = 1) ∧ ∀ r ∈ m.rows, r.Holds s

/-- The objective. -/
def Ilp.cost (m : Ilp N A) (s : N × ℤ → ℤ) : ℚ := (m.vars.map fun x => (s x.key : ℚ) * x.weight).sum

/-- A feasible solution of least cost. -/
def Ilp.Optimal (m : Ilp N A) (s : N × ℤ → ℤ) : Prop := m.Feasible s ∧ ∀ t, m.Feasible t → m.cost s ≤ m.cost t

end PyBN
