import Verif.Spec.Recover
import Verif.Spec.CondIndep
import Verif.Model.Indep

/-!
# Specification: the conditional test on samples of a network
-/

namespace PyBN
variable {A : Type _} [DecidableEq A]

/-- `x` for node `u`, `y` for node `v`, `z` for the others. -/
def tripleAsg (u v x y z : ℕ) : Asg ℕ := fun t => if t = u then x else if t = v then y else z

/-- The conditional mutual information of nodes `u` and `v` given `w`, with `e` added to every denominator `P(w = z)`, to every joint probability and to both
conditional ones (compare `Indep.empCMIs`); `e = 0` gives the textbook quantity. -/
noncomputable def nodeCMI (e : ℝ) (bn : BayesNet ℕ A) (u v w : ℕ) : ℝ :=
  ∑ x ∈ Finset.range (bn.cardOf u), ∑ y ∈ Finset.range (bn.cardOf v), ∑ z ∈ Finset.range (bn.cardOf w),
    let a := tripleAsg u v x y z
    ((margOf bn [u, v, w] a : ℝ) + e) *
      Real.log (((margOf bn [u, v, w] a : ℝ) / ((margOf bn [w] a : ℝ) + e) + e) /
        ((margOf bn [u, w] a : ℝ) / ((margOf bn [w] a : ℝ) + e) * ((margOf bn [v, w] a : ℝ) / ((margOf bn [w] a : ℝ) + e)) + e))

/-- Every combination of values of three nodes has probability at least 1/200. -/
def NoRareCells (bn : BayesNet ℕ A) (u v w : ℕ) : Prop :=
  ∀ x < bn.cardOf u, ∀ y < bn.cardOf v, ∀ z < bn.cardOf w, 1 / 200 ≤ margOf bn [u, v, w] (tripleAsg u v x y z)

/-- No combination of values of all the nodes is rarer than 1/200. -/
def NoRareRows (bn : BayesNet ℕ A) : Prop := ∀ a, InRange bn.cardOf bn.V a → 1 / 200 ≤ bn.joint a

open Classical in
/-- The test `mi_test(data[:, cols]) > alpha` of `pc` and the others, on given data. -/
noncomputable def dataGt (rows : List (List ℕ)) (alpha : ℝ) (cols : List ℕ) : Bool :=
  decide (∃ p, Indep.miTest cols.length (Indep.select cols rows) = .ok p ∧ p.gt alpha)

open Classical in
/-- The test `mi_test(data[:, cols]) < alpha` of `gs` and `iamb`, on given data. -/
noncomputable def dataLt (rows : List (List ℕ)) (alpha : ℝ) (cols : List ℕ) : Bool :=
  decide (∃ p, Indep.miTest cols.length (Indep.select cols rows) = .ok p ∧ p.lt alpha)

/-- The association `mi_test(data[:, cols], test=False)` of `iamb`, on given data (0 where it raises). -/
noncomputable def dataMI (rows : List (List ℕ)) (cols : List ℕ) : ℚ :=
  match Indep.miTestMI cols.length (Indep.select cols rows) with
  | .ok q => q
  | .error _ => 0

end PyBN
