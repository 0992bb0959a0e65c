import Verif.Spec.Rounded

/-!
# Specification of summation in rounded arithmetic
-/

namespace PyBN

/-- `fsum` adds non-negative numbers in some order, with at most one rounding per summand on the way of each to the total. -/
def SumsTo (u : ℚ) (fsum : List ℚ → ℚ) : Prop := ∀ l : List ℚ, (∀ x ∈ l, 0 ≤ x) → Near u l.length l.sum (fsum l)

end PyBN
