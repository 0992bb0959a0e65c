import Mathlib.Data.ZMod.Defs
import Mathlib.Algebra.Group.Fin.Basic

/-!
# Chordal graphs

A graph is a list of pairs; the direction of a pair does not matter.
-/

namespace PyBN
namespace Chordal

/-- `a` and `b` are joined. -/
def Joined {N : Type _} (g : List (N × N)) (a b : N) : Prop := (a, b) ∈ g ∨ (b, a) ∈ g

/-- Every cycle of length at least four has a chord. -/
def IsChordal {N : Type _} (g : List (N × N)) : Prop :=
  ∀ n : ℕ, 4 ≤ n → ∀ c : ZMod n → N, Function.Injective c → (∀ i, Joined g (c i) (c (i + 1))) →
    ∃ i j, i ≠ j ∧ i ≠ j + 1 ∧ j ≠ i + 1 ∧ Joined g (c i) (c j)

/-- `v` is an end of an edge. -/
def Touched {N : Type _} (g : List (N × N)) (v : N) : Prop := ∃ u, Joined g v u

end Chordal
end PyBN
