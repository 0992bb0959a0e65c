import Mathlib.Logic.Relation
import Mathlib.Data.List.Chain
import Mathlib.Data.Set.Basic

/-!
# Specification: d-separation, and independence tests that answer by it

The textbook definitions (Koller and Friedman, chapter 3), for a directed graph given by its arcs:
`P u v` says that `u` is a parent of `v`.
-/

namespace PyBN
namespace DSep
variable {N : Type _}

/-- A directed acyclic graph over the variables `0 .. n-1`. -/
structure IsDag (n : ℕ) (P : ℕ → ℕ → Prop) : Prop where
  lt : ∀ u v, P u v → u < n ∧ v < n
  acyclic : ∀ v, ¬ Relation.TransGen P v v

/-- Two variables joined by an arc. -/
def Adjacent (P : N → N → Prop) (u v : N) : Prop := P u v ∨ P v u

/-- A path (in the undirected sense, without repetition) that is active given `S`: each collider `a → b ← c` on it has a descendant
(possibly itself) in `S`, every other inner variable is outside `S`. -/
structure ActiveTrail (P : N → N → Prop) (S : Set N) (l : List N) : Prop where
  nodup : l.Nodup
  chain : l.IsChain (Adjacent P)
  collider : ∀ l1 a b c l2, l = l1 ++ a :: b :: c :: l2 → P a b → P c b → ∃ s ∈ S, Relation.ReflTransGen P b s
  other : ∀ l1 a b c l2, l = l1 ++ a :: b :: c :: l2 → ¬ (P a b ∧ P c b) → b ∉ S

/-- `x` and `y` are d-separated by `S`: no path between them is active. -/
def Separated (P : N → N → Prop) (x y : N) (S : Set N) : Prop :=
  ¬ ∃ l, l.head? = some x ∧ l.getLast? = some y ∧ ActiveTrail P S l

/-- The Markov blanket of `x`: its parents, its children and the other parents of its children. -/
def InBlanket (P : N → N → Prop) (x y : N) : Prop := P y x ∨ P x y ∨ (y ≠ x ∧ ∃ c, P x c ∧ P y c)

/-- Tests that find dependence exactly when the graph says so.  A test gets the list `x :: y :: S` of columns: is `x` dependent on `y`
given `S`? -/
def FindsDependence (n : ℕ) (P : ℕ → ℕ → Prop) (lt : List ℕ → Bool) : Prop :=
  ∀ x y S, (x :: y :: S).Nodup → (∀ v ∈ x :: y :: S, v < n) → (lt (x :: y :: S) = true ↔ ¬ Separated P x y {s | s ∈ S})

/-- Tests that find independence exactly when the graph says so. -/
def FindsIndependence (n : ℕ) (P : ℕ → ℕ → Prop) (gt : List ℕ → Bool) : Prop :=
  ∀ x y S, (x :: y :: S).Nodup → (∀ v ∈ x :: y :: S, v < n) → (gt (x :: y :: S) = true ↔ Separated P x y {s | s ∈ S})

end DSep
end PyBN
