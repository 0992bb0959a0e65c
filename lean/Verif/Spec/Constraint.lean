import Verif.Spec.Graph

/-!
# Specification for constraint-based structure learning

Graphs over the variables `0 .. n-1`, given as dictionaries from a variable to the list of its neighbours (or children).
-/

namespace PyBN

/-- The neighbours of `x` ([] for an unknown variable). -/
def nb (e : Dict ℕ (List ℕ)) (x : ℕ) : List ℕ := (Dict.get? e x).getD []

/-- An undirected graph over `0 .. n-1`: one entry per variable, duplicate-free, symmetric. -/
structure Undirected (n : ℕ) (e : Dict ℕ (List ℕ)) : Prop where
  keys : e.keys.Perm (List.range n)
  nodup : ∀ x, (nb e x).Nodup
  symm : ∀ x y, y ∈ nb e x → x ∈ nb e y
  lt : ∀ x y, y ∈ nb e x → y < n

/-- A dictionary of blankets: an entry for every variable, listing variables. -/
structure IsBlankets (n : ℕ) (mb : Dict ℕ (List ℕ)) : Prop where
  total : ∀ x < n, (Dict.get? mb x).isSome
  lt : ∀ x y, y ∈ nb mb x → y < n

/-- Margaritis' conditioning candidates for the pair `x`, `y`: the smaller blanket, without the other variable. -/
def candidateSet (mb : Dict ℕ (List ℕ)) (x y : ℕ) : List ℕ :=
  if (nb mb x).length < (nb mb y).length then (nb mb x).erase y else (nb mb y).erase x

/-- One pass `for y in columns: if y is new and D y S: S.append(y)`: started with the list `S` it ends with `r`. -/
inductive ScanRun (x : ℕ) (D : ℕ → List ℕ → Prop) : List ℕ → List ℕ → List ℕ → Prop
  | done (S) : ScanRun x D [] S S
  | add (y ys S r) : y ≠ x → y ∉ S → D y S → ScanRun x D ys (S ++ [y]) r → ScanRun x D (y :: ys) S r
  | skip (y ys S r) : (y = x ∨ y ∈ S ∨ ¬ D y S) → ScanRun x D ys S r → ScanRun x D (y :: ys) S r

/-- Passes over the columns `0 .. n-1` in this order, until one of them adds nothing. -/
inductive GrowRun (n x : ℕ) (D : ℕ → List ℕ → Prop) : List ℕ → List ℕ → Prop
  | stop (S) : ScanRun x D (List.range n) S S → GrowRun n x D S S
  | again (S S' r) : ScanRun x D (List.range n) S S' → S ≠ S' → GrowRun n x D S' r → GrowRun n x D S r

end PyBN
