import Verif.Spec.Constraint

/-!
# Specification for the incremental-association algorithms
-/

namespace PyBN

/-- The variables outside the blanket `mb` of `t`, in order of iteration. -/
def outside (h : HashOrder ℕ) (n t : ℕ) (mb : List ℕ) : List ℕ := h.iter ((List.range n).filter fun v => decide (v ≠ t ∧ v ∉ mb))

/-- `m` is the first variable of `l` whose association `f` is the largest, and that association exceeds `-1`. -/
def Strongest (f : ℕ → ℚ) (l : List ℕ) (m : ℕ) : Prop :=
  ∃ p q, l = p ++ m :: q ∧ (∀ c ∈ p, f c < f m) ∧ (∀ c ∈ q, f c ≤ f m) ∧ -1 < f m

/-- A pass `for x in L: if P x L: L.remove(x)` over a list that it changes: `ShrinkRun P pre suf r` - with the list `pre ++ suf` and the iterator in
front of `suf`, the pass ends with the list `r`.  Removing `x` moves the iterator past the element after `x`. -/
inductive ShrinkRun (P : ℕ → List ℕ → Prop) : List ℕ → List ℕ → List ℕ → Prop
  | done (pre) : ShrinkRun P pre [] pre
  | keep (pre x suf r) : ¬ P x (pre ++ x :: suf) → ShrinkRun P (pre ++ [x]) suf r → ShrinkRun P pre (x :: suf) r
  | last (pre x) : P x (pre ++ [x]) → ShrinkRun P pre [x] pre
  | drop (pre x y suf r) : P x (pre ++ x :: y :: suf) → ShrinkRun P (pre ++ [y]) suf r → ShrinkRun P pre (x :: y :: suf) r

/-- The second, fourth, ... element of a list. -/
def everySecond : List ℕ → List ℕ
  | _ :: y :: l => y :: everySecond l
  | _ => []

/-- The neighbours of `x` that are neither `y` nor neighbours of `y`. -/
def privateNb (e : Dict ℕ (List ℕ)) (x y : ℕ) : List ℕ := (nb e x).filter fun v => decide (v ≠ y ∧ v ∉ nb e y)

/-- The conditioning candidates for `y` and `z` around `x`: the blanket of `y`, or that of `z` when it is properly contained in the former (both without
`x`, `y`, `z`-partner). -/
def condSet (mb : Dict ℕ (List ℕ)) (y z x : ℕ) : List ℕ :=
  let b := (nb mb y).dedup.filter fun v => decide (v ≠ x ∧ v ≠ z)
  let c := (nb mb z).dedup.filter fun v => decide (v ≠ x ∧ v ≠ y)
  if (∀ v ∈ c, v ∈ b) ∧ ¬ (∀ v ∈ b, v ∈ c) then c else b

/-- Some test of `y` and `z` given `x` and fewer than all of the conditioning candidates has a p-value below the level. -/
def Reverses (lt : List ℕ → Bool) (h : HashOrder ℕ) (mb : Dict ℕ (List ℕ)) (y z x : ℕ) : Prop :=
  ∃ s, s.Sublist (h.iter (condSet mb y z x)) ∧ s.length < (condSet mb y z x).length ∧ lt (y :: z :: x :: s) = true

end PyBN
