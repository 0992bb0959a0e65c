import Verif.Model.Factor
import Mathlib.Algebra.BigOperators.Group.Finset.Basic

/-!
# Specification of factors

A *factor over a network with cardinalities `c`* stands for a function of assignments.  An assignment maps every
variable to a value index.  None of these definitions is used by the model.
-/

namespace PyBN

/-- A (possibly partial in effect) joint assignment: the value index of each variable. -/
abbrev Asg (N : Type _) := N → ℕ

/-- `a` gives every variable of `vs` a legal value index, `c v` being the number of values of `v`. -/
def InRange {N : Type _} (c : N → ℕ) (vs : List N) (a : Asg N) : Prop := ∀ v ∈ vs, a v < c v

/-- `a` with `v` set to `x`. -/
def Asg.upd {N : Type _} [DecidableEq N] (a : Asg N) (v : N) (x : ℕ) : Asg N :=
  fun u => if u = v then x else a u

/-- The position of an assignment in a flat table whose variables are listed fastest first:
`a v0 + c v0 * (a v1 + c v1 * (a v2 + ...))`.  This is the documented layout of a CPT with the list
`child, parent1, parent2, ...` (README / bayesnet.py:17-20). -/
def enc {N : Type _} (c : N → ℕ) : List N → Asg N → ℕ
  | [], _ => 0
  | v :: o, a => a v + c v * enc c o a

/-- Sum of `F` over all legal values of the variables `vs`, the other variables being as in `a`. -/
def sumAll {N : Type _} [DecidableEq N] (c : N → ℕ) : List N → (Asg N → ℚ) → Asg N → ℚ
  | [], F, a => F a
  | v :: vs, F, a => ∑ x ∈ Finset.range (c v), sumAll c vs F (a.upd v x)

/-- The variables listed in `o` are laid out one after another, fastest first, the first one having stride `p`. -/
def IsLayout {N : Type _} (c s : N → ℕ) : List N → ℕ → Prop
  | [], _ => True
  | v :: o, p => s v = p ∧ IsLayout c s o (p * c v)

namespace Factor
variable {N : Type _} [DecidableEq N]

/-- The stride of `v` (0 when absent). -/
def strideOf (f : Factor N) (v : N) : ℕ := (f.stride.get? v).getD 0

/-- The documented address of an assignment: `sum(value_index * stride)` over the scope. -/
def pos (f : Factor N) (a : Asg N) : ℕ := (f.scope.map fun v => a v * f.strideOf v).sum

/-- The table entry addressed by an assignment. -/
def entry (f : Factor N) (a : Asg N) : Option ℚ := f.cpt[f.pos a]?

/-- The value at an assignment (0 outside the table). -/
def val (f : Factor N) (a : Asg N) : ℚ := (f.entry a).getD 0

/-- A well-formed factor over variables with cardinalities `c`. -/
structure WF (c : N → ℕ) (f : Factor N) : Prop where
  scope_nodup : f.scope.Nodup
  card_pos : ∀ v ∈ f.scope, 0 < c v
  card_nodup : f.card.keys.Nodup
  card_eq : ∀ v, f.card.get? v = if v ∈ f.scope then some (c v) else none
  stride_nodup : f.stride.keys.Nodup
  stride_dom : ∀ v, (f.stride.get? v).isSome ↔ v ∈ f.scope
  layout : ∃ o : List N, o.Perm f.scope ∧ IsLayout c f.strideOf o 1
  cpt_len : f.cpt.length = (f.scope.map c).prod

/-- All table entries are non-negative (probability or likelihood tables). -/
def Nonneg (f : Factor N) : Prop := ∀ x ∈ f.cpt, 0 ≤ x

end Factor
end PyBN
