import Verif.Spec.Inference
import Verif.Model.FactorizationOps

/-!
# What the operators of a `Factorization` mean

A factorization stands for a function of the variables it still mentions.  The operators change that function: reducing fixes a variable,
`/` sums it out, `//` maximises it out.  Nothing here looks at factors.
-/

namespace PyBN
open Classical Factorization
variable {N A : Type _} [DecidableEq N] [DecidableEq A]

/-- The observable state: the variables left, the function of them, what was recorded as observed, and the variables maximised out, in
order. -/
structure Meaning (N A : Type _) where
  vars : List N
  fn : Asg N → ℚ
  observed : N → Option A
  maxed : List N

namespace Meaning

/-- The product of the conditional tables of `nodes`. -/
def start (bn : BayesNet N A) (nodes : List N) : Meaning N A :=
  ⟨nodes.flatMap bn.fam, fun a => (nodes.map fun v => bn.prob v a).prod, fun _ => none, []⟩

/-- The state after one call, and the exception it raises. -/
noncomputable def step (bn : BayesNet N A) (m : Meaning N A) : Op N A → Meaning N A × Option PyErr
  | .reduce v x =>
      let seen := fun u => if u = v then some x else m.observed u
      if v ∈ m.vars then
        if x ∈ bn.valuesOf v then
          (⟨m.vars.filter (· ≠ v), fun a => m.fn (a.upd v ((bn.valuesOf v).idxOf x)), seen, m.maxed⟩, none)
        else (⟨m.vars, m.fn, seen, m.maxed⟩, some .valueError)
      else (⟨m.vars, m.fn, seen, m.maxed⟩, none)
  | .sumOut v =>
      if v ∈ m.vars then
        (⟨m.vars.filter (· ≠ v), fun a => ∑ x ∈ Finset.range (bn.cardOf v), m.fn (a.upd v x), m.observed, m.maxed⟩, none)
      else (m, some .indexError)
  | .maxOut v =>
      if v ∈ m.vars then
        (⟨m.vars.filter (· ≠ v), fun a => (((List.range (bn.cardOf v)).map fun x => m.fn (a.upd v x)).max?).getD 0, m.observed,
          m.maxed ++ [v]⟩, none)
      else (m, some .indexError)
  | .refresh => (start bn bn.V, none)

/-- The state after a sequence of calls, and the exceptions raised. -/
noncomputable def steps (bn : BayesNet N A) (m : Meaning N A) : List (Op N A) → Meaning N A × List (Option PyErr)
  | [] => (m, [])
  | o :: os =>
      let r := step bn m o
      let r' := steps bn r.1 os
      (r'.1, r.2 :: r'.2)

end Meaning

/-- The object `p` is in the state `m`: it mentions exactly the variables left, its product is the function, and its MAP attributes are as
recorded. -/
structure Shows (bn : BayesNet N A) (p : Factorization N A) (m : Meaning N A) : Prop where
  vars : ∀ v, Mentions p.phi v ↔ v ∈ m.vars
  value : ∀ a, InRange bn.cardOf m.vars a → prodVal p.phi a = m.fn a
  observed : ∀ v, p.mapAssignment.get? v = m.observed v
  maxed : p.mapFactors.map Prod.fst = m.maxed

end PyBN
