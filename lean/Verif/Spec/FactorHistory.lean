import Verif.Spec.Factor
import Verif.Spec.BayesNet

/-!
# Histories of factor operations

A pool of factor objects and a program that manipulates them.  Slot `none` is an object that must not be used any more
(a right operand larger than the left one is damaged by `multiply_factor`, see C11).
-/

namespace PyBN
variable {N A : Type _} [DecidableEq N] [DecidableEq A]

/-- One statement of a program over a pool of factors. -/
inductive FOp (N A : Type _) where
  | load (rv : N)                    -- pool.append(Factor(bn, rv))
  | mul (i j : ℕ)                    -- pool[i] *= pool[j]
  | sumout (i : ℕ) (rv : N)
  | maxout (i : ℕ) (rv : N)
  | reduce (i : ℕ) (rv : N) (val : A)
  | sumover (i : ℕ) (rv : N)
  | normalize (i : ℕ)

abbrev FPool (N : Type _) := List (Option (Factor N))

/-- The live factor in slot `i`. -/
def FPool.at (p : FPool N) (i : ℕ) : Py (Factor N) :=
  match p[i]? with
  | some (some f) => .ok f
  | _ => .error .indexError

/-- Execute one statement with the modelled methods. -/
def FOp.step (h : HashOrder N) (bn : BayesNet N A) (p : FPool N) : FOp N A → Py (FPool N)
  | .load rv => do let f ← Factor.init bn rv; pure (p ++ [some f])
  | .mul i j => do
      let f ← p.at i
      let g ← p.at j
      let (f', g') ← Factor.mul h f g
      if f.scope.length ≥ g.scope.length then pure (p.set i (some f'))
      else pure ((p.set j (if g' = g then some g' else none)).set i (some f'))
  | .sumout i rv => do let f ← p.at i; let f' ← Factor.sumout h f rv; pure (p.set i (some f'))
  | .maxout i rv => do let f ← p.at i; let f' ← Factor.maxout f rv; pure (p.set i (some f'))
  | .reduce i rv val => do let f ← p.at i; let f' ← Factor.reduce h bn f rv val; pure (p.set i (some f'))
  | .sumover i rv => do let f ← p.at i; let f' ← Factor.sumover f rv; pure (p.set i (some f'))
  | .normalize i => do let f ← p.at i; let f' ← Factor.normalize h f; pure (p.set i (some f'))

/-- The statement only names live slots, known nodes, variables in scope and legal values. -/
def FOp.Legal (bn : BayesNet N A) (p : FPool N) : FOp N A → Prop
  | .load rv => rv ∈ bn.V
  | .mul i j => (∃ f, p.at i = .ok f) ∧ ∃ g, p.at j = .ok g
  | .sumout i rv | .maxout i rv | .sumover i rv => ∃ f, p.at i = .ok f ∧ rv ∈ f.scope
  | .reduce i rv val => ∃ f, p.at i = .ok f ∧ rv ∈ f.scope ∧ val ∈ bn.valuesOf rv
  | .normalize i => ∃ f, p.at i = .ok f

/-- Run a program. -/
def FOp.run (h : HashOrder N) (bn : BayesNet N A) : FPool N → List (FOp N A) → Py (FPool N)
  | p, [] => .ok p
  | p, op :: ops => do let p' ← FOp.step h bn p op; FOp.run h bn p' ops

/-- Every statement is legal in the pool it meets. -/
def FOp.LegalRun (h : HashOrder N) (bn : BayesNet N A) : FPool N → List (FOp N A) → Prop
  | _, [] => True
  | p, op :: ops => op.Legal bn p ∧ ∀ p', FOp.step h bn p op = .ok p' → FOp.LegalRun h bn p' ops

end PyBN
