import Verif.Model.FactorObjects

/-!
# What it means for factor objects not to disturb one another
-/

namespace PyBN
namespace Obj
variable {N A : Type _} [DecidableEq N] [DecidableEq A]

/-- Every object of the store refers to lists and dictionaries that exist, `card` and `stride` being two dictionaries.  Different objects may share them. -/
def Store.Sound (s : Store N) : Prop :=
  ∀ o ∈ s.objs, o.scope < s.heap.scopes.length ∧ o.card < s.heap.dicts.length ∧ o.stride < s.heap.dicts.length ∧ o.card ≠ o.stride

/-- Whoever held a factor object before still finds it, and reads in it what he read before. -/
def Undisturbed (s s' : Store N) : Prop := ∀ r f, s.view r = some f → s'.view r = some f

/-- Reading the factorization object `p` (its factors in order, its `map_factors`, its `map_assignment`) gives `v`. -/
def Reads (s : Store N) (p : Fzn N A) (v : Factorization N A) : Prop :=
  p.phi.map s.view = v.phi.map some ∧ p.mapFactors.map (fun kv => (kv.1, s.view kv.2)) = v.mapFactors.map (fun kv => (kv.1, some kv.2)) ∧
    p.mapAssignment = v.mapAssignment

/-- The calls of a program that are made on its `i`-th factorization. -/
def callsOn (i : ℕ) : List (Cmd N A) → List (Factorization.Op N A)
  | [] => []
  | .make _ :: cs => callsOn i cs
  | .call j o :: cs => if j = i then o :: callsOn i cs else callsOn i cs

/-- What a method of `Factor` makes of the contents of an object; `g` is what is read in the right operand of a product. -/
def methodOf (h : HashOrder N) (bn : BayesNet N A) (s : Store N) (f : Factor N) : FOp N A → Py (Factor N)
  | .mul q => match s.view q with
      | some g => do let r ← f.mul h g; pure r.1
      | none => .error .runtimeError
  | .sub rv val => f.reduce h bn rv val
  | .div rv => f.sumout h rv
  | .floordiv rv => f.maxout rv

end Obj
end PyBN
