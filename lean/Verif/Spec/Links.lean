import Verif.Spec.FactorizationOps
import Verif.Spec.FillIn

/-!
# Which variables of a `Factorization` share a factor

Only the families of the network and the list of calls are looked at.
-/

namespace PyBN
open Factorization
variable {N A : Type _} [DecidableEq N] [DecidableEq A]

/-- The nodes whose tables the object started from (or was refreshed to), and the variables summed or maximised out since. -/
structure Trail (N : Type _) where
  nodes : List N
  merged : List N

namespace Trail
open Classical

/-- What one call adds; `/` and `//` of a variable that is not there raise and add nothing. -/
noncomputable def step (bn : BayesNet N A) (m : Meaning N A) (t : Trail N) : Op N A → Trail N
  | .reduce _ _ => t
  | .sumOut v => if v ∈ m.vars then ⟨t.nodes, t.merged ++ [v]⟩ else t
  | .maxOut v => if v ∈ m.vars then ⟨t.nodes, t.merged ++ [v]⟩ else t
  | .refresh => ⟨bn.V, []⟩

/-- What a sequence of calls leaves. -/
noncomputable def steps (bn : BayesNet N A) : Meaning N A → Trail N → List (Op N A) → Trail N
  | _, t, [] => t
  | m, t, o :: os => steps bn (m.step bn o).1 (t.step bn m o) os

end Trail

/-- `u` and `w` occur together in the family (node and parents) of one of `nodes`. -/
def BayesNet.Together (bn : BayesNet N A) (nodes : List N) (u w : N) : Prop := ∃ z ∈ nodes, u ∈ bn.fam z ∧ w ∈ bn.fam z

/-- Some factor of the object mentions both. -/
def Share (p : Factorization N A) (u w : N) : Prop := ∃ f ∈ p.phi, u ∈ f.scope ∧ w ∈ f.scope

end PyBN
