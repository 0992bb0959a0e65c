import Verif.Model.Keyed
import Verif.Spec.Edit

/-!
# Specification of networks as dictionary keys
-/

namespace PyBN
namespace BayesNet
variable {N A : Type _} [DecidableEq N]

/-- Every node has an entry in the children dictionary and in the node dictionary. -/
def Described (bn : BayesNet N A) : Prop := ∀ v ∈ bn.V, v ∈ bn.E.keys ∧ v ∈ bn.F.keys

/-- The same set of nodes. -/
def SameNodes (x y : BayesNet N A) : Prop := ∀ v, v ∈ x.V ↔ v ∈ y.V

end BayesNet

/-- Operations that only touch the values or the tables of a network. -/
inductive HNet.Op.Parametric {N A : Type _} : HNet.Op N A → Prop
  | setCpt (rv l) : Parametric (.setCpt rv l)
  | setValues (rv l) : Parametric (.setValues rv l)
  | pokeValues (v l) : Parametric (.pokeValues v l)
  | pokeCpt (v l) : Parametric (.pokeCpt v l)

end PyBN
