import Verif.Model.Edit
import Verif.Model.EmpDist

/-!
# Specifications for C201 and the exact failures of `EmpiricalDistribution`
-/

namespace PyBN

namespace HNet
variable {N A : Type _}

/-- The operation asks for something the network, as its reader sees it, has no entry for: `remove_edge(u, v)`, `reverse_arc(u, v)` and the
list `children(u)` for a `u` without entry in `E`; `set_cpt`, `set_parents`, `set_values` and the lists `parents(v)`, `values(v)`, `cpt(v)` for a
node without entry in `F`. -/
def Unknown (bn : BayesNet N A) : Op N A → Prop
  | .removeEdge u _ | .reverseArc u _ | .pokeChildren u _ => u ∉ Dict.keys bn.E
  | .setCpt v _ | .setParents v _ | .setValues v _ | .pokeParents v _ | .pokeValues v _ | .pokeCpt v _ => v ∉ Dict.keys bn.F
  | _ => False

/-- The operations that look up one entry and then cannot fail any more. -/
def OneLookup : Op N A → Prop
  | .addEdge _ _ | .removeEdge _ _ | .reverseArc _ _ => False
  | _ => True

end HNet

namespace EmpDist

/-- Python's rule: integers and strings are hashable, lists never, a tuple iff each of its elements is. -/
inductive Hashable : Arg → Prop
  | int (i : ℤ) : Hashable (.int i)
  | str (s : String) : Hashable (.str s)
  | tup (l : List Arg) : (∀ a ∈ l, Hashable a) → Hashable (.tup l)

end EmpDist
end PyBN
