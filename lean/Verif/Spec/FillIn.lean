import Verif.Spec.Chordal

/-!
# Walks through earlier nodes
-/

namespace PyBN
namespace Chordal

/-- A walk along the edges `E` from `a` to `b` all of whose inner nodes satisfy `P`. -/
inductive Via {N : Type _} (E : N → N → Prop) (P : N → Prop) : N → N → Prop where
  | edge {a b : N} : E a b → Via E P a b
  | step {a c b : N} : E a c → P c → Via E P c b → Via E P a b

end Chordal
end PyBN
