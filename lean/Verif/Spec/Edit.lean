import Verif.Spec.BayesNet
import Verif.Model.Edit

/-!
# Specification of edit histories
-/

namespace PyBN
namespace BayesNet
variable {N A : Type _} [DecidableEq N]

/-- `v` is listed among the children of `u` iff `u` is listed among the parents of `v`. -/
def Consistent (bn : BayesNet N A) : Prop := ∀ u v, v ∈ bn.childrenOf u ↔ u ∈ bn.parentsOf v

/-- Nodes, children dictionary and node dictionary talk about the same nodes; no list has repetitions. -/
structure StructWF (bn : BayesNet N A) : Prop where
  domE : ∀ v, (bn.E.get? v).isSome ↔ v ∈ bn.V
  domF : ∀ v, (bn.F.get? v).isSome ↔ v ∈ bn.V
  nodupC : ∀ v, (bn.childrenOf v).Nodup
  nodupP : ∀ v, (bn.parentsOf v).Nodup

end BayesNet

/-- An arc edit. -/
inductive ArcEdit (N : Type _)
  | add (u v : N) | remove (u v : N)

namespace ArcEdit
variable {N : Type _}

/-- Both ends of the edited arc. -/
def ends : ArcEdit N → N × N
  | .add u v => (u, v)
  | .remove u v => (u, v)

/-- The set of arcs after an edit. -/
def apply (arcs : N → N → Prop) : ArcEdit N → N → N → Prop
  | .add u v => fun a b => arcs a b ∨ (a = u ∧ b = v)
  | .remove u v => fun a b => arcs a b ∧ ¬ (a = u ∧ b = v)

/-- The set of arcs after a history. -/
def applyAll (arcs : N → N → Prop) : List (ArcEdit N) → N → N → Prop
  | [] => arcs
  | e :: es => applyAll (apply arcs e) es

/-- The method call. -/
def op {A : Type _} : ArcEdit N → HNet.Op N A
  | .add u v => .addEdge u v
  | .remove u v => .removeEdge u v

end ArcEdit

namespace HNet
variable {N A : Type _} [DecidableEq N]

/-- Addresses of the lists of names a network refers to. -/
def nAddr (b : HNet N) : List ℕ := b.V :: (b.E.map Prod.snd ++ b.F.map fun kv => kv.2.parents)

/-- Addresses of its lists of values. -/
def vAddr (b : HNet N) : List ℕ := b.F.map fun kv => kv.2.vals

/-- Addresses of its tables. -/
def cAddr (b : HNet N) : List ℕ := b.F.map fun kv => kv.2.cpt

/-- All references are to existing objects (and the default-argument objects exist). -/
structure InBounds (h : Heap N A) (b : HNet N) : Prop where
  n : ∀ a ∈ b.nAddr, a < h.names.length
  v : ∀ a ∈ b.vAddr, a < h.vals.length
  c : ∀ a ∈ b.cAddr, a < h.cpts.length
  n0 : 0 < h.names.length
  v0 : 0 < h.vals.length
  c0 : 0 < h.cpts.length

/-- The network refers to none of the three default-argument objects of `add_node`. -/
def NoDefault (b : HNet N) : Prop := 0 ∉ b.nAddr ∧ 0 ∉ b.vAddr ∧ 0 ∉ b.cAddr

/-- No list of names is referred to twice: the node list, each children list and each parents list are separate objects. -/
def Separate (b : HNet N) : Prop := b.nAddr.Nodup

/-- A fresh object graph for a network value: every list is an object of its own, as `BayesNet(E, value_dict)` and the readers
build them (`bayesnet.py:60-86`, `io/read.py`), in a world in which `add_node`'s default lists are still empty. -/
def fresh (bn : BayesNet N A) : Heap N A × HNet N :=
  (⟨[] :: bn.V :: (bn.E.map Prod.snd ++ bn.F.map fun kv => kv.2.parents), [] :: bn.F.map (fun kv => kv.2.values),
    [] :: bn.F.map fun kv => kv.2.cpt⟩,
   ⟨1, bn.E.zipIdx.map (fun p => (p.1.1, p.2 + 2)),
    bn.F.zipIdx.map fun p => (p.1.1, ⟨p.2 + 2 + bn.E.length, p.2 + 1, p.2 + 1⟩)⟩)

/-- The operation makes a node with `add_node`'s default arguments. -/
def Creates (h : Heap N A) (b : HNet N) : Op N A → Prop
  | .addNode _ => True
  | .addEdge u v => u ∉ h.nm b.V ∨ v ∉ h.nm b.V
  | _ => False

/-- States reachable from a pair of networks by any interleaving of operations on either one, where nodes with default arguments
are only made while the other network holds no default object. -/
inductive Interleave [DecidableEq A] (h : Heap N A) (b c : HNet N) : Heap N A → HNet N → HNet N → Prop
  | start : Interleave h b c h b c
  | left {h1 b1 c1} (o : Op N A) : Interleave h b c h1 b1 c1 → (Creates h1 b1 o → c1.NoDefault) →
      Interleave h b c (step h1 b1 o).1.1 (step h1 b1 o).1.2 c1
  | right {h1 b1 c1} (o : Op N A) : Interleave h b c h1 b1 c1 → (Creates h1 c1 o → b1.NoDefault) →
      Interleave h b c (step h1 c1 o).1.1 b1 (step h1 c1 o).1.2

end HNet
end PyBN
