import Verif.Py.Basic
import Mathlib.Logic.Relation

/-!
# Specification of directed graphs given as edge dictionaries (key = node, value = list of children)
-/

namespace PyBN
variable {N : Type _} [DecidableEq N]

/-- `u → v` is an arc of the edge dictionary. -/
def Arc (e : Dict N (List N)) (u v : N) : Prop := ∃ l, Dict.get? e u = some l ∧ v ∈ l

/-- `v` can be reached from `u` along zero or more arcs. -/
def Reach (e : Dict N (List N)) : N → N → Prop := Relation.ReflTransGen (Arc e)

/-- There is no directed cycle. -/
def NoCycle (e : Dict N (List N)) : Prop := ∀ v, ¬ Relation.TransGen (Arc e) v v

/-- Every child is itself a key of the dictionary. -/
def ChildrenAreKeys (e : Dict N (List N)) : Prop := ∀ u v, Arc e u v → v ∈ e.keys

/-- `x` occurs before `y` in `l` and `y` occurs in `l`. -/
def Before (l : List N) (x y : N) : Prop := ∃ l1 l2, l = l1 ++ y :: l2 ∧ x ∈ l1

/-- The documented contract of `nx.find_cycle(G, source=s)`: it returns (rather than raising) exactly when some directed
cycle can be reached from `s`. -/
def FindsCycles (findCycle : Dict N (List N) → N → Bool) : Prop :=
  ∀ e s, findCycle e s = true ↔ ∃ w, Reach e s w ∧ Relation.TransGen (Arc e) w w

/-- The graph after the edit `would_cause_cycle` is asked about: `u -> v` added, and `v -> u` removed if `reverse`. -/
def EditedArc (e : Dict N (List N)) (u v : N) (reverse : Bool) (a b : N) : Prop :=
  (Arc e a b ∧ ¬ (reverse = true ∧ a = v ∧ b = u)) ∨ (a = u ∧ b = v)

/-- The plain graph of a weighted edge dictionary (key = node, value = dict child -> weight). -/
def unweighted {W : Type _} (e : Dict N (Dict N W)) : Dict N (List N) := e.map fun kv => (kv.1, kv.2.keys)

/-- The weight of the arc `a -> b`. -/
def weightOf {W : Type _} (e : Dict N (Dict N W)) (a b : N) : Option W := (Dict.get? e a).bind fun d => Dict.get? d b

/-- Prim's greedy growth from `root`: `R` are the nodes reached so far, `T` the arcs chosen, in order.  Each step adds a
cheapest arc leaving the reached set. -/
inductive Grown {W : Type _} [LE W] (e : Dict N (Dict N W)) (root : N) : List N → List (N × N) → Prop
  | start : Grown e root [root] []
  | step {R T s t w} : Grown e root R T → s ∈ R → t ∉ R → weightOf e s t = some w →
      (∀ s' ∈ R, ∀ t' ∉ R, ∀ w', weightOf e s' t' = some w' → w ≤ w') → Grown e root (R ++ [t]) (T ++ [(s, t)])

end PyBN
