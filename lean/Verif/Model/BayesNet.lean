import Verif.Py.Basic

/-!
# `pyBN/classes/bayesnet.py`: class `BayesNet` (value-level part)

Aliasing between lists held by a network is *not* represented here; see `Model/Edit.lean` for the editing
operations.  `N` is the type of node names, `A` the type of node values.
-/

namespace PyBN

/-- `bn.F[rv]`: bayesnet.py:14-21, 119-122.  The three keys are assumed present. -/
structure NodeData (N A : Type _) where
  parents : List N
  values : List A
  cpt : List ℚ
  deriving DecidableEq

/-- bayesnet.py:45-86: the attributes `V`, `E`, `F`. -/
structure BayesNet (N A : Type _) where
  V : List N
  E : Dict N (List N)
  F : Dict N (NodeData N A)

namespace BayesNet
variable {N A : Type _} [DecidableEq N] [DecidableEq A]

/-- bayesnet.py:198-199 `cpt(rv)`. -/
def cpt (bn : BayesNet N A) (rv : N) : Py (List ℚ) := do
  let d ← bn.F.get rv
  pure d.cpt

/-- bayesnet.py:201-202 `card(rv)`. -/
def card (bn : BayesNet N A) (rv : N) : Py ℕ := do
  let d ← bn.F.get rv
  pure d.values.length

/-- bayesnet.py:204-207 `scope(rv)`: the node followed by its parents. -/
def scope (bn : BayesNet N A) (rv : N) : Py (List N) := do
  let d ← bn.F.get rv
  pure (rv :: d.parents)

/-- bayesnet.py:209-210 `parents(rv)`. -/
def parents (bn : BayesNet N A) (rv : N) : Py (List N) := do
  let d ← bn.F.get rv
  pure d.parents

/-- bayesnet.py:212-213 `children(rv)`. -/
def children (bn : BayesNet N A) (rv : N) : Py (List N) := bn.E.get rv

/-- bayesnet.py:218-219 `values(rv)`. -/
def values (bn : BayesNet N A) (rv : N) : Py (List A) := do
  let d ← bn.F.get rv
  pure d.values

/-- bayesnet.py:215-216 `degree(rv)`. -/
def degree (bn : BayesNet N A) (rv : N) : Py ℕ := do
  let p ← bn.parents rv
  let c ← bn.children rv
  pure (p.length + c.length)

/-- bayesnet.py:221-226 `value_idx(rv, val)`: `-1` (after printing a message) when the value is unknown. -/
def valueIdx (bn : BayesNet N A) (rv : N) (val : A) : Py ℤ := do
  let d ← bn.F.get rv
  match pyIndex d.values val with
  | .ok n => pure (n : ℤ)
  | .error _ => pure (-1)

/-- bayesnet.py:164-168 `node_idx(rv)`. -/
def nodeIdx (bn : BayesNet N A) (rv : N) : ℤ :=
  match pyIndex bn.V rv with
  | .ok n => (n : ℤ)
  | .error _ => -1

/-- bayesnet.py:170-171 `has_node(rv)`. -/
def hasNode (bn : BayesNet N A) (rv : N) : Bool := decide (rv ∈ bn.V)

/-- bayesnet.py:173-174 `has_edge(u, v)`. -/
def hasEdge (bn : BayesNet N A) (u v : N) : Py Bool := do
  let c ← bn.E.get u
  pure (decide (v ∈ c))

end BayesNet
end PyBN
