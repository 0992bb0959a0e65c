import Verif.Model.BayesNet
import Verif.Model.BayesNetOps

/-!
# `pyBN/classes/bayesnet.py`: editing operations and `copy`, with object identity

The attributes `V`, `E[u]`, `F[v]['parents']`, `F[v]['values']`, `F[v]['cpt']` are references to list objects.  The heap has one
store per element type; address 0 of each store is the list object created once when the class body is executed, as the default
value of the arguments `cpt=[]`, `parents=[]`, `values=[]` of `add_node` (bayesnet.py:120).
The dictionary `F` is owned by one network.  `E` is the caller's `edge_dict` object itself (bayesnet.py:342), so two networks can hold
the same one: since no operation below adds or removes a key of `E` (bayesnet.py:120-145), that is represented by two networks whose
`E` refers to the same list objects.
An operation returns the new state and the exception it raised, if any: effects before the exception remain.
-/

namespace PyBN

/-- The list objects. -/
structure Heap (N A : Type _) where
  names : List (List N)
  vals : List (List A)
  cpts : List (List ℚ)

/-- `F[rv]`: three references. -/
structure HNode where
  parents : ℕ
  vals : ℕ
  cpt : ℕ
  deriving DecidableEq

/-- A network object. -/
structure HNet (N : Type _) where
  V : ℕ
  E : Dict N ℕ
  F : Dict N HNode

namespace Heap
variable {N A : Type _}

/-- The list of names at an address. -/
def nm (h : Heap N A) (a : ℕ) : List N := (h.names[a]?).getD []
/-- The list of values at an address. -/
def vl (h : Heap N A) (a : ℕ) : List A := (h.vals[a]?).getD []
/-- The table at an address. -/
def ct (h : Heap N A) (a : ℕ) : List ℚ := (h.cpts[a]?).getD []

/-- In-place change of a list of names. -/
def putN (h : Heap N A) (a : ℕ) (l : List N) : Heap N A := { h with names := h.names.set a l }
/-- In-place change of a list of values. -/
def putV (h : Heap N A) (a : ℕ) (l : List A) : Heap N A := { h with vals := h.vals.set a l }
/-- In-place change of a table. -/
def putC (h : Heap N A) (a : ℕ) (l : List ℚ) : Heap N A := { h with cpts := h.cpts.set a l }

end Heap

namespace HNet
variable {N A : Type _} [DecidableEq N] [DecidableEq A]

/-- What a reader of the network sees. -/
def deref (h : Heap N A) (b : HNet N) : BayesNet N A where
  V := h.nm b.V
  E := b.E.map fun kv => (kv.1, h.nm kv.2)
  F := b.F.map fun kv => (kv.1, ⟨h.nm kv.2.parents, h.vl kv.2.vals, h.ct kv.2.cpt⟩)

/-- bayesnet.py:120-122 `add_node(rv)` with the default arguments: the references go to the shared default objects; no
entry of `E` is made. -/
def addNode (h : Heap N A) (b : HNet N) (rv : N) : Heap N A × HNet N :=
  (h.putN b.V (h.nm b.V ++ [rv]), { b with F := b.F.set rv ⟨0, 0, 0⟩ })

/-- `if not self.has_node(u): self.add_node(u)` (bayesnet.py:125-128). -/
def ensureNode (h : Heap N A) (b : HNet N) (rv : N) : Heap N A × HNet N :=
  if rv ∈ h.nm b.V then (h, b) else addNode h b rv

/-- bayesnet.py:129-133. -/
def linkEdge (h : Heap N A) (b : HNet N) (u v : N) : (Heap N A × HNet N) × Option PyErr :=
  match b.E.get? u with
  | none => ((h, b), some .keyError)
  | some a =>
      if v ∈ h.nm a then ((h, b), none)
      else
        let h1 := h.putN a (h.nm a ++ [v])
        match b.F.get? v with
        | none => ((h1, b), some .keyError)
        | some d => ((h1.putN d.parents (h1.nm d.parents ++ [u]), b), none)

/-- bayesnet.py:124-133 `add_edge(u, v)`. -/
def addEdge (h : Heap N A) (b : HNet N) (u v : N) : (Heap N A × HNet N) × Option PyErr :=
  let s1 := ensureNode h b u
  let s2 := ensureNode s1.1 s1.2 v
  linkEdge s2.1 s2.2 u v

/-- bayesnet.py:138-140 `remove_edge(u, v)`. -/
def removeEdge (h : Heap N A) (b : HNet N) (u v : N) : (Heap N A × HNet N) × Option PyErr :=
  match b.E.get? u with
  | none => ((h, b), some .keyError)
  | some a =>
      if v ∈ h.nm a then
        let h1 := h.putN a ((h.nm a).erase v)
        match b.F.get? v with
        | none => ((h1, b), some .keyError)
        | some d =>
            if u ∈ h1.nm d.parents then ((h1.putN d.parents ((h1.nm d.parents).erase u), b), none)
            else ((h1, b), some .valueError)
      else ((h, b), some .valueError)

/-- bayesnet.py:142-145 `reverse_arc(u, v)`. -/
def reverseArc (h : Heap N A) (b : HNet N) (u v : N) : (Heap N A × HNet N) × Option PyErr :=
  match b.E.get? u with
  | none => ((h, b), some .keyError)
  | some a =>
      if v ∈ h.nm a then
        let h1 := h.putN a ((h.nm a).erase v)
        match b.E.get? v with
        | none => ((h1, b), some .keyError)
        | some a' => ((h1.putN a' (h1.nm a' ++ [u]), b), none)
      else ((h, b), none)

/-- bayesnet.py:151-152 `set_cpt(rv, cpt)` with a new list object. -/
def setCpt (h : Heap N A) (b : HNet N) (rv : N) (l : List ℚ) : (Heap N A × HNet N) × Option PyErr :=
  match b.F.get? rv with
  | none => ((h, b), some .keyError)
  | some d => (({ h with cpts := h.cpts ++ [l] }, { b with F := b.F.set rv { d with cpt := h.cpts.length } }), none)

/-- bayesnet.py:154-155 `set_parents(rv, parents)` with a new list object. -/
def setParents (h : Heap N A) (b : HNet N) (rv : N) (l : List N) : (Heap N A × HNet N) × Option PyErr :=
  match b.F.get? rv with
  | none => ((h, b), some .keyError)
  | some d => (({ h with names := h.names ++ [l] }, { b with F := b.F.set rv { d with parents := h.names.length } }), none)

/-- bayesnet.py:157-158 `set_values(rv, values)` with a new list object. -/
def setValues (h : Heap N A) (b : HNet N) (rv : N) (l : List A) : (Heap N A × HNet N) × Option PyErr :=
  match b.F.get? rv with
  | none => ((h, b), some .keyError)
  | some d => (({ h with vals := h.vals ++ [l] }, { b with F := b.F.set rv { d with vals := h.vals.length } }), none)

/-- What a user can do to one network: the editing methods, and in-place changes of the lists the accessors return
(`bn.V`, `bn.children(u)`, `bn.parents(v)`, `bn.values(v)`, `bn.cpt(v)`: bayesnet.py:198-219 return the objects themselves). -/
inductive Op (N A : Type _)
  | addNode (rv : N) | addEdge (u v : N) | removeEdge (u v : N) | reverseArc (u v : N)
  | setCpt (rv : N) (l : List ℚ) | setParents (rv : N) (l : List N) | setValues (rv : N) (l : List A)
  | pokeV (l : List N) | pokeChildren (u : N) (l : List N) | pokeParents (v : N) (l : List N)
  | pokeValues (v : N) (l : List A) | pokeCpt (v : N) (l : List ℚ)

/-- One operation. -/
def step (h : Heap N A) (b : HNet N) : Op N A → (Heap N A × HNet N) × Option PyErr
  | .addNode rv => (addNode h b rv, none)
  | .addEdge u v => addEdge h b u v
  | .removeEdge u v => removeEdge h b u v
  | .reverseArc u v => reverseArc h b u v
  | .setCpt rv l => setCpt h b rv l
  | .setParents rv l => setParents h b rv l
  | .setValues rv l => setValues h b rv l
  | .pokeV l => ((h.putN b.V l, b), none)
  | .pokeChildren u l => match b.E.get? u with
      | none => ((h, b), some .keyError)
      | some a => ((h.putN a l, b), none)
  | .pokeParents v l => match b.F.get? v with
      | none => ((h, b), some .keyError)
      | some d => ((h.putN d.parents l, b), none)
  | .pokeValues v l => match b.F.get? v with
      | none => ((h, b), some .keyError)
      | some d => ((h.putV d.vals l, b), none)
  | .pokeCpt v l => match b.F.get? v with
      | none => ((h, b), some .keyError)
      | some d => ((h.putC d.cpt l, b), none)

/-- A history of operations; exceptions are caught by the caller and the next operation is attempted. -/
def run (h : Heap N A) (b : HNet N) : List (Op N A) → Heap N A × HNet N
  | [] => (h, b)
  | o :: os => run (step h b o).1.1 (step h b o).1.2 os

/-- bayesnet.py:108-112: the loop building the new `F`; each `deepcopy` makes its own list object. -/
def copyF (b : HNet N) : List N → Heap N A → Dict N HNode → Py (Heap N A × Dict N HNode)
  | [], h, F => .ok (h, F)
  | v :: vs, h, F =>
      match b.F.get? v with
      | none => .error .keyError
      | some d =>
          copyF b vs ⟨h.names ++ [h.nm d.parents], h.vals ++ [h.vl d.vals], h.cpts ++ [h.ct d.cpt]⟩
            (F.set v ⟨h.names.length, h.vals.length, h.cpts.length⟩)

/-- bayesnet.py:104-118 `copy()`.  `deepcopy(self.E)` keeps sharing *inside* `E`: modelled by duplicating the whole store of
name lists and shifting the references. -/
def copy (h : Heap N A) (b : HNet N) : Py (Heap N A × HNet N) := do
  let h1 : Heap N A := { h with names := h.names ++ [h.nm b.V] ++ h.names }
  let E' : Dict N ℕ := b.E.map fun kv => (kv.1, kv.2 + (h.names.length + 1))
  let (h2, F') ← copyF b (h.nm b.V) h1 []
  pure (h2, ⟨h.names.length, E', F'⟩)

/-- An edge (or value) dictionary of the caller, as seen through the heap. -/
def seeE (h : Heap N A) (E : Dict N ℕ) : Dict N (List N) := E.map fun kv => (kv.1, h.nm kv.2)

/-- See `seeE`. -/
def seeV (h : Heap N A) (d : Dict N ℕ) : Dict N (List A) := d.map fun kv => (kv.1, h.vl kv.2)

/-- bayesnet.py:350-351: without a value dictionary the fresh `[]` (line 348), otherwise the caller's own list object. -/
def valueRef (h : Heap N A) (vd : Option (Dict N ℕ)) (rv : N) : Py ℕ :=
  match vd with
  | none => .ok h.vals.length
  | some d => d.get rv

/-- bayesnet.py:344-351: the loop over the nodes.  Each turn makes three list objects: the parents, the (empty) table, and the empty
list of values (which stays unused if a value dictionary is given). -/
def buildF (V : List N) (E : Dict N ℕ) (vd : Option (Dict N ℕ)) :
    List N → Heap N A → Dict N HNode → Py (Heap N A × Dict N HNode)
  | [], h, F => .ok (h, F)
  | rv :: rs, h, F => do
      let ps ← BayesNet.parentList V (seeE h E) rv
      let va ← valueRef h vd rv
      buildF V E vd rs ⟨h.names ++ [ps], h.vals ++ [[]], h.cpts ++ [[]]⟩ (F.set rv ⟨h.names.length, va, h.cpts.length⟩)

/-- bayesnet.py:307-351 `set_structure(edge_dict, value_dict)` = `BayesNet(E, value_dict)` with object identity: `self.E` *is* the
caller's dictionary, `self.V` and the lists of parents and tables are new objects, the lists of values are the caller's. -/
def setStructureH (hO : HashOrder N) (h : Heap N A) (E : Dict N ℕ) (vd : Option (Dict N ℕ)) : Py (Heap N A × HNet N) := do
  let V ← topsort hO (seeE h E) none
  let r ← buildF V E vd V { h with names := h.names ++ [V] } []
  pure (r.1, ⟨h.names.length, E, r.2⟩)

end HNet
end PyBN
