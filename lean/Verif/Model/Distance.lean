import Verif.Model.BayesNetOps
import Verif.Model.Edit

/-!
# `pyBN/utils/structure_distance.py` and `markov_blanket` of `pyBN/utils/markov_blanket.py`
-/

namespace PyBN
namespace BayesNet
variable {N A : Type _} [DecidableEq N] [DecidableEq A]

/-- structure_distance.py:62-64 (and 77-79 with the networks exchanged): the inner loop for one node; `y.children(rv)` is looked
up once per child. -/
def lostChildren (x y : BayesNet N A) (rv : N) : Py ℕ := do
  let c ← x.children rv
  let ls ← pyMap (fun child => do let yc ← y.children rv; pure (if child ∉ yc then 1 else 0)) c
  pure ls.sum

/-- structure_distance.py:59-64: what one node adds to the count. -/
def missingAt (x y : BayesNet N A) (rv : N) : Py ℕ :=
  if y.hasNode rv = false then x.degree rv else lostChildren x y rv

/-- structure_distance.py:52-65 `missing_edges(x, y)`; the running total is written as a sum. -/
def missingEdges (x y : BayesNet N A) : Py ℕ := do
  let ls ← pyMap (missingAt x y) x.V
  pure ls.sum

/-- structure_distance.py:74-79: what one node adds to the count. -/
def extraAt (x y : BayesNet N A) (rv : N) : Py ℕ :=
  if x.hasNode rv = false then y.degree rv else lostChildren y x rv

/-- structure_distance.py:67-80 `extra_edges(x, y)`. -/
def extraEdges (x y : BayesNet N A) : Py ℕ := do
  let ls ← pyMap (extraAt x y) y.V
  pure ls.sum

/-- structure_distance.py:89-92: what one node adds.  The test of line 91 does not mention the child. -/
def wrongWayAt (x y : BayesNet N A) (rv : N) : Py ℕ :=
  if x.hasNode rv = true then do
    let c ← x.children rv
    let ls ← pyMap (fun _ => do let p ← y.parents rv; pure (if rv ∈ p then 1 else 0)) c
    pure ls.sum
  else pure 0

/-- structure_distance.py:82-93 `incorrect_direction_edges(x, y)`. -/
def incorrectDirectionEdges (x y : BayesNet N A) : Py ℕ := do
  let ls ← pyMap (wrongWayAt x y) x.V
  pure ls.sum

/-- structure_distance.py:95-96 `hamming(x, y)`. -/
def hamming (x y : BayesNet N A) : Py ℕ := do
  let a ← missingEdges x y
  let b ← extraEdges x y
  let c ← incorrectDirectionEdges x y
  pure (a + b + c)

end BayesNet

namespace HNet
variable {N A : Type _} [DecidableEq N] [DecidableEq A]

/-- markov_blanket.py:42: `dict([(rv, bn.parents(rv) + bn.children(rv)) for rv in bn.nodes()])`; `+` makes a new list object. -/
def mbAlloc (b : HNet N) : List N → Heap N A → Dict N ℕ → Py (Heap N A × Dict N ℕ)
  | [], h, mb => .ok (h, mb)
  | rv :: vs, h, mb =>
      match b.F.get? rv, b.E.get? rv with
      | some d, some a =>
          mbAlloc b vs { h with names := h.names ++ [h.nm d.parents ++ h.nm a] } (mb.set rv h.names.length)
      | _, _ => .error .keyError

/-- markov_blanket.py:46-48: the loop over the parents of one child. -/
def mbParents (mb : Dict N ℕ) (rv : N) : List N → Heap N A → Py (Heap N A)
  | [], h => .ok h
  | p :: ps, h =>
      if p ≠ rv then
        match mb.get? rv with
        | some a => mbParents mb rv ps (h.putN a (h.nm a ++ [p]))
        | none => .error .keyError
      else mbParents mb rv ps h

/-- markov_blanket.py:45-48: the loop over the children of one node. -/
def mbChildren (b : HNet N) (mb : Dict N ℕ) (rv : N) : List N → Heap N A → Py (Heap N A)
  | [], h => .ok h
  | c :: cs, h =>
      match b.F.get? c with
      | some d => do
          let h' ← mbParents mb rv (h.nm d.parents) h
          mbChildren b mb rv cs h'
      | none => .error .keyError

/-- markov_blanket.py:44-48: the loop over the nodes. -/
def mbNodes (b : HNet N) (mb : Dict N ℕ) : List N → Heap N A → Py (Heap N A)
  | [], h => .ok h
  | rv :: vs, h =>
      match b.E.get? rv with
      | some a => do
          let h' ← mbChildren b mb rv (h.nm a) h
          mbNodes b mb vs h'
      | none => .error .keyError

/-- markov_blanket.py:23-49 `markov_blanket(bn)`: the new heap and the dictionary of references to the blanket lists.
The lists iterated over are read when their loop starts (they are not changed while it runs: the lists appended to are new). -/
def markovBlanket (h : Heap N A) (b : HNet N) : Py (Heap N A × Dict N ℕ) := do
  let r ← mbAlloc b (h.nm b.V) h []
  let h' ← mbNodes b r.2 (r.1.nm b.V) r.1
  pure (h', r.2)

end HNet
end PyBN
