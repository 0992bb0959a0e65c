import Verif.Model.BayesNetOps

/-!
# `pyBN/utils/graph.py`: `make_chordal`

`isChordal` is `nx.is_chordal`, a parameter.  The edges of the moral graph are tuples and the edges added here are lists, which Python never
considers equal; so the two kinds are kept apart.  The optional arguments `v`, `e` are pairs given by the caller (tuples).
-/

namespace PyBN
namespace Chordal
variable {N A : Type _} [DecidableEq N] [DecidableEq A]

/-- graph.py:173, 195-196: the part of the state that changes: the edges added to `chordal_E`, and `temp_E`. -/
structure St (N : Type _) where
  added : List (N × N)
  temp : List (N × N)

/-- graph.py:190: `[n for e in temp_E for n in e if v in e and n != v]`. -/
def adjList (v : N) (temp : List (N × N)) : List N :=
  temp.flatMap fun e => if v = e.1 ∨ v = e.2 then [e.1, e.2].filter (· ≠ v) else []

/-- graph.py:193-196: the test and the two `append`s for one pair. -/
def addPair (a1 a2 : N) (st : St N) : St N :=
  if a1 ≠ a2 then
    if (a1, a2) ∉ st.added ∧ (a2, a1) ∉ st.added then ⟨st.added ++ [(a1, a2)], st.temp ++ [(a1, a2)]⟩ else st
  else st

/-- graph.py:187-202: one step of `for v in temp_V`. -/
def step (h : HashOrder N) (st : St N) (v : N) : St N :=
  let adj := h.iter (adjList v st.temp).dedup
  let st' := adj.foldl (fun s a1 => adj.foldl (fun s a2 => addPair a1 a2 s) s) st
  ⟨st'.added, st'.temp.filter fun e => v ≠ e.1 ∧ v ≠ e.2⟩

/-- graph.py:182-183: the nodes of `nx.Graph(edges)`. -/
def nodesOf (e : List (N × N)) : List N := (e.flatMap fun x => [x.1, x.2]).dedup

/-- `nx.Graph(edges).degree()[v]`: the number of neighbours. -/
def degree (e : List (N × N)) (v : N) : ℕ := (adjList v e).dedup.length

/-- graph.py:182-185: the order of elimination: increasing degree in the graph before any edge is added. -/
def elimOrder (h : HashOrder N) (e : List (N × N)) : List N := sortBy (degree e) (h.iter (nodesOf e))

/-- graph.py:187-202: the edges `chordal_E` after the loop over `vs`. -/
def fillIn (h : HashOrder N) (vs : List N) (e : List (N × N)) : List (N × N) := e ++ (vs.foldl (step h) ⟨[], e⟩).added

/-- graph.py:132-207 `make_chordal(bn, v, e)`: the edges of the returned graph.  `v and e` is false if either list is empty. -/
def makeChordal (isChordal : List (N × N) → Bool) (h : HashOrder N) (hP : HashOrder (N × N)) (bn : BayesNet N A)
    (ve : Option (List N × List (N × N))) : Py (List (N × N)) := do
  let e ← bn.moralizedEdges hP
  if isChordal e then pure e
  else
    match ve with
    | some (v, e') => if v ≠ [] ∧ e' ≠ [] then pure (fillIn h v e') else pure (fillIn h (elimOrder h e) e)
    | none => pure (fillIn h (elimOrder h e) e)

end Chordal
end PyBN
