import Verif.Py.Basic

/-!
# `pyBN/utils/graph.py`: `topsort`, `dfs_postorder`, `would_cause_cycle`, `mst`
-/

namespace PyBN
variable {N : Type _} [DecidableEq N]

/-- utils/graph.py:42-44: is `rv` a child of some key? (the list of keys in iteration order). -/
def hasParentKey (e : Dict N (List N)) (rv : N) : List N → Py Bool
  | [] => .ok false
  | p :: ps => do
      let c ← e.get p
      let r ← hasParentKey e rv ps
      pure (decide (rv ∈ c) || r)

/-- utils/graph.py:40-46: the initial queue. -/
def rootsLoop (e : Dict N (List N)) (ks : List N) : List N → Py (List N)
  | [] => .ok []
  | rv :: rvs => do
      let b ← hasParentKey e rv ks
      let r ← rootsLoop e ks rvs
      pure (if b then r else rv :: r)

/-- utils/graph.py:49-54: the queue loop.  `fuel` only makes the recursion structural: theorem `topsort_fuel`
shows that the amount supplied by `topsort` is never used up, for any dictionary. -/
def bfsLoop (e : Dict N (List N)) : ℕ → List N → List N → Py (List N)
  | _, [], visited => .ok visited
  | 0, _ :: _, _ => .error .diverges
  | fuel + 1, v :: queue, visited =>
      if v ∈ visited then bfsLoop e fuel queue visited
      else do
        let c ← e.get v
        bfsLoop e fuel (queue ++ c) (visited ++ [v])

/-- Number of pops that can happen: initial queue plus all child lists. -/
def bfsFuel (e : Dict N (List N)) (queue : List N) : ℕ := queue.length + (e.vals.map List.length).sum

/-- utils/graph.py:37-46: the initial queue, with or without an explicit root. -/
def initQueue (h : HashOrder N) (e : Dict N (List N)) (root : Option N) : Py (List N) :=
  match root with
  | some r => .ok [r]
  | none => rootsLoop e (h.iter e.keys) (h.iter e.keys)

/-- utils/graph.py:31-56 `topsort(edge_dict, root)`. -/
def topsort (h : HashOrder N) (e : Dict N (List N)) (root : Option N) : Py (List N) := do
  let queue ← initQueue h e root
  bfsLoop e (bfsFuel e queue) queue []

/-- utils/graph.py:58-59 `dfs_postorder(edge_dict, root)`. -/
def dfsPostorder (h : HashOrder N) (e : Dict N (List N)) (root : Option N) : Py (List N) := do
  let l ← topsort h e root
  pure l.reverse

/-! ## would_cause_cycle -/

/-- The edge dictionary with the arc `u -> v` added (`G.add_edge(u, v)`; parallel arcs collapse). -/
def gAddEdge (e : Dict N (List N)) (u v : N) : Dict N (List N) :=
  e.set u (if v ∈ (e.get? u).getD [] then (e.get? u).getD [] else (e.get? u).getD [] ++ [v])

/-- `G.remove_edge(u, v)`: raises when the arc is absent. -/
def gRemoveEdge (e : Dict N (List N)) (u v : N) : Py (Dict N (List N)) :=
  if v ∈ (e.get? u).getD [] then .ok (e.set u (((e.get? u).getD []).filter (· ≠ v))) else .error .networkxError

/-- utils/graph.py:14-27 `would_cause_cycle(e, u, v, reverse)`.  `findCycle g s` is networkx's
`nx.find_cycle(G, source=s)`: `true` when it returns, `false` when it raises. -/
def wouldCauseCycle (findCycle : Dict N (List N) → N → Bool) (e : Dict N (List N)) (u v : N) (reverse : Bool) : Py Bool :=
  if reverse then do
    let g ← gRemoveEdge e v u
    pure (findCycle (gAddEdge g u v) u)
  else .ok (findCycle (gAddEdge e u v) u)

/-! ## mst -/

/-- utils/graph.py:111-116: the first entry of the sorted items whose node is unreached and whose weight beats `best`
(`none` stands for `np.inf`). -/
def mstPick (unreached : List ℕ) (best : Option ℚ) : List (ℕ × ℚ) → Option (ℕ × ℚ)
  | [] => none
  | (sn, w) :: l =>
      if sn ∈ unreached ∧ (∀ b ∈ best, w < b) then some (sn, w) else mstPick unreached best l

/-- utils/graph.py:108-116: the loop over the reached nodes; the result is `(min_cost, source, sink)`. -/
def mstScan (hP : HashOrder (ℕ × ℚ)) (e : Dict ℕ (Dict ℕ ℚ)) (unreached : List ℕ) :
    Option (ℚ × ℕ × ℕ) → List ℕ → Py (Option (ℚ × ℕ × ℕ))
  | best, [] => .ok best
  | best, rn :: rs => do
      let d ← e.get rn
      match mstPick unreached (best.map (·.1)) (sortByQ (·.2) (hP.iter d)) with
      | some (sn, w) => mstScan hP e unreached (some (w, rn, sn)) rs
      | none => mstScan hP e unreached best rs

/-- utils/graph.py:105-128: `k` outer iterations to go. -/
def mstLoop (hP : HashOrder (ℕ × ℚ)) (e : Dict ℕ (Dict ℕ ℚ)) : ℕ → Dict ℕ (List ℕ) → List ℕ → List ℕ → Py (Dict ℕ (List ℕ))
  | 0, g, _, _ => .ok g
  | k + 1, g, reached, unreached => do
      let best ← mstScan hP e unreached none reached
      match best with
      | none => pure g
      | some (_, source, sink) => do
          let c ← g.get source
          let un ← pyRemove unreached sink
          mstLoop hP e k (g.set source (c ++ [sink])) (reached ++ [sink]) un

/-- utils/graph.py:61-130 `mst(edge_dict)`. -/
def mst (hP : HashOrder (ℕ × ℚ)) (e : Dict ℕ (Dict ℕ ℚ)) : Py (Dict ℕ (List ℕ)) :=
  mstLoop hP e e.length ((List.range e.length).map fun v => (v, [])) [0] ((List.range e.length).tail)

end PyBN
