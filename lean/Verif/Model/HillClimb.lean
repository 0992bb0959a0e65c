import Verif.Model.Graph
import Verif.Model.BayesNetOps

/-!
# `pyBN/learning/structure/score/`: `hc`, `tabu`, `hc_rr`

The data matters to these searches only through `mutual_information(data[:, cols])`, which is the parameter
`mi : List N → Option ℚ` (`none` is NaN, whose comparisons are false); that call is assumed not to raise.  `nrow` is the number of
rows.  The initial `mle_estimator`/`info_score` calls only produce `max_score`, which is never read afterwards; they are assumed
to return and are not modelled.  Printing is not modelled, but everything else that depends on `debug` is.
`c` and `p` are the dictionaries `c_dict` and `p_dict`; `V` is `bn.nodes()` of the initial network.
-/

namespace PyBN
variable {N : Type _} [DecidableEq N]

/-- The strings `'Addition'`, `'Deletion'`, `'Reversal'`. -/
inductive Move where
  | addition | deletion | reversal
  deriving DecidableEq, Repr

/-- `(max_delta, (max_operation, max_arc))`; the second part is `none` as long as nothing was assigned in this pass. -/
abbrev Best (N : Type _) := ℚ × Option (Move × N × N)

/-- `c_dict` and `p_dict`. -/
structure CP (N : Type _) where
  c : Dict N (List N)
  p : Dict N (List N)
  deriving DecidableEq

/-- What a search run depends on besides the random draws. -/
structure HcEnv (N : Type _) where
  /-- `nx.find_cycle` as used by `would_cause_cycle` -/
  fc : Dict N (List N) → N → Bool
  /-- `mutual_information(data[:, cols])` -/
  mi : List N → Option ℚ
  nrow : ℚ
  /-- `bn.nodes()` -/
  V : List N
  restriction : Option (List (N × N))
  debug : Bool

/-- `nrow * (mi_old - mi_new)`. -/
def deltaOf (env : HcEnv N) (oldCols newCols : List N) : Option ℚ := do
  let a ← env.mi oldCols
  let b ← env.mi newCols
  pure (env.nrow * (a - b))

/-- hill_climbing.py:140-145: the score of adding `u -> v`, `pv = p_dict[v]`. -/
def addDelta (env : HcEnv N) (pv : List N) (u v : N) : Option ℚ := deltaOf env (v :: pv) ((v :: pv) ++ [u])

/-- hill_climbing.py:159-164: the score of deleting `u -> v`. -/
def delDelta (env : HcEnv N) (pv : List N) (u v : N) : Option ℚ := deltaOf env (v :: pv) ((v :: pv).filter (· ≠ u))

/-- hill_climbing.py:178-191: the score of reversing `u -> v`.  The first part takes the parents of `v` (not of `u`), the second
part replaces every remaining column by `u`. -/
def revDelta (env : HcEnv N) (pv : List N) (u v : N) : Option ℚ := do
  let d1 ← deltaOf env (u :: pv) ((u :: pv) ++ [v])
  let d2 ← deltaOf env (v :: pv) (((v :: pv).filter (· ≠ u)).map fun _ => u)
  pure (d1 + d2)

/-- `if delta_score > max_delta: ...`. -/
def bump (best : Best N) (d : Option ℚ) (m : Move) (u v : N) : Best N :=
  match d with
  | some d => if best.1 < d then (d, some (m, u, v)) else best
  | none => best

/-- hill_climbing.py:135-153: one pair of the addition scan (`blocked` is the tabu test of tabu.py:104; `hc` has none). -/
def considerAdd (env : HcEnv N) (blocked : Move → N → N → Bool) (st : CP N) (best : Best N) (uv : N × N) : Py (Best N) :=
  if blocked .addition uv.1 uv.2 then .ok best
  else do
    let cu ← st.c.get uv.1
    if uv.2 ∉ cu ∧ uv.1 ≠ uv.2 then do
      let cyc ← wouldCauseCycle env.fc st.c uv.1 uv.2 false
      if cyc = false ∧ (∀ r ∈ env.restriction, uv ∈ r) then do
        let pv ← st.p.get uv.2
        pure (bump best (addDelta env pv uv.1 uv.2) .addition uv.1 uv.2)
      else pure best
    else pure best

/-- hill_climbing.py:156-172: one pair of the deletion scan. -/
def considerDel (env : HcEnv N) (blocked : Move → N → N → Bool) (st : CP N) (best : Best N) (uv : N × N) : Py (Best N) :=
  if blocked .deletion uv.1 uv.2 then .ok best
  else do
    let cu ← st.c.get uv.1
    if uv.2 ∈ cu then do
      let pv ← st.p.get uv.2
      pure (bump best (delDelta env pv uv.1 uv.2) .deletion uv.1 uv.2)
    else pure best

/-- hill_climbing.py:175-199: one pair of the reversal scan. -/
def considerRev (env : HcEnv N) (blocked : Move → N → N → Bool) (st : CP N) (best : Best N) (uv : N × N) : Py (Best N) :=
  if blocked .reversal uv.1 uv.2 then .ok best
  else do
    let cu ← st.c.get uv.1
    if uv.2 ∈ cu then do
      let cyc ← wouldCauseCycle env.fc st.c uv.2 uv.1 true
      if cyc = false then do
        let pv ← st.p.get uv.2
        pure (bump best (revDelta env pv uv.1 uv.2) .reversal uv.1 uv.2)
      else pure best
    else pure best

/-- A `for` loop threading the best move found so far. -/
def scan (f : Best N → N × N → Py (Best N)) : Best N → List (N × N) → Py (Best N)
  | best, [] => .ok best
  | best, uv :: l => do
      let b ← f best uv
      scan f b l

/-- `for u in bn.nodes(): for v in bn.nodes()`. -/
def pairsOf (V : List N) : List (N × N) := V.flatMap fun u => V.map fun v => (u, v)

/-- hill_climbing.py:127-199: the three scans of one pass. -/
def bestMove (env : HcEnv N) (blocked : Move → N → N → Bool) (st : CP N) : Py (Best N) := do
  let b1 ← scan (considerAdd env blocked st) (0, none) (pairsOf env.V)
  let b2 ← scan (considerDel env blocked st) b1 (pairsOf env.V)
  scan (considerRev env blocked st) b2 (pairsOf env.V)

/-- `c_dict[u].append(v); p_dict[v].append(u)`. -/
def cpAppend (st : CP N) (u v : N) : Py (CP N) := do
  let cu ← st.c.get u
  let pv ← st.p.get v
  pure ⟨st.c.set u (cu ++ [v]), st.p.set v (pv ++ [u])⟩

/-- `c_dict[u].remove(v); p_dict[v].remove(u)`. -/
def cpRemove (st : CP N) (u v : N) : Py (CP N) := do
  let cu ← st.c.get u
  let cu' ← pyRemove cu v
  let pv ← st.p.get v
  let pv' ← pyRemove pv u
  pure ⟨st.c.set u cu', st.p.set v pv'⟩

/-- hill_climbing.py:202-222: performing the best move.  The four statements of the reversal are indented under `if debug:`
(217-222), so without `debug` nothing happens. -/
def applyMove (debug : Bool) (st : CP N) (m : Move) (u v : N) : Py (CP N) :=
  match m with
  | .addition => cpAppend st u v
  | .deletion => cpRemove st u v
  | .reversal =>
      if debug then do
        let st' ← cpRemove st u v
        cpAppend st' v u
      else .ok st

/-- One pass of the `while` loop as observed from outside: the structure before, the chosen move with its delta (if any), the
structure after. -/
structure Pass (N : Type _) where
  before : CP N
  move : Option (ℚ × Move × N × N)
  after : CP N
  deriving DecidableEq

/-- Why the loop of passes ended: a pass without improvement, or the iteration limit. -/
inductive Stop where
  | noImprovement | limit
  deriving DecidableEq, Repr

/-- hill_climbing.py:202-225: lines after the scans; `none` = no improvement.  If `max_delta != 0` but nothing was assigned the
code would hit an unbound (or stale) name. -/
def improve (debug : Bool) (st : CP N) (best : Best N) : Py (Option (ℚ × Move × N × N) × CP N) :=
  if best.1 ≠ 0 then
    match best.2 with
    | none => .error .nameError
    | some (m, u, v) => do
        let st' ← applyMove debug st m u v
        pure (some (best.1, m, u, v), st')
  else .ok (none, st)

/-- hill_climbing.py:127-225: the body of the `while` loop up to the iteration test. -/
def onePass (env : HcEnv N) (blocked : Move → N → N → Bool) (st : CP N) : Py (Pass N) := do
  let best ← bestMove env blocked st
  let r ← improve env.debug st best
  pure ⟨st, r.1, r.2⟩

/-- hill_climbing.py:124-232: the `while` loop; `left = max_iter - _iter` (0 if negative).  Returns why it stopped, the final
dictionaries and the history of passes. -/
def climb (env : HcEnv N) : ℕ → CP N → Py (Stop × CP N × List (Pass N))
  | 0, st => do
      let p ← onePass env (fun _ _ _ => false) st
      pure (if p.move = none then .noImprovement else .limit, p.after, [p])
  | left + 1, st => do
      let p ← onePass env (fun _ _ _ => false) st
      if p.move = none then pure (.noImprovement, p.after, [p])
      else do
        let r ← climb env left p.after
        pure (r.1, r.2.1, p :: r.2.2)

/-- hill_climbing.py:106-111 (tabu.py:74-79, random_restarts.py:73-78): the dictionaries without arcs. -/
def emptyDict (names : List N) : Dict N (List N) := names.map fun n => (n, [])

/-- The arguments of a search call: data (number of columns, rows, score oracle), restriction, debug flag. -/
structure HcArgs where
  fc : Dict ℕ (List ℕ) → ℕ → Bool
  mi : List ℕ → Option ℚ
  nrow : ℚ
  ncol : ℕ
  restriction : Option (List (ℕ × ℕ))
  debug : Bool

/-- The environment of the loop: `bn = BayesNet(c_dict)`, `bn.nodes()`. -/
def HcArgs.env (a : HcArgs) (V : List ℕ) : HcEnv ℕ := ⟨a.fc, a.mi, a.nrow, V, a.restriction, a.debug⟩

/-- `dict([(n,[]) for n in names])` twice. -/
def HcArgs.init (a : HcArgs) : CP ℕ := ⟨emptyDict (List.range a.ncol), emptyDict (List.range a.ncol)⟩

/-- hill_climbing.py:42-237 `hc(data, metric, max_iter, debug, restriction)`; also returns the history of passes.  `A` is the
type of node values (none are set). -/
def hc (A : Type) (h : HashOrder ℕ) (a : HcArgs) (maxIter : ℤ) : Py (BayesNet ℕ A × List (Pass ℕ)) := do
  let bn ← BayesNet.setStructure (A := A) h a.init.c none
  let r ← climb (a.env bn.V) maxIter.toNat a.init
  let res ← BayesNet.setStructure (A := A) h r.2.1.c none
  pure (res, r.2.2)

/-! ## tabu -/

/-- tabu.py:104, 128, 149: the tests against `tabu_list`. -/
def tabuBlocked (tl : List (Option (N × N × Move))) (m : Move) (u v : N) : Bool :=
  match m with
  | .addition => decide (some (u, v, Move.deletion) ∈ tl)
  | .deletion => decide (some (u, v, Move.addition) ∈ tl)
  | .reversal => decide (some (u, v, Move.reversal) ∈ tl)

/-- tabu.py:184, 190, 198: `tabu_list[_iter % 5] = ...`; `IndexError` when the list is shorter.  The entry of a reversal is written
under `if debug:`. -/
def tabuRecord (debug : Bool) (tl : List (Option (N × N × Move))) (iter : ℕ) (m : Move) (u v : N) :
    Py (List (Option (N × N × Move))) :=
  if m = .reversal ∧ debug = false then .ok tl
  else if iter % 5 < tl.length then .ok (tl.set (iter % 5) (some (u, v, m)))
  else .error .indexError

/-- tabu.py:184, 190, 198: the entry written after a pass (none without improvement). -/
def tabuUpdate (debug : Bool) (tl : List (Option (N × N × Move))) (iter : ℕ) :
    Option (ℚ × Move × N × N) → Py (List (Option (N × N × Move)))
  | none => .ok tl
  | some (_, m, u, v) => tabuRecord debug tl iter m u v

/-- tabu.py:87-208: the `while` loop; `iter` is `_iter`. -/
def tabuLoop (env : HcEnv N) : ℕ → ℕ → List (Option (N × N × Move)) → CP N → Py (CP N × List (Pass N))
  | 0, iter, tl, st => do
      let p ← onePass env (tabuBlocked tl) st
      let _ ← tabuUpdate env.debug tl iter p.move
      pure (p.after, [p])
  | left + 1, iter, tl, st => do
      let p ← onePass env (tabuBlocked tl) st
      let tl' ← tabuUpdate env.debug tl iter p.move
      if p.move = none then pure (p.after, [p])
      else do
        let r ← tabuLoop env left (iter + 1) tl' p.after
        pure (r.1, p :: r.2)

/-- tabu.py:29-213 `tabu(data, k, metric, max_iter, debug, restriction)`, `k` an integer (`[None]*k` is empty for `k ≤ 0`). -/
def tabu (A : Type) (h : HashOrder ℕ) (a : HcArgs) (k : ℤ) (maxIter : ℤ) : Py (BayesNet ℕ A × List (Pass ℕ)) := do
  let bn ← BayesNet.setStructure (A := A) h a.init.c none
  let r ← tabuLoop (a.env bn.V) maxIter.toNat 0 (List.replicate k.toNat none) a.init
  let res ← BayesNet.setStructure (A := A) h r.1.c none
  pure (res, r.2)

/-! ## hc_rr -/

/-- random_restarts.py:200-231: one `while True` loop; `op` 0 = addition, 1 = deletion, anything else = reversal.  The list holds the
pairs drawn by `np.random.choice`; when it is used up the loop is still running (`diverges`).  The result carries the unused
draws. -/
def randomOp (env : HcEnv N) (op : ℕ) (st : CP N) : List (N × N) → Py (CP N × List (N × N))
  | [] => .error .diverges
  | (u, v) :: draws => do
      let pv ← st.p.get v
      if op = 0 then
        if u ∉ pv ∧ u ≠ v then do
          let cyc ← wouldCauseCycle env.fc st.c u v false
          if cyc = false then do
            let st' ← cpAppend st u v
            pure (st', draws)
          else randomOp env op st draws
        else randomOp env op st draws
      else if op = 1 then
        if u ∈ pv then do
          let st' ← cpRemove st u v
          pure (st', draws)
        else randomOp env op st draws
      else
        if u ∈ pv then do
          let cyc ← wouldCauseCycle env.fc st.c v u true
          if cyc = false then do
            let st1 ← cpRemove st u v
            let st2 ← cpAppend st1 v u
            pure (st2, draws)
          else randomOp env op st draws
        else randomOp env op st draws

/-- random_restarts.py:197-231: `for _ in range(M)`.  `ops` are the values of `np.random.choice([0,1,2])`;
`np.random.choice(nodes, size=2, replace=False)` raises when there are fewer than two nodes. -/
def randomOps (env : HcEnv N) : ℕ → CP N → List ℕ → List (N × N) → Py (CP N × List ℕ × List (N × N))
  | 0, st, ops, draws => .ok (st, ops, draws)
  | _ + 1, _, [], _ => .error .diverges
  | m + 1, st, op :: ops, draws =>
      if env.V.length < 2 then .error .valueError
      else do
        let r ← randomOp env op st draws
        randomOps env m r.1 ops r.2

/-- random_restarts.py:87-238: the `while` loop, arranged by restarts: climb until no improvement or the limit; without improvement
and with a restart to spare (`_restarts < R`) make `M` random moves, set `_iter = 0`, and go on unless `1 > max_iter`. -/
def rrLoop (env : HcEnv N) (maxIter M : ℕ) :
    ℕ → ℕ → CP N → List ℕ → List (N × N) → Py (CP N × List (Pass N))
  | 0, left, st, _, _ => do
      let r ← climb env left st
      pure (r.2.1, r.2.2)
  | restarts + 1, left, st, ops, draws => do
      let r ← climb env left st
      if r.1 = .limit then pure (r.2.1, r.2.2)
      else do
        let q ← randomOps env M r.2.1 ops draws
        if maxIter = 0 then pure (q.1, r.2.2)
        else do
          let r' ← rrLoop env maxIter M restarts (maxIter - 1) q.1 q.2.1 q.2.2
          pure (r'.1, r.2.2 ++ r'.2)

/-- random_restarts.py:38-243 `hc_rr(data, M, R, metric, max_iter, debug, restriction)`. -/
def hcRr (A : Type) (h : HashOrder ℕ) (a : HcArgs) (M R : ℤ) (maxIter : ℤ) (ops : List ℕ) (draws : List (ℕ × ℕ)) :
    Py (BayesNet ℕ A × List (Pass ℕ)) := do
  let bn ← BayesNet.setStructure (A := A) h a.init.c none
  let r ← rrLoop (a.env bn.V) maxIter.toNat M.toNat R.toNat maxIter.toNat a.init ops draws
  let res ← BayesNet.setStructure (A := A) h r.1.c none
  pure (res, r.2)

end PyBN
