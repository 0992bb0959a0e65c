import Verif.Model.BayesNetOps
import Verif.Py.Num

/-!
# `pyBN/learning/parameter/mle.py`, `bayes.py`: `mle_estimator`, `bayes_estimator`

Node names are column numbers (the code evaluates `row[rv]`), data values are integers.  Tables hold exact rationals; `round(x, 5)` is
exact decimal rounding.  `mle_fast` is not modelled.  An exception is modelled by the error alone; the partial effects it leaves on `bn` are modelled in
Model/LearnState.lean.  `bayes_estimator` with a repeated node (`nodes=[0, 0]`) normalises its table twice; here it is normalised once.
-/

namespace PyBN

/-- A two-dimensional integer array: the number of columns and the rows. -/
structure Data where
  ncol : ℕ
  rows : List (List ℤ)

/-- `data[:, i]`. -/
def Data.col (d : Data) (i : ℕ) : Py (List ℤ) :=
  if i < d.ncol then pyMap (fun row => pyIdx row (i : ℤ)) d.rows else .error .indexError

/-- Insert into a strictly increasing list. -/
def insertUniq (x : ℤ) : List ℤ → List ℤ
  | [] => [x]
  | y :: l => if x < y then x :: y :: l else if x = y then y :: l else y :: insertUniq x l

/-- `np.unique(l)`: the distinct elements in increasing order. -/
def npUnique : List ℤ → List ℤ
  | [] => []
  | x :: l => insertUniq x (npUnique l)

namespace BayesNet

/-- mle.py:142-144, bayes.py:81-82: `for i, n in enumerate(nodes): bn.F[n]['values'] = list(np.unique(data[:,i]))`; `i` is the
*position* of the node in `nodes`. -/
def setValues (data : Data) : ℕ → List ℕ → Dict ℕ (NodeData ℕ ℤ) → Py (Dict ℕ (NodeData ℕ ℤ))
  | _, [], F => .ok F
  | i, n :: ns, F => do
      let c ← data.col i
      let d ← F.get n
      setValues data (i + 1) ns (F.set n { d with values := npUnique c })

/-- mle.py:148-152, bayes.py:86-89: fresh tables; `fill p_idx` is the initial entry. -/
def setTables (fill : ℕ → Py ℚ) : List ℕ → BayesNet ℕ ℤ → Py (BayesNet ℕ ℤ)
  | [], bn => .ok bn
  | rv :: rvs, bn => do
      let ps ← bn.parents rv
      let cs ← pyMap bn.card ps
      let c ← bn.card rv
      let x ← fill (cs.prod * c)
      let d ← bn.F.get rv
      setTables fill rvs { bn with F := bn.F.set rv { d with cpt := List.replicate (cs.prod * c) x } }

/-- mle.py:156-158, bayes.py:94: `obs_dict`. -/
def observe (nodes : List ℕ) (row : List ℤ) : Py (Dict ℕ ℤ) := do
  let ps ← pyMap (fun (rv : ℕ) => do let x ← pyIdx row (rv : ℤ); pure (rv, x)) nodes
  pure (Dict.ofPairs ps)

/-- `l[off] += 1`. -/
def incr (l : List ℚ) (off : ℤ) : Py (List ℚ) := do
  let x ← pyIdx l off
  pure (l.set (if 0 ≤ off then off.toNat else (l.length + off).toNat) (x + 1))

/-- mle.py:162-165, bayes.py:96-99: the loop over the nodes for one row.  The tables being counted are kept in `cnt`; in
`bayes_estimator` they are those of `bn` itself, but `cpt_indices` only looks at their length. -/
def countNodes (hE : HashOrder (ℕ × ℤ)) (hI : HashOrder ℤ) (bn : BayesNet ℕ ℤ) (obs : Dict ℕ ℤ) :
    List ℕ → Dict ℕ (List ℚ) → Py (Dict ℕ (List ℚ))
  | [], cnt => .ok cnt
  | rv :: rvs, cnt => do
      let sc ← bn.scope rv
      let is ← cptIndices hE hI bn rv (obs.filter fun kv => decide (kv.1 ∈ sc))
      let off ← pyIdx is 0
      let l ← cnt.get rv
      let l' ← incr l off
      countNodes hE hI bn obs rvs (cnt.set rv l')

/-- mle.py:155-165, bayes.py:92-99: the loop over the rows. -/
def countRows (hE : HashOrder (ℕ × ℤ)) (hI : HashOrder ℤ) (bn : BayesNet ℕ ℤ) (nodes : List ℕ) :
    List (List ℤ) → Dict ℕ (List ℚ) → Py (Dict ℕ (List ℚ))
  | [], cnt => .ok cnt
  | row :: rows, cnt => do
      let obs ← observe nodes row
      let cnt' ← countNodes hE hI bn obs nodes cnt
      countRows hE hI bn nodes rows cnt'

/-- mle.py:172-176, bayes.py:104-108: normalise block by block, with `eps` added to the denominator, and round.  `fuel` bounds the
number of blocks.  `range(0, n, 0)` raises `ValueError`. -/
def normBlocks (eps : ℚ) (card : ℕ) : ℕ → List ℚ → Py (List ℚ)
  | 0, l => if l = [] then .ok [] else .error .diverges
  | fuel + 1, l =>
      if card = 0 then .error .valueError
      else if l = [] then .ok []
      else if (l.take card).sum + eps = 0 then .error .zeroDivision
      else if l.length < card then .error .indexError
      else do
        let r ← normBlocks eps card fuel (l.drop card)
        pure ((l.take card).map (fun x => roundAway 5 (x / ((l.take card).sum + eps))) ++ r)

/-- The common part of both estimators: values, fresh tables, counting.  Returns the network with the new values and fresh tables,
and the counted tables. -/
def learn (hE : HashOrder (ℕ × ℤ)) (hI : HashOrder ℤ) (fill : ℕ → Py ℚ) (bn : BayesNet ℕ ℤ) (data : Data) (nodes : List ℕ) :
    Py (BayesNet ℕ ℤ × Dict ℕ (List ℚ)) := do
  let F1 ← setValues data 0 nodes bn.F
  let bn2 ← setTables fill nodes { bn with F := F1 }
  let init ← pyMap (fun rv => do let c ← bn2.cpt rv; pure (rv, c)) nodes
  let cnt ← countRows hE hI bn2 nodes data.rows (Dict.ofPairs init)
  pure (bn2, cnt)

/-- mle.py:73-168 `mle_estimator(bn, data, nodes, counts=True)`: for every node its values and its table of counts. -/
def mleCounts (hE : HashOrder (ℕ × ℤ)) (hI : HashOrder ℤ) (bn : BayesNet ℕ ℤ) (data : Data) (nodes : Option (List ℕ)) :
    Py (Dict ℕ (List ℤ × List ℚ)) := do
  let ns := nodes.getD bn.V
  let r ← learn hE hI (fun _ => .ok 0) bn data ns
  let F ← pyMap (fun rv => do
    let vs ← r.1.values rv
    let l ← r.2.get rv
    pure (rv, (vs, l))) ns
  pure (Dict.ofPairs F)

/-- mle.py:169-177 `mle_estimator(bn, data, nodes)`: the network afterwards (only the given nodes keep an entry in `F`). -/
def mleEstimator (hE : HashOrder (ℕ × ℤ)) (hI : HashOrder ℤ) (bn : BayesNet ℕ ℤ) (data : Data) (nodes : Option (List ℕ)) :
    Py (BayesNet ℕ ℤ) := do
  let ns := nodes.getD bn.V
  let r ← learn hE hI (fun _ => .ok 0) bn data ns
  let F ← pyMap (fun rv => do
    let ps ← parentList ns bn.E rv
    let vs ← r.1.values rv
    let l ← r.2.get rv
    let c ← r.1.card rv
    let l' ← normBlocks (1 / 10000000) c (l.length + 1) l
    pure (rv, (⟨ps, vs, l'⟩ : NodeData ℕ ℤ))) ns
  pure { bn with F := Dict.ofPairs F }

/-- bayes.py:89: `equiv_sample / p_idx`. -/
def priorFill (equiv : ℚ) (pIdx : ℕ) : Py ℚ := if pIdx = 0 then .error .zeroDivision else .ok (equiv / pIdx)

/-- bayes.py:102-108: the normalised tables are written back into `bn.F`. -/
def writeBack (bn : BayesNet ℕ ℤ) (cnt : Dict ℕ (List ℚ)) : List ℕ → Dict ℕ (NodeData ℕ ℤ) → Py (Dict ℕ (NodeData ℕ ℤ))
  | [], F => .ok F
  | rv :: rvs, F => do
      let l ← cnt.get rv
      let c ← bn.card rv
      let l' ← normBlocks 0 c (l.length + 1) l
      let d ← F.get rv
      writeBack bn cnt rvs (F.set rv { d with cpt := l' })

/-- bayes.py:15-108 `bayes_estimator(bn, data, equiv_sample, prior_dict, nodes)` (`prior_dict` is never read). -/
def bayesEstimator (hE : HashOrder (ℕ × ℤ)) (hI : HashOrder ℤ) (bn : BayesNet ℕ ℤ) (data : Data) (equiv : Option ℚ)
    (nodes : Option (List ℕ)) : Py (BayesNet ℕ ℤ) := do
  let e := equiv.getD data.rows.length
  let ns := nodes.getD bn.V
  let r ← learn hE hI (priorFill e) bn data ns
  let F ← writeBack r.1 r.2 ns r.1.F
  pure { r.1 with F := F }

end BayesNet
end PyBN
