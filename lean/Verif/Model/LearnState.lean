import Verif.Model.Learn

/-!
# What `mle_estimator` and `bayes_estimator` leave behind

`Model/Learn.lean` gives the result of a call, or its exception.  `mle_estimator` writes into the network it is given from its first statements on (mle.py:144, 152), also with
`counts=True`, and before it can raise.  Here the network after the call is modelled, returned together with the exception, if any.
`bayes_estimator` counts and normalises in the network itself.
-/

namespace PyBN
namespace BayesNet

/-- mle.py:142-144, bayes.py:81-82: the loop setting `bn.F[n]['values']`; the first two steps of the loop body can raise, the earlier nodes then keep their new values. -/
def setValuesTo (data : Data) : ℕ → List ℕ → Dict ℕ (NodeData ℕ ℤ) → Dict ℕ (NodeData ℕ ℤ) × Option PyErr
  | _, [], F => (F, none)
  | i, n :: ns, F =>
      match data.col i with
      | .error e => (F, some e)
      | .ok c =>
        match F.get n with
        | .error e => (F, some e)
        | .ok d => setValuesTo data (i + 1) ns (F.set n { d with values := npUnique c })

/-- mle.py:148-152: the loop setting `bn.F[rv]['cpt']`; everything in the loop body but the assignment can raise. -/
def setTablesTo (fill : ℕ → Py ℚ) : List ℕ → BayesNet ℕ ℤ → BayesNet ℕ ℤ × Option PyErr
  | [], bn => (bn, none)
  | rv :: rvs, bn =>
      match (do
        let ps ← bn.parents rv
        let cs ← pyMap bn.card ps
        let c ← bn.card rv
        let x ← fill (cs.prod * c)
        let d ← bn.F.get rv
        pure (d, cs.prod * c, x) : Py (NodeData ℕ ℤ × ℕ × ℚ)) with
      | .error e => (bn, some e)
      | .ok (d, k, x) => setTablesTo fill rvs { bn with F := bn.F.set rv { d with cpt := List.replicate k x } }

/-- mle.py:137-152, bayes.py:75-89: both loops. -/
def prepareTo (fill : ℕ → Py ℚ) (bn : BayesNet ℕ ℤ) (data : Data) (ns : List ℕ) : BayesNet ℕ ℤ × Option PyErr :=
  match setValuesTo data 0 ns bn.F with
  | (F1, some e) => ({ bn with F := F1 }, some e)
  | (F1, none) => setTablesTo fill ns { bn with F := F1 }

/-- mle.py:73-177 `mle_estimator(bn, data, nodes, counts)`: the network after the call, and the exception if it raised.  Lines 155-176 only write to the local `F`; line 177 replaces
`bn.F`. -/
def mleAfter (hE : HashOrder (ℕ × ℤ)) (hI : HashOrder ℤ) (bn : BayesNet ℕ ℤ) (data : Data) (nodes : Option (List ℕ)) (counts : Bool) : BayesNet ℕ ℤ × Option PyErr :=
  let ns := nodes.getD bn.V
  match prepareTo (fun _ => .ok 0) bn data ns with
  | (bn2, some e) => (bn2, some e)
  | (bn2, none) =>
      match (do
        let init ← pyMap (fun rv => do let c ← bn2.cpt rv; pure (rv, c)) ns
        countRows hE hI bn2 ns data.rows (Dict.ofPairs init) : Py (Dict ℕ (List ℚ))) with
      | .error e => (bn2, some e)
      | .ok cnt =>
          if counts then (bn2, none)
          else
            match (pyMap (fun rv => do
              let ps ← parentList ns bn2.E rv
              let vs ← bn2.values rv
              let l ← cnt.get rv
              let c ← bn2.card rv
              let l' ← normBlocks (1 / 10000000) c (l.length + 1) l
              pure (rv, (⟨ps, vs, l'⟩ : NodeData ℕ ℤ))) ns) with
            | .error e => (bn2, some e)
            | .ok F => ({ bn2 with F := Dict.ofPairs F }, none)

/-! ### `bayes_estimator` -/

/-- bayes.py:96-99: the loop over the nodes for one row; `bn.F[rv]['cpt'][offset]+=1` writes into the network, so what raises leaves the counts made before. -/
def countNodesTo (hE : HashOrder (ℕ × ℤ)) (hI : HashOrder ℤ) (obs : Dict ℕ ℤ) : List ℕ → BayesNet ℕ ℤ → BayesNet ℕ ℤ × Option PyErr
  | [], bn => (bn, none)
  | rv :: rvs, bn =>
      match (do
        let sc ← bn.scope rv
        let is ← cptIndices hE hI bn rv (obs.filter fun kv => decide (kv.1 ∈ sc))
        let off ← pyIdx is 0
        let d ← bn.F.get rv
        let l ← incr d.cpt off
        pure (d, l) : Py (NodeData ℕ ℤ × List ℚ)) with
      | .error e => (bn, some e)
      | .ok (d, l) => countNodesTo hE hI obs rvs { bn with F := bn.F.set rv { d with cpt := l } }

/-- bayes.py:92-99: the loop over the rows. -/
def countRowsTo (hE : HashOrder (ℕ × ℤ)) (hI : HashOrder ℤ) (nodes : List ℕ) : List (List ℤ) → BayesNet ℕ ℤ → BayesNet ℕ ℤ × Option PyErr
  | [], bn => (bn, none)
  | row :: rows, bn =>
      match observe nodes row with
      | .error e => (bn, some e)
      | .ok obs =>
        match countNodesTo hE hI obs nodes bn with
        | (bn', some e) => (bn', some e)
        | (bn', none) => countRowsTo hE hI nodes rows bn'

/-- bayes.py:104-108: normalise block by block, in place; a block with sum 0 raises at its first entry, so the blocks before it are normalised and it and the
blocks after it are not.  (A last block that is too short is normalised before the `IndexError`.) -/
def normTo (card : ℕ) : ℕ → List ℚ → List ℚ × Option PyErr
  | 0, l => (l, if l = [] then none else some .diverges)
  | fuel + 1, l =>
      if card = 0 then (l, some .valueError)
      else if l = [] then ([], none)
      else if (l.take card).sum = 0 then (l, some .zeroDivision)
      else
        let b := (l.take card).map fun x => roundAway 5 (x / (l.take card).sum)
        if l.length < card then (b, some .indexError)
        else
          let r := normTo card fuel (l.drop card)
          (b ++ r.1, r.2)

/-- bayes.py:102-108: the loop over the nodes. -/
def writeTo : List ℕ → BayesNet ℕ ℤ → BayesNet ℕ ℤ × Option PyErr
  | [], bn => (bn, none)
  | rv :: rvs, bn =>
      match (do
        let d ← bn.F.get rv
        let c ← bn.card rv
        pure (d, c) : Py (NodeData ℕ ℤ × ℕ)) with
      | .error e => (bn, some e)
      | .ok (d, c) =>
        match normTo c (d.cpt.length + 1) d.cpt with
        | (l, some e) => ({ bn with F := bn.F.set rv { d with cpt := l } }, some e)
        | (l, none) => writeTo rvs { bn with F := bn.F.set rv { d with cpt := l } }

/-- bayes.py:15-108 `bayes_estimator(bn, data, equiv_sample, prior_dict, nodes)`: the network after the call, and the exception if it raised. -/
def bayesAfter (hE : HashOrder (ℕ × ℤ)) (hI : HashOrder ℤ) (bn : BayesNet ℕ ℤ) (data : Data) (equiv : Option ℚ) (nodes : Option (List ℕ)) :
    BayesNet ℕ ℤ × Option PyErr :=
  let ns := nodes.getD bn.V
  match prepareTo (priorFill (equiv.getD data.rows.length)) bn data ns with
  | (bn2, some e) => (bn2, some e)
  | (bn2, none) =>
      match countRowsTo hE hI ns data.rows bn2 with
      | (bn3, some e) => (bn3, some e)
      | (bn3, none) => writeTo ns bn3

end BayesNet
end PyBN
