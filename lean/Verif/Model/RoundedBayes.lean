import Verif.Model.Learn

/-!
# `bayes_estimator` with rounded arithmetic

As `Model/Learn.lean`, but every operation on table entries is rounded by `rnd`.  `fsum` is `np.sum` of a slice of a table: it adds in an order of its own (sequentially, or pairwise for
longer slices) and is only assumed to be accurate to one rounding per summand (`SumsTo`).
-/

namespace PyBN
namespace BayesNet

/-- bayes.py:99: `bn.F[rv]["cpt"][offset] += 1`, the addition rounded. -/
def incrR (rnd : ℚ → ℚ) (l : List ℚ) (off : ℤ) : Py (List ℚ) := do
  let x ← pyIdx l off
  pure (l.set (if 0 ≤ off then off.toNat else (l.length + off).toNat) (rnd (x + 1)))

/-- bayes.py:96-99, as `countNodes`. -/
def countNodesR (rnd : ℚ → ℚ) (hE : HashOrder (ℕ × ℤ)) (hI : HashOrder ℤ) (bn : BayesNet ℕ ℤ) (obs : Dict ℕ ℤ) :
    List ℕ → Dict ℕ (List ℚ) → Py (Dict ℕ (List ℚ))
  | [], cnt => .ok cnt
  | rv :: rvs, cnt => do
      let sc ← bn.scope rv
      let is ← cptIndices hE hI bn rv (obs.filter fun kv => decide (kv.1 ∈ sc))
      let off ← pyIdx is 0
      let l ← cnt.get rv
      let l' ← incrR rnd l off
      countNodesR rnd hE hI bn obs rvs (cnt.set rv l')

/-- bayes.py:92-99, as `countRows`. -/
def countRowsR (rnd : ℚ → ℚ) (hE : HashOrder (ℕ × ℤ)) (hI : HashOrder ℤ) (bn : BayesNet ℕ ℤ) (nodes : List ℕ) :
    List (List ℤ) → Dict ℕ (List ℚ) → Py (Dict ℕ (List ℚ))
  | [], cnt => .ok cnt
  | row :: rows, cnt => do
      let obs ← observe nodes row
      let cnt' ← countNodesR rnd hE hI bn obs nodes cnt
      countRowsR rnd hE hI bn nodes rows cnt'

/-- bayes.py:107-108: `cpt[i+j] /= temp_sum; round(cpt[i+j], 5)` for an entry of the slice `b`. -/
def flPart (rnd : ℚ → ℚ) (fsum : List ℚ → ℚ) (x : ℚ) (b : List ℚ) : ℚ := rnd (roundAway 5 (rnd (x / fsum b)))

/-- bayes.py:104-108, as `normBlocks`. -/
def normBlocksB (rnd : ℚ → ℚ) (fsum : List ℚ → ℚ) (card : ℕ) : ℕ → List ℚ → Py (List ℚ)
  | 0, l => if l = [] then .ok [] else .error .diverges
  | fuel + 1, l =>
      if card = 0 then .error .valueError
      else if l = [] then .ok []
      else if fsum (l.take card) = 0 then .error .zeroDivision
      else if l.length < card then .error .indexError
      else do
        let r ← normBlocksB rnd fsum card fuel (l.drop card)
        pure ((l.take card).map (fun x => flPart rnd fsum x (l.take card)) ++ r)

/-- bayes.py:89: `equiv_sample / p_idx`. -/
def priorFillR (rnd : ℚ → ℚ) (equiv : ℚ) (pIdx : ℕ) : Py ℚ := if pIdx = 0 then .error .zeroDivision else .ok (rnd (equiv / pIdx))

/-- bayes.py:75-99, as `learn`. -/
def learnR (rnd : ℚ → ℚ) (hE : HashOrder (ℕ × ℤ)) (hI : HashOrder ℤ) (fill : ℕ → Py ℚ) (bn : BayesNet ℕ ℤ) (data : Data) (nodes : List ℕ) :
    Py (BayesNet ℕ ℤ × Dict ℕ (List ℚ)) := do
  let F1 ← setValues data 0 nodes bn.F
  let bn2 ← setTables fill nodes { bn with F := F1 }
  let init ← pyMap (fun rv => do let c ← bn2.cpt rv; pure (rv, c)) nodes
  let cnt ← countRowsR rnd hE hI bn2 nodes data.rows (Dict.ofPairs init)
  pure (bn2, cnt)

/-- bayes.py:102-108, as `writeBack`. -/
def writeBackR (rnd : ℚ → ℚ) (fsum : List ℚ → ℚ) (bn : BayesNet ℕ ℤ) (cnt : Dict ℕ (List ℚ)) : List ℕ → Dict ℕ (NodeData ℕ ℤ) → Py (Dict ℕ (NodeData ℕ ℤ))
  | [], F => .ok F
  | rv :: rvs, F => do
      let l ← cnt.get rv
      let c ← bn.card rv
      let l' ← normBlocksB rnd fsum c (l.length + 1) l
      let d ← F.get rv
      writeBackR rnd fsum bn cnt rvs (F.set rv { d with cpt := l' })

/-- bayes.py:15-108 `bayes_estimator(bn, data, equiv_sample, prior_dict, nodes)`, as `bayesEstimator`. -/
def bayesEstimatorR (rnd : ℚ → ℚ) (fsum : List ℚ → ℚ) (hE : HashOrder (ℕ × ℤ)) (hI : HashOrder ℤ) (bn : BayesNet ℕ ℤ) (data : Data) (equiv : Option ℚ)
    (nodes : Option (List ℕ)) : Py (BayesNet ℕ ℤ) := do
  let e := equiv.getD data.rows.length
  let ns := nodes.getD bn.V
  let r ← learnR rnd hE hI (priorFillR rnd e) bn data ns
  let F ← writeBackR rnd fsum r.1 r.2 ns r.1.F
  pure { r.1 with F := F }

end BayesNet
end PyBN
