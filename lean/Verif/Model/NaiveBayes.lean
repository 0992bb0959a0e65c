import Verif.Model.Learn

/-!
# `pyBN/learning/structure/naive/naive_bayes.py`

Data values are integers, `target` is a non-negative integer.
-/

namespace PyBN

/-- naive_bayes.py:55-56: `dict(zip(range(data.shape[1]), [list(np.unique(col)) for col in data.T]))`. -/
def nbValues (data : Data) : Py (Dict ℕ (List ℤ)) := do
  let ps ← pyMap (fun i => do let c ← data.col i; pure (i, npUnique c)) (List.range data.ncol)
  pure (Dict.ofPairs ps)

/-- naive_bayes.py:58-59: the edge dictionary; `h` is the order in which `value_dict` is iterated. -/
def nbEdges (h : HashOrder ℕ) (vd : Dict ℕ (List ℤ)) (target : ℕ) : Dict ℕ (List ℕ) :=
  Dict.update [(target, (h.iter vd.keys).filter fun v => decide (v ≠ target))]
    (((h.iter vd.keys).filter fun v => decide (v ≠ target)).map fun rv => (rv, []))

/-- naive_bayes.py:18-66 `naive_bayes(data, target, estimator)`; `bayes` says whether `estimator == 'bayes'` (any other value selects
`mle_estimator`). -/
def naiveBayes (hE : HashOrder (ℕ × ℤ)) (hI : HashOrder ℤ) (h : HashOrder ℕ) (data : Data) (target : ℕ) (bayes : Bool) :
    Py (BayesNet ℕ ℤ) := do
  let vd ← nbValues data
  let bn ← BayesNet.setStructure h (nbEdges h vd target) (some vd)
  if bayes then bn.bayesEstimator hE hI data none none else bn.mleEstimator hE hI data none

end PyBN
