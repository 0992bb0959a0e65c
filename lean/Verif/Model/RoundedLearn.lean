import Verif.Model.Learn

/-!
# `mle_estimator` with rounded arithmetic

As `Model/Learn.lean`, but the arithmetic of mle.py:172-176 is rounded by `rnd`, as a floating point unit does.  Counting is integer arithmetic and exact; `np.sum` of a list of
integers is exact as well (no 64-bit overflow is modelled).
-/

namespace PyBN
namespace BayesNet

/-- mle.py:173, 175: `temp_sum+1e-7` with `temp_sum = float(np.sum(...))`. -/
def flDen (rnd : ℚ → ℚ) (s : ℚ) : ℚ := rnd (rnd s + rnd (1 / 10000000))

/-- mle.py:175-176: `round(count / (temp_sum+1e-7), 5)`; `round` returns the float nearest to the decimal. -/
def flShare (rnd : ℚ → ℚ) (x s : ℚ) : ℚ := rnd (roundAway 5 (rnd (rnd x / flDen rnd s)))

/-- mle.py:172-176, as `normBlocks`. -/
def normBlocksR (rnd : ℚ → ℚ) (card : ℕ) : ℕ → List ℚ → Py (List ℚ)
  | 0, l => if l = [] then .ok [] else .error .diverges
  | fuel + 1, l =>
      if card = 0 then .error .valueError
      else if l = [] then .ok []
      else if flDen rnd (l.take card).sum = 0 then .error .zeroDivision
      else if l.length < card then .error .indexError
      else do
        let r ← normBlocksR rnd card fuel (l.drop card)
        pure ((l.take card).map (fun x => flShare rnd x (l.take card).sum) ++ r)

/-- mle.py:73-177 `mle_estimator(bn, data, nodes)`, as `mleEstimator`. -/
def mleEstimatorR (rnd : ℚ → ℚ) (hE : HashOrder (ℕ × ℤ)) (hI : HashOrder ℤ) (bn : BayesNet ℕ ℤ) (data : Data) (nodes : Option (List ℕ)) :
    Py (BayesNet ℕ ℤ) := do
  let ns := nodes.getD bn.V
  let r ← learn hE hI (fun _ => .ok 0) bn data ns
  let F ← pyMap (fun rv => do
    let ps ← parentList ns bn.E rv
    let vs ← r.1.values rv
    let l ← r.2.get rv
    let c ← r.1.card rv
    let l' ← normBlocksR rnd c (l.length + 1) l
    pure (rv, (⟨ps, vs, l'⟩ : NodeData ℕ ℤ))) ns
  pure { bn with F := Dict.ofPairs F }

end BayesNet
end PyBN
