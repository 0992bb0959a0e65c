import Verif.Model.Entropy
import Verif.Model.Learn

/-!
# Functions that do not get to their answer

`mle_fast` (`learning/parameter/mle.py`), `BDe`, `BDeu`, `K2` (`learning/structure/score/bayes_scores.py`), `mmpc` (`learning/structure/hybrid/mmpc.py`),
`lambda_iamb` (`learning/structure/constraint/lambda_iamb.py`), `predict` (`classification/classification.py`), `TAN` (`learning/structure/naive/TAN.py`).
Each is modelled up to the statement that raises; the theorems show that nothing behind it can be reached.
-/

namespace PyBN
namespace Broken
open Indep

/-- mle.py:134-137 in `mle_fast(bn, data, nodes, counts, np)`: `for i, n in enumerate(nodes): F[n]['values'] = list(np.unique(data[:,i]))`.  The parameter
`np` (a Boolean) hides the module, so `np.unique` is an `AttributeError`; it is looked up before `data[:,i]` is evaluated. -/
def fastValues : List ℕ → Py Unit
  | [] => .ok ()
  | _ :: _ => .error .attributeError

/-- mle.py:71-179 `mle_fast`: the returned dictionary and the network afterwards (`None` is `none`).  With no nodes the remaining loops have nothing to do, and
`bn.F = F = {}` unless `counts`. -/
def mleFast (bn : BayesNet ℕ ℤ) (nodes : Option (List ℕ)) (counts : Bool) : Py (Option (Dict ℕ (NodeData ℕ ℤ)) × BayesNet ℕ ℤ) := do
  fastValues (nodes.getD bn.V)
  if counts then pure (some [], bn) else pure (none, { bn with F := [] })

/-- bayes_scores.py:55-67 (`BDe`), :104-116 (`BDeu`), :128-139 (`K2`): all three call `mle_fast(bn, data, counts=True, np=True)`, start from 1 and multiply over the
items of the result (`step` stands for the body of that loop). -/
def bayesScore (step : ℚ → ℕ × NodeData ℕ ℤ → Py ℚ) (bn : BayesNet ℕ ℤ) : Py ℚ := do
  let r ← mleFast bn none true
  (r.1.getD []).foldlM step 1

open Classical in
/-- mmpc.py:67-77, one pass of the max-min heuristic over the nodes: `pval` keeps its value from the pass before (`none`: not assigned yet, reading it is an
`UnboundLocalError`), `best` is `min_assoc` and `min_node`. -/
noncomputable def mmpcScan (mi : List ℕ → Py PFloat) (T : ℕ) (cpc : List ℕ) : List ℕ → Option PFloat → (ℝ × Option ℕ) → Py (Option PFloat × ℝ × Option ℕ)
  | [], pval, best => .ok (pval, best)
  | x :: xs, pval, best => do
      let pval' ← if x ≠ T then do let p ← mi (x :: T :: cpc); pure (some p) else pure pval
      match pval' with
      | none => .error .nameError
      | some p =>
        if p.lt best.1 then mmpcScan mi T cpc xs (some p) (match p with | .fin r => (r, some x) | .inf => best | .nan => best)
        else mmpcScan mi T cpc xs (some p) best

/-- mmpc.py:50-108 `mmpc(data)` on `n` columns.  The file has no imports, so `np` (line 55) and `mi_test` (line 73) are undefined unless `bound`; `rest` stands for everything
after the first pass for the first node. -/
noncomputable def mmpc (bound : Bool) (mi : List ℕ → Py PFloat) (rest : Option PFloat × ℝ × Option ℕ → Py (Dict ℕ (List ℕ))) (n : ℕ) : Py (Dict ℕ (List ℕ)) :=
  match List.range n with
  | [] => .ok []
  | T :: Ts => do
      if bound = false then .error .nameError
      else do
        let r ← mmpcScan mi T [] (T :: Ts) none (10 ^ 9, none)
        rest r

/-- lambda_iamb.py:50-75 `lambda_iamb(data, feature_selection)` on `n` columns: `Mb` maps every column to an empty *dict*, so `V - Mb[T]` (line 75, a set minus a dict) is a
`TypeError`; before it, `entropy(data[:, (T,)])` (line 69) is evaluated.  With no target, `resolve_markov_blanket` (line 104) is not imported. -/
noncomputable def lambdaIamb (n : ℕ) (rows : List (List ℕ)) (featureSelection : Option ℕ) : Py (Dict ℕ (List ℕ)) :=
  match (match featureSelection with | none => List.range n | some t => [t]) with
  | [] => .error .nameError
  | T :: _ =>
      if n ≤ T then .error .keyError
      else do
        let _ ← entropy 1 (select [T] rows)
        .error .typeError

/-- classification.py:80-105 `predict(data, target, classifier)`: `learn_structure` (line 83) and `marginal_lws_a` (line 98) are not defined anywhere.  `none` is the
accuracy `0/0`. -/
def predict {N A : Type} (rows : List (List ℤ)) (target : ℕ) (classifier : Option (BayesNet N A)) : Py (List ℤ × List ℤ × Option ℚ) :=
  match classifier with
  | none => .error .nameError
  | some _ =>
      match rows with
      | [] => .ok ([], [], none)
      | r :: _ => do
          let _ ← pyIdx r (target : ℤ)
          .error .nameError

end Broken
end PyBN
