import Verif.Model.BayesNetOps
import Verif.Model.Indep

/-!
# `pyBN/learning/structure/score/info_scores.py`

A float result is a real number; `none` stands for `-inf` or `nan`.
-/

namespace PyBN
namespace BayesNet
variable {N A : Type _} [DecidableEq N]

open Classical in
/-- info_scores.py:53-117 `log_likelihood(bn, nrow)`: `np.sum(np.log(nrow * (bn.flat_cpt() + 1e-7)))`. -/
noncomputable def logLikelihood (bn : BayesNet N A) (nrow : ℕ) : Py (Option ℝ) := do
  let l ← bn.flatCpt
  pure (if ∀ x ∈ l, 0 < (nrow : ℝ) * ((x : ℝ) + Indep.eps) then some (l.map fun x : ℚ => Real.log ((nrow : ℝ) * ((x : ℝ) + Indep.eps))).sum else none)

/-- info_scores.py:126-135 `BIC(bn, nrow)`. -/
noncomputable def bic (bn : BayesNet N A) (nrow : ℕ) : Py (Option ℝ) := do
  let s ← bn.logLikelihood nrow
  let p ← bn.numParams
  let e ← bn.numEdges
  pure (s.map fun x => x - 1 / 2 * (p : ℝ) * Real.log (max e 1 : ℕ))

/-- info_scores.py:119-124 `MDL(bn, nrow)`. -/
noncomputable def mdl (bn : BayesNet N A) (nrow : ℕ) : Py (Option ℝ) := bn.bic nrow

/-- info_scores.py:137-146 `AIC(bn, nrow)`. -/
noncomputable def aic (bn : BayesNet N A) (nrow : ℕ) : Py (Option ℝ) := do
  let s ← bn.logLikelihood nrow
  let l ← bn.flatCpt
  pure (s.map fun x => x - (l.length : ℝ))

/-- info_scores.py:39-48 `info_score(bn, nrow, metric)`.  (`upper` of ASCII letters only.) -/
noncomputable def infoScore (bn : BayesNet N A) (nrow : ℕ) (metric : String) : Py (Option ℝ) :=
  if metric.toUpper = "LL" then bn.logLikelihood nrow
  else if metric.toUpper = "BIC" then bn.bic nrow
  else if metric.toUpper = "AIC" then bn.aic nrow
  else bn.bic nrow

end BayesNet
end PyBN
