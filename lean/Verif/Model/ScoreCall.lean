import Verif.Model.HillClimb
import Verif.Model.Learn
import Verif.Model.InfoScore

/-!
# `hc`, `tabu`, `hc_rr` as called: with the scoring of the arcless network

`Model/HillClimb.lean` starts after the statements `mle_estimator(bn, data); max_score = info_score(bn, nrow, metric)`.  Here they are run too, and the scores of
the search are computed from the data.  Entries of the array are natural numbers.
-/

namespace PyBN

/-- An array of natural numbers as `mle_estimator` reads it. -/
def arrayOf (ncol : ℕ) (rows : List (List ℕ)) : Data := ⟨ncol, rows.map fun r => r.map Int.ofNat⟩

/-- hill_climbing.py:105-117 (tabu.py:73-85, random_restarts.py:72-84): the arcless network, its parameters, its score.  (`value_dict`, line 114, is not used.) -/
noncomputable def scoreStart (hE : HashOrder (ℕ × ℤ)) (hI : HashOrder ℤ) (h : HashOrder ℕ) (ncol : ℕ) (rows : List (List ℕ)) (metric : String) : Py (Option ℝ) := do
  let bn ← BayesNet.setStructure (A := ℤ) h (emptyDict (List.range ncol)) none
  let bn' ← bn.mleEstimator hE hI (arrayOf ncol rows) none
  bn'.infoScore rows.length metric

/-- The arguments of the search that come from the data. -/
noncomputable def dataArgs (fc : Dict ℕ (List ℕ) → ℕ → Bool) (ncol : ℕ) (rows : List (List ℕ)) (restriction : Option (List (ℕ × ℕ))) (debug : Bool) : HcArgs :=
  ⟨fc, Indep.dataScore rows, rows.length, ncol, restriction, debug⟩

/-- hill_climbing.py:42-237 `hc(data, metric, max_iter, debug, restriction)` from the first statement on. -/
noncomputable def hcCall (hE : HashOrder (ℕ × ℤ)) (hI : HashOrder ℤ) (h : HashOrder ℕ) (fc : Dict ℕ (List ℕ) → ℕ → Bool) (ncol : ℕ) (rows : List (List ℕ))
    (metric : String) (maxIter : ℤ) (debug : Bool) (restriction : Option (List (ℕ × ℕ))) : Py (BayesNet ℕ ℤ × List (Pass ℕ)) := do
  let _ ← scoreStart hE hI h ncol rows metric
  hc ℤ h (dataArgs fc ncol rows restriction debug) maxIter

/-- tabu.py:29-213 `tabu(data, k, metric, max_iter, debug, restriction)` from the first statement on. -/
noncomputable def tabuCall (hE : HashOrder (ℕ × ℤ)) (hI : HashOrder ℤ) (h : HashOrder ℕ) (fc : Dict ℕ (List ℕ) → ℕ → Bool) (ncol : ℕ) (rows : List (List ℕ))
    (k : ℤ) (metric : String) (maxIter : ℤ) (debug : Bool) (restriction : Option (List (ℕ × ℕ))) : Py (BayesNet ℕ ℤ × List (Pass ℕ)) := do
  let _ ← scoreStart hE hI h ncol rows metric
  tabu ℤ h (dataArgs fc ncol rows restriction debug) k maxIter

/-- random_restarts.py:38-243 `hc_rr(data, M, R, metric, max_iter, debug, restriction)` from the first statement on. -/
noncomputable def hcRrCall (hE : HashOrder (ℕ × ℤ)) (hI : HashOrder ℤ) (h : HashOrder ℕ) (fc : Dict ℕ (List ℕ) → ℕ → Bool) (ncol : ℕ) (rows : List (List ℕ))
    (M R : ℤ) (metric : String) (maxIter : ℤ) (debug : Bool) (restriction : Option (List (ℕ × ℕ))) (ops : List ℕ) (draws : List (ℕ × ℕ)) :
    Py (BayesNet ℕ ℤ × List (Pass ℕ)) := do
  let _ ← scoreStart hE hI h ncol rows metric
  hcRr ℤ h (dataArgs fc ncol rows restriction debug) M R maxIter ops draws

/-- mdbn.py:56-91 `bridge(c_bn, f_bn, data)`: `for u in c_bn` - a `BayesNet` has neither `__iter__` nor `__getitem__`. -/
def bridge (_c _f : BayesNet ℕ ℤ) (_rows : List (List ℕ)) : Py Unit := .error .typeError

/-- mdbn.py:93-113 `mdbn(data, f_cols, c_cols)`: `hc_rr` with its defaults on the two parts of the data (each with its own random draws), then `bridge`. -/
noncomputable def mdbn (hE : HashOrder (ℕ × ℤ)) (hI : HashOrder ℤ) (h : HashOrder ℕ) (fc : Dict ℕ (List ℕ) → ℕ → Bool) (rows : List (List ℕ)) (fCols cCols : List ℕ)
    (ops ops' : List ℕ) (draws draws' : List (ℕ × ℕ)) : Py Unit := do
  let f ← hcRrCall hE hI h fc fCols.length (Indep.select fCols rows) 5 3 "AIC" 100 false none ops draws
  let c ← hcRrCall hE hI h fc cCols.length (Indep.select cCols rows) 5 3 "AIC" 100 false none ops' draws'
  bridge c.1 f.1 rows

end PyBN
