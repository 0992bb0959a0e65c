import Verif.Model.BayesNetOps
import Verif.Model.Distance
import Mathlib.Analysis.SpecialFunctions.Log.Basic
import Mathlib.Analysis.SpecialFunctions.Pow.Real
import Mathlib.Analysis.SpecialFunctions.Sqrt

/-!
# `pyBN/utils/parameter_distance.py` and `pyBN/utils/hybrid_distance.py`

The import of `BayesNet` is commented out (parameter_distance.py:31).  `bound` says whether the module nevertheless has the name
(`false` as shipped; `true` for a user who puts it there), so that what the rest of the functions would do is covered too.
-/

namespace PyBN
namespace ParamDist
variable {N A : Type} [DecidableEq N] [DecidableEq A]

/-- What is passed to a distance: a network, or the array `js_divergence` passes to `kl_divergence` (line 108). -/
inductive Arg (N A : Type) where
  | net (bn : BayesNet N A)
  | arr (l : List ℝ)

/-- numpy arithmetic on two one-dimensional arrays: elementwise for equal lengths, a one-element array is repeated, otherwise
`ValueError`. -/
def bcast (f : ℝ → ℝ → ℝ) (x y : List ℝ) : Py (List ℝ) :=
  if x.length = y.length then .ok (List.zipWith f x y)
  else match x, y with
    | [a], _ => .ok (y.map fun b => f a b)
    | _, [b] => .ok (x.map fun a => f a b)
    | _, _ => .error .valueError

/-- parameter_distance.py:42-43, 55-56, 74-75, 89-90, 104-105, 119-120: the two assertions.  `isinstance(x, BayesNet)` evaluates the
name `BayesNet` first. -/
def check (bound : Bool) (x y : Arg N A) : Py (BayesNet N A × BayesNet N A) :=
  if bound = false then .error .nameError
  else match x, y with
    | .net x, .net y => do
        let e ← BayesNet.eq x y
        if e then pure (x, y) else .error .assertionError
    | _, _ => .error .assertionError

/-- `x.flat_cpt()` (bayesnet.py:247) as real numbers. -/
def flat (bn : BayesNet N A) : Py (List ℝ) := do
  let l ← bn.flatCpt
  pure (l.map fun q => (q : ℝ))

/-- parameter_distance.py:45: `np.sum(np.sqrt((x - y)**2))`. -/
noncomputable def euclideanBody (x y : List ℝ) : Py ℝ := do
  let d ← bcast (fun a b => a - b) x y
  pure ((d.map fun t => Real.sqrt (t ^ 2)).sum)

/-- parameter_distance.py:58: `np.sum(np.abs(x - y))`. -/
noncomputable def manhattanBody (x y : List ℝ) : Py ℝ := do
  let d ← bcast (fun a b => a - b) x y
  pure ((d.map fun t => |t|).sum)

/-- parameter_distance.py:77: `np.sum((x - y)**2)**(1/p)`; `1/p` with `p = 0` is a `ZeroDivisionError`. -/
noncomputable def minkowskiBody (p : ℝ) (x y : List ℝ) : Py ℝ := do
  let d ← bcast (fun a b => a - b) x y
  if p = 0 then .error .zeroDivision else pure ((d.map fun t => t ^ 2).sum ^ (1 / p))

/-- parameter_distance.py:92: `np.sum(x * np.log(x / y))`.  Simplified: the infinities and nans of zero entries are not modelled. -/
noncomputable def klBody (x y : List ℝ) : Py ℝ := do
  let q ← bcast (fun a b => a / b) x y
  let t ← bcast (fun a b => a * b) x (q.map Real.log)
  pure t.sum

/-- parameter_distance.py:122. -/
noncomputable def hellingerBody (x y : List ℝ) : Py ℝ := do
  let d ← bcast (fun a b => a - b) (x.map Real.sqrt) (y.map Real.sqrt)
  pure (1 / Real.sqrt 2 * Real.sqrt ((d.map fun t => t ^ 2).sum))

/-- The common shape of five of the functions: the assertions, `flat_cpt()` of both networks, the formula. -/
noncomputable def run (bound : Bool) (body : List ℝ → List ℝ → Py ℝ) (x y : Arg N A) : Py ℝ := do
  let (a, b) ← check bound x y
  let fa ← flat a
  let fb ← flat b
  body fa fb

/-- parameter_distance.py:35-46. -/
noncomputable def euclidean (bound : Bool) (x y : Arg N A) : Py ℝ := run bound euclideanBody x y

/-- parameter_distance.py:48-59. -/
noncomputable def manhattan (bound : Bool) (x y : Arg N A) : Py ℝ := run bound manhattanBody x y

/-- parameter_distance.py:61-78. -/
noncomputable def minkowski (bound : Bool) (p : ℝ) (x y : Arg N A) : Py ℝ := run bound (minkowskiBody p) x y

/-- parameter_distance.py:80-93. -/
noncomputable def klDivergence (bound : Bool) (x y : Arg N A) : Py ℝ := run bound klBody x y

/-- parameter_distance.py:95-109: the mixture `z` is an array, not a network. -/
noncomputable def jsDivergence (bound : Bool) (x y : Arg N A) : Py ℝ := do
  let (a, b) ← check bound x y
  let fa ← flat a
  let fb ← flat b
  let s ← bcast (fun a b => a + b) fa fb
  let z := s.map fun t => 1 / 2 * t
  let u ← klDivergence bound (.net a) (.arr z)
  let v ← klDivergence bound (.net b) (.arr z)
  pure (1 / 2 * u + 1 / 2 * v)

/-- parameter_distance.py:112-123. -/
noncomputable def hellinger (bound : Bool) (x y : Arg N A) : Py ℝ := run bound hellingerBody x y

/-- hybrid_distance.py:22-28: neither `hamming` nor `euclidean` is imported; `hb` says whether the module has the names. -/
noncomputable def hybridDistance (hb bound : Bool) (alpha : ℝ) (x y : BayesNet N A) : Py ℝ :=
  if hb = false then .error .nameError
  else do
    let s ← BayesNet.hamming x y
    let p ← euclidean bound (.net x) (.net y)
    pure (s * alpha + p * (1 - alpha))

end ParamDist
end PyBN
