import Verif.Model.Factorization

/-!
# `pyBN/classes/factorization.py`: the operators of a `Factorization` used directly, with what an exception leaves behind

`F - (rv, val)`, `F / rv` (Python 2 `__div__`), `F // rv` and `F.refresh()` all change `F` itself and the first three return it.  A step
here gives the object afterwards together with the exception raised, if any.
-/

namespace PyBN
namespace Factorization
variable {N A : Type _} [DecidableEq N] [DecidableEq A]

/-- One call on a `Factorization`. -/
inductive Op (N A : Type _) where
  | reduce (rv : N) (val : A)
  | sumOut (rv : N)
  | maxOut (rv : N)
  | refresh

/-- factorization.py:15-35 `Factorization(bn, nodes)`; `nodes = none` is the default. -/
def initNodes (bn : BayesNet N A) (nodes : Option (List N)) : Py (Factorization N A) := do
  let phi ← initPhi bn (nodes.getD bn.V)
  pure ⟨phi, [], []⟩

/-- factorization.py:81-83 with the state an exception leaves: the factors before the failing one have been reduced.  `reduce_factor`
raises before it changes the factor (factor.py:580-590). -/
def reducePhiS (h : HashOrder N) (bn : BayesNet N A) (rv : N) (val : A) : List (Factor N) → List (Factor N) × Option PyErr
  | [] => ([], none)
  | f :: fs =>
      if rv ∈ f.scope then
        match f.reduce h bn rv val with
        | .ok f' =>
            let r := reducePhiS h bn rv val fs
            (f' :: r.1, r.2)
        | .error e => (f :: fs, some e)
      else
        let r := reducePhiS h bn rv val fs
        (f :: r.1, r.2)

/-- factorization.py:37-44 (`refresh`: all nodes of the network, whatever `nodes` was), 56-84 (the operators).  For `/` and `//` the
exception modelled is that of `relevant_factors[0]` (lines 91, 106), raised before anything is changed. -/
def step (h : HashOrder N) (bn : BayesNet N A) (p : Factorization N A) : Op N A → Factorization N A × Option PyErr
  | .reduce rv val =>
      let r := reducePhiS h bn rv val p.phi
      (⟨r.1, p.mapFactors, p.mapAssignment.set rv val⟩, r.2)
  | .sumOut rv =>
      match p.sumElim h rv with
      | .ok p' => (p', none)
      | .error e => (p, some e)
  | .maxOut rv =>
      match p.maxElim h rv with
      | .ok p' => (p', none)
      | .error e => (p, some e)
  | .refresh =>
      match initNodes bn none with
      | .ok p' => (p', none)
      | .error e => (p, some e)

/-- A sequence of calls, each exception being caught by the caller; the exceptions are listed. -/
def steps (h : HashOrder N) (bn : BayesNet N A) (p : Factorization N A) : List (Op N A) → Factorization N A × List (Option PyErr)
  | [] => (p, [])
  | o :: os =>
      let r := step h bn p o
      let r' := steps h bn r.1 os
      (r'.1, r.2 :: r'.2)

end Factorization
end PyBN
