import Verif.Model.Factor
import Verif.Py.Num

/-!
# `pyBN/classes/factorization.py`: class `Factorization`, and the exact inference functions built on it

The factors of a factorization are distinct objects; a right operand consumed by a product is dropped from the
factorization, so the damage `multiply_factor` does to it (C11) is unobservable and only the product is kept here
(`Model/FactorObjects.lean` models the objects, and C226 proves that this makes no difference).
-/

namespace PyBN

/-- factorization.py:26-35: `_phi`, `map_factors` (an `OrderedDict`: list order is insertion order), `map_assignment`. -/
structure Factorization (N A : Type _) where
  phi : List (Factor N)
  mapFactors : List (N × Factor N)
  mapAssignment : Dict N A

namespace Factorization
variable {N A : Type _} [DecidableEq N] [DecidableEq A]

/-- factorization.py:27-30: `[Factor(bn,rv) for rv in nodes]`. -/
def initPhi (bn : BayesNet N A) : List N → Py (List (Factor N))
  | [] => .ok []
  | v :: vs => do
      let f ← Factor.init bn v
      let r ← initPhi bn vs
      pure (f :: r)

/-- factorization.py:15-35 `Factorization(bn)`. -/
def init (bn : BayesNet N A) : Py (Factorization N A) := do
  let phi ← initPhi bn bn.V
  pure ⟨phi, [], []⟩

/-- factorization.py:81-83: reduce every factor whose scope mentions `rv`. -/
def reducePhi (h : HashOrder N) (bn : BayesNet N A) (rv : N) (val : A) : List (Factor N) → Py (List (Factor N))
  | [] => .ok []
  | f :: fs =>
      if rv ∈ f.scope then do
        let f' ← f.reduce h bn rv val
        let r ← reducePhi h bn rv val fs
        pure (f' :: r)
      else do
        let r ← reducePhi h bn rv val fs
        pure (f :: r)

/-- factorization.py:74-84 `self - (rv, val)`. -/
def sub (h : HashOrder N) (bn : BayesNet N A) (p : Factorization N A) (rv : N) (val : A) : Py (Factorization N A) := do
  let phi ← reducePhi h bn rv val p.phi
  pure ⟨phi, p.mapFactors, p.mapAssignment.set rv val⟩

/-- factorization.py:138-139. -/
def relevant (phi : List (Factor N)) (rv : N) : List (Factor N) := phi.filter (fun f => rv ∈ f.scope)

/-- factorization.py:141-142. -/
def irrelevant (phi : List (Factor N)) (rv : N) : List (Factor N) := phi.filter (fun f => rv ∉ f.scope)

/-- factorization.py:92-93, 107-108: `for i in range(1, ...): psi *= relevant_factors[i]`. -/
def mulAll (h : HashOrder N) : Factor N → List (Factor N) → Py (Factor N)
  | psi, [] => .ok psi
  | psi, f :: fs => do
      let (psi', _) ← psi.mul h f
      mulAll h psi' fs

/-- factorization.py:87-93, 102-108: the product of the relevant factors; `relevant_factors[0]` raises `IndexError` when
no factor mentions `rv`. -/
def relProduct (h : HashOrder N) (phi : List (Factor N)) (rv : N) : Py (Factor N) :=
  match relevant phi rv with
  | [] => .error .indexError
  | f :: fs => mulAll h f fs

/-- factorization.py:86-99 `sum_product_eliminate_var(rv)`. -/
def sumElim (h : HashOrder N) (p : Factorization N A) (rv : N) : Py (Factorization N A) := do
  let psi ← relProduct h p.phi rv
  let psi' ← psi.sumout h rv
  pure { p with phi := irrelevant p.phi rv ++ [psi'] }

/-- factorization.py:101-115 `max_product_eliminate_var(rv)`.  A key already present in the `OrderedDict` would keep its place. -/
def maxElim (h : HashOrder N) (p : Factorization N A) (rv : N) : Py (Factorization N A) := do
  let psi ← relProduct h p.phi rv
  let psi' ← psi.maxout rv
  pure { p with phi := irrelevant p.phi rv ++ [psi'], mapFactors := Dict.set p.mapFactors rv psi }

/-- factorization.py:123-125: reduce `f` by the upstream variables (listed in `nodes`) it mentions. -/
def reduceUpstream (h : HashOrder N) (bn : BayesNet N A) (asg : Dict N A) : List N → Factor N → Py (Factor N)
  | [], f => .ok f
  | v :: vs, f =>
      if v ∈ f.scope then do
        let x ← asg.get v
        let f' ← f.reduce h bn v x
        reduceUpstream h bn asg vs f'
      else reduceUpstream h bn asg vs f

/-- factorization.py:117-129 `traceback_map()`: the loop over `reversed(map_factors.keys())`.  The last variable of the list is
processed first; when a variable is processed, `nodes[idx:]` are exactly the variables after it. -/
def traceback (h : HashOrder N) (bn : BayesNet N A) (asg : Dict N A) : List (N × Factor N) → Py (Dict N A)
  | [] => .ok asg
  | (rv, f) :: rest => do
      let asg' ← traceback h bn asg rest
      let f' ← reduceUpstream h bn asg' (rest.map Prod.fst) f
      let vals ← bn.values rv
      let i ← pyArgmax f'.cpt
      let x ← pyIdx vals i
      pure (asg'.set rv x)

/-- factorization.py:131-136 `consolidate()`: the loop body reads the undefined global `_phi`, so it raises `NameError` as soon as
there is a second factor; `self._phi[0]` raises `IndexError` when there is none. -/
def consolidate (p : Factorization N A) : Py (Factor N) :=
  match p.phi with
  | [] => .error .indexError
  | [f] => .ok f
  | _ :: _ :: _ => .error .nameError

end Factorization

section
variable {N A : Type _} [DecidableEq N] [DecidableEq A]
open Factorization

/-- ve_marginal.py:44-46, ve_map.py:27-29: `for E, e in evidence.items(): _phi -= (E,e); order.remove(E)`. -/
def applyEvidence (h : HashOrder N) (bn : BayesNet N A) :
    List (N × A) → Factorization N A → List N → Py (Factorization N A × List N)
  | [], p, order => .ok (p, order)
  | (v, x) :: es, p, order => do
      let p' ← p.sub h bn v x
      let order' ← pyRemove order v
      applyEvidence h bn es p' order'

/-- ve_marginal.py:49-50: `for var in order: _phi /= var`. -/
def sumElimAll (h : HashOrder N) : List N → Factorization N A → Py (Factorization N A)
  | [], p => .ok p
  | v :: vs, p => do
      let p' ← p.sumElim h v
      sumElimAll h vs p'

/-- ve_map.py:32-33: `for var in order: _phi //= var`. -/
def maxElimAll (h : HashOrder N) : List N → Factorization N A → Py (Factorization N A)
  | [], p => .ok p
  | v :: vs, p => do
      let p' ← p.maxElim h v
      maxElimAll h vs p'

/-- ve_marginal.py:12-55 `marginal_ve_e(bn, target, evidence)`.  `hE` is the iteration order of the evidence dict. -/
def marginalVE (h : HashOrder N) (hE : HashOrder (N × A)) (bn : BayesNet N A) (target : N) (evidence : Dict N A) :
    Py (List ℚ) := do
  let p ← Factorization.init bn
  let order ← pyRemove bn.V target
  let (p, order) ← applyEvidence h bn (hE.iter evidence) p order
  let p ← sumElimAll h order p
  let f ← p.consolidate
  pure (f.cpt.map (roundEven 4))

/-- ve_map.py:12-36 `ve_map(bn, evidence)`, up to the traceback: the final factorization and the assignment. -/
def veMapCore (h : HashOrder N) (hE : HashOrder (N × A)) (bn : BayesNet N A) (evidence : Dict N A) :
    Py (Factorization N A × Dict N A) := do
  let p ← Factorization.init bn
  let (p, order) ← applyEvidence h bn (hE.iter evidence) p bn.V
  let p ← maxElimAll h order p
  let asg ← traceback h bn p.mapAssignment p.mapFactors
  pure (p, asg)

/-- ve_map.py:12-53 `ve_map(bn, evidence)`, `prob=False`, `target=None`. -/
def veMap (h : HashOrder N) (hE : HashOrder (N × A)) (bn : BayesNet N A) (evidence : Dict N A) : Py (Dict N A) := do
  let (_, asg) ← veMapCore h hE bn evidence
  pure asg

/-- ve_map.py:39-47 `ve_map(bn, evidence, prob=True)`, `target=None`. -/
def veMapProb (h : HashOrder N) (hE : HashOrder (N × A)) (bn : BayesNet N A) (evidence : Dict N A) :
    Py (ℚ × Dict N A) := do
  let (p, asg) ← veMapCore h hE bn evidence
  let f ← p.consolidate
  let x ← pyIdx f.cpt 0
  pure (roundAway 5 x, asg)

/-- ve_map.py:48-53: `ve_map(bn, evidence, target=t)`, `prob=False`. -/
def veMapTarget (h : HashOrder N) (hE : HashOrder (N × A)) (bn : BayesNet N A) (evidence : Dict N A) (t : N) : Py A := do
  let asg ← veMap h hE bn evidence
  asg.get t

end
end PyBN
