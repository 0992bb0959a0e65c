import Verif.Model.Factorization

/-!
# Exact inference with rounded arithmetic

The same functions as in `Model/Factor.lean` and `Model/Factorization.lean`, but with every addition and multiplication of table entries
rounded by `rnd`, as a floating point unit does.  Overflow and underflow are not modelled (`rnd` is total with a bounded relative error, see
`Spec/Rounded.lean`).  With `rnd = id` they are the exact functions (`Proofs/Rounded.lean`).  Copying entries (`Factor(bn, rv)`,
`reduce_factor`) and comparing them (`maxout_var`, `argmax`) involves no arithmetic and is not repeated here.
-/

namespace PyBN
namespace Factor
variable {N A : Type _} [DecidableEq N] [DecidableEq A]

/-- factor.py:295-310, as `mulLoop`: `psi[i] = phi1.cpt[j]*phi2.cpt[k]`, the product rounded. -/
def mulLoopR (rnd : ℚ → ℚ) (phi1 phi2 : Factor N) (card1 : Dict N ℕ) (order : List N) :
    ℕ → Dict N ℕ → ℤ → ℤ → Py (List ℚ)
  | 0, _, _, _ => .ok []
  | n + 1, asg, j, k => do
      let x ← pyIdx phi1.cpt j
      let y ← pyIdx phi2.cpt k
      let (asg', j', k') ← odometer phi1 phi2 card1 order asg j k
      let r ← mulLoopR rnd phi1 phi2 card1 order n asg' j' k'
      pure (rnd (x * y) :: r)

/-- factor.py:281-319, as `mulCore`. -/
def mulCoreR (rnd : ℚ → ℚ) (h : HashOrder N) (phi1 phi2 : Factor N) :
    Py (List ℚ × List N × Dict N ℕ × Dict N ℕ) := do
  let o1 := sortBy (fun v => (phi1.stride.get? v).getD 0) (h.iter phi1.stride.keys)
  let scopeSet := (phi1.scope ++ phi2.scope).dedup
  let order := o1 ++ h.iter ((phi2.scope.filter (fun v => v ∉ phi1.scope)).dedup)
  let card1 := phi1.card.update phi2.card
  let asg : Dict N ℕ := scopeSet.map (fun v => (v, 0))
  let psi ← mulLoopR rnd phi1 phi2 card1 order card1.vals.prod asg 0 0
  let stride ← orderStride card1 order 1
  pure (psi, h.iter scopeSet, card1, stride)

/-- factor.py:245-319 `multiply_factor(other)`, as `mul` (only the product). -/
def mulR (rnd : ℚ → ℚ) (h : HashOrder N) (self other : Factor N) : Py (Factor N) :=
  if self.scope.length ≥ other.scope.length then do
    let (psi, scope, card, stride) ← mulCoreR rnd h self other
    pure ⟨self.var, psi, scope, card, stride⟩
  else do
    let (psi, scope, card, stride) ← mulCoreR rnd h other self
    pure ⟨self.var, psi, scope, card, stride⟩

/-- factor.py:433-434, as `sumC`: `new_cpt[i] += cpt[...]`, each addition rounded (the first one too, where it is exact). -/
def sumCR (rnd : ℚ → ℚ) (cpt : List ℚ) (stride k : ℕ) : ℕ → ℕ → ℚ → Py ℚ
  | 0, _, acc => .ok acc
  | n + 1, c, acc => do
      let x ← pyIdx cpt (k + stride * c : ℕ)
      sumCR rnd cpt stride k n (c + 1) (rnd (acc + x))

/-- factor.py:399-448 `sumout_var(rv)`, as `sumout`. -/
def sumoutR (rnd : ℚ → ℚ) (h : HashOrder N) (f : Factor N) (rv : N) : Py (Factor N) := do
  let rvCard ← f.card.get rv
  if rvCard = 0 then .error .zeroDivision
  else do
    let rvStride ← f.stride.get rv
    let p ← blockSize f rvStride f.scope
    let newCpt ← elimLoop (fun k => sumCR rnd f.cpt rvStride k rvCard 0 0) rvCard p (f.cpt.length / rvCard) 0
    let f' ← dropVar f rv rvCard rvStride newCpt
    pure { f' with var := newVar h f.var rv f'.stride }

end Factor

namespace Factorization
variable {N A : Type _} [DecidableEq N] [DecidableEq A]

/-- factorization.py:92-93, 107-108, as `mulAll`. -/
def mulAllR (rnd : ℚ → ℚ) (h : HashOrder N) : Factor N → List (Factor N) → Py (Factor N)
  | psi, [] => .ok psi
  | psi, f :: fs => do
      let psi' ← psi.mulR rnd h f
      mulAllR rnd h psi' fs

/-- factorization.py:87-93, 102-108, as `relProduct`. -/
def relProductR (rnd : ℚ → ℚ) (h : HashOrder N) (phi : List (Factor N)) (rv : N) : Py (Factor N) :=
  match relevant phi rv with
  | [] => .error .indexError
  | f :: fs => mulAllR rnd h f fs

/-- factorization.py:86-99 `sum_product_eliminate_var(rv)`, as `sumElim`. -/
def sumElimR (rnd : ℚ → ℚ) (h : HashOrder N) (p : Factorization N A) (rv : N) : Py (Factorization N A) := do
  let psi ← relProductR rnd h p.phi rv
  let psi' ← psi.sumoutR rnd h rv
  pure { p with phi := irrelevant p.phi rv ++ [psi'] }

/-- factorization.py:101-115 `max_product_eliminate_var(rv)`, as `maxElim`. -/
def maxElimR (rnd : ℚ → ℚ) (h : HashOrder N) (p : Factorization N A) (rv : N) : Py (Factorization N A) := do
  let psi ← relProductR rnd h p.phi rv
  let psi' ← psi.maxout rv
  pure { p with phi := irrelevant p.phi rv ++ [psi'], mapFactors := Dict.set p.mapFactors rv psi }

end Factorization

section
variable {N A : Type _} [DecidableEq N] [DecidableEq A]
open Factorization

/-- ve_marginal.py:49-50, as `sumElimAll`. -/
def sumElimAllR (rnd : ℚ → ℚ) (h : HashOrder N) : List N → Factorization N A → Py (Factorization N A)
  | [], p => .ok p
  | v :: vs, p => do
      let p' ← p.sumElimR rnd h v
      sumElimAllR rnd h vs p'

/-- ve_map.py:32-33, as `maxElimAll`. -/
def maxElimAllR (rnd : ℚ → ℚ) (h : HashOrder N) : List N → Factorization N A → Py (Factorization N A)
  | [], p => .ok p
  | v :: vs, p => do
      let p' ← p.maxElimR rnd h v
      maxElimAllR rnd h vs p'

/-- ve_marginal.py:12-55 `marginal_ve_e(bn, target, evidence)`, as `marginalVE`.  The last line, `np.round(cpt, 4)`, is taken to be the exact decimal
rounding of the computed entry. -/
def marginalVER (rnd : ℚ → ℚ) (h : HashOrder N) (hE : HashOrder (N × A)) (bn : BayesNet N A) (target : N) (evidence : Dict N A) :
    Py (List ℚ) := do
  let p ← Factorization.init bn
  let order ← pyRemove bn.V target
  let (p, order) ← applyEvidence h bn (hE.iter evidence) p order
  let p ← sumElimAllR rnd h order p
  let f ← p.consolidate
  pure (f.cpt.map (roundEven 4))

/-- ve_map.py:12-36 `ve_map(bn, evidence)`, as `veMapCore`. -/
def veMapCoreR (rnd : ℚ → ℚ) (h : HashOrder N) (hE : HashOrder (N × A)) (bn : BayesNet N A) (evidence : Dict N A) :
    Py (Factorization N A × Dict N A) := do
  let p ← Factorization.init bn
  let (p, order) ← applyEvidence h bn (hE.iter evidence) p bn.V
  let p ← maxElimAllR rnd h order p
  let asg ← traceback h bn p.mapAssignment p.mapFactors
  pure (p, asg)

/-- ve_map.py:12-53 `ve_map(bn, evidence)`, as `veMap`. -/
def veMapR (rnd : ℚ → ℚ) (h : HashOrder N) (hE : HashOrder (N × A)) (bn : BayesNet N A) (evidence : Dict N A) : Py (Dict N A) := do
  let (_, asg) ← veMapCoreR rnd h hE bn evidence
  pure asg

/-- ve_map.py:39-47 `ve_map(bn, evidence, prob=True)`, as `veMapProb` (the last line, `round(x, 5)`, exact). -/
def veMapProbR (rnd : ℚ → ℚ) (h : HashOrder N) (hE : HashOrder (N × A)) (bn : BayesNet N A) (evidence : Dict N A) :
    Py (ℚ × Dict N A) := do
  let (p, asg) ← veMapCoreR rnd h hE bn evidence
  let f ← p.consolidate
  let x ← pyIdx f.cpt 0
  pure (roundAway 5 x, asg)

end
end PyBN
