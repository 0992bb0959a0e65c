import Verif.Model.Clique
import Verif.Model.FactorizationOps

/-!
# `Factor` and `Factorization` objects, and exact inference on them

`Model/Factor.lean` and `Model/Factorization.lean` treat factors as values.  In Python they are objects that every operator changes in place, whose `scope`
list and `card`, `stride` dictionaries are changed in place as well, and which can come to share a `card` dictionary (factor.py:288, 312).  Here a factor is a
reference to an object of a store, an object holds addresses of its list and dictionaries, and a factorization holds references.

The state left behind by a call that raises is not modelled.
-/

namespace PyBN
namespace Obj
variable {N A : Type _} [DecidableEq N] [DecidableEq A]
open Clq (Heap FObj)

/-- The factor objects of the running program, indexed by identity, with the lists and dictionaries they refer to. -/
structure Store (N : Type _) where
  heap : Heap N
  objs : List (FObj N)

/-- What a reader of the object `r` sees. -/
def Store.view (s : Store N) (r : ℕ) : Option (Factor N) := (s.objs[r]?).map s.heap.get

/-- Following a reference.  There are no dangling references in Python; one is a `runtimeError` here. -/
def Store.obj (s : Store N) (r : ℕ) : Py (FObj N) :=
  match s.objs[r]? with
  | some o => .ok o
  | none => .error .runtimeError

/-- factor.py:138-148: a new object with its own list and dictionaries; also `deepcopy` (factorization.py:110), given what is seen in the copied object. -/
def Store.new (s : Store N) (f : Factor N) : Store N × ℕ :=
  (⟨(s.heap.alloc f).1, s.objs ++ [(s.heap.alloc f).2]⟩, s.objs.length)

/-- factor.py:440-448, 500-503, 602-610: `del self.card[rv]`, `self.stride.update(..)`, `del self.stride[rv]`, `self.scope.remove(rv)` all change the
list and dictionaries `self` refers to, so that everyone else referring to them sees the change. -/
def Store.write (s : Store N) (r : ℕ) (o : FObj N) (f : Factor N) : Store N :=
  ⟨⟨s.heap.scopes.set o.scope f.scope, (s.heap.dicts.set o.card f.card).set o.stride f.stride⟩,
    s.objs.set r ⟨f.var, f.cpt, o.scope, o.card, o.stride⟩⟩

/-- factor.py:245-319 `self.multiply_factor(other)`; `self` and `other` may be one object. -/
def Store.mul (h : HashOrder N) (s : Store N) (self other : ℕ) : Py (Store N) := do
  let o ← s.obj self
  let p ← s.obj other
  let r ← s.heap.mul h o p
  pure ⟨r.1, s.objs.set self r.2⟩

/-- factor.py:399-448 `self.sumout_var(rv)`. -/
def Store.sumout (h : HashOrder N) (s : Store N) (self : ℕ) (rv : N) : Py (Store N) := do
  let o ← s.obj self
  let f ← Factor.sumout h (s.heap.get o) rv
  pure (s.write self o f)

/-- factor.py:453-509 `self.maxout_var(rv)`. -/
def Store.maxout (s : Store N) (self : ℕ) (rv : N) : Py (Store N) := do
  let o ← s.obj self
  let f ← Factor.maxout (s.heap.get o) rv
  pure (s.write self o f)

/-- factor.py:545-610 `self.reduce_factor(rv, val)`. -/
def Store.reduce (h : HashOrder N) (bn : BayesNet N A) (s : Store N) (self : ℕ) (rv : N) (val : A) : Py (Store N) := do
  let o ← s.obj self
  let f ← Factor.reduce h bn (s.heap.get o) rv val
  pure (s.write self o f)

/-! ## The operators of `Factor` -/

/-- What stands to the right of `self` in an operator application. -/
inductive FOp (N A : Type _) where
  | mul (other : ℕ)
  | sub (rv : N) (val : A)
  | div (rv : N)
  | floordiv (rv : N)

/-- factor.py:169-200 `self * other`, `self - (rv, val)`, `self / rv` (Python 2), `self // rv`: the method is called on `self`, and `self` is the value of the
expression.  Since none of `__imul__`, `__isub__`, `__idiv__`, `__ifloordiv__` is defined, `self *= other` etc. do the same and rebind the name to the value. -/
def Store.op (h : HashOrder N) (bn : BayesNet N A) (s : Store N) (self : ℕ) : FOp N A → Py (Store N × ℕ)
  | .mul other => do let s' ← s.mul h self other; pure (s', self)
  | .sub rv val => do let s' ← s.reduce h bn self rv val; pure (s', self)
  | .div rv => do let s' ← s.sumout h self rv; pure (s', self)
  | .floordiv rv => do let s' ← s.maxout self rv; pure (s', self)

/-! ## Class `Factorization` -/

/-- factorization.py:26-35: the attributes, with references to factors. -/
structure Fzn (N A : Type _) where
  phi : List ℕ
  mapFactors : List (N × ℕ)
  mapAssignment : Dict N A

/-- factorization.py:27-30: `[Factor(bn,rv) for rv in nodes]`. -/
def initPhi (bn : BayesNet N A) : Store N → List N → Py (Store N × List ℕ)
  | s, [] => .ok (s, [])
  | s, v :: vs => do
      let f ← Factor.init bn v
      let r ← initPhi bn (s.new f).1 vs
      pure (r.1, (s.new f).2 :: r.2)

/-- factorization.py:15-35 `Factorization(bn)`. -/
def init (bn : BayesNet N A) (s : Store N) : Py (Store N × Fzn N A) := do
  let r ← initPhi bn s bn.V
  pure (r.1, ⟨r.2, [], []⟩)

/-- `rv in f.scope` for a reference. -/
def mentions (s : Store N) (rv : N) (r : ℕ) : Bool :=
  match s.view r with
  | some f => decide (rv ∈ f.scope)
  | none => false

/-- factorization.py:81-83: reduce every factor whose scope mentions `rv`; the scope is read when its turn comes. -/
def reducePhi (h : HashOrder N) (bn : BayesNet N A) (rv : N) (val : A) : Store N → List ℕ → Py (Store N)
  | s, [] => .ok s
  | s, r :: rs =>
      if mentions s rv r then do
        let s' ← s.reduce h bn r rv val
        reducePhi h bn rv val s' rs
      else reducePhi h bn rv val s rs

/-- factorization.py:74-84 `self - (rv, val)`. -/
def sub (h : HashOrder N) (bn : BayesNet N A) (s : Store N) (p : Fzn N A) (rv : N) (val : A) : Py (Store N × Fzn N A) := do
  let s' ← reducePhi h bn rv val s p.phi
  pure (s', ⟨p.phi, p.mapFactors, p.mapAssignment.set rv val⟩)

/-- factorization.py:92-93, 107-108: `psi *= relevant_factors[i]`. -/
def mulAll (h : HashOrder N) : Store N → ℕ → List ℕ → Py (Store N)
  | s, _, [] => .ok s
  | s, psi, r :: rs => do
      let s' ← s.mul h psi r
      mulAll h s' psi rs

/-- factorization.py:87-93, 102-108: `psi = relevant_factors[0]` is that very object, and is multiplied by the others. -/
def relProduct (h : HashOrder N) (s : Store N) (phi : List ℕ) (rv : N) : Py (Store N × ℕ) :=
  match phi.filter (mentions s rv) with
  | [] => .error .indexError
  | r :: rs => do
      let s' ← mulAll h s r rs
      pure (s', r)

/-- factorization.py:86-99 `sum_product_eliminate_var(rv)`. -/
def sumElim (h : HashOrder N) (s : Store N) (p : Fzn N A) (rv : N) : Py (Store N × Fzn N A) := do
  let r ← relProduct h s p.phi rv
  let s' ← r.1.sumout h r.2 rv
  pure (s', { p with phi := p.phi.filter (fun q => !mentions s rv q) ++ [r.2] })

/-- factorization.py:110 `deepcopy(psi)`.  The copy also has its own copy of the network, which nothing changes. -/
def Store.deepcopy (s : Store N) (r : ℕ) : Py (Store N × ℕ) := do
  let o ← s.obj r
  pure (s.new (s.heap.get o))

/-- factorization.py:101-115 `max_product_eliminate_var(rv)`. -/
def maxElim (h : HashOrder N) (s : Store N) (p : Fzn N A) (rv : N) : Py (Store N × Fzn N A) := do
  let r ← relProduct h s p.phi rv
  let c ← r.1.deepcopy r.2
  let s' ← c.1.maxout r.2 rv
  pure (s', { p with phi := p.phi.filter (fun q => !mentions s rv q) ++ [r.2], mapFactors := Dict.set p.mapFactors rv c.2 })

/-- factorization.py:123-125: `f -= (..)` for the upstream variables `f` mentions; `f` is the object stored in `map_factors`. -/
def reduceUpstream (h : HashOrder N) (bn : BayesNet N A) (asg : Dict N A) : Store N → List N → ℕ → Py (Store N)
  | s, [], _ => .ok s
  | s, v :: vs, r =>
      if mentions s v r then do
        let x ← asg.get v
        let s' ← s.reduce h bn r v x
        reduceUpstream h bn asg s' vs r
      else reduceUpstream h bn asg s vs r

/-- factorization.py:117-129 `traceback_map()`; the factors in `map_factors` stay reduced afterwards. -/
def traceback (h : HashOrder N) (bn : BayesNet N A) (asg : Dict N A) : Store N → List (N × ℕ) → Py (Store N × Dict N A)
  | s, [] => .ok (s, asg)
  | s, (rv, r) :: rest => do
      let t ← traceback h bn asg s rest
      let s' ← reduceUpstream h bn t.2 t.1 (rest.map Prod.fst) r
      let vals ← bn.values rv
      let o ← s'.obj r
      let i ← pyArgmax o.cpt
      let x ← pyIdx vals i
      pure (s', t.2.set rv x)

/-- factorization.py:131-136 `consolidate()`: the object returned is `_phi[0]` itself (`NameError` if there is a second factor). -/
def consolidate (p : Fzn N A) : Py ℕ :=
  match p.phi with
  | [] => .error .indexError
  | [r] => .ok r
  | _ :: _ :: _ => .error .nameError

/-! ## Exact inference -/

/-- ve_marginal.py:44-46, ve_map.py:27-29. -/
def applyEvidence (h : HashOrder N) (bn : BayesNet N A) :
    List (N × A) → Store N → Fzn N A → List N → Py (Store N × Fzn N A × List N)
  | [], s, p, order => .ok (s, p, order)
  | (v, x) :: es, s, p, order => do
      let r ← sub h bn s p v x
      let order' ← pyRemove order v
      applyEvidence h bn es r.1 r.2 order'

/-- ve_marginal.py:49-50. -/
def sumElimAll (h : HashOrder N) : List N → Store N → Fzn N A → Py (Store N × Fzn N A)
  | [], s, p => .ok (s, p)
  | v :: vs, s, p => do
      let r ← sumElim h s p v
      sumElimAll h vs r.1 r.2

/-- ve_map.py:32-33. -/
def maxElimAll (h : HashOrder N) : List N → Store N → Fzn N A → Py (Store N × Fzn N A)
  | [], s, p => .ok (s, p)
  | v :: vs, s, p => do
      let r ← maxElim h s p v
      maxElimAll h vs r.1 r.2

/-- ve_marginal.py:12-55 `marginal_ve_e(bn, target, evidence)`, called in a program whose factor objects are those of `s`. -/
def marginalVE (h : HashOrder N) (hE : HashOrder (N × A)) (bn : BayesNet N A) (target : N) (evidence : Dict N A) (s : Store N) :
    Py (Store N × List ℚ) := do
  let i ← init bn s
  let order ← pyRemove bn.V target
  let e ← applyEvidence h bn (hE.iter evidence) i.1 i.2 order
  let p ← sumElimAll h e.2.2 e.1 e.2.1
  let r ← consolidate p.2
  let o ← p.1.obj r
  pure (p.1, o.cpt.map (roundEven 4))

/-- ve_map.py:12-36 `ve_map(bn, evidence)` up to the traceback. -/
def veMapCore (h : HashOrder N) (hE : HashOrder (N × A)) (bn : BayesNet N A) (evidence : Dict N A) (s : Store N) :
    Py (Store N × Fzn N A × Dict N A) := do
  let i ← init bn s
  let e ← applyEvidence h bn (hE.iter evidence) i.1 i.2 bn.V
  let p ← maxElimAll h e.2.2 e.1 e.2.1
  let t ← traceback h bn p.2.mapAssignment p.1 p.2.mapFactors
  pure (t.1, p.2, t.2)

/-- ve_map.py:12-53 `ve_map(bn, evidence)`, `prob=False`, `target=None`. -/
def veMap (h : HashOrder N) (hE : HashOrder (N × A)) (bn : BayesNet N A) (evidence : Dict N A) (s : Store N) : Py (Store N × Dict N A) := do
  let r ← veMapCore h hE bn evidence s
  pure (r.1, r.2.2)

/-- ve_map.py:39-47 `ve_map(bn, evidence, prob=True)`: `consolidate` after the traceback. -/
def veMapProb (h : HashOrder N) (hE : HashOrder (N × A)) (bn : BayesNet N A) (evidence : Dict N A) (s : Store N) :
    Py (Store N × ℚ × Dict N A) := do
  let r ← veMapCore h hE bn evidence s
  let f ← consolidate r.2.1
  let o ← r.1.obj f
  let x ← pyIdx o.cpt 0
  pure (r.1, roundAway 5 x, r.2.2)

/-! ## The operators of `Factorization` -/

/-- factorization.py:37-44 `refresh()`, 56-84 `self - (rv, val)`, `self / rv`, `self // rv`: all change `self`; the operators return it. -/
def step (h : HashOrder N) (bn : BayesNet N A) (s : Store N) (p : Fzn N A) : Factorization.Op N A → Py (Store N × Fzn N A)
  | .reduce rv val => sub h bn s p rv val
  | .sumOut rv => sumElim h s p rv
  | .maxOut rv => maxElim h s p rv
  | .refresh => init bn s

/-- A statement of a program that uses factorizations: `F = Factorization(bn)`, or a call on the `i`-th one made. -/
inductive Cmd (N A : Type _) where
  | make (bn : BayesNet N A)
  | call (i : ℕ) (o : Factorization.Op N A)

/-- A program; the factorizations made so far are listed with their networks (the attribute `bn`, factorization.py:24). -/
def runCmds (h : HashOrder N) : Store N → List (BayesNet N A × Fzn N A) → List (Cmd N A) → Py (Store N × List (BayesNet N A × Fzn N A))
  | s, ps, [] => .ok (s, ps)
  | s, ps, .make bn :: cs => do
      let r ← init bn s
      runCmds h r.1 (ps ++ [(bn, r.2)]) cs
  | s, ps, .call i o :: cs => do
      let bp ← match ps[i]? with
        | some bp => .ok bp
        | none => .error .nameError
      let r ← step h bp.1 s bp.2 o
      runCmds h r.1 (ps.set i (bp.1, r.2)) cs

end Obj
end PyBN
