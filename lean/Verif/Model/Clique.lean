import Verif.Model.Chordal
import Verif.Model.Graph
import Verif.Model.Factorization

/-!
# `pyBN/classes/cliquetree.py`: classes `Clique` and `CliqueTree`

`copy(f)` of a factor makes a new object whose `scope`, `card` and `stride` attributes are the *same* list and dictionaries; `sumout_var` changes
these in place.  So the three attributes are addresses into a heap.  The objects themselves (their attributes `var`, `cpt` and the three references) are
values here: the only place where two names for one factor *object* matter is `initialize_psi`, which says so.

The state left behind by a call that raises is not modelled.
-/

namespace PyBN
namespace Clq
variable {N A : Type _} [DecidableEq N] [DecidableEq A]

/-- A factor object: `scope`, `card`, `stride` are addresses. -/
structure FObj (N : Type _) where
  var : N
  cpt : List ℚ
  scope : ℕ
  card : ℕ
  stride : ℕ
  deriving DecidableEq

/-- The lists and dictionaries the factor objects refer to. -/
structure Heap (N : Type _) where
  scopes : List (List N)
  dicts : List (Dict N ℕ)

/-- The factor as seen by a reader. -/
def Heap.get (H : Heap N) (o : FObj N) : Factor N :=
  ⟨o.var, o.cpt, (H.scopes[o.scope]?).getD [], (H.dicts[o.card]?).getD [], (H.dicts[o.stride]?).getD []⟩

/-- factor.py:138-148: a factor just created has its own list and dictionaries. -/
def Heap.alloc (H : Heap N) (f : Factor N) : Heap N × FObj N :=
  (⟨H.scopes ++ [f.scope], H.dicts ++ [f.card, f.stride]⟩, ⟨f.var, f.cpt, H.scopes.length, H.dicts.length, H.dicts.length + 1⟩)

/-- factor.py:245-319 `self *= other` on objects: `phi1.card.update(..)` writes to the dictionary of the factor with the larger scope, which becomes
`self.card`; `scope` and `stride` are new. -/
def Heap.mul (h : HashOrder N) (H : Heap N) (self other : FObj N) : Py (Heap N × FObj N) := do
  let r ← Factor.mul h (H.get self) (H.get other)
  let card := if (H.get self).scope.length ≥ (H.get other).scope.length then self.card else other.card
  pure (⟨H.scopes ++ [r.1.scope], H.dicts.set card r.1.card ++ [r.1.stride]⟩, ⟨r.1.var, r.1.cpt, H.scopes.length, card, H.dicts.length⟩)

/-- factor.py:399-448 `self /= rv` on objects: `del self.card[rv]`, `self.stride.update`, `del self.stride[rv]`, `self.scope.remove(rv)` in place. -/
def Heap.sumout (h : HashOrder N) (H : Heap N) (self : FObj N) (rv : N) : Py (Heap N × FObj N) := do
  let f ← Factor.sumout h (H.get self) rv
  pure (⟨H.scopes.set self.scope f.scope, (H.dicts.set self.card f.card).set self.stride f.stride⟩, ⟨f.var, f.cpt, self.scope, self.card, self.stride⟩)

/-- `for msg in msgs: self *= msg`. -/
def Heap.mulAll (h : HashOrder N) : Heap N → FObj N → List (FObj N) → Py (Heap N × FObj N)
  | H, o, [] => .ok (H, o)
  | H, o, m :: ms => do
      let r ← H.mul h o m
      Heap.mulAll h r.1 r.2 ms

/-- `for v in vs: self /= v`. -/
def Heap.sumoutAll (h : HashOrder N) : Heap N → FObj N → List N → Py (Heap N × FObj N)
  | H, o, [] => .ok (H, o)
  | H, o, v :: vs => do
      let r ← H.sumout h o v
      Heap.sumoutAll h r.1 r.2 vs

/-- cliquetree.py:223-230: the attributes of a clique; `scope` is a set. -/
structure Clique (N : Type _) where
  scope : List N
  F : List (FObj N)
  psi : Option (FObj N)
  belief : Option (FObj N)
  msgs : List (FObj N)
  ready : Bool

/-- cliquetree.py:211-230 `Clique(scope)`. -/
def Clique.new (scope : List N) : Clique N := ⟨scope.dedup, [], none, none, [], false⟩

/-- cliquetree.py:358-369 `sepset`. -/
def Clique.sepset (c d : Clique N) : List N := c.scope.filter (· ∈ d.scope)

/-- cliquetree.py:91-97: the attributes of the tree, with the heap. -/
structure Tree (N : Type _) where
  V : List ℕ
  E : Dict ℕ (List ℕ)
  C : Dict ℕ (Clique N)
  heap : Heap N

/-- cliquetree.py:115-120 `parents(v)`: appends `v`, not `rv`. -/
def Tree.parents (E : Dict ℕ (List ℕ)) (v : ℕ) : List ℕ → Py (List ℕ)
  | [] => .ok []
  | rv :: rvs => do
      let l ← E.get rv
      let r ← Tree.parents E v rvs
      pure (if v ∈ l then v :: r else r)

/-! ## initialize_psi -/

/-- cliquetree.py:302: `max(self._F, key=lambda x: len(x.cpt))`: index of the first longest table, `best` being the index found so far. -/
def longest : List (FObj N) → ℕ → ℕ → ℕ → ℕ
  | [], _, best, _ => best
  | f :: fs, i, best, len => if f.cpt.length > len then longest fs (i + 1) i f.cpt.length else longest fs (i + 1) best len

/-- cliquetree.py:303-304: `for f in self._F: self.psi *= f`, from index `i` on.  `psi` *is* the object at index `m`, so there it is multiplied by itself. -/
def psiLoop (h : HashOrder N) (m : ℕ) : Heap N → FObj N → List (FObj N) → ℕ → Py (Heap N × FObj N)
  | H, psi, [], _ => .ok (H, psi)
  | H, psi, f :: fs, i => do
      let r ← H.mul h psi (if i = m then psi else f)
      psiLoop h m r.1 r.2 fs (i + 1)

/-- cliquetree.py:290-305 `initialize_psi()`; `belief = copy(psi)` has the same references. -/
def initializePsi (h : HashOrder N) (H : Heap N) (c : Clique N) : Py (Heap N × Clique N) :=
  match c.F with
  | [] => .error .assertionError
  | [f] => pure (H, { c with psi := some f, belief := some f })
  | f :: fs => do
      let m := longest fs 1 0 f.cpt.length
      let r ← psiLoop h m H (((f :: fs)[m]?).getD f) (f :: fs) 0
      pure (r.1, { c with psi := some r.2, belief := some r.2 })

/-! ## Messages -/

/-- cliquetree.py:270-285: belief and message of a sender with scope `sc`, to a receiver with scope `rsc`. -/
def beliefAndMessage (h : HashOrder N) (H : Heap N) (b0 : FObj N) (msgs : List (FObj N)) (sc rsc : List N) : Py (Heap N × FObj N × FObj N) := do
  let b ← H.mulAll h b0 msgs
  let m ← b.1.sumoutAll h b.2 (h.iter (sc.filter (· ∉ rsc)))
  pure (m.1, b.2, m.2)

/-- cliquetree.py:247-288 `send_message`, from clique `i` to clique `j` of a tree.  `self.belief` is never `None` after `initialize_psi`; a
missing one is replaced by `psi` (and `None *= msg`, `None /= rv` are `TypeError`s).  Simplified: a clique without potential that has
received nothing and whose scope lies inside the receiver's would append `None`; that too is a `TypeError` here. -/
def sendMessage (h : HashOrder N) (t : Tree N) (i j : ℕ) : Py (Tree N) := do
  let c ← t.C.get i
  let d ← t.C.get j
  match c.belief <|> c.psi with
  | none => .error .typeError
  | some b0 => do
      let r ← beliefAndMessage h t.heap b0 c.msgs c.scope d.scope
      let C1 := t.C.set i { c with belief := some r.2.1 }
      let d1 ← C1.get j
      pure { t with heap := r.1, C := C1.set j { d1 with msgs := d1.msgs ++ [r.2.2] } }

/-- A sequence of `ct[i] >> ct[j]`. -/
def sendAll (h : HashOrder N) : Tree N → List (ℕ × ℕ) → Py (Tree N)
  | t, [] => .ok t
  | t, (i, j) :: l => do
      let t' ← sendMessage h t i j
      sendAll h t' l

/-- cliquetree.py:332-356 `collect_beliefs()` of clique `i`. -/
def collectBeliefs (h : HashOrder N) (t : Tree N) (i : ℕ) : Py (Tree N) := do
  let c ← t.C.get i
  match c.msgs with
  | [] => pure t
  | msgs =>
      match c.psi with
      | none => .error .typeError
      | some p => do
          let b ← t.heap.mulAll h p msgs
          pure { t with heap := b.1, C := t.C.set i { c with belief := some b.2, msgs := [] } }

/-- cliquetree.py:371-383 `marginalize_over(target)`: `sumover_var` gives the copy new attributes, so nothing else changes. -/
def marginalizeOver (t : Tree N) (i : ℕ) (target : N) : Py (Factor N) := do
  let c ← t.C.get i
  match c.belief with
  | none => .error .attributeError
  | some b => (t.heap.get b).sumover target

/-! ## CliqueTree -/

/-- cliquetree.py:168-172: the inner loop: variables not yet assigned whose family fits into the clique. -/
def assignStep (bn : BayesNet N A) (scope : List N) : List N → Dict N Bool → List N → Py (List N × Dict N Bool)
  | [], va, acc => .ok (acc, va)
  | var :: vs, va, acc => do
      let b ← va.get var
      if b then assignStep bn scope vs va acc
      else do
        let s ← bn.scope var
        if s ⊆ scope then assignStep bn scope vs (va.set var true) (acc ++ [var]) else assignStep bn scope vs va acc

/-- cliquetree.py:166-173: variables assigned to each clique, in the order of `self.C.values()`. -/
def assignLoop (h : HashOrder N) (bn : BayesNet N A) : List (ℕ × List N) → Dict N Bool → Py (List (ℕ × List N))
  | [], _ => .ok []
  | (i, scope) :: cs, va => do
      let r ← assignStep bn scope (h.iter va.keys) va []
      let rest ← assignLoop h bn cs r.2
      pure ((i, r.1) :: rest)

/-- factorization.py:27-28: the factors of the listed variables, each a new object. -/
def newFactors (bn : BayesNet N A) : Heap N → List N → Py (Heap N × List (FObj N))
  | H, [] => .ok (H, [])
  | H, v :: vs => do
      let f ← Factor.init bn v
      let o := H.alloc f
      let r ← newFactors bn o.1 vs
      pure (r.1, o.2 :: r.2)

/-- cliquetree.py:173: `clique._F = Factorization(self.bn, temp_scope)` for all cliques. -/
def makeCliques (bn : BayesNet N A) (scopeOf : ℕ → List N) : Heap N → List (ℕ × List N) → Py (Heap N × Dict ℕ (Clique N))
  | H, [] => .ok (H, [])
  | H, (i, vs) :: l => do
      let r ← newFactors bn H vs
      let rest ← makeCliques bn scopeOf r.1 l
      pure (rest.1, (i, { Clique.new (scopeOf i) with F := r.2 }) :: rest.2)

/-- cliquetree.py:178-181: `is_ready` and `initialize_psi` for every clique. -/
def psiAll (h : HashOrder N) (E : Dict ℕ (List ℕ)) (V : List ℕ) : Heap N → List (ℕ × Clique N) → Py (Heap N × Dict ℕ (Clique N))
  | H, [] => .ok (H, [])
  | H, (i, c) :: cs => do
      let p ← Tree.parents E i V
      let r ← initializePsi h H { c with ready := p.isEmpty }
      let rest ← psiAll h E V r.1 cs
      pure (rest.1, (i, r.2) :: rest.2)

/-- cliquetree.py:152-157: weights: minus the number of common variables. -/
def weights (C : List (List N)) : Dict ℕ (Dict ℕ ℚ) :=
  (List.range C.length).map fun i => (i, ((List.range C.length).filter (· ≠ i)).map fun j =>
    (j, -(((Clique.new ((C[i]?).getD [])).sepset (Clique.new ((C[j]?).getD []))).length : ℚ)))

/-- cliquetree.py:131-173 `initialize_tree`, the structure: the cliques (in the order of their indices), the edges, and the variables assigned to each
clique.  `cliques g` is `reversed(list(nx.chordal_graph_cliques(G)))`, `hC` the order of `self.C.values()`. -/
def treeShape (isChordal : List (N × N) → Bool) (cliques : List (N × N) → List (List N)) (h : HashOrder N) (hP : HashOrder (N × N))
    (hQ : HashOrder (ℕ × ℚ)) (hC : HashOrder ℕ) (bn : BayesNet N A) : Py (List (List N) × Dict ℕ (List ℕ) × List (ℕ × List N)) := do
  let g ← Chordal.makeChordal isChordal h hP bn none
  let C := cliques g
  let E ← mst hQ (weights C)
  let asg ← assignLoop h bn ((hC.iter (List.range C.length)).map fun i => (i, (Clique.new ((C[i]?).getD [])).scope)) (bn.V.map fun v => (v, false))
  pure (C, E, asg)

/-- cliquetree.py:75-98, 131-181 `CliqueTree(bn)`.  (Line 97, `self._F = Factorization(bn)`, is left out: the attribute is never used, and the call
raises only if the factors of some variable cannot be built.) -/
def cliqueTree (isChordal : List (N × N) → Bool) (cliques : List (N × N) → List (List N)) (h : HashOrder N) (hP : HashOrder (N × N))
    (hQ : HashOrder (ℕ × ℚ)) (hC : HashOrder ℕ) (bn : BayesNet N A) : Py (Tree N) := do
  let s ← treeShape isChordal cliques h hP hQ hC bn
  let V := hC.iter s.2.1.keys
  let c ← makeCliques bn (fun i => (s.1[i]?).getD []) ⟨[], []⟩ s.2.2
  let r ← psiAll h s.2.1 V c.1 c.2
  pure ⟨V, s.2.1, r.2, r.1⟩

end Clq
end PyBN
