import Verif.Model.BayesNetOps
import Mathlib.Analysis.SpecialFunctions.Log.Basic

/-!
# `pyBN/inference/map_exact/ilp_map.py`

The integer program `ilp_map` hands to `pulp`.  The solver is a parameter.
-/

namespace PyBN
variable {N A : Type _} [DecidableEq N] [DecidableEq A]

/-- A 0/1 variable of the program: the table entry `(rv, idx)` it stands for, its name (`cpt_str_idx` as data, with the node), its
coefficient in the objective. -/
structure LpVar (N A : Type _) where
  key : N × ℤ
  name : N × A × List (N × A)
  weight : ℚ

/-- A constraint: a sum of variables equal to one, or a variable at most a sum of variables. -/
inductive LpRow (N : Type _) where
  | sumOne (l : List (N × ℤ))
  | le (x : N × ℤ) (l : List (N × ℤ))

/-- The minimisation problem. -/
structure Ilp (N A : Type _) where
  vars : List (LpVar N A)
  rows : List (LpRow N)

/-- ilp_map.py:47 `round(-np.log(x),3)`.  For a positive entry other than one `-log x` is irrational, so the treatment of ties does not
matter.  For a zero entry the code has `inf`; the theorems about the objective demand positive entries. -/
noncomputable def ilpWeight (x : ℚ) : ℚ := (⌊-Real.log x * 1000 + 1 / 2⌋ : ℚ) / 1000

namespace BayesNet

/-- ilp_map.py:39-48 for one node: one variable for each table entry. -/
noncomputable def ilpVarsOf (hE : HashOrder (N × A)) (hI : HashOrder ℤ) (bn : BayesNet N A) (rv : N) : Py (List (LpVar N A)) := do
  let cpt ← bn.cpt rv
  pyMap (fun (idx : ℕ) => do
    let nm ← cptStrIdx hE hI bn rv idx
    let x ← pyIdx cpt (idx : ℤ)
    pure ⟨(rv, (idx : ℤ)), (rv, nm), ilpWeight x⟩) (List.range cpt.length)

/-- `var_dict[rv][i]`: `KeyError` when there is no such variable. -/
def ilpVar (keys : List (N × ℤ)) (k : N × ℤ) : Py (N × ℤ) := if k ∈ keys then .ok k else .error .keyError

/-- ilp_map.py:54-57, one row: `sum([var_dict[rv][idx] for idx in range(len(bn.cpt(rv)))]) == 1`. -/
def ilpSumRow (bn : BayesNet N A) (keys : List (N × ℤ)) (rv : N) : Py (LpRow N) := do
  let cpt ← bn.cpt rv
  let l ← pyMap (fun (i : ℕ) => ilpVar keys (rv, (i : ℤ))) (List.range cpt.length)
  pure (.sumOne l)

/-- ilp_map.py:63, 83: `bn.values(rv)[i % bn.card(rv)]`. -/
def ilpVal (bn : BayesNet N A) (rv : N) (i : ℕ) : Py A := do
  let vs ← bn.values rv
  let c ← bn.card rv
  if c = 0 then .error .zeroDivision else pyIdx vs ((i % c : ℕ) : ℤ)

/-- ilp_map.py:66-71: the outgoing constraint of entry `i` of `rv` for one child. -/
def ilpOutRow (hE : HashOrder (N × A)) (hI : HashOrder ℤ) (bn : BayesNet N A) (keys : List (N × ℤ)) (rv : N) (i : ℕ) (val : A)
    (child : N) : Py (LpRow N) := do
  let is ← cptIndices hE hI bn child [(rv, val)]
  let l ← pyMap (fun j => ilpVar keys (child, j)) is
  let x ← ilpVar keys (rv, (i : ℤ))
  pure (.le x l)

/-- ilp_map.py:61-71 for one node: a row for each of its entries and each child. -/
def ilpOutRows (hE : HashOrder (N × A)) (hI : HashOrder ℤ) (bn : BayesNet N A) (keys : List (N × ℤ)) (rv : N) : Py (List (LpRow N)) := do
  let cpt ← bn.cpt rv
  let rows ← pyMap (fun (i : ℕ) => do
    let val ← ilpVal bn rv i
    let ch ← bn.children rv
    pyMap (ilpOutRow hE hI bn keys rv i val) ch) (List.range cpt.length)
  pure rows.flatten

/-- ilp_map.py:81-85: the entries `p_idx` of `parent` whose value is the one entry `i` of `rv` has for that parent. -/
def ilpParentIdx (hE : HashOrder (N × A)) (hI : HashOrder ℤ) (bn : BayesNet N A) (rv : N) (i : ℕ) (parent : N) : Py (List ℕ) := do
  let cpt ← bn.cpt parent
  let l ← pyMap (fun (j : ℕ) => do
    let val ← ilpVal bn parent j
    let is ← cptIndices hE hI bn rv [(parent, val)]
    pure (if (i : ℤ) ∈ is then [j] else [])) (List.range cpt.length)
  pure l.flatten

/-- ilp_map.py:79-89: the ingoing constraint of entry `i` of `rv`: one sum over *all* parents. -/
def ilpInRow (hE : HashOrder (N × A)) (hI : HashOrder ℤ) (bn : BayesNet N A) (keys : List (N × ℤ)) (rv : N) (i : ℕ) : Py (LpRow N) := do
  let ps ← bn.parents rv
  let l ← pyMap (fun p => do
    let js ← ilpParentIdx hE hI bn rv i p
    pyMap (fun (j : ℕ) => ilpVar keys (p, (j : ℤ))) js) ps
  let x ← ilpVar keys (rv, (i : ℤ))
  pure (.le x l.flatten)

/-- ilp_map.py:75-89 for one node: nothing for a root. -/
def ilpInRows (hE : HashOrder (N × A)) (hI : HashOrder ℤ) (bn : BayesNet N A) (keys : List (N × ℤ)) (rv : N) : Py (List (LpRow N)) := do
  let ps ← bn.parents rv
  if ps = [] then pure []
  else do
    let cpt ← bn.cpt rv
    pyMap (ilpInRow hE hI bn keys rv) (List.range cpt.length)

/-- ilp_map.py:32-89: the whole program.  The names of the constraints are not modelled. -/
noncomputable def ilpModel (hE : HashOrder (N × A)) (hI : HashOrder ℤ) (bn : BayesNet N A) : Py (Ilp N A) := do
  let vars ← pyMap (ilpVarsOf hE hI bn) bn.V
  let keys := vars.flatten.map LpVar.key
  let r1 ← pyMap (ilpSumRow bn keys) bn.V
  let r2 ← pyMap (ilpOutRows hE hI bn keys) bn.V
  let r3 ← pyMap (ilpInRows hE hI bn keys) bn.V
  pure ⟨vars.flatten, r1 ++ r2.flatten ++ r3.flatten⟩

/-- ilp_map.py:12-96 `ilp_map(bn, evidence)` with `pulp` installed: what is printed (as data; `pulp` sorts the variables by name, here
they stand in the order of their creation).  `solve` is the solver: the value of every variable.  The function returns `None`. -/
noncomputable def ilpMap (hE : HashOrder (N × A)) (hI : HashOrder ℤ) (solve : Ilp N A → N × ℤ → ℤ) (bn : BayesNet N A)
    (_evidence : Dict N A) : Py (List (N × A × List (N × A))) := do
  let m ← ilpModel hE hI bn
  pure ((m.vars.filter fun x => decide (solve m x.key = 1)).map LpVar.name)

end BayesNet
end PyBN
