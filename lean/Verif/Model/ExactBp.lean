import Verif.Model.Clique

/-!
# `pyBN/inference/marginal_exact/exact_bp.py`

`CliqueTree` is not imported.  `bound` says whether the module nevertheless has the name (`false` as shipped).  The evidence argument is
never read.  Not modelled: `downward_pass=True` (it runs after the returned table has been computed).
-/

namespace PyBN
namespace Clq
variable {N A : Type _} [DecidableEq N] [DecidableEq A]

/-- exact_bp.py:61-64: the first clique of `ctree.V` whose scope has the target. -/
def firstWith (t : Tree N) (target : N) : List ℕ → Py (Option ℕ)
  | [] => .ok none
  | v :: vs => do
      let c ← t.C.get v
      if target ∈ c.scope then pure (some v) else firstWith t target vs

/-- exact_bp.py:71-74: every clique sends to what `ctree.parents` returns for it. -/
def upwardSends (h : HashOrder N) : Tree N → List ℕ → Py (Tree N)
  | t, [] => .ok t
  | t, i :: is => do
      let ps ← Tree.parents t.E i t.V
      let t' ← sendAll h t (ps.map fun j => (i, j))
      upwardSends h t' is

/-- exact_bp.py:59-64: the clique chosen as root: `ctree.V[0]` unless some clique has the target. -/
def chooseRoot (t : Tree N) (target : N) : Py ℕ :=
  match t.V with
  | [] => .error .indexError
  | v :: vs => do
      let r ← firstWith t target (v :: vs)
      pure (r.getD v)

/-- exact_bp.py:13-80 `exact_bp(bn, target)`.  `post E root` is what `dfs_postorder` (networkx, cliquetree.py:125-129) returns. -/
def exactBp (bound : Bool) (post : Dict ℕ (List ℕ) → ℕ → List ℕ) (isChordal : List (N × N) → Bool) (cliques : List (N × N) → List (List N))
    (h : HashOrder N) (hP : HashOrder (N × N)) (hQ : HashOrder (ℕ × ℚ)) (hC : HashOrder ℕ) (bn : BayesNet N A) (target : N) : Py (Factor N) :=
  if bound = false then .error .nameError
  else do
    let t ← cliqueTree isChordal cliques h hP hQ hC bn
    let root ← chooseRoot t target
    let t1 ← upwardSends h t (post t.E root)
    let t2 ← collectBeliefs h t1 root
    marginalizeOver t2 root target

end Clq
end PyBN
