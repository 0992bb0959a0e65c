import Verif.Spec.Chordal
import Verif.Spec.BayesNet
import Mathlib.Data.Finset.Card
import Mathlib.Data.Finset.Powerset
import Mathlib.Logic.Relation
import Mathlib.Data.Sym.Sym2

/-!
# Maximal cliques and the running intersection property
-/

namespace PyBN
namespace Clq
variable {V I : Type _} [DecidableEq V]

/-- `K` is a clique of the graph `adj` on the vertices `W`. -/
def IsClique (adj : V → V → Prop) (W K : Finset V) : Prop :=
  K ⊆ W ∧ ∀ a ∈ K, ∀ b ∈ K, a ≠ b → adj a b

/-- `K` is a clique to which no vertex of `W` can be added. -/
def IsMaxClique (adj : V → V → Prop) (W K : Finset V) : Prop :=
  IsClique adj W K ∧ ∀ w ∈ W, w ∉ K → ∃ k ∈ K, ¬ adj w k

/-- Running intersection: any two nodes of `M` are linked, along the edges `E`, by nodes all of which contain what the two have in common. -/
def RunningIntersection (C : I → Finset V) (M : I → Prop) (E : I → I → Prop) : Prop :=
  ∀ i j, M i → M j → Relation.ReflTransGen (fun a b => (E a b ∨ E b a) ∧ M a ∧ M b ∧ C i ∩ C j ⊆ C a ∧ C i ∩ C j ⊆ C b) i j

/-- The nodes of a graph given by its edges. -/
def nodesOf (g : List (V × V)) : Finset V := (g.map Prod.fst ++ g.map Prod.snd).toFinset

/-- The documented contract of `nx.chordal_graph_cliques(G)`: `C` lists the maximal cliques of `g`, each once (the graph without nodes has none). -/
def ListsMaxCliques (g : List (V × V)) (C : List (List V)) : Prop :=
  (C.map List.toFinset).Nodup ∧ ∀ K, K ∈ C.map List.toFinset ↔ K.Nonempty ∧ IsMaxClique (Chordal.Joined g) (nodesOf g) K

/-- `J` is a spanning tree of the weighted graph `e` on the nodes `0, …, n - 1`: `n - 1` undirected edges of `e` linking all nodes. -/
def IsSpanningTree (n : ℕ) (e : ℕ → ℕ → Prop) (J : Finset (Sym2 ℕ)) : Prop :=
  J.card + 1 = n ∧ (∀ a b, s(a, b) ∈ J → e a b ∨ e b a) ∧ ∀ i j, i < n → j < n → Relation.ReflTransGen (fun a b => s(a, b) ∈ J ∧ a < n ∧ b < n) i j

/-- The set of variables of the clique with index `i`. -/
def cl (C : List (List V)) (i : ℕ) : Finset V := ((C[i]?).getD []).toFinset

/-- `m` is the first position of a largest number of the list. -/
def FirstLargest (l : List ℕ) (m : ℕ) : Prop :=
  ∃ x, l[m]? = some x ∧ (∀ y ∈ l, y ≤ x) ∧ ∀ k < m, ∀ y, l[k]? = some y → y < x

/-- What `initialize_psi` makes of the CPTs of the variables `vs`, assigned to the clique in this order: a single one is the potential; of several,
those up to and including the first with the largest table are multiplied in twice. -/
structure PsiSpec {A : Type _} (bn : BayesNet V A) (vs : List V) (f : Factor V) : Prop where
  wf : f.WF bn.cardOf
  scope : ∀ x, x ∈ f.scope ↔ ∃ v ∈ vs, x ∈ v :: bn.parentsOf v
  one : ∀ v, vs = [v] → ∀ a, InRange bn.cardOf f.scope a → f.entry a = some (bn.prob v a)
  more : 2 ≤ vs.length → ∃ m, FirstLargest (vs.map fun v => (bn.cptOf v).length) m ∧
    ∀ a, InRange bn.cardOf f.scope a → f.entry a = some (((vs.take (m + 1)).map fun v => bn.prob v a).prod ^ 2 * ((vs.drop (m + 1)).map fun v => bn.prob v a).prod)

/-- `par` arranges the nodes `0, …, n - 1` in a tree with root `r`, and `sched` lists the other nodes, each after its children. -/
structure Upward (n r : ℕ) (par : ℕ → ℕ) (sched : List ℕ) : Prop where
  perm : (r :: sched).Perm (List.range n)
  par_lt : ∀ i ∈ sched, par i < n
  children_first : ∀ l1 i l2, sched = l1 ++ i :: l2 → ∀ k ∈ sched, par k = i → k ∈ l1

end Clq
end PyBN
