import Verif.Spec.DSep
import Verif.Spec.Recover

/-!
# Specification: conditional independence in a network
-/

namespace PyBN
variable {N A : Type _} [DecidableEq N] [DecidableEq A]

/-- `u` is a parent of `v`: the arcs of a network. -/
def BayesNet.IsParent (bn : BayesNet N A) (u v : N) : Prop := u ∈ bn.parentsOf v

/-- `X` and `Y` are conditionally independent given `S` under the joint probability of the network: `P(X,Y,S) P(S) = P(X,S) P(Y,S)` for all values. -/
def CondIndep (bn : BayesNet N A) (X Y S : List N) : Prop :=
  ∀ a, InRange bn.cardOf (X ++ Y ++ S) a → margOf bn (X ++ Y ++ S) a * margOf bn S a = margOf bn (X ++ S) a * margOf bn (Y ++ S) a

/-- The graph says that `X` and `Y` are independent given `S`: every node of `X` is d-separated from every node of `Y`. -/
def BayesNet.Separates (bn : BayesNet N A) (X Y S : List N) : Prop := ∀ x ∈ X, ∀ y ∈ Y, DSep.Separated bn.IsParent x y {s | s ∈ S}

/-- A network is faithful to its graph: nodes are conditionally independent only where the graph says so (almost all choices of tables give such a network). -/
def Faithful (bn : BayesNet N A) : Prop :=
  ∀ x y S, (x :: y :: S).Nodup → (∀ v ∈ x :: y :: S, v ∈ bn.V) → CondIndep bn [x] [y] S → DSep.Separated bn.IsParent x y {s | s ∈ S}

end PyBN
