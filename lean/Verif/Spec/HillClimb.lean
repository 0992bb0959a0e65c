import Verif.Spec.Graph
import Verif.Model.HillClimb

/-!
# Specification of score-based structure search

What a move means, when it is legal, and what a run of the search looks like from outside.
-/

namespace PyBN
variable {N : Type _} [DecidableEq N]

/-- The arcs after a move on the arc `u -> v`. -/
def MoveArc (c : Dict N (List N)) (m : Move) (u v a b : N) : Prop :=
  match m with
  | .addition => Arc c a b ∨ (a = u ∧ b = v)
  | .deletion => Arc c a b ∧ ¬ (a = u ∧ b = v)
  | .reversal => (Arc c a b ∧ ¬ (a = u ∧ b = v)) ∨ (a = v ∧ b = u)

/-- A relation without directed cycle. -/
def Acyclic (R : N → N → Prop) : Prop := ∀ w, ¬ Relation.TransGen R w w

/-- A legal move: an addition of a missing allowed arc, or a deletion or reversal of an existing arc, that keeps the graph
acyclic. -/
def Legal (V : List N) (restriction : Option (List (N × N))) (c : Dict N (List N)) (m : Move) (u v : N) : Prop :=
  u ∈ V ∧ v ∈ V ∧ u ≠ v ∧ Acyclic (MoveArc c m u v) ∧
    match m with
    | .addition => ¬ Arc c u v ∧ ∀ r ∈ restriction, (u, v) ∈ r
    | .deletion => Arc c u v
    | .reversal => Arc c u v

/-- The score difference the code computes for a move (see `addDelta`, `delDelta`, `revDelta`); `pv` are the parents of `v`. -/
def moveDelta (env : HcEnv N) (pv : List N) (m : Move) (u v : N) : Option ℚ :=
  match m with
  | .addition => addDelta env pv u v
  | .deletion => delDelta env pv u v
  | .reversal => revDelta env pv u v

/-- The parents of `v` recorded in `p_dict`. -/
def parentsIn (st : CP N) (v : N) : List N := (st.p.get? v).getD []

/-- Is the chosen move carried out?  (Reversals only under `debug`.) -/
def Performed (debug : Bool) (m : Move) : Prop := m ≠ .reversal ∨ debug = true

/-- A correct pass: the chosen move is legal and not blocked, has the largest positive score difference, and the arcs afterwards are
those after the move (if it is performed at all). -/
structure PassOk (env : HcEnv N) (blocked : Move → N → N → Bool) (p : Pass N) : Prop where
  legal : ∀ d m u v, p.move = some (d, m, u, v) → 0 < d ∧ Legal env.V env.restriction p.before.c m u v ∧
    blocked m u v = false ∧ moveDelta env (parentsIn p.before v) m u v = some d
  best : ∀ m u v d', Legal env.V env.restriction p.before.c m u v → blocked m u v = false →
    moveDelta env (parentsIn p.before v) m u v = some d' → d' ≤ (p.move.map Prod.fst).getD 0
  made : ∀ d m u v, p.move = some (d, m, u, v) → Performed env.debug m →
    ∀ a b, Arc p.after.c a b ↔ MoveArc p.before.c m u v a b
  unmade : ∀ d m u v, p.move = some (d, m, u, v) → ¬ Performed env.debug m → p.after = p.before
  still : p.move = none → p.after = p.before

/-- A run: consecutive passes, each starting where the previous one ended; every pass but the last improved. -/
inductive History (ok : Pass N → Prop) : CP N → List (Pass N) → CP N → Prop
  | last (p : Pass N) : ok p → History ok p.before [p] p.after
  | cons (p : Pass N) {tr : List (Pass N)} {fin : CP N} : ok p → p.move ≠ none → History ok p.after tr fin →
      History ok p.before (p :: tr) fin

/-- The two dictionaries describe one acyclic graph over `names`: `p` is the transpose of `c`, without duplicates. -/
structure CInv (names : List N) (st : CP N) : Prop where
  nodup : names.Nodup
  ckeys : st.c.keys = names
  pkeys : st.p.keys = names
  child : ∀ u v, Arc st.c u v → v ∈ names
  cnd : ∀ u l, Dict.get? st.c u = some l → l.Nodup
  pnd : ∀ u l, Dict.get? st.p u = some l → l.Nodup
  trans : ∀ u v, Arc st.c u v ↔ Arc st.p v u
  acyclic : NoCycle st.c

end PyBN
