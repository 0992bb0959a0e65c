import Verif.Proofs.RowOrder

/-!
# The order of the rows: the parameter estimators
-/

set_option linter.unusedSectionVars false

namespace PyBN
namespace BayesNet

theorem bind_ok_iff {α β : Type _} {x : Py α} {f : α → Py β} {b : β} : (x >>= f) = .ok b ↔ ∃ a, x = .ok a ∧ f a = .ok b := by
  cases x with
  | error e => exact ⟨fun h => (by cases h), fun ⟨_, h, _⟩ => (by cases h)⟩
  | ok a => exact ⟨fun h => ⟨a, rfl, h⟩, fun ⟨_, h, k⟩ => by cases h; exact k⟩

/-- The position an index refers to. -/
def place (n : ℕ) (off : ℤ) : ℕ := if 0 ≤ off then off.toNat else (n + off).toNat

theorem incr_iff {l r : List ℚ} {off : ℤ} : incr l off = .ok r ↔ -(l.length : ℤ) ≤ off ∧ place l.length off < l.length ∧ r = l.modify (place l.length off) (· + 1) := by
  unfold incr pyIdx place
  by_cases h : 0 ≤ off
  · simp only [h, if_true]
    by_cases hn : off.toNat < l.length
    · rw [List.getElem?_eq_getElem hn]
      constructor
      · intro e; cases e
        exact ⟨by omega, hn, by rw [List.modify_eq_set_getElem? , List.getElem?_eq_getElem hn]; rfl⟩
      · rintro ⟨_, _, rfl⟩
        rw [List.modify_eq_set_getElem?, List.getElem?_eq_getElem hn]; rfl
    · rw [List.getElem?_eq_none (by omega)]
      exact ⟨fun e => (by cases e), fun e => absurd e.2.1 hn⟩
  · simp only [h, if_false]
    by_cases h2 : -(l.length : ℤ) ≤ off
    · have hn : (l.length + off).toNat < l.length := by omega
      simp only [h2, if_true]
      rw [List.getElem?_eq_getElem hn]
      constructor
      · intro e; cases e
        exact ⟨trivial, hn, by rw [List.modify_eq_set_getElem? , List.getElem?_eq_getElem hn]; rfl⟩
      · rintro ⟨_, _, rfl⟩
        rw [List.modify_eq_set_getElem?, List.getElem?_eq_getElem hn]; rfl
    · simp only [h2, if_false]
      exact ⟨fun e => (by cases e), fun e => e.1.elim⟩

/-- One increment. -/
def bump (p : ℕ × ℤ) (cnt : Dict ℕ (List ℚ)) : Py (Dict ℕ (List ℚ)) := do
  let l ← cnt.get p.1
  let l' ← incr l p.2
  pure (cnt.set p.1 l')

def bumps : List (ℕ × ℤ) → Dict ℕ (List ℚ) → Py (Dict ℕ (List ℚ))
  | [], cnt => .ok cnt
  | p :: ps, cnt => do
    let c ← bump p cnt
    bumps ps c

theorem get_ok_iff {K V : Type _} [DecidableEq K] {d : Dict K V} {k : K} {v : V} : Dict.get d k = .ok v ↔ Dict.get? d k = some v := by
  unfold Dict.get
  cases Dict.get? d k with
  | none => exact ⟨fun h => (by cases h), fun h => (by cases h)⟩
  | some x => exact ⟨fun h => by cases h; rfl, fun h => by cases h; rfl⟩

theorem set_comm' {K V : Type _} [DecidableEq K] {k k' : K} (hk : k ≠ k') (v v' : V) : ∀ {d : Dict K V} {x x' : V}, Dict.get? d k = some x → Dict.get? d k' = some x' →
    Dict.set (Dict.set d k v) k' v' = Dict.set (Dict.set d k' v') k v
  | [], _, _, h, _ => by cases h
  | (a, b) :: d, x, x', h, h' => by
    rw [Dict.get?_cons] at h h'
    by_cases h1 : a = k
    · have h2 : a ≠ k' := fun e => hk (h1.symm.trans e)
      simp only [Dict.set, h1, if_true, hk, if_false]
    · by_cases h2 : a = k'
      · simp only [Dict.set, h2, if_true, Ne.symm hk, if_false]
      · rw [if_neg h1] at h
        rw [if_neg h2] at h'
        simp only [Dict.set, h1, h2, if_false]
        rw [set_comm' hk v v' h h']

theorem set_set {K V : Type _} [DecidableEq K] (k : K) (v v' : V) : ∀ (d : Dict K V), Dict.set (Dict.set d k v) k v' = Dict.set d k v'
  | [] => by simp [Dict.set]
  | (a, b) :: d => by
    by_cases h1 : a = k
    · simp [Dict.set, h1]
    · simp only [Dict.set, h1, if_false]; rw [set_set k v v' d]

theorem bump_iff {p : ℕ × ℤ} {cnt r : Dict ℕ (List ℚ)} : bump p cnt = .ok r ↔ ∃ l, Dict.get? cnt p.1 = some l ∧ -(l.length : ℤ) ≤ p.2 ∧ place l.length p.2 < l.length ∧
    r = Dict.set cnt p.1 (l.modify (place l.length p.2) (· + 1)) := by
  unfold bump
  rw [bind_ok_iff]
  constructor
  · rintro ⟨l, h1, h2⟩
    obtain ⟨l', h3, h4⟩ := bind_ok_iff.1 h2
    obtain ⟨h5, h6, rfl⟩ := incr_iff.1 h3
    cases h4
    exact ⟨l, get_ok_iff.1 h1, h5, h6, rfl⟩
  · rintro ⟨l, h1, h5, h6, rfl⟩
    exact ⟨l, get_ok_iff.2 h1, bind_ok_iff.2 ⟨_, incr_iff.2 ⟨h5, h6, rfl⟩, rfl⟩⟩

theorem bump_comm {p q : ℕ × ℤ} {c a b : Dict ℕ (List ℚ)} (h1 : bump p c = .ok a) (h2 : bump q a = .ok b) :
    ∃ a', bump q c = .ok a' ∧ bump p a' = .ok b := by
  obtain ⟨l, e1, g1, g2, rfl⟩ := bump_iff.1 h1
  obtain ⟨m, e2, k1, k2, rfl⟩ := bump_iff.1 h2
  by_cases h : p.1 = q.1
  · rw [h, Dict.get?_set_self] at e2
    cases e2
    rw [List.length_modify] at k1 k2 ⊢
    refine ⟨_, bump_iff.2 ⟨l, h ▸ e1, k1, k2, rfl⟩, bump_iff.2 ⟨l.modify (place l.length q.2) (· + 1), by rw [h, Dict.get?_set_self], ?_, ?_, ?_⟩⟩
    · rw [List.length_modify]; exact g1
    · rw [List.length_modify]; exact g2
    · rw [List.length_modify, h, set_set, set_set]
      congr 1
      by_cases hp : place l.length p.2 = place l.length q.2
      · rw [hp]
      · refine List.ext_getElem? fun i => ?_
        simp only [List.getElem?_modify]
        by_cases i1 : place l.length p.2 = i <;> by_cases i2 : place l.length q.2 = i <;> simp [i1, i2]
  · rw [Dict.get?_set_ne _ _ h] at e2
    refine ⟨_, bump_iff.2 ⟨m, e2, k1, k2, rfl⟩, bump_iff.2 ⟨l, by rw [Dict.get?_set_ne _ _ (Ne.symm h)]; exact e1, g1, g2, ?_⟩⟩
    exact set_comm' h _ _ e1 e2

theorem bumps_perm {L L' : List (ℕ × ℤ)} (h : L.Perm L') : ∀ {c r : Dict ℕ (List ℚ)}, bumps L c = .ok r → bumps L' c = .ok r := by
  induction h with
  | nil => exact fun e => e
  | cons x _ ih =>
    intro c r e
    obtain ⟨a, e1, e2⟩ := bind_ok_iff.1 (show (bump x c >>= fun c => bumps _ c) = _ from e)
    exact bind_ok_iff.2 ⟨a, e1, ih e2⟩
  | swap x y l =>
    intro c r e
    obtain ⟨a, e1, e2⟩ := bind_ok_iff.1 (show (bump y c >>= fun c => bumps (x :: l) c) = _ from e)
    obtain ⟨b, e3, e4⟩ := bind_ok_iff.1 (show (bump x a >>= fun c => bumps l c) = _ from e2)
    obtain ⟨a', e5, e6⟩ := bump_comm e1 e3
    exact bind_ok_iff.2 ⟨a', e5, bind_ok_iff.2 ⟨b, e6, e4⟩⟩
  | trans _ _ ih1 ih2 => exact fun e => ih2 (ih1 e)

theorem bumps_append : ∀ {L M : List (ℕ × ℤ)} {c r : Dict ℕ (List ℚ)}, bumps (L ++ M) c = .ok r ↔ ∃ a, bumps L c = .ok a ∧ bumps M a = .ok r
  | [], M, c, r => ⟨fun h => ⟨c, rfl, h⟩, fun ⟨_, h, k⟩ => by cases h; exact k⟩
  | p :: L, M, c, r => by
    rw [List.cons_append, bumps, bind_ok_iff]
    constructor
    · rintro ⟨a, h1, h2⟩
      obtain ⟨b, h3, h4⟩ := bumps_append.1 h2
      exact ⟨b, bind_ok_iff.2 ⟨a, h1, h3⟩, h4⟩
    · rintro ⟨b, h1, h2⟩
      obtain ⟨a, h3, h4⟩ := bind_ok_iff.1 h1
      exact ⟨a, h3, bumps_append.2 ⟨b, h4, h2⟩⟩

section
variable (hE : HashOrder (ℕ × ℤ)) (hI : HashOrder ℤ) (bn : BayesNet ℕ ℤ)

/-- The entry one row increments at one node. -/
def entryOf (obs : Dict ℕ ℤ) (rv : ℕ) : Py (ℕ × ℤ) := do
  let sc ← bn.scope rv
  let is ← cptIndices hE hI bn rv (obs.filter fun kv => decide (kv.1 ∈ sc))
  let off ← pyIdx is 0
  pure (rv, off)

theorem pyMap_cons_iff {α β : Type _} {f : α → Py β} {x : α} {l : List α} {r : List β} : pyMap f (x :: l) = .ok r ↔ ∃ y ys, f x = .ok y ∧ pyMap f l = .ok ys ∧ r = y :: ys := by
  rw [pyMap, bind_ok_iff]
  constructor
  · rintro ⟨y, h1, h2⟩
    obtain ⟨ys, h3, h4⟩ := bind_ok_iff.1 h2
    cases h4
    exact ⟨y, ys, h1, h3, rfl⟩
  · rintro ⟨y, ys, h1, h3, rfl⟩
    exact ⟨y, h1, bind_ok_iff.2 ⟨ys, h3, rfl⟩⟩

theorem countNodes_iff (obs : Dict ℕ ℤ) : ∀ {rvs : List ℕ} {c r : Dict ℕ (List ℚ)}, countNodes hE hI bn obs rvs c = .ok r ↔
    ∃ L, pyMap (entryOf hE hI bn obs) rvs = .ok L ∧ bumps L c = .ok r
  | [], c, r => ⟨fun h => ⟨[], rfl, h⟩, fun ⟨_, h, k⟩ => by cases h; exact k⟩
  | rv :: rvs, c, r => by
    rw [countNodes]
    constructor
    · intro h
      obtain ⟨sc, h1, h⟩ := bind_ok_iff.1 h
      obtain ⟨is, h2, h⟩ := bind_ok_iff.1 h
      obtain ⟨off, h3, h⟩ := bind_ok_iff.1 h
      obtain ⟨l, h4, h⟩ := bind_ok_iff.1 h
      obtain ⟨l', h5, h⟩ := bind_ok_iff.1 h
      obtain ⟨L, h6, h7⟩ := (countNodes_iff obs).1 h
      refine ⟨(rv, off) :: L, pyMap_cons_iff.2 ⟨_, _, ?_, h6, rfl⟩, ?_⟩
      · exact bind_ok_iff.2 ⟨_, h1, bind_ok_iff.2 ⟨_, h2, bind_ok_iff.2 ⟨_, h3, rfl⟩⟩⟩
      · exact bind_ok_iff.2 ⟨_, bind_ok_iff.2 ⟨_, h4, bind_ok_iff.2 ⟨_, h5, rfl⟩⟩, h7⟩
    · rintro ⟨L, h, hb⟩
      obtain ⟨y, ys, h1, h2, rfl⟩ := pyMap_cons_iff.1 h
      obtain ⟨sc, g1, h1⟩ := bind_ok_iff.1 h1
      obtain ⟨is, g2, h1⟩ := bind_ok_iff.1 h1
      obtain ⟨off, g3, h1⟩ := bind_ok_iff.1 h1
      cases h1
      obtain ⟨a, k1, k2⟩ := bind_ok_iff.1 hb
      obtain ⟨l, k3, k1⟩ := bind_ok_iff.1 k1
      obtain ⟨l', k4, k1⟩ := bind_ok_iff.1 k1
      cases k1
      exact bind_ok_iff.2 ⟨_, g1, bind_ok_iff.2 ⟨_, g2, bind_ok_iff.2 ⟨_, g3, bind_ok_iff.2 ⟨_, k3, bind_ok_iff.2 ⟨_, k4, (countNodes_iff obs).2 ⟨ys, h2, k2⟩⟩⟩⟩⟩⟩

/-- The entries one row increments. -/
def rowEntries (nodes : List ℕ) (row : List ℤ) : Py (List (ℕ × ℤ)) := do
  let obs ← observe nodes row
  pyMap (entryOf hE hI bn obs) nodes

theorem countRows_iff (nodes : List ℕ) : ∀ {rows : List (List ℤ)} {c r : Dict ℕ (List ℚ)}, countRows hE hI bn nodes rows c = .ok r ↔
    ∃ L, pyMap (rowEntries hE hI bn nodes) rows = .ok L ∧ bumps L.flatten c = .ok r
  | [], c, r => ⟨fun h => ⟨[], rfl, h⟩, fun ⟨_, h, k⟩ => by cases h; exact k⟩
  | row :: rows, c, r => by
    rw [countRows]
    constructor
    · intro h
      obtain ⟨obs, h1, h⟩ := bind_ok_iff.1 h
      obtain ⟨a, h2, h⟩ := bind_ok_iff.1 h
      obtain ⟨M, h3, h4⟩ := (countNodes_iff hE hI bn obs).1 h2
      obtain ⟨L, h5, h6⟩ := (countRows_iff nodes).1 h
      exact ⟨M :: L, pyMap_cons_iff.2 ⟨_, _, bind_ok_iff.2 ⟨_, h1, h3⟩, h5, rfl⟩, bumps_append.2 ⟨a, h4, h6⟩⟩
    · rintro ⟨L, h, hb⟩
      obtain ⟨M, ys, h1, h2, rfl⟩ := pyMap_cons_iff.1 h
      obtain ⟨obs, g1, h1⟩ := bind_ok_iff.1 h1
      obtain ⟨a, k1, k2⟩ := bumps_append.1 (show bumps (M ++ ys.flatten) c = .ok r from hb)
      exact bind_ok_iff.2 ⟨obs, g1, bind_ok_iff.2 ⟨a, (countNodes_iff hE hI bn obs).2 ⟨M, h1, k1⟩, (countRows_iff nodes).2 ⟨ys, h2, k2⟩⟩⟩

theorem countRows_perm (nodes : List ℕ) {rows rows' : List (List ℤ)} (h : rows.Perm rows') {c r : Dict ℕ (List ℚ)} (e : countRows hE hI bn nodes rows c = .ok r) :
    countRows hE hI bn nodes rows' c = .ok r := by
  obtain ⟨L, h1, h2⟩ := (countRows_iff hE hI bn nodes).1 e
  obtain ⟨L', h3, h4⟩ := pyMap_perm _ h h1
  exact (countRows_iff hE hI bn nodes).2 ⟨L', h3, bumps_perm (h4.flatten) h2⟩

end

section
variable {data data' : Data} (hn : data.ncol = data'.ncol) (h : data.rows.Perm data'.rows)
include hn h

theorem col_perm (i : ℕ) {r : List ℤ} (e : data.col i = .ok r) : ∃ r', data'.col i = .ok r' ∧ r.Perm r' := by
  unfold Data.col at e ⊢
  rw [← hn]
  split at e
  · rw [if_pos ‹_›]; exact pyMap_perm _ h e
  · cases e

theorem setValues_perm : ∀ (i : ℕ) (ns : List ℕ) {F G : Dict ℕ (NodeData ℕ ℤ)}, setValues data i ns F = .ok G → setValues data' i ns F = .ok G
  | _, [], _, _, e => e
  | i, n :: ns, F, G, e => by
    obtain ⟨c, h1, e⟩ := bind_ok_iff.1 e
    obtain ⟨d, h2, e⟩ := bind_ok_iff.1 e
    obtain ⟨c', h3, h4⟩ := col_perm hn h i h1
    refine bind_ok_iff.2 ⟨c', h3, bind_ok_iff.2 ⟨d, h2, ?_⟩⟩
    rw [← npUnique_perm h4]
    exact setValues_perm (i + 1) ns e

theorem learn_perm {hE : HashOrder (ℕ × ℤ)} {hI : HashOrder ℤ} {fill : ℕ → Py ℚ} {bn : BayesNet ℕ ℤ} {nodes : List ℕ} {r : BayesNet ℕ ℤ × Dict ℕ (List ℚ)}
    (e : learn hE hI fill bn data nodes = .ok r) : learn hE hI fill bn data' nodes = .ok r := by
  obtain ⟨F1, h1, e⟩ := bind_ok_iff.1 e
  obtain ⟨b2, h2, e⟩ := bind_ok_iff.1 e
  obtain ⟨i0, h3, e⟩ := bind_ok_iff.1 e
  obtain ⟨ct, h4, e⟩ := bind_ok_iff.1 e
  exact bind_ok_iff.2 ⟨F1, setValues_perm hn h 0 nodes h1, bind_ok_iff.2 ⟨b2, h2, bind_ok_iff.2 ⟨i0, h3, bind_ok_iff.2 ⟨ct, countRows_perm hE hI b2 nodes h h4, e⟩⟩⟩⟩

theorem mleCounts_perm {hE : HashOrder (ℕ × ℤ)} {hI : HashOrder ℤ} {bn : BayesNet ℕ ℤ} {nodes : Option (List ℕ)} {r : Dict ℕ (List ℤ × List ℚ)}
    (e : mleCounts hE hI bn data nodes = .ok r) : mleCounts hE hI bn data' nodes = .ok r := by
  obtain ⟨x, h1, e⟩ := bind_ok_iff.1 e
  exact bind_ok_iff.2 ⟨x, learn_perm hn h h1, e⟩

theorem mleEstimator_perm {hE : HashOrder (ℕ × ℤ)} {hI : HashOrder ℤ} {bn : BayesNet ℕ ℤ} {nodes : Option (List ℕ)} {r : BayesNet ℕ ℤ}
    (e : mleEstimator hE hI bn data nodes = .ok r) : mleEstimator hE hI bn data' nodes = .ok r := by
  obtain ⟨x, h1, e⟩ := bind_ok_iff.1 e
  exact bind_ok_iff.2 ⟨x, learn_perm hn h h1, e⟩

theorem bayesEstimator_perm {hE : HashOrder (ℕ × ℤ)} {hI : HashOrder ℤ} {bn : BayesNet ℕ ℤ} {equiv : Option ℚ} {nodes : Option (List ℕ)} {r : BayesNet ℕ ℤ}
    (e : bayesEstimator hE hI bn data equiv nodes = .ok r) : bayesEstimator hE hI bn data' equiv nodes = .ok r := by
  unfold bayesEstimator at e ⊢
  dsimp only at e ⊢
  rw [← h.length_eq]
  obtain ⟨x, h1, e⟩ := bind_ok_iff.1 e
  exact bind_ok_iff.2 ⟨x, learn_perm hn h h1, e⟩

theorem pyMap_congr_ok {α β : Type _} {f g : α → Py β} (hfg : ∀ x y, f x = .ok y → g x = .ok y) : ∀ {l : List α} {r : List β}, pyMap f l = .ok r → pyMap g l = .ok r
  | [], _, e => e
  | x :: l, r, e => by
    obtain ⟨y, ys, h1, h2, rfl⟩ := pyMap_cons_iff.1 e
    exact pyMap_cons_iff.2 ⟨y, ys, hfg _ _ h1, pyMap_congr_ok hfg h2, rfl⟩

theorem naiveBayes_perm {hE : HashOrder (ℕ × ℤ)} {hI : HashOrder ℤ} {ho : HashOrder ℕ} {target : ℕ} {b : Bool} {r : BayesNet ℕ ℤ}
    (e : naiveBayes hE hI ho data target b = .ok r) : naiveBayes hE hI ho data' target b = .ok r := by
  obtain ⟨vd, h1, e⟩ := bind_ok_iff.1 e
  obtain ⟨bn, h2, e⟩ := bind_ok_iff.1 e
  refine bind_ok_iff.2 ⟨vd, ?_, bind_ok_iff.2 ⟨bn, h2, ?_⟩⟩
  · obtain ⟨ps, h3, h4⟩ := bind_ok_iff.1 h1
    refine bind_ok_iff.2 ⟨ps, ?_, h4⟩
    rw [← hn]
    refine pyMap_congr_ok (hn := hn) (h := h) (fun i y hy => ?_) h3
    obtain ⟨c, h5, h6⟩ := bind_ok_iff.1 hy
    obtain ⟨c', h7, h8⟩ := col_perm hn h i h5
    refine bind_ok_iff.2 ⟨c', h7, ?_⟩
    rw [← npUnique_perm h8]; exact h6
  · cases b
    · exact mleEstimator_perm hn h e
    · exact bayesEstimator_perm hn h e

end
end BayesNet
end PyBN
