import Verif.Proofs.RowOrder2
import Verif.Spec.Repeat

/-!
# Repeated data: the parameter estimators
-/

set_option linter.unusedSectionVars false

namespace PyBN
namespace BayesNet

/-- All entries of all tables times `k`. -/
def scaleD (k : ℕ) (d : Dict ℕ (List ℚ)) : Dict ℕ (List ℚ) := d.map fun kv => (kv.1, kv.2.map ((k : ℚ) * ·))

theorem scaleD_get? (k : ℕ) (x : ℕ) : ∀ d : Dict ℕ (List ℚ), Dict.get? (scaleD k d) x = (Dict.get? d x).map (List.map ((k : ℚ) * ·))
  | [] => rfl
  | (a, b) :: d => by
    show Dict.get? ((a, b.map ((k : ℚ) * ·)) :: scaleD k d) x = _
    by_cases h : a = x
    · simp [Dict.get?, h]
    · simp only [Dict.get?, h, if_false]; exact scaleD_get? k x d

theorem scaleD_set (k : ℕ) (x : ℕ) (l : List ℚ) : ∀ d : Dict ℕ (List ℚ), scaleD k (Dict.set d x l) = Dict.set (scaleD k d) x (l.map ((k : ℚ) * ·))
  | [] => rfl
  | (a, b) :: d => by
    show _ = Dict.set ((a, b.map ((k : ℚ) * ·)) :: scaleD k d) x _
    by_cases h : a = x
    · simp [Dict.set, h, scaleD]
    · simp only [Dict.set, h, if_false]; rw [← scaleD_set k x l d]; rfl

/-- `k` increments of the same entry. -/
theorem bumps_replicate {p : ℕ × ℤ} : ∀ (k : ℕ) {c : Dict ℕ (List ℚ)} {l : List ℚ}, Dict.get? c p.1 = some l → -(l.length : ℤ) ≤ p.2 →
    place l.length p.2 < l.length → bumps (List.replicate k p) c = .ok (Dict.set c p.1 (l.modify (place l.length p.2) (· + (k : ℚ))))
  | 0, c, l, h1, _, _ => by
    have : l.modify (place l.length p.2) (· + ((0 : ℕ) : ℚ)) = l := by
      refine List.ext_getElem? fun i => ?_
      rw [List.getElem?_modify]
      cases l[i]? with
      | none => rfl
      | some x => by_cases hi : place l.length p.2 = i <;> simp [hi]
    rw [this]
    show Except.ok c = _
    congr 1
    clear this
    induction c with
    | nil => cases h1
    | cons q c ih =>
      obtain ⟨a, b⟩ := q
      by_cases h : a = p.1
      · simp only [Dict.get?, h, if_true] at h1
        cases h1
        simp [Dict.set, h]
      · simp only [Dict.get?, h, if_false] at h1
        simp only [Dict.set, h, if_false]
        rw [← ih h1]
  | k + 1, c, l, h1, h2, h3 => by
    rw [List.replicate_succ, bumps]
    refine bind_ok_iff.2 ⟨_, bump_iff.2 ⟨l, h1, h2, h3, rfl⟩, ?_⟩
    rw [bumps_replicate k (l := l.modify (place l.length p.2) (· + 1)) (by rw [Dict.get?_set_self]) (by rw [List.length_modify]; exact h2)
      (by rw [List.length_modify]; exact h3), set_set, List.length_modify]
    congr 2
    refine List.ext_getElem? fun i => ?_
    simp only [List.getElem?_modify]
    by_cases hi : place l.length p.2 = i
    · simp only [hi, if_true]
      cases l[i]? with
      | none => rfl
      | some x => show some (x + 1 + (k : ℚ)) = some (x + ((k + 1 : ℕ) : ℚ)); push_cast; congr 1; ring
    · simp [hi]

/-- `k` copies of a counting run, from tables `k` times as large, give tables `k` times as large. -/
theorem bumps_scale (k : ℕ) : ∀ {L : List (ℕ × ℤ)} {c r : Dict ℕ (List ℚ)}, bumps L c = .ok r →
    bumps (List.replicate k L).flatten (scaleD k c) = .ok (scaleD k r)
  | [], c, r, h => by
    cases h
    have : (List.replicate k ([] : List (ℕ × ℤ))).flatten = [] := by simp
    rw [this]; rfl
  | p :: L, c, r, h => by
    obtain ⟨a, h1, h2⟩ := bind_ok_iff.1 (show (bump p c >>= fun c => bumps L c) = _ from h)
    obtain ⟨l, g1, g2, g3, rfl⟩ := bump_iff.1 h1
    have hp : ((List.replicate k p) ++ (List.replicate k L).flatten).Perm (List.replicate k (p :: L)).flatten := by
      clear h h1 h2
      induction k with
      | zero => simp
      | succ k ih =>
        rw [List.replicate_succ, List.replicate_succ, List.replicate_succ, List.flatten_cons, List.flatten_cons, List.cons_append, List.cons_append]
        refine List.Perm.cons _ ?_
        refine List.Perm.trans ?_ (List.Perm.append_left L ih)
        rw [← List.append_assoc, ← List.append_assoc]
        exact List.Perm.append_right _ List.perm_append_comm
    refine bumps_perm hp (bumps_append.2 ⟨_, bumps_replicate k (l := l.map ((k : ℚ) * ·)) ?_ ?_ ?_, ?_⟩)
    · rw [scaleD_get?, g1]; rfl
    · rw [List.length_map]; exact g2
    · rw [List.length_map]; exact g3
    · have := bumps_scale k h2
      rw [scaleD_set] at this
      rw [List.length_map]
      convert this using 3
      refine List.ext_getElem? fun i => ?_
      simp only [List.getElem?_modify, List.getElem?_map]
      by_cases hi : place l.length p.2 = i
      · simp only [hi, if_true]
        cases l[i]? with
        | none => rfl
        | some x => show some ((k : ℚ) * x + (k : ℚ)) = some ((k : ℚ) * (x + 1)); congr 1; ring
      · simp [hi]

/-- Whether a counting run succeeds does not matter where it is stopped. -/
theorem bumps_prefix {L M : List (ℕ × ℤ)} {c r : Dict ℕ (List ℚ)} (h : bumps (L ++ M) c = .ok r) : ∃ a, bumps L c = .ok a := by
  obtain ⟨a, h1, _⟩ := bumps_append.1 h
  exact ⟨a, h1⟩

/-- All entries are natural numbers. -/
def NatD (d : Dict ℕ (List ℚ)) : Prop := ∀ x l, Dict.get? d x = some l → ∀ y ∈ l, ∃ n : ℕ, y = n

theorem bumps_nat : ∀ {L : List (ℕ × ℤ)} {c r : Dict ℕ (List ℚ)}, NatD c → bumps L c = .ok r → NatD r
  | [], c, r, hc, h => by cases h; exact hc
  | p :: L, c, r, hc, h => by
    obtain ⟨a, h1, h2⟩ := bind_ok_iff.1 (show (bump p c >>= fun c => bumps L c) = _ from h)
    obtain ⟨l, g1, g2, g3, rfl⟩ := bump_iff.1 h1
    refine bumps_nat ?_ h2
    intro x m hm y hy
    by_cases hx : p.1 = x
    · rw [← hx, Dict.get?_set_self] at hm
      cases hm
      obtain ⟨i, hi⟩ := List.mem_iff_getElem?.1 hy
      rw [List.getElem?_modify] at hi
      cases hl : l[i]? with
      | none => rw [hl] at hi; cases hi
      | some z =>
        obtain ⟨n, hn⟩ := hc _ _ g1 z (List.mem_iff_getElem?.2 ⟨i, hl⟩)
        rw [hl] at hi
        cases hi
        by_cases hj : place l.length p.2 = i
        · refine ⟨n + 1, ?_⟩; simp [hj, hn]
        · refine ⟨n, ?_⟩; simp [hj, hn]
    · rw [Dict.get?_set_ne _ _ hx] at hm
      exact hc _ _ hm y hy

theorem pyMap_append_iff {α β : Type _} {f : α → Py β} : ∀ {l m : List α} {r : List β}, pyMap f (l ++ m) = .ok r ↔
    ∃ a b, pyMap f l = .ok a ∧ pyMap f m = .ok b ∧ r = a ++ b
  | [], m, r => ⟨fun h => ⟨[], r, rfl, h, rfl⟩, fun ⟨_, _, h1, h2, h3⟩ => by cases h1; rw [h3]; exact h2⟩
  | x :: l, m, r => by
    rw [List.cons_append, pyMap_cons_iff]
    constructor
    · rintro ⟨y, ys, h1, h2, rfl⟩
      obtain ⟨a, b, h3, h4, rfl⟩ := pyMap_append_iff.1 h2
      exact ⟨y :: a, b, pyMap_cons_iff.2 ⟨y, a, h1, h3, rfl⟩, h4, rfl⟩
    · rintro ⟨a, b, h1, h2, rfl⟩
      obtain ⟨y, ys, h3, h4, rfl⟩ := pyMap_cons_iff.1 h1
      exact ⟨y, ys ++ b, h3, pyMap_append_iff.2 ⟨ys, b, h4, h2, rfl⟩, rfl⟩

theorem pyMap_repeat {α β : Type _} {f : α → Py β} {l : List α} {r : List β} (h : pyMap f l = .ok r) :
    ∀ k : ℕ, pyMap f (List.replicate k l).flatten = .ok (List.replicate k r).flatten
  | 0 => rfl
  | k + 1 => by
    rw [List.replicate_succ, List.replicate_succ, List.flatten_cons, List.flatten_cons]
    exact pyMap_append_iff.2 ⟨_, _, h, pyMap_repeat h k, rfl⟩

/-- The first copy. -/
theorem pyMap_repeat_first {α β : Type _} {f : α → Py β} {l : List α} {r : List β} {k : ℕ} (hk : 0 < k)
    (h : pyMap f (List.replicate k l).flatten = .ok r) : ∃ a, pyMap f l = .ok a := by
  obtain ⟨k, rfl⟩ := Nat.exists_eq_succ_of_ne_zero hk.ne'
  rw [List.replicate_succ, List.flatten_cons] at h
  obtain ⟨a, _, h1, _⟩ := pyMap_append_iff.1 h
  exact ⟨a, h1⟩

theorem mem_repeat {α : Type _} {l : List α} {k : ℕ} (hk : 0 < k) {x : α} : x ∈ (List.replicate k l).flatten ↔ x ∈ l := by
  rw [List.mem_flatten]
  constructor
  · rintro ⟨m, hm, hx⟩; rw [List.eq_of_mem_replicate hm] at hx; exact hx
  · intro hx; exact ⟨l, List.mem_replicate.2 ⟨hk.ne', rfl⟩, hx⟩

theorem npUnique_repeat {l : List ℤ} {k : ℕ} (hk : 0 < k) : npUnique (List.replicate k l).flatten = npUnique l :=
  ((List.perm_ext_iff_of_nodup (npUnique_nodup _) (npUnique_nodup l)).2 fun x => by
    rw [mem_npUnique, mem_npUnique, mem_repeat hk]).eq_of_pairwise
    (fun _ _ _ _ hab hba => absurd (hab.trans hba) (lt_irrefl _)) (npUnique_pairwise _) (npUnique_pairwise l)

section
variable {data : Data} {k : ℕ} (hk : 0 < k)
include hk

theorem col_times (i : ℕ) : (∀ {c}, data.col i = .ok c → (data.times k).col i = .ok (List.replicate k c).flatten) ∧
    (∀ {c}, (data.times k).col i = .ok c → ∃ c', data.col i = .ok c') := by
  unfold Data.col
  show _ ∧ ∀ {c}, (if i < data.ncol then _ else _) = _ → _
  constructor
  · intro c h
    show (if i < data.ncol then _ else _) = _
    split at h
    · rw [if_pos ‹_›]; exact pyMap_repeat h k
    · cases h
  · intro c h
    split at h
    · rw [if_pos ‹_›]; exact pyMap_repeat_first hk h
    · cases h

theorem setValues_times : ∀ (i : ℕ) (ns : List ℕ) {F G : Dict ℕ (NodeData ℕ ℤ)}, setValues (data.times k) i ns F = .ok G ↔ setValues data i ns F = .ok G
  | _, [], _, _ => Iff.rfl
  | i, n :: ns, F, G => by
    rw [setValues, setValues, bind_ok_iff, bind_ok_iff]
    constructor
    · rintro ⟨c, h1, e⟩
      obtain ⟨d, h2, e⟩ := bind_ok_iff.1 e
      obtain ⟨c', h3⟩ := (col_times hk i).2 h1
      rw [(col_times hk i).1 h3] at h1
      cases h1
      rw [npUnique_repeat hk] at e
      exact ⟨c', h3, bind_ok_iff.2 ⟨d, h2, (setValues_times (i + 1) ns).1 e⟩⟩
    · rintro ⟨c, h1, e⟩
      obtain ⟨d, h2, e⟩ := bind_ok_iff.1 e
      refine ⟨_, (col_times hk i).1 h1, bind_ok_iff.2 ⟨d, h2, ?_⟩⟩
      rw [npUnique_repeat hk]
      exact (setValues_times (i + 1) ns).2 e

theorem countRows_times {hE : HashOrder (ℕ × ℤ)} {hI : HashOrder ℤ} {bn : BayesNet ℕ ℤ} {nodes : List ℕ} {rows : List (List ℤ)} {c : Dict ℕ (List ℚ)} :
    (∀ {r}, countRows hE hI bn nodes rows c = .ok r → countRows hE hI bn nodes (List.replicate k rows).flatten (scaleD k c) = .ok (scaleD k r)) ∧
    (∀ {r}, countRows hE hI bn nodes (List.replicate k rows).flatten c = .ok r → ∃ r', countRows hE hI bn nodes rows c = .ok r') := by
  constructor
  · intro r h
    obtain ⟨L, h1, h2⟩ := (countRows_iff hE hI bn nodes).1 h
    refine (countRows_iff hE hI bn nodes).2 ⟨_, pyMap_repeat h1 k, ?_⟩
    have := bumps_scale k h2
    rw [show (List.replicate k L).flatten.flatten = (List.replicate k L.flatten).flatten by
      rw [List.flatten_flatten, List.map_replicate]]
    exact this
  · intro r h
    obtain ⟨L, h1, h2⟩ := (countRows_iff hE hI bn nodes).1 h
    obtain ⟨a, h3⟩ := pyMap_repeat_first hk h1
    rw [pyMap_repeat h3 k] at h1
    cases h1
    obtain ⟨k, rfl⟩ := Nat.exists_eq_succ_of_ne_zero hk.ne'
    rw [List.replicate_succ, List.flatten_cons, List.flatten_append] at h2
    obtain ⟨r', h4⟩ := bumps_prefix h2
    exact ⟨r', (countRows_iff hE hI bn nodes).2 ⟨a, h3, h4⟩⟩
end

/-! ## The tables start at zero -/

theorem setTables_zero : ∀ {ns : List ℕ} {bn bn2 : BayesNet ℕ ℤ} (S : List ℕ),
    (∀ v ∈ S, ∀ d, bn.F.get? v = some d → ∀ x ∈ d.cpt, x = 0) → setTables (fun _ => .ok 0) ns bn = .ok bn2 →
    ∀ v, v ∈ S ∨ v ∈ ns → ∀ d, bn2.F.get? v = some d → ∀ x ∈ d.cpt, x = 0
  | [], bn, bn2, S, hS, h, v, hv => by
    cases h
    exact hS v (hv.resolve_right (by simp))
  | rv :: rvs, bn, bn2, S, hS, h, v, hv => by
    obtain ⟨ps, h1, h⟩ := bind_ok_iff.1 h
    obtain ⟨cs, h2, h⟩ := bind_ok_iff.1 h
    obtain ⟨c, h3, h⟩ := bind_ok_iff.1 h
    obtain ⟨x, h4, h⟩ := bind_ok_iff.1 h
    obtain ⟨d, h5, h⟩ := bind_ok_iff.1 h
    cases h4
    refine setTables_zero (rv :: S) ?_ h v ?_
    · intro w hw e he y hy
      by_cases hwr : rv = w
      · subst hwr
        rw [show Dict.get? _ rv = _ from Dict.get?_set_self ..] at he
        cases he
        exact List.eq_of_mem_replicate hy
      · rw [show Dict.get? _ w = _ from Dict.get?_set_ne _ _ hwr] at he
        exact hS w ((List.mem_cons.1 hw).resolve_left (Ne.symm hwr)) e he y hy
    · rcases hv with hv | hv
      · exact .inl (by simp [hv])
      · rcases List.mem_cons.1 hv with rfl | hv
        · exact .inl (by simp)
        · exact .inr hv

theorem scaleD_zero (k : ℕ) : ∀ (d : Dict ℕ (List ℚ)), (∀ q ∈ d, ∀ y ∈ q.2, y = (0 : ℚ)) → scaleD k d = d
  | [], _ => rfl
  | (a, b) :: d, h => by
    show (a, b.map ((k : ℚ) * ·)) :: scaleD k d = _
    rw [scaleD_zero k d fun q hq => h q (by simp [hq])]
    congr 2
    have hb := h (a, b) (by simp)
    conv_rhs => rw [← List.map_id b]
    refine List.map_congr_left fun y hy => ?_
    rw [hb y hy]; simp

end BayesNet
end PyBN
