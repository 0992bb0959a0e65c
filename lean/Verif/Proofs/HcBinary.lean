import Verif.Proofs.HillClimb
import Mathlib.Tactic.Linarith

/-!
# Hill climbing with a score that looks at the first parent only
-/

set_option linter.unusedSectionVars false
namespace PyBN
variable {N : Type _} [DecidableEq N] {env : HcEnv N} {names : List N}

/-- A correct pass that starts and ends in a consistent pair of dictionaries. -/
def PassInv (env : HcEnv N) (names : List N) (p : Pass N) : Prop := (∃ blocked, PassOk env blocked p) ∧ CInv names p.before ∧ CInv names p.after

theorem climb_inv (hfc : FindsCycles env.fc) (hV : ∀ v ∈ env.V, v ∈ names) : ∀ (left : ℕ) (st : CP N), CInv names st → ∀ s fin tr,
    climb env left st = .ok (s, fin, tr) → History (PassInv env names) st tr fin := by
  intro left
  induction left with
  | zero =>
    intro st i s fin tr h
    obtain ⟨p, h1, rfl, h3, h4⟩ := onePass_ok hfc i hV (fun _ _ _ => false)
    rw [climb] at h
    simp only [h1, Py.bind_ok, Py.pure_eq, Except.ok.injEq, Prod.mk.injEq] at h
    obtain ⟨-, rfl, rfl⟩ := h
    exact .last p ⟨⟨_, h4⟩, i, h3⟩
  | succ left ih =>
    intro st i s fin tr h
    obtain ⟨p, h1, rfl, h3, h4⟩ := onePass_ok hfc i hV (fun _ _ _ => false)
    rw [climb] at h
    simp only [h1, Py.bind_ok, Py.pure_eq] at h
    by_cases hm : p.move = none
    · rw [if_pos hm] at h
      simp only [Except.ok.injEq, Prod.mk.injEq] at h
      obtain ⟨-, rfl, rfl⟩ := h
      exact .last p ⟨⟨_, h4⟩, i, h3⟩
    · rw [if_neg hm] at h
      cases hc : climb env left p.after with
      | error e => rw [hc] at h; cases h
      | ok r =>
        rw [hc] at h
        simp only [Py.bind_ok, Except.ok.injEq, Prod.mk.injEq] at h
        obtain ⟨-, rfl, rfl⟩ := h
        exact .cons p ⟨⟨_, h4⟩, i, h3⟩ hm (ih p.after h3 _ _ _ hc)

theorem tabuLoop_inv (hfc : FindsCycles env.fc) (hV : ∀ v ∈ env.V, v ∈ names) : ∀ (left iter : ℕ) (tl : List (Option (N × N × Move)))
    (st : CP N), CInv names st → ∀ fin tr, tabuLoop env left iter tl st = .ok (fin, tr) → History (PassInv env names) st tr fin := by
  intro left
  induction left with
  | zero =>
    intro iter tl st i fin tr h
    obtain ⟨p, h1, rfl, h3, h4⟩ := onePass_ok hfc i hV (tabuBlocked tl)
    rw [tabuLoop] at h
    simp only [h1, Py.bind_ok, Py.pure_eq] at h
    cases hc : tabuUpdate env.debug tl iter p.move with
    | error e => rw [hc] at h; cases h
    | ok r =>
      rw [hc] at h
      simp only [Py.bind_ok, Except.ok.injEq, Prod.mk.injEq] at h
      obtain ⟨rfl, rfl⟩ := h
      exact .last p ⟨⟨_, h4⟩, i, h3⟩
  | succ left ih =>
    intro iter tl st i fin tr h
    obtain ⟨p, h1, rfl, h3, h4⟩ := onePass_ok hfc i hV (tabuBlocked tl)
    rw [tabuLoop] at h
    simp only [h1, Py.bind_ok, Py.pure_eq] at h
    cases hu : tabuUpdate env.debug tl iter p.move with
    | error e => rw [hu] at h; cases h
    | ok tl' =>
      rw [hu] at h
      simp only [Py.bind_ok] at h
      by_cases hm : p.move = none
      · rw [if_pos hm] at h
        simp only [Except.ok.injEq, Prod.mk.injEq] at h
        obtain ⟨rfl, rfl⟩ := h
        exact .last p ⟨⟨_, h4⟩, i, h3⟩
      · rw [if_neg hm] at h
        cases hc : tabuLoop env left (iter + 1) tl' p.after with
        | error e => rw [hc] at h; cases h
        | ok r =>
          rw [hc] at h
          simp only [Py.bind_ok, Except.ok.injEq, Prod.mk.injEq] at h
          obtain ⟨rfl, rfl⟩ := h
          exact .cons p ⟨⟨_, h4⟩, i, h3⟩ hm (ih _ _ p.after h3 _ _ hc)

/-- A score that ignores all parents but the first, and never exceeds the score without parents of either variable. -/
structure FirstOnly (env : HcEnv N) : Prop where
  nrow : 0 ≤ env.nrow
  first : ∀ v u ps, env.mi (v :: u :: ps) = env.mi [v, u]
  left : ∀ v u h i, env.mi [v] = some h → env.mi [v, u] = some i → i ≤ h
  right : ∀ v u h i, env.mi [u] = some h → env.mi [v, u] = some i → i ≤ h

theorem deltaOf_self (cols : List N) (d : ℚ) (h : deltaOf env cols cols = some d) : d = 0 := by
  unfold deltaOf at h
  cases hm : env.mi cols with
  | none => rw [hm] at h; cases h
  | some a =>
    rw [hm] at h
    have h' : env.nrow * (a - a) = d := Option.some.inj h
    rw [sub_self, mul_zero] at h'
    exact h'.symm

theorem deltaOf_congr {c1 c2 c1' c2' : List N} (h1 : env.mi c1 = env.mi c1') (h2 : env.mi c2 = env.mi c2') :
    deltaOf env c1 c2 = deltaOf env c1' c2' := by unfold deltaOf; rw [h1, h2]

theorem deltaOf_nonpos (hn : 0 ≤ env.nrow) {c1 c2 : List N} (hle : ∀ i h, env.mi c1 = some i → env.mi c2 = some h → i ≤ h) {d : ℚ}
    (h : deltaOf env c1 c2 = some d) : d ≤ 0 := by
  unfold deltaOf at h
  cases h1 : env.mi c1 with
  | none => rw [h1] at h; cases h
  | some a =>
    cases h2 : env.mi c2 with
    | none => rw [h1, h2] at h; cases h
    | some b =>
      rw [h1, h2] at h
      have h' : env.nrow * (a - b) = d := Option.some.inj h
      rw [← h']
      exact mul_nonpos_of_nonneg_of_nonpos hn (by linarith [hle a b h1 h2])

/-- Every node has at most one parent. -/
def OneParent (c : Dict N (List N)) : Prop := ∀ u u' v, Arc c u v → Arc c u' v → u = u'

theorem mem_parentsIn {st : CP N} (i : CInv names st) (u v : N) : u ∈ parentsIn st v ↔ Arc st.c u v := by
  rw [i.trans]
  unfold parentsIn Arc
  cases Dict.get? st.p v with
  | none => simp
  | some l => simp

theorem parentsIn_nodup {st : CP N} (i : CInv names st) (v : N) : (parentsIn st v).Nodup := by
  unfold parentsIn
  cases h : Dict.get? st.p v with
  | none => simp
  | some l => simpa using i.pnd v l h

theorem parentsIn_one {st : CP N} (i : CInv names st) (h1 : OneParent st.c) {u v : N} (h : Arc st.c u v) : parentsIn st v = [u] := by
  have hm := (mem_parentsIn i u v).2 h
  have hall : ∀ x ∈ parentsIn st v, x = u := fun x hx => h1 x u v ((mem_parentsIn i x v).1 hx) h
  have hnd := parentsIn_nodup i v
  match hl : parentsIn st v with
  | [] => rw [hl] at hm; cases hm
  | [x] => rw [hl] at hall; rw [hall x (by simp)]
  | x :: y :: l =>
    rw [hl] at hall hnd
    rw [hall x (by simp), hall y (by simp)] at hnd
    simp at hnd

/-- With such a score, from a state with at most one parent each, only additions to parentless nodes improve. -/
theorem firstOnly_move (hs : FirstOnly env) {p : Pass N} (hp : PassInv env names p) (h1 : OneParent p.before.c) {d : ℚ} {m : Move} {u v : N}
    (hm : p.move = some (d, m, u, v)) : m = .addition ∧ (∀ x, ¬ Arc p.before.c x v) ∧ u ≠ v := by
  obtain ⟨⟨blocked, ok⟩, i, -⟩ := hp
  obtain ⟨hd, hl, -, hdel⟩ := ok.legal d m u v hm
  have huv : u ≠ v := hl.2.2.1
  cases m with
  | addition =>
    refine ⟨rfl, fun x hx => ?_, huv⟩
    have hpv := parentsIn_one i h1 hx
    rw [hpv] at hdel
    have : d = 0 := by
      apply deltaOf_self [v, x]
      rw [← hdel]
      exact deltaOf_congr rfl (hs.first v x [u]).symm
    rw [this] at hd; exact absurd hd (lt_irrefl 0)
  | deletion =>
    exfalso
    have hx : Arc p.before.c u v := hl.2.2.2.2
    have hpv := parentsIn_one i h1 hx
    rw [hpv] at hdel
    have he : ([v, u].filter (fun x => decide (x ≠ u))) = [v] := by simp [huv.symm]
    have hdel' : deltaOf env [v, u] ([v, u].filter (· ≠ u)) = some d := hdel
    rw [he] at hdel'
    have := deltaOf_nonpos hs.nrow (fun i h hi hh => hs.left v u h i hh hi) hdel'
    exact absurd hd (not_lt.2 this)
  | reversal =>
    exfalso
    have hx : Arc p.before.c u v := hl.2.2.2.2
    have hpv := parentsIn_one i h1 hx
    rw [hpv] at hdel
    unfold moveDelta revDelta at hdel
    have he : ([v, u].filter (fun x => decide (x ≠ u))) = [v] := by simp [huv.symm]
    simp only [List.singleton_append, List.cons_append, List.nil_append] at hdel
    rw [he] at hdel
    cases h1' : deltaOf env [u, u] [u, u, v] with
    | none => rw [h1'] at hdel; cases hdel
    | some d1 =>
      cases h2' : deltaOf env [v, u] ([v].map fun _ => u) with
      | none => rw [h1', h2'] at hdel; cases hdel
      | some d2 =>
        rw [h1', h2'] at hdel
        have e : d1 + d2 = d := Option.some.inj hdel
        have e1 : d1 = 0 := by
          apply deltaOf_self [u, u]
          rw [← h1']
          exact deltaOf_congr rfl (hs.first u u [v]).symm
        have e2 := deltaOf_nonpos hs.nrow (fun i h hi hh => hs.right v u h i hh hi) h2'
        linarith

theorem firstOnly_step (hs : FirstOnly env) {p : Pass N} (hp : PassInv env names p) (h1 : OneParent p.before.c) :
    OneParent p.after.c ∧ ∀ d m u v, p.move = some (d, m, u, v) → m = .addition ∧ (∀ x, ¬ Arc p.before.c x v) ∧ v ∈ names ∧
      ∀ a b, Arc p.after.c a b ↔ Arc p.before.c a b ∨ (a = u ∧ b = v) := by
  have hmv : ∀ d m u v, p.move = some (d, m, u, v) → m = .addition ∧ (∀ x, ¬ Arc p.before.c x v) ∧ v ∈ names ∧
      ∀ a b, Arc p.after.c a b ↔ Arc p.before.c a b ∨ (a = u ∧ b = v) := by
    intro d m u v hm
    obtain ⟨rfl, h3, h4⟩ := firstOnly_move hs hp h1 hm
    obtain ⟨⟨blocked, ok⟩, i, i'⟩ := hp
    have hmade := ok.made d .addition u v hm (Or.inl (by decide))
    refine ⟨rfl, h3, i'.child u v ((hmade u v).2 (Or.inr ⟨rfl, rfl⟩)), hmade⟩
  refine ⟨?_, hmv⟩
  cases hm : p.move with
  | none => obtain ⟨⟨blocked, ok⟩, -⟩ := hp; rw [ok.still hm]; exact h1
  | some x =>
    obtain ⟨d, m, u, v⟩ := x
    obtain ⟨-, h3, -, h5⟩ := hmv d m u v hm
    intro a a' b hab hab'
    rw [h5] at hab hab'
    rcases hab with hab | ⟨rfl, rfl⟩
    · rcases hab' with hab' | ⟨rfl, rfl⟩
      · exact h1 a a' b hab hab'
      · exact (h3 a hab).elim
    · rcases hab' with hab' | ⟨rfl, -⟩
      · exact (h3 a' hab').elim
      · rfl

open Classical in
/-- The nodes without parent. -/
noncomputable def roots (names : List N) (c : Dict N (List N)) : List N := names.filter fun v => ∀ u, ¬ Arc c u v

open Classical in
theorem firstOnly_history (hs : FirstOnly env) {st fin : CP N} {tr : List (Pass N)} (hh : History (PassInv env names) st tr fin) :
    OneParent st.c → OneParent fin.c ∧ (∀ p ∈ tr, ∀ d m u v, p.move = some (d, m, u, v) → m = .addition) ∧
      tr.length ≤ (roots names st.c).length + 1 := by
  induction hh with
  | last p hp =>
    intro h1
    obtain ⟨h2, h3⟩ := firstOnly_step hs hp h1
    refine ⟨h2, fun q hq d m u v hm => ?_, by simp⟩
    rw [List.mem_singleton] at hq
    subst hq
    exact (h3 d m u v hm).1
  | cons p hp hm hh ih =>
    intro h1
    obtain ⟨h2, h3⟩ := firstOnly_step hs hp h1
    obtain ⟨h4, h5, h6⟩ := ih h2
    refine ⟨h4, fun q hq d m u v hmq => ?_, ?_⟩
    · rcases List.mem_cons.1 hq with rfl | hq
      · exact (h3 d m u v hmq).1
      · exact h5 q hq d m u v hmq
    · obtain ⟨x, hx⟩ := Option.ne_none_iff_exists'.1 hm
      obtain ⟨d, m, u, v⟩ := x
      obtain ⟨-, h7, h8, h9⟩ := h3 d m u v hx
      have : (roots names p.after.c).length < (roots names p.before.c).length := by
        have hsub : (roots names p.after.c) = (roots names p.before.c).filter fun w => decide (w ≠ v) := by
          unfold roots
          rw [List.filter_filter]
          refine List.filter_congr fun w hw => ?_
          rw [← Bool.decide_and]
          apply decide_eq_decide.2
          constructor
          · intro h
            refine ⟨fun e => h u ?_, fun y hy => h y ((h9 y w).2 (Or.inl hy))⟩
            rw [e]; exact (h9 u v).2 (Or.inr ⟨rfl, rfl⟩)
          · rintro ⟨hne, h⟩ y hy
            rcases (h9 y w).1 hy with hy | ⟨-, e⟩
            · exact h y hy
            · exact hne e
        rw [hsub]
        refine List.length_filter_lt_length_iff_exists.2 ⟨v, ?_, by simp⟩
        unfold roots
        exact List.mem_filter.2 ⟨h8, by simpa using h7⟩
      rw [List.length_cons]
      omega

end PyBN
