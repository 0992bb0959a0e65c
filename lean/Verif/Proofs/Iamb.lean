import Verif.Model.Iamb
import Verif.Spec.Iamb
import Verif.Proofs.Constraint2
import Mathlib.Tactic.Linarith

/-!
# Proofs about `iamb`, `fast_iamb` and `orient_edges_gs2`
-/

set_option linter.unusedSectionVars false

namespace PyBN
namespace Constraint

/-! ## Growing -/

/-- The loop that looks for the largest value, with an accumulator. -/
theorem pick_spec (mi : List ℕ → ℚ) (t : ℕ) (mb : List ℕ) : ∀ (l : List ℕ) (best : Option ℕ) (v : ℚ),
    (pick mi t mb l best v = best ∧ ∀ c ∈ l, mi (c :: t :: mb) ≤ v) ∨
    (∃ p m q, l = p ++ m :: q ∧ pick mi t mb l best v = some m ∧ v < mi (m :: t :: mb) ∧ (∀ c ∈ p, mi (c :: t :: mb) < mi (m :: t :: mb)) ∧
      ∀ c ∈ q, mi (c :: t :: mb) ≤ mi (m :: t :: mb))
  | [], best, v => .inl ⟨rfl, by simp⟩
  | x :: xs, best, v => by
      by_cases hx : mi (x :: t :: mb) > v
      · rw [pick, if_pos hx]
        rcases pick_spec mi t mb xs (some x) (mi (x :: t :: mb)) with ⟨h1, h2⟩ | ⟨p, m, q, h1, h2, h3, h4, h5⟩
        · exact .inr ⟨[], x, xs, rfl, h1, hx, by simp, h2⟩
        · refine .inr ⟨x :: p, m, q, by rw [h1]; rfl, h2, lt_trans hx h3, fun c hc => ?_, h5⟩
          rcases List.mem_cons.1 hc with rfl | hc
          · exact h3
          · exact h4 c hc
      · rw [pick, if_neg hx]
        rcases pick_spec mi t mb xs best v with ⟨h1, h2⟩ | ⟨p, m, q, h1, h2, h3, h4, h5⟩
        · refine .inl ⟨h1, fun c hc => ?_⟩
          rcases List.mem_cons.1 hc with rfl | hc
          · exact not_lt.1 hx
          · exact h2 c hc
        · refine .inr ⟨x :: p, m, q, by rw [h1]; rfl, h2, h3, fun c hc => ?_, h5⟩
          rcases List.mem_cons.1 hc with rfl | hc
          · exact lt_of_le_of_lt (not_lt.1 hx) h3
          · exact h4 c hc

theorem strongest_unique {f : ℕ → ℚ} {l : List ℕ} {m m' : ℕ} (h : Strongest f l m) (h' : Strongest f l m') : m = m' := by
  obtain ⟨p, q, e, h1, h2, _⟩ := h
  obtain ⟨p', q', e', h1', h2', _⟩ := h'
  rw [e] at e'
  rcases List.append_eq_append_iff.1 e' with ⟨a, ha, hb⟩ | ⟨a, ha, hb⟩
  · cases a with
    | nil => simp at hb; exact hb.1
    | cons c a =>
      simp at hb
      obtain ⟨rfl, rfl⟩ := hb
      have := h1' m (by rw [ha]; simp)
      have := h2 m' (by simp)
      linarith
  · cases a with
    | nil => simp at hb; exact hb.1.symm
    | cons c a =>
      simp at hb
      obtain ⟨rfl, rfl⟩ := hb
      have := h1 m' (by rw [ha]; simp)
      have := h2' m (by simp)
      linarith

theorem pick_strongest (mi : List ℕ → ℚ) (t : ℕ) (mb l : List ℕ) (m : ℕ) :
    pick mi t mb l none (-1) = some m ↔ Strongest (fun c => mi (c :: t :: mb)) l m := by
  rcases pick_spec mi t mb l none (-1) with ⟨h1, h2⟩ | ⟨p, m', q, h1, h2, h3, h4, h5⟩
  · rw [h1]
    constructor
    · intro h; cases h
    · rintro ⟨p, q, e, _, _, h⟩
      have := h2 m (by rw [e]; simp)
      simp only at h
      linarith
  · have hs : Strongest (fun c => mi (c :: t :: mb)) l m' := ⟨p, q, h1, h4, h5, h3⟩
    rw [h2]
    constructor
    · intro h; cases h; exact hs
    · intro h; rw [strongest_unique h hs]

theorem iambCands_eq (h : HashOrder ℕ) (n t : ℕ) (mb : List ℕ) : iambCands h n t mb = outside h n t mb := rfl

theorem mem_outside {h : HashOrder ℕ} {n t : ℕ} {mb : List ℕ} {v : ℕ} : v ∈ outside h n t mb ↔ v < n ∧ v ≠ t ∧ v ∉ mb := by
  unfold outside
  rw [(h.perm _).mem_iff]; simp

/-- How a blanket was grown. -/
structure IGrew (lt : List ℕ → Bool) (mi : List ℕ → ℚ) (h : HashOrder ℕ) (n t : ℕ) (S : List ℕ) : Prop where
  nodup : S.Nodup
  self : t ∉ S
  bound : ∀ y ∈ S, y < n
  steps : ∀ p x q, S = p ++ x :: q → ∃ m, Strongest (fun c => mi (c :: t :: p)) (outside h n t p) m ∧ lt (m :: t :: p) = true ∧
    (outside h n t p).getLast? = some x

theorem iambGrow_ok (lt : List ℕ → Bool) (mi : List ℕ → ℚ) (h : HashOrder ℕ) (n t : ℕ) : ∀ (fuel : ℕ) (s : List ℕ), IGrew lt mi h n t s →
    n < fuel + s.length → ∃ S, iambGrow lt mi h n t fuel s = .ok S ∧ IGrew lt mi h n t S ∧
      ∀ m, Strongest (fun c => mi (c :: t :: S)) (outside h n t S) m → lt (m :: t :: S) = false
  | 0, s, g, hf => by
      have := nodup_lt_length g.nodup g.bound
      omega
  | fuel + 1, s, g, hf => by
      rw [iambGrow, iambCands_eq]
      cases hp : pick mi t s (outside h n t s) none (-1) with
      | none =>
        refine ⟨s, by simp, g, fun m hm => ?_⟩
        rw [(pick_strongest mi t s _ m).2 hm] at hp; cases hp
      | some m =>
        have hm := (pick_strongest mi t s _ m).1 hp
        have hne : outside h n t s ≠ [] := by
          obtain ⟨p, q, e, _⟩ := hm
          rw [e]; simp
        cases hl : (outside h n t s).getLast? with
        | none => rw [List.getLast?_eq_none_iff] at hl; exact absurd hl hne
        | some x =>
          have hx : x ∈ outside h n t s := List.mem_of_getLast? hl
          obtain ⟨hx1, hx2, hx3⟩ := mem_outside.1 hx
          by_cases hlt : lt (m :: t :: s) = true
          · simp only [hlt, if_true]
            have g' : IGrew lt mi h n t (s ++ [x]) := by
              refine ⟨?_, ?_, ?_, ?_⟩
              · exact List.nodup_append.2 ⟨g.nodup, by simp, by rintro b hb _ hc rfl; simp at hc; subst hc; exact hx3 hb⟩
              · simp [g.self, Ne.symm hx2]
              · intro y hy
                rcases List.mem_append.1 hy with hy | hy
                · exact g.bound y hy
                · simp at hy; omega
              · intro p y q e
                rcases List.eq_nil_or_concat q with rfl | ⟨q', z, rfl⟩
                · have e' := List.append_inj' e (by simp)
                  obtain ⟨rfl, e2⟩ := e'
                  simp at e2; subst e2
                  exact ⟨m, hm, hlt, hl⟩
                · have : s ++ [x] = (p ++ y :: q') ++ [z] := by rw [e]; simp
                  have e' := List.append_inj' this (by simp)
                  exact g.steps p y q' e'.1
            exact iambGrow_ok lt mi h n t fuel (s ++ [x]) g' (by simp; omega)
          · simp only [hlt, if_false, Bool.false_eq_true]
            refine ⟨s, rfl, g, fun m' hm' => ?_⟩
            rw [strongest_unique hm' hm]; simpa using hlt

theorem iambGrow_mono (lt : List ℕ → Bool) (mi : List ℕ → ℚ) (h : HashOrder ℕ) (n t : ℕ) : ∀ (fuel fuel' : ℕ) (s S : List ℕ), fuel ≤ fuel' →
    iambGrow lt mi h n t fuel s = .ok S → iambGrow lt mi h n t fuel' s = .ok S
  | 0, _, _, _, _, hh => by cases hh
  | fuel + 1, 0, _, _, hle, _ => by omega
  | fuel + 1, fuel' + 1, s, S, hle, hh => by
      rw [iambGrow] at hh ⊢
      split at hh
      · split_ifs at hh ⊢
        · exact iambGrow_mono lt mi h n t fuel fuel' _ _ (by omega) hh
        · exact hh
      · exact hh

/-! ## Shrinking -/

/-- The test of the shrinking phase. -/
def shrinkTest (lt : List ℕ → Bool) (h : HashOrder ℕ) (t x : ℕ) (L : List ℕ) : Prop := lt (x :: t :: h.iter (L.filter fun v => decide (v ≠ x))) = true

theorem shrinkLive_run (lt : List ℕ → Bool) (h : HashOrder ℕ) (t : ℕ) : ∀ (k : ℕ) (pre suf : List ℕ), (pre ++ suf).Nodup → suf.length ≤ k →
    ShrinkRun (shrinkTest lt h t) pre suf (shrinkLive lt h t k pre.length (pre ++ suf))
  | 0, pre, suf, _, hk => by
      have : suf = [] := List.length_eq_zero_iff.1 (by omega)
      subst this
      rw [shrinkLive, List.append_nil]; exact .done _
  | k + 1, pre, [], _, hk => by
      rw [shrinkLive]
      simp only [List.append_nil, List.getElem?_length]
      exact .done _
  | k + 1, pre, x :: suf, hn, hk => by
      have hg : (pre ++ x :: suf)[pre.length]? = some x := by simp
      rw [shrinkLive, hg]
      simp only
      have hxp : x ∉ pre := by
        intro hx
        exact (List.nodup_append.1 hn).2.2 x hx x (by simp) rfl
      by_cases ht : lt (x :: t :: h.iter ((pre ++ x :: suf).filter fun v => decide (v ≠ x))) = true
      · rw [if_pos ht]
        have he : (pre ++ x :: suf).erase x = pre ++ suf := by
          rw [List.erase_append_right _ hxp]; simp
        rw [he]
        cases suf with
        | nil =>
          rw [List.append_nil]
          have : shrinkLive lt h t k (pre.length + 1) pre = pre := by
            cases k with
            | zero => rfl
            | succ k => rw [shrinkLive, List.getElem?_eq_none (by omega)]
          rw [this]
          exact .last _ _ ht
        | cons y suf =>
          have := shrinkLive_run lt h t k (pre ++ [y]) suf (by
            have : (pre ++ y :: suf).Nodup := by
              have := hn.erase x
              rwa [he] at this
            simpa using this) (by simp at hk; omega)
          simp only [List.length_append, List.length_cons, List.length_nil, List.append_assoc, List.singleton_append, Nat.zero_add] at this
          exact .drop _ _ _ _ _ ht this
      · rw [if_neg ht]
        have := shrinkLive_run lt h t k (pre ++ [x]) suf (by simpa using hn) (by simp at hk; omega)
        simp only [List.length_append, List.length_cons, List.length_nil, List.append_assoc, List.singleton_append, Nat.zero_add] at this
        exact .keep _ _ _ _ ht this

theorem _root_.PyBN.ShrinkRun.sublist {P : ℕ → List ℕ → Prop} {pre suf r : List ℕ} (h : ShrinkRun P pre suf r) : r.Sublist (pre ++ suf) := by
  induction h with
  | done => simp
  | keep pre x suf r _ _ ih => simpa using ih
  | last pre x _ => exact List.sublist_append_left _ _
  | drop pre x y suf r _ _ ih =>
    refine ih.trans ?_
    rw [List.append_assoc, List.singleton_append]
    exact (List.Sublist.refl pre).append (List.sublist_cons_self x _)

theorem _root_.PyBN.ShrinkRun.none {P : ℕ → List ℕ → Prop} {pre suf r : List ℕ} (h : ShrinkRun P pre suf r) (hP : ∀ x L, ¬ P x L) : r = pre ++ suf := by
  induction h with
  | done => simp
  | keep pre x suf r _ _ ih => simpa using ih
  | last pre x h => exact absurd h (hP _ _)
  | drop pre x y suf r h _ ih => exact absurd h (hP _ _)

theorem _root_.PyBN.ShrinkRun.all {P : ℕ → List ℕ → Prop} {pre suf r : List ℕ} (h : ShrinkRun P pre suf r) (hP : ∀ x L, P x L) : r = pre ++ everySecond suf := by
  induction h with
  | done => simp [everySecond]
  | keep pre x suf r h _ ih => exact absurd (hP _ _) h
  | last pre x h => simp [everySecond]
  | drop pre x y suf r h _ ih => rw [ih, everySecond]; simp

theorem _root_.PyBN.ShrinkRun.unique {P : ℕ → List ℕ → Prop} {pre suf r r' : List ℕ} (h : ShrinkRun P pre suf r) (h' : ShrinkRun P pre suf r') : r = r' := by
  induction h with
  | done => cases h'; rfl
  | keep pre x suf r hp _ ih =>
    cases h' with
    | keep _ _ _ _ _ h2 => exact ih h2
    | last _ _ h2 => exact absurd h2 hp
    | drop _ _ _ _ _ h2 _ => exact absurd h2 hp
  | last pre x hp =>
    cases h' with
    | keep _ _ _ _ h2 _ => exact absurd hp h2
    | last => rfl
  | drop pre x y suf r hp _ ih =>
    cases h' with
    | keep _ _ _ _ h2 _ => exact absurd hp h2
    | drop _ _ _ _ _ _ h2 => exact ih h2

/-! ## `orient_edges_gs2` -/

theorem gs2Tests_ok {lt : List ℕ → Bool} {e : Dict ℕ (List ℕ)} {x y z : ℕ} (hy : y ∈ e.keys) : ∀ (ss : List (List ℕ)) (d : Dict ℕ (List ℕ)), Orient e d →
    ∃ d', gs2Tests lt x y z ss d = .ok d' ∧ Orient e d' ∧
      ∀ a c, c ∈ nb d' a ↔ c ∈ nb d a ∧ ¬ (a = y ∧ c = x ∧ ∃ s ∈ ss, lt (y :: z :: x :: s) = true)
  | [], d, w => ⟨d, rfl, w, fun a c => by simp⟩
  | s :: ss, d, w => by
      have hyd : y ∈ d.keys := w.keys.mem_iff.2 hy
      rw [gs2Tests]
      simp only [get_nb hyd, Py.bind_ok]
      by_cases hc : lt (y :: z :: x :: s) = true ∧ x ∈ nb d y
      · rw [if_pos hc, removeAt_ok hc.2, Py.bind_ok]
        have hm : ∀ a c, c ∈ nb (d.set y ((nb d y).erase x)) a ↔ c ∈ nb d a ∧ ¬ (a = y ∧ c = x) := by
          intro a c; rw [nb_set]
          split_ifs with ha
          · subst ha; rw [erase_mem (w.nodup _)]; tauto
          · tauto
        obtain ⟨d', q1, q2, q3⟩ := gs2Tests_ok (lt := lt) (x := x) (z := z) hy ss (d.set y ((nb d y).erase x)) ⟨by
            rw [keys_set_mem hyd]; exact w.keys, fun a => by
            rw [nb_set]; split_ifs
            · exact (w.nodup y).erase x
            · exact w.nodup a, fun a c h => w.sub a c ((hm a c).1 h).1⟩
        refine ⟨d', q1, q2, fun a c => ?_⟩
        rw [q3, hm]
        constructor
        · rintro ⟨⟨h1, h2⟩, _⟩; exact ⟨h1, fun h => h2 ⟨h.1, h.2.1⟩⟩
        · rintro ⟨h1, h2⟩
          have : ¬ (a = y ∧ c = x) := fun h => h2 ⟨h.1, h.2, s, by simp, hc.1⟩
          exact ⟨⟨h1, this⟩, fun h => this ⟨h.1, h.2.1⟩⟩
      · rw [if_neg hc]
        obtain ⟨d', q1, q2, q3⟩ := gs2Tests_ok (lt := lt) (x := x) (z := z) hy ss d w
        refine ⟨d', q1, q2, fun a c => ?_⟩
        rw [q3]
        constructor
        · rintro ⟨h1, h2⟩
          refine ⟨h1, ?_⟩
          rintro ⟨rfl, rfl, s', hs', hl⟩
          rcases List.mem_cons.1 hs' with rfl | hs'
          · exact hc ⟨hl, h1⟩
          · exact h2 ⟨rfl, rfl, s', hs', hl⟩
        · rintro ⟨h1, h2⟩
          exact ⟨h1, fun h => h2 ⟨h.1, h.2.1, h.2.2.choose, by simp [h.2.2.choose_spec.1], h.2.2.choose_spec.2⟩⟩

theorem dedup_erase2 (l : List ℕ) (x z : ℕ) : (l.dedup.erase x).erase z = l.dedup.filter fun v => decide (v ≠ x ∧ v ≠ z) := by
  rw [(l.nodup_dedup.erase x).erase_eq_filter, l.nodup_dedup.erase_eq_filter, List.filter_filter]
  congr 1
  funext v
  simp only [ne_eq, Bool.decide_and, bne]
  rw [Bool.and_comm]
  simp [beq_eq_decide]

theorem condSet_eq {mb : Dict ℕ (List ℕ)} {x y z : ℕ} {my mz : List ℕ} (hy : my = nb mb y) (hz : mz = nb mb z) :
    minSet ((my.dedup.erase x).erase z) ((mz.dedup.erase x).erase y) = condSet mb y z x := by
  subst hy hz
  rw [dedup_erase2, dedup_erase2]; rfl

theorem reverses_iff {lt : List ℕ → Bool} {h : HashOrder ℕ} {mb : Dict ℕ (List ℕ)} {x y z : ℕ} :
    (∃ s ∈ (List.range (condSet mb y z x).length).flatMap fun i => combinations (h.iter (condSet mb y z x)) i, lt (y :: z :: x :: s) = true) ↔
      Reverses lt h mb y z x := by
  unfold Reverses
  constructor
  · rintro ⟨s, hs, hl⟩
    obtain ⟨i, hi, hs⟩ := List.mem_flatMap.1 hs
    obtain ⟨h1, h2⟩ := mem_combinations.1 hs
    exact ⟨s, h1, by rw [h2]; exact List.mem_range.1 hi, hl⟩
  · rintro ⟨s, h1, h2, hl⟩
    exact ⟨s, List.mem_flatMap.2 ⟨s.length, List.mem_range.2 h2, mem_combinations.2 ⟨h1, rfl⟩⟩, hl⟩

/-- The arcs after handling the pair `x`, `y` with the private neighbours `zs`. -/
theorem gs2Z_ok {lt : List ℕ → Bool} {h : HashOrder ℕ} {n : ℕ} {e mb : Dict ℕ (List ℕ)} (hu : Undirected n e) (hm : IsBlankets n mb) {x y : ℕ} (hxy : y ∈ nb e x)
    (hne : x ≠ y) : ∀ (zs : List ℕ) (d : Dict ℕ (List ℕ)), (∀ z ∈ zs, z < n) → Orient e d →
    ∃ d', gs2Z lt h mb x y zs d = .ok d' ∧ Orient e d' ∧
      (zs = [] → d' = d) ∧
      ∀ z zs', zs = z :: zs' → ∀ a c, c ∈ nb d' a ↔ (a = x ∧ c = y) ∨ (c ∈ nb d a ∧ ¬ (a = y ∧ c = x ∧ Reverses lt h mb y z x))
  | [], d, _, w => ⟨d, rfl, w, fun _ => rfl, fun _ _ h => by cases h⟩
  | z :: zs, d, hzs, w => by
      have hyk : y ∈ e.keys := hu.keys.mem_iff.2 (List.mem_range.2 (hu.lt _ _ hxy))
      have hgm : ∀ v < n, mb.get v = .ok (nb mb v) := fun v hv => get_nb (Dict.mem_keys_iff.2 (hm.total v hv))
      obtain ⟨d1, p1, p2, p3⟩ := addArc_ok w hxy
      obtain ⟨d2, q1, q2, q3⟩ := gs2Tests_ok (lt := lt) (x := x) (z := z) hyk
        ((List.range (condSet mb y z x).length).flatMap fun i => combinations (h.iter (condSet mb y z x)) i) d1 p2
      have hk2 : y ∈ d2.keys := q2.keys.mem_iff.2 hyk
      have hd2 : ∀ a c, c ∈ nb d2 a ↔ (a = x ∧ c = y) ∨ (c ∈ nb d a ∧ ¬ (a = y ∧ c = x ∧ Reverses lt h mb y z x)) := by
        intro a c
        rw [q3, p3, reverses_iff]
        constructor
        · rintro ⟨h1 | h1, h2⟩
          · exact .inr ⟨h1, h2⟩
          · exact .inl h1
        · rintro (h1 | ⟨h1, h2⟩)
          · refine ⟨.inr h1, fun h2 => hne (h1.1.symm.trans h2.1)⟩
          · exact ⟨.inl h1, h2⟩
      rw [gs2Z]
      simp only [p1, Py.bind_ok, hgm y (hu.lt _ _ hxy), hgm z (hzs z (by simp)), condSet_eq rfl rfl, q1, get_nb hk2]
      by_cases hx : x ∈ nb d2 y
      · rw [if_pos hx]
        exact ⟨d2, rfl, q2, (fun hc => by cases hc), (fun z' zs' he => by cases he; exact hd2)⟩
      · rw [if_neg hx]
        obtain ⟨d3, r1, r2, r3, r4⟩ := gs2Z_ok hu hm hxy hne zs d2 (fun v hv => hzs v (by simp [hv])) q2
        refine ⟨d3, r1, r2, (fun hc => by cases hc), (fun z' zs' he => ?_)⟩
        cases he
        intro a c
        rw [← hd2 a c]
        cases zs with
        | nil => rw [r3 rfl]
        | cons z2 zs2 =>
          rw [r4 z2 zs2 rfl]
          constructor
          · rintro (⟨rfl, rfl⟩ | ⟨h1, _⟩)
            · exact (hd2 _ _).2 (.inl ⟨rfl, rfl⟩)
            · exact h1
          · intro h1
            exact .inr ⟨h1, fun h2 => hx (by obtain ⟨rfl, rfl, _⟩ := h2; exact h1)⟩

/-- The effect on the set of arcs of handling one pair. -/
def eff1 (lt : List ℕ → Bool) (h : HashOrder ℕ) (e mb : Dict ℕ (List ℕ)) (p : ℕ × ℕ) (R : ℕ → ℕ → Prop) (a c : ℕ) : Prop :=
  match (h.iter (privateNb e p.1 p.2)).head? with
  | none => R a c
  | some z => (a = p.1 ∧ c = p.2) ∨ (R a c ∧ ¬ (a = p.2 ∧ c = p.1 ∧ Reverses lt h mb p.2 z p.1))

/-- The effect of handling a list of pairs. -/
def effs (lt : List ℕ → Bool) (h : HashOrder ℕ) (e mb : Dict ℕ (List ℕ)) : List (ℕ × ℕ) → (ℕ → ℕ → Prop) → ℕ → ℕ → Prop
  | [], R => R
  | p :: ps, R => effs lt h e mb ps (eff1 lt h e mb p R)

theorem effs_append (lt : List ℕ → Bool) (h : HashOrder ℕ) (e mb : Dict ℕ (List ℕ)) : ∀ (p q : List (ℕ × ℕ)) (R : ℕ → ℕ → Prop),
    effs lt h e mb (p ++ q) R = effs lt h e mb q (effs lt h e mb p R)
  | [], q, R => rfl
  | a :: p, q, R => by rw [List.cons_append, effs, effs, effs_append lt h e mb p q]

theorem eff1_other {lt : List ℕ → Bool} {h : HashOrder ℕ} {e mb : Dict ℕ (List ℕ)} {p : ℕ × ℕ} {R : ℕ → ℕ → Prop} {a c : ℕ} (h1 : p ≠ (a, c))
    (h2 : p ≠ (c, a)) : eff1 lt h e mb p R a c ↔ R a c := by
  obtain ⟨x, y⟩ := p
  unfold eff1
  cases (h.iter (privateNb e x y)).head? with
  | none => rfl
  | some z =>
    simp only
    constructor
    · rintro (⟨rfl, rfl⟩ | h)
      · exact absurd rfl h1
      · exact h.1
    · intro hr
      refine .inr ⟨hr, ?_⟩
      rintro ⟨rfl, rfl, _⟩
      exact h2 rfl

theorem effs_other {lt : List ℕ → Bool} {h : HashOrder ℕ} {e mb : Dict ℕ (List ℕ)} {a c : ℕ} : ∀ (ps : List (ℕ × ℕ)) (R : ℕ → ℕ → Prop), (a, c) ∉ ps →
    (c, a) ∉ ps → (effs lt h e mb ps R a c ↔ R a c)
  | [], R, _, _ => Iff.rfl
  | p :: ps, R, h1, h2 => by
      rw [effs, effs_other ps _ (fun h => h1 (by simp [h])) (fun h => h2 (by simp [h]))]
      exact eff1_other (fun h => h1 (by simp [h])) (fun h => h2 (by simp [h]))

theorem privateNb_eq {n : ℕ} {e : Dict ℕ (List ℕ)} (hu : Undirected n e) (x y : ℕ) :
    ((nb e x).dedup.filter fun v => decide (v ∉ nb e y)).erase y = privateNb e x y := by
  rw [(hu.nodup x).dedup, ((hu.nodup x).filter _).erase_eq_filter, List.filter_filter]
  unfold privateNb
  congr 1
  funext v
  simp [bne, beq_eq_decide]

theorem gs2Pair_ok {lt : List ℕ → Bool} {h : HashOrder ℕ} {n : ℕ} {e mb : Dict ℕ (List ℕ)} (hu : Undirected n e) (hirr : ∀ x, x ∉ nb e x)
    (hm : IsBlankets n mb) {x y : ℕ} (hxy : y ∈ nb e x) {d : Dict ℕ (List ℕ)} (w : Orient e d) :
    ∃ d', gs2Z lt h mb x y (h.iter (privateNb e x y)) d = .ok d' ∧ Orient e d' ∧
      ∀ a c, c ∈ nb d' a ↔ eff1 lt h e mb (x, y) (fun a c => c ∈ nb d a) a c := by
  obtain ⟨d', h1, h2, h3, h4⟩ := gs2Z_ok (lt := lt) (h := h) hu hm hxy (fun he => hirr y (by subst he; exact hxy)) (h.iter (privateNb e x y)) d (fun z hz => by
    have := (h.perm _).mem_iff.1 hz
    unfold privateNb at this
    exact hu.lt x z (List.mem_of_mem_filter this)) w
  refine ⟨d', h1, h2, fun a c => ?_⟩
  unfold eff1
  cases hl : h.iter (privateNb e x y) with
  | nil => simp only [hl, List.head?_nil]; rw [h3 hl]
  | cons z zs => simp only [hl, List.head?_cons]; exact h4 z zs hl a c

theorem gs2Y_ok {lt : List ℕ → Bool} {h : HashOrder ℕ} {n : ℕ} {e mb : Dict ℕ (List ℕ)} (hu : Undirected n e) (hirr : ∀ x, x ∉ nb e x)
    (hm : IsBlankets n mb) {x : ℕ} : ∀ (ys : List ℕ) (d : Dict ℕ (List ℕ)), (∀ y ∈ ys, y ∈ nb e x) → Orient e d →
    ∃ d', gs2Y lt h e mb x ys d = .ok d' ∧ Orient e d' ∧
      ∀ a c, c ∈ nb d' a ↔ effs lt h e mb (ys.map fun y => (x, y)) (fun a c => c ∈ nb d a) a c
  | [], d, _, w => ⟨d, rfl, w, fun a c => Iff.rfl⟩
  | y :: ys, d, hys, w => by
      have hy := hys y (by simp)
      obtain ⟨d1, p1, p2, p3⟩ := gs2Pair_ok (lt := lt) (h := h) hu hirr hm hy w
      obtain ⟨d2, q1, q2, q3⟩ := gs2Y_ok (lt := lt) (h := h) hu hirr hm ys d1 (fun v hv => hys v (by simp [hv])) p2
      refine ⟨d2, ?_, q2, fun a c => ?_⟩
      · rw [gs2Y]
        simp only [get_nb (mem_keys_of_nb hy), get_nb (mem_keys_of_nb (hu.symm _ _ hy)), Py.bind_ok, privateNb_eq hu, p1]
        exact q1
      · rw [q3, List.map_cons, effs]
        have : (fun a c => c ∈ nb d1 a) = eff1 lt h e mb (x, y) (fun a c => c ∈ nb d a) := by
          funext a c; exact propext (p3 a c)
        rw [this]

theorem gs2X_ok {lt : List ℕ → Bool} {h : HashOrder ℕ} {n : ℕ} {e mb : Dict ℕ (List ℕ)} (hu : Undirected n e) (hirr : ∀ x, x ∉ nb e x)
    (hm : IsBlankets n mb) : ∀ (xs : List ℕ) (d : Dict ℕ (List ℕ)), (∀ x ∈ xs, x ∈ e.keys) → Orient e d →
    ∃ d', gs2X lt h e mb xs d = .ok d' ∧ Orient e d' ∧
      ∀ a c, c ∈ nb d' a ↔ effs lt h e mb (xs.flatMap fun x => (nb e x).map fun y => (x, y)) (fun a c => c ∈ nb d a) a c
  | [], d, _, w => ⟨d, rfl, w, fun a c => Iff.rfl⟩
  | x :: xs, d, hxs, w => by
      obtain ⟨d1, p1, p2, p3⟩ := gs2Y_ok (lt := lt) (h := h) hu hirr hm (nb e x) d (fun v hv => hv) w
      obtain ⟨d2, q1, q2, q3⟩ := gs2X_ok (lt := lt) (h := h) hu hirr hm xs d1 (fun v hv => hxs v (by simp [hv])) p2
      refine ⟨d2, ?_, q2, fun a c => ?_⟩
      · rw [gs2X]
        simp only [get_nb (hxs x (by simp)), Py.bind_ok, p1]
        exact q1
      · rw [q3, List.flatMap_cons, effs_append]
        have : (fun a c => c ∈ nb d1 a) = effs lt h e mb ((nb e x).map fun y => (x, y)) (fun a c => c ∈ nb d a) := by
          funext a c; exact propext (p3 a c)
        rw [this]

theorem orientGs2_ok (lt : List ℕ → Bool) (h : HashOrder ℕ) {n : ℕ} {e mb : Dict ℕ (List ℕ)} (hu : Undirected n e) (hirr : ∀ x, x ∉ nb e x)
    (hm : IsBlankets n mb) : ∃ d, orientGs2 lt h e mb = .ok d ∧ Orient e d ∧
      ∀ a c, c ∈ nb d a ↔ effs lt h e mb ((h.iter e.keys).flatMap fun x => (nb e x).map fun y => (x, y)) (fun _ _ => False) a c := by
  have hkn : e.keys.Nodup := hu.keys.nodup_iff.2 List.nodup_range
  have hhn : (h.iter e.keys).Nodup := (h.perm _).nodup_iff.2 hkn
  have h0 : ∀ x, nb (Dict.ofPairs ((h.iter e.keys).map fun v => (v, ([] : List ℕ)))) x = [] := by
    intro x; unfold nb
    rw [Dict.ofPairs_eq (by rw [Dict.keys_map_pair]; exact hhn), Dict.get?_map_pair]
    split_ifs <;> rfl
  obtain ⟨d, q1, q2, q3⟩ := gs2X_ok (lt := lt) (h := h) hu hirr hm (h.iter e.keys) (Dict.ofPairs ((h.iter e.keys).map fun v => (v, ([] : List ℕ))))
    (fun x hx => (h.perm _).mem_iff.1 hx)
    ⟨by rw [Dict.ofPairs_eq (by rw [Dict.keys_map_pair]; exact hhn), Dict.keys_map_pair]; exact h.perm _,
     fun x => by rw [h0]; simp, fun x y hy => by rw [h0] at hy; cases hy⟩
  refine ⟨d, q1, q2, fun a c => ?_⟩
  rw [q3]
  have : (fun a c => c ∈ nb (Dict.ofPairs ((h.iter e.keys).map fun v => (v, ([] : List ℕ)))) a) = fun _ _ => False := by
    funext a c; rw [h0]; simp
  rw [this]

/-- The final arcs between `x` and `y` when the row of `x` is handled before that of `y`. -/
theorem effs_pair {lt : List ℕ → Bool} {h : HashOrder ℕ} {e mb : Dict ℕ (List ℕ)} {x y : ℕ} (hne : x ≠ y) {ks : List ℕ} (hn : ks.Nodup)
    (hs : [x, y].Sublist ks) (hnn : ∀ v, (nb e v).Nodup) (hxy : y ∈ nb e x) (hyx : x ∈ nb e y) :
    let R := effs lt h e mb (ks.flatMap fun x => (nb e x).map fun y => (x, y)) (fun _ _ => False)
    (R y x ↔ privateNb e y x ≠ []) ∧
    (R x y ↔ privateNb e x y ≠ [] ∧ ∀ z, (h.iter (privateNb e y x)).head? = some z → ¬ Reverses lt h mb x z y) := by
  intro R
  obtain ⟨k1, k23, rfl, h1, h2⟩ := List.append_sublist_iff (l₁ := [x]) (l₂ := [y]) |>.1 hs
  obtain ⟨s, t, rfl⟩ := List.append_of_mem (List.singleton_sublist.1 h1)
  obtain ⟨u, v, rfl⟩ := List.append_of_mem (List.singleton_sublist.1 h2)
  have hrow : ∀ w, ∀ q, w ∈ nb e q → ∃ a b, (nb e q).map (fun y => (q, y)) = a ++ (q, w) :: b ∧ (q, w) ∉ a ∧ (q, w) ∉ b := by
    intro w q hw
    obtain ⟨a, b, hab⟩ := List.append_of_mem hw
    have := hnn q
    rw [hab] at this
    refine ⟨a.map fun y => (q, y), b.map fun y => (q, y), by rw [hab]; simp, ?_, ?_⟩
    · have := (List.nodup_append.1 this).2.2
      simp only [List.mem_map, Prod.mk.injEq, true_and, exists_eq_right]
      exact fun h => this w h w (by simp) rfl
    · have := (List.nodup_cons.1 (List.nodup_append.1 this).2.1).1
      simpa using this
  have hrows : ∀ (l : List ℕ) (p q : ℕ), p ∉ l → (p, q) ∉ l.flatMap fun x => (nb e x).map fun y => (x, y) := by
    intro l p q hp hc
    obtain ⟨a, ha, hb⟩ := List.mem_flatMap.1 hc
    simp only [List.mem_map, Prod.mk.injEq] at hb
    obtain ⟨c, _, rfl, rfl⟩ := hb
    exact hp ha
  obtain ⟨a, b, hx1, hx2, hx3⟩ := hrow y x hxy
  obtain ⟨a', b', hy1, hy2, hy3⟩ := hrow x y hyx
  have hother : ∀ (w q : ℕ), ∀ p ∈ (nb e q).map (fun y => (q, y)), p.1 = q := by
    intro w q p hp
    simp only [List.mem_map] at hp
    obtain ⟨_, _, rfl⟩ := hp; rfl
  -- the list of pairs
  obtain ⟨L1, L2, L3, hL, hL1, hL2, hL3⟩ : ∃ L1 L2 L3, (s ++ x :: t ++ (u ++ y :: v)).flatMap (fun x => (nb e x).map fun y => (x, y)) =
      L1 ++ (x, y) :: (L2 ++ (y, x) :: L3) ∧ ((x, y) ∉ L1 ∧ (y, x) ∉ L1) ∧ ((x, y) ∉ L2 ∧ (y, x) ∉ L2) ∧ ((x, y) ∉ L3 ∧ (y, x) ∉ L3) := by
    have hn' := hn
    rw [List.nodup_append] at hn'
    obtain ⟨n1, n2, n3⟩ := hn'
    obtain ⟨n11, n12, n13⟩ := List.nodup_append.1 n1
    obtain ⟨n21, n22, n23⟩ := List.nodup_append.1 n2
    have hxs : x ∉ s := fun hc => n13 x hc x (by simp) rfl
    have hxt : x ∉ t := (List.nodup_cons.1 n12).1
    have hxu : x ∉ u := fun hc => n3 x (by simp) x (by simp [hc]) rfl
    have hxv : x ∉ v := fun hc => n3 x (by simp) x (by simp [hc]) rfl
    have hys : y ∉ s := fun hc => n3 y (by simp [hc]) y (by simp) rfl
    have hyt : y ∉ t := fun hc => n3 y (by simp [hc]) y (by simp) rfl
    have hyu : y ∉ u := fun hc => n23 y hc y (by simp) rfl
    have hyv : y ∉ v := (List.nodup_cons.1 n22).1
    have hba : ∀ p ∈ a, p.1 = x := fun p hp => hother y x p (by rw [hx1]; simp [hp])
    have hbb : ∀ p ∈ b, p.1 = x := fun p hp => hother y x p (by rw [hx1]; simp [hp])
    have hba' : ∀ p ∈ a', p.1 = y := fun p hp => hother y y p (by rw [hy1]; simp [hp])
    have hbb' : ∀ p ∈ b', p.1 = y := fun p hp => hother y y p (by rw [hy1]; simp [hp])
    refine ⟨s.flatMap (fun x => (nb e x).map fun y => (x, y)) ++ a,
      b ++ t.flatMap (fun x => (nb e x).map fun y => (x, y)) ++ u.flatMap (fun x => (nb e x).map fun y => (x, y)) ++ a',
      b' ++ v.flatMap (fun x => (nb e x).map fun y => (x, y)), ?_, ⟨?_, ?_⟩, ⟨?_, ?_⟩, ⟨?_, ?_⟩⟩
    · simp only [List.flatMap_append, List.flatMap_cons, hx1, hy1]; simp
    · simp only [List.mem_append, not_or]; exact ⟨hrows s x y hxs, hx2⟩
    · simp only [List.mem_append, not_or]; exact ⟨hrows s y x hys, fun hc => hne (hba _ hc).symm⟩
    · simp only [List.mem_append, not_or]; exact ⟨⟨⟨hx3, hrows t x y hxt⟩, hrows u x y hxu⟩, fun hc => hne (hba' _ hc)⟩
    · simp only [List.mem_append, not_or]; exact ⟨⟨⟨fun hc => hne (hbb _ hc).symm, hrows t y x hyt⟩, hrows u y x hyu⟩, hy2⟩
    · simp only [List.mem_append, not_or]; exact ⟨fun hc => hne (hbb' _ hc), hrows v x y hxv⟩
    · simp only [List.mem_append, not_or]; exact ⟨hy3, hrows v y x hyv⟩
  have hR : R = effs lt h e mb (L1 ++ (x, y) :: (L2 ++ (y, x) :: L3)) (fun _ _ => False) := by
    show effs _ _ _ _ _ _ = _
    rw [hL]
  have hnil : ∀ p q, (h.iter (privateNb e p q)).head? = none ↔ privateNb e p q = [] := by
    intro p q
    rw [List.head?_eq_none_iff]
    constructor
    · intro hh
      have := (h.perm (privateNb e p q)).length_eq
      rw [hh] at this
      exact List.length_eq_zero_iff.1 this.symm
    · intro hh
      have := (h.perm (privateNb e p q)).length_eq
      rw [hh] at this
      rw [hh]; exact List.length_eq_zero_iff.1 this
  -- after the first pair
  have e1 : ∀ R0 : ℕ → ℕ → Prop, ¬ R0 y x → ¬ R0 x y → (eff1 lt h e mb (x, y) R0 x y ↔ privateNb e x y ≠ []) ∧ ¬ eff1 lt h e mb (x, y) R0 y x := by
    intro R0 hr hr'
    unfold eff1
    cases hh : (h.iter (privateNb e x y)).head? with
    | none => simp only [hr, hr']; exact ⟨⟨False.elim, fun hc => hc ((hnil _ _).1 hh)⟩, id⟩
    | some z =>
      refine ⟨⟨fun _ hc => ?_, fun _ => .inl ⟨rfl, rfl⟩⟩, ?_⟩
      · rw [(hnil _ _).2 hc] at hh; cases hh
      · rintro (⟨hc, _⟩ | ⟨hc, _⟩)
        · exact hne hc.symm
        · exact hr hc
  have hR1 : ∀ p q, R p q = effs lt h e mb L3 (eff1 lt h e mb (y, x) (effs lt h e mb L2 (eff1 lt h e mb (x, y) (effs lt h e mb L1 fun _ _ => False)))) p q := by
    intro p q
    rw [hR, effs_append, effs, effs_append, effs]
  have b1 : ¬ effs lt h e mb L1 (fun _ _ => False) x y := by rw [effs_other _ _ hL1.1 hL1.2]; exact id
  have b2 : ¬ effs lt h e mb L1 (fun _ _ => False) y x := by rw [effs_other _ _ hL1.2 hL1.1]; exact id
  obtain ⟨c1, c2⟩ := e1 _ b2 b1
  have d1 := effs_other (lt := lt) (h := h) (e := e) (mb := mb) L2 (eff1 lt h e mb (x, y) (effs lt h e mb L1 fun _ _ => False)) hL2.1 hL2.2
  have d2 := effs_other (lt := lt) (h := h) (e := e) (mb := mb) L2 (eff1 lt h e mb (x, y) (effs lt h e mb L1 fun _ _ => False)) hL2.2 hL2.1
  rw [c1] at d1
  have d2' : ¬ effs lt h e mb L2 (eff1 lt h e mb (x, y) (effs lt h e mb L1 fun _ _ => False)) y x := fun hc => c2 (d2.1 hc)
  rw [hR1, hR1, effs_other _ _ hL3.1 hL3.2, effs_other _ _ hL3.2 hL3.1]
  generalize effs lt h e mb L2 (eff1 lt h e mb (x, y) (effs lt h e mb L1 fun _ _ => False)) = R2 at d1 d2'
  unfold eff1
  cases hh : (h.iter (privateNb e y x)).head? with
  | none =>
    simp only
    refine ⟨⟨fun hc => absurd hc d2', fun hc => absurd ((hnil _ _).1 hh) hc⟩, ?_⟩
    rw [d1]
    exact ⟨fun hc => ⟨hc, fun z hz => by cases hz⟩, fun hc => hc.1⟩
  | some z =>
    simp only
    refine ⟨⟨fun _ hc => ?_, fun _ => .inl ⟨trivial, trivial⟩⟩, ?_⟩
    · rw [(hnil _ _).2 hc] at hh; cases hh
    · rw [d1]
      constructor
      · rintro (⟨hc, _⟩ | ⟨h1, h2⟩)
        · exact absurd hc hne
        · refine ⟨h1, fun z' hz' => ?_⟩
          cases hz'
          exact fun hc => h2 ⟨trivial, trivial, hc⟩
      · rintro ⟨h1, h2⟩
        exact .inr ⟨h1, fun hc => h2 z rfl hc.2.2⟩

end Constraint
end PyBN
