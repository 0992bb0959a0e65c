import Verif.Spec.Sampling
import Verif.Model.Sample
import Verif.Proofs.Map
import Verif.Proofs.Net
import Verif.Proofs.FactorMore
import Mathlib.Algebra.Order.Field.Rat
import Mathlib.Data.Rat.Cast.Order
import Mathlib.Tactic.Linarith
import Mathlib.Tactic.FieldSimp
import Mathlib.Tactic.Positivity

set_option linter.unusedSectionVars false

namespace PyBN
open BayesNet Sampling
variable {N A : Type _} [DecidableEq N] [DecidableEq A] {K : Type _} [Field K] [LinearOrder K] [IsStrictOrderedRing K]

/-! ## choice -/

theorem searchRight_ok {u : K} {tot : ℚ} : ∀ (ps : List ℚ) (acc : ℚ), ((acc / tot : ℚ) : K) ≤ u →
    u < (((acc + ps.sum) / tot : ℚ) : K) →
    searchRight u tot acc ps < ps.length ∧
      (((acc + (ps.take (searchRight u tot acc ps)).sum) / tot : ℚ) : K) ≤ u ∧
      u < (((acc + (ps.take (searchRight u tot acc ps + 1)).sum) / tot : ℚ) : K) := by
  intro ps
  induction ps with
  | nil =>
    intro acc h1 h2
    rw [List.sum_nil, add_zero] at h2
    exact absurd h1 (not_le.2 h2)
  | cons p ps ih =>
    intro acc h1 h2
    rw [searchRight]
    split_ifs with h
    · rw [List.sum_cons, ← add_assoc] at h2
      obtain ⟨g1, g2, g3⟩ := ih (acc + p) h h2
      refine ⟨by simpa using g1, ?_, ?_⟩
      · rw [List.take_succ_cons, List.sum_cons, ← add_assoc]; exact g2
      · rw [List.take_succ_cons, List.sum_cons, ← add_assoc]; exact g3
    · refine ⟨by simp, by simpa using h1, ?_⟩
      simpa using not_le.1 h

theorem choice_ok {tol : ℚ} {u : K} {vals : List A} {ps : List ℚ} (hl : ps.length = vals.length) (hn : ∀ p ∈ ps, 0 ≤ p)
    (hs : |ps.sum - 1| ≤ tol) (ht : tol < 1) (h0 : 0 ≤ u) (h1 : u < 1) :
    ∃ i x, choice tol u vals ps = .ok x ∧ vals[i]? = some x ∧ i < vals.length ∧
      (((ps.take i).sum / ps.sum : ℚ) : K) ≤ u ∧ u < (((ps.take (i + 1)).sum / ps.sum : ℚ) : K) := by
  have hpos : 0 < ps.sum := by have := (abs_le.1 hs).1; linarith
  have hne : vals ≠ [] := by
    rintro rfl
    have : ps = [] := List.eq_nil_of_length_eq_zero (by simpa using hl)
    rw [this] at hpos; simp at hpos
  obtain ⟨g1, g2, g3⟩ := searchRight_ok (u := u) (tot := ps.sum) ps 0 (by simpa using h0)
    (by rw [zero_add, div_self hpos.ne']; simpa using h1)
  rw [zero_add] at g2 g3
  have g1' : searchRight u ps.sum 0 ps < vals.length := by rw [← hl]; exact g1
  refine ⟨_, vals[searchRight u ps.sum 0 ps], ?_, List.getElem?_eq_getElem g1', g1', g2, g3⟩
  unfold choice
  rw [if_neg, pyIdx_nat (List.getElem?_eq_getElem g1')]
  rintro (h | h | ⟨p, hp, h⟩ | h)
  · exact hne h
  · exact h hl
  · exact absurd (hn p hp) (not_le.2 h)
  · exact absurd hs (not_le.2 h)

/-! ## The conditional table -/

theorem conditionOn_eq (h : HashOrder N) (bn : BayesNet N A) {s : Dict N A} {val : N → A} : ∀ (ps : List N) (f : Factor N),
    (∀ p ∈ ps, s.get? p = some (val p)) → conditionOn h bn s ps f = f.reduceList h bn (ps.map fun p => (p, val p)) := by
  intro ps
  induction ps with
  | nil => intro f _; rfl
  | cons p ps ih =>
    intro f hs
    rw [conditionOn, Dict.get_of_get? (hs p (by simp)), Py.bind_ok, List.map_cons, Factor.reduceList]
    cases f.reduce h bn p (val p) with
    | error e => rfl
    | ok f' => simp only [Py.bind_ok]; exact ih f' fun q hq => hs q (by simp [hq])

theorem sprob_congr {bn : BayesNet N A} {v : N} {a b : Asg N} (h : ∀ u ∈ v :: bn.parentsOf v, a u = b u) : bn.prob v a = bn.prob v b := by
  unfold BayesNet.prob; rw [enc_congr h]

theorem cum_congr {bn : BayesNet N A} {v : N} {a b : Asg N} (h : ∀ u ∈ bn.parentsOf v, a u = b u) (i : ℕ) :
    bn.cum v a i = bn.cum v b i := by
  unfold BayesNet.cum
  apply Finset.sum_congr rfl
  intro x _
  apply sprob_congr
  intro u hu
  by_cases huv : u = v
  · subst huv; rw [Asg.upd_self, Asg.upd_self]
  · rw [Asg.upd_ne _ _ huv, Asg.upd_ne _ _ huv]; exact h u ((List.mem_cons.1 hu).resolve_left huv)

/-- The table a node is sampled from. -/
def row (bn : BayesNet N A) (v : N) (a : Asg N) : List ℚ := (List.range (bn.cardOf v)).map fun x => bn.prob v (a.upd v x)

theorem conditional_ok (h : HashOrder N) {bn : BayesNet N A} (w : bn.WF) {v : N} (hv : v ∈ bn.V) {s : Dict N A} {a : Asg N}
    (hs : ∀ p ∈ bn.parentsOf v, ∃ x, s.get? p = some x ∧ (bn.valuesOf p)[a p]? = some x) :
    conditional h bn s v = .ok (row bn v a) := by
  classical
  obtain ⟨f, h1, h2, h3, h4, h5, h6⟩ := Factor.init_ok w hv
  have hnd := List.nodup_cons.1 (w.fam_nodup v hv)
  have hval : ∃ val : N → A, ∀ p ∈ bn.parentsOf v, s.get? p = some (val p) ∧ (bn.valuesOf p)[a p]? = some (val p) := by
    have hAne : Nonempty A := by
      obtain ⟨x, _⟩ := List.exists_mem_of_ne_nil _ (w.values_ne v hv)
      exact ⟨x⟩
    refine ⟨fun p => if hp : p ∈ bn.parentsOf v then (hs p hp).choose else hAne.some, fun p hp => ?_⟩
    simp only [dif_pos hp]
    exact (hs p hp).choose_spec
  obtain ⟨val, hval⟩ := hval
  have hfst : ((bn.parentsOf v).map fun p => (p, val p)).map Prod.fst = bn.parentsOf v := by simp [Function.comp_def]
  obtain ⟨f', g1, g2, g3, g4⟩ := Factor.reduceList_ok h w ((bn.parentsOf v).map fun p => (p, val p)) h2 (by rw [hfst]; exact hnd.2)
    (by
      intro e he
      obtain ⟨p, hp, rfl⟩ := List.mem_map.1 he
      exact ⟨by rw [h4]; simp [hp], w.parents_mem v hv p hp, List.mem_of_getElem? (hval p hp).2⟩)
  rw [hfst] at g3 g4
  obtain ⟨k1, k2, k3⟩ := wf_single g2 (v := v) (fun u => by
    rw [g3, h4, List.mem_cons]
    constructor
    · rintro ⟨rfl | hu, hn⟩
      · rfl
      · exact absurd hu hn
    · rintro rfl; exact ⟨.inl rfl, hnd.1⟩)
  unfold conditional
  rw [h1]
  simp only [Py.bind_ok, w.parents_ok hv]
  rw [conditionOn_eq h bn _ f fun p hp => (hval p hp).1, g1]
  simp only [Py.bind_ok, Py.pure_eq]
  congr 1
  apply List.ext_getElem?
  intro j
  by_cases hj : j < bn.cardOf v
  · have hin : InRange bn.cardOf f'.scope (a.upd v j) := by
      rw [k1]; intro u hu; rw [List.mem_singleton] at hu; subst hu; rw [Asg.upd_self]; exact hj
    have he := g4 (a.upd v j) (a.upd v j) hin (fun _ _ => rfl) (by
      intro e he
      obtain ⟨p, hp, rfl⟩ := List.mem_map.1 he
      simp only
      rw [Asg.upd_ne _ _ (by rintro rfl; exact hnd.1 hp)]; exact (hval p hp).2)
    unfold Factor.entry at he
    rw [k3, Asg.upd_self] at he
    rw [he, row, List.getElem?_map, List.getElem?_range hj, Option.map_some]
    unfold Factor.val Factor.entry BayesNet.prob
    rw [h6, h5]
  · rw [List.getElem?_eq_none_iff.2 (by rw [k2]; omega), List.getElem?_eq_none_iff.2 (by simp [row]; omega)]

theorem row_length (bn : BayesNet N A) (v : N) (a : Asg N) : (row bn v a).length = bn.cardOf v := by simp [row]

theorem row_take_sum (bn : BayesNet N A) (v : N) (a : Asg N) {i : ℕ} (hi : i ≤ bn.cardOf v) :
    ((row bn v a).take i).sum = bn.cum v a i := by
  unfold row BayesNet.cum
  rw [← List.map_take, List.take_range, Nat.min_eq_left hi, list_sum_range]

theorem row_sum (bn : BayesNet N A) (v : N) (a : Asg N) : (row bn v a).sum = bn.cum v a (bn.cardOf v) := by
  rw [← row_take_sum bn v a (le_refl _), List.take_of_length_le (by rw [row_length])]

theorem sprob_nonneg {bn : BayesNet N A} (hn : bn.Nonneg) {v : N} (hv : v ∈ bn.V) (a : Asg N) : 0 ≤ bn.prob v a := by
  unfold BayesNet.prob
  cases h : (bn.cptOf v)[enc bn.cardOf (v :: bn.parentsOf v) a]? with
  | none => exact le_refl _
  | some x => exact hn v hv x (List.mem_of_getElem? h)

theorem cum_mono {bn : BayesNet N A} (hn : bn.Nonneg) {v : N} (hv : v ∈ bn.V) (a : Asg N) {i j : ℕ} (h : i ≤ j) :
    bn.cum v a i ≤ bn.cum v a j := by
  unfold BayesNet.cum
  apply Finset.sum_le_sum_of_subset_of_nonneg (Finset.range_subset_range.2 h)
  intro x _ _; exact sprob_nonneg hn hv _

/-- What drawing one node does. -/
theorem draw_ok (h : HashOrder N) {bn : BayesNet N A} (w : bn.WF) (hn : bn.Nonneg) {tol : ℚ} (ht : tol < 1)
    (hnorm : bn.NearNormalised tol) {v : N} (hv : v ∈ bn.V)
    {a : Asg N} (ha : InRange bn.cardOf (bn.parentsOf v) a) {u : K} (h0 : 0 ≤ u) (h1 : u < 1) :
    ∃ i x, choice tol u (bn.valuesOf v) (row bn v a) = .ok x ∧ (bn.valuesOf v)[i]? = some x ∧ i < bn.cardOf v ∧
      bn.Falls (a.upd v i) v u := by
  have hlen := w.card_len hv
  obtain ⟨i, x, g1, g2, g3, g4, g5⟩ := choice_ok (tol := tol) (u := u) (vals := bn.valuesOf v) (ps := row bn v a)
    (by rw [row_length, hlen]) (fun p hp => by
      obtain ⟨y, _, rfl⟩ := List.mem_map.1 hp
      exact sprob_nonneg hn hv _)
    (by rw [row_sum]; exact hnorm v hv a ha) ht h0 h1
  have hi : i < bn.cardOf v := by rw [hlen]; exact g3
  refine ⟨i, x, g1, g2, hi, ?_⟩
  rw [row_take_sum bn v a hi.le, row_sum] at g4
  rw [row_take_sum bn v a hi, row_sum] at g5
  have hnot := (List.nodup_cons.1 (w.fam_nodup v hv)).1
  have hc : ∀ j, bn.cum v (a.upd v i) j = bn.cum v a j := fun j => cum_congr (fun p hp => Asg.upd_ne _ _ (by rintro rfl; exact hnot hp)) j
  unfold BayesNet.Falls
  rw [Asg.upd_self, hc, hc, hc]
  exact ⟨g4, g5⟩

/-- Only one value index fits a random number. -/
theorem falls_unique {bn : BayesNet N A} (hn : bn.Nonneg) {v : N} (hv : v ∈ bn.V) {a b : Asg N} (hab : ∀ p ∈ bn.parentsOf v, a p = b p)
    (hpos : 0 ≤ bn.cum v a (bn.cardOf v)) {u : K} (h1 : bn.Falls a v u) (h2 : bn.Falls b v u) : a v = b v := by
  unfold BayesNet.Falls at h1 h2
  rw [← cum_congr hab, ← cum_congr hab, ← cum_congr hab] at h2
  have key : ∀ i j, ((bn.cum v a i / bn.cum v a (bn.cardOf v) : ℚ) : K) ≤ u → u < ((bn.cum v a (j + 1) / bn.cum v a (bn.cardOf v) : ℚ) : K) →
      i ≤ j := by
    intro i j e1 e2
    by_contra hlt
    have hle : bn.cum v a (j + 1) / bn.cum v a (bn.cardOf v) ≤ bn.cum v a i / bn.cum v a (bn.cardOf v) :=
      div_le_div_of_nonneg_right (cum_mono hn hv a (by omega)) hpos
    have : ((bn.cum v a (j + 1) / bn.cum v a (bn.cardOf v) : ℚ) : K) ≤ ((bn.cum v a i / bn.cum v a (bn.cardOf v) : ℚ) : K) :=
      Rat.cast_le.2 hle
    exact absurd (lt_of_lt_of_le e2 (this.trans e1)) (lt_irrefl _)
  exact le_antisymm (key _ _ h1.1 h2.2) (key _ _ h2.1 h1.2)

end PyBN
