import Verif.Proofs.Sample

set_option linter.unusedSectionVars false

namespace PyBN
open BayesNet Sampling
variable {N A : Type _} [DecidableEq N] [DecidableEq A] {K : Type _} [Field K] [LinearOrder K] [IsStrictOrderedRing K]

theorem falls_congr {bn : BayesNet N A} {v : N} {a b : Asg N} (h : ∀ u ∈ v :: bn.parentsOf v, a u = b u) {u : K} :
    bn.Falls a v u ↔ bn.Falls b v u := by
  have hp : ∀ p ∈ bn.parentsOf v, a p = b p := fun p hp => h p (by simp [hp])
  unfold BayesNet.Falls
  rw [cum_congr hp, cum_congr hp, cum_congr hp, h v (by simp)]

/-- The nodes that are sampled / observed. -/
def freeOf (ev : Dict N A) (l : List N) : List N := l.filter fun v => (ev.get? v).isNone
def obsOf (ev : Dict N A) (l : List N) : List N := l.filter fun v => (ev.get? v).isSome

theorem lwNodes_ok (h : HashOrder N) {bn : BayesNet N A} (w : bn.WF) (hn : bn.Nonneg) {tol : ℚ} (ht : tol < 1)
    (hnorm : bn.NearNormalised tol) (hpf : bn.ParentsFirst) {ev : Dict N A}
    (hev : ∀ v ∈ bn.V, ∀ e, ev.get? v = some e → e ∈ bn.valuesOf v) {U : ℕ → K} (hU : ∀ i, 0 ≤ U i ∧ U i < 1) :
    ∀ (rvs pre : List N) (k : ℕ) (s : Dict N A) (wt : ℚ) (a : Asg N), bn.V = pre ++ rvs → s.keys = pre →
      (∀ v ∈ pre, ∃ x, s.get? v = some x ∧ (bn.valuesOf v)[a v]? = some x) →
      ∃ s' a', lwNodes tol h bn ev U rvs k s wt = .ok (k + (freeOf ev rvs).length, s', wt * ((obsOf ev rvs).map fun v => bn.prob v a').prod) ∧
        s'.keys = bn.V ∧ bn.Shows s' a' ∧ (∀ v ∈ pre, a' v = a v) ∧
        (∀ v ∈ rvs, ∀ e, ev.get? v = some e → (bn.valuesOf v)[a' v]? = some e) ∧
        ∀ j v, (freeOf ev rvs)[j]? = some v → bn.Falls a' v (U (k + j)) := by
  intro rvs
  induction rvs with
  | nil =>
    intro pre k s wt a hV hk hs
    rw [List.append_nil] at hV
    refine ⟨s, a, by simp [lwNodes, freeOf, obsOf], by rw [hk, hV], ?_, fun _ _ => rfl, by simp, by simp [freeOf]⟩
    intro v hv; exact hs v (hV ▸ hv)
  | cons rv rvs ih =>
    intro pre k s wt a hV hk hs
    have hrv : rv ∈ bn.V := by rw [hV]; simp
    have hpar := hpf pre rv rvs hV
    have hnd : rv ∉ pre := by
      have := w.nodup
      rw [hV, List.nodup_middle] at this
      exact fun hm => (List.nodup_cons.1 this).1 (by simp [hm])
    have hnotk : s.get? rv = none := Dict.get?_eq_none_iff.2 (by rw [hk]; exact hnd)
    have hcond := conditional_ok h w hrv (s := s) (a := a) fun p hp => hs p (hpar p hp)
    have hain : InRange bn.cardOf (bn.parentsOf rv) a := by
      intro p hp
      obtain ⟨x, _, hx⟩ := hs p (hpar p hp)
      rw [w.card_len (w.parents_mem rv hrv p hp)]
      exact (List.getElem?_eq_some_iff.1 hx).1
    have hkeys : ∀ val, (s.set rv val).keys = pre ++ [rv] := by
      intro val; rw [Dict.keys_set, hk, if_neg hnd]
    -- continuing after choosing index `i` with value `val`
    have hstep : ∀ i val, (bn.valuesOf rv)[i]? = some val → ∀ v ∈ pre ++ [rv], ∃ x, (s.set rv val).get? v = some x ∧
        (bn.valuesOf v)[a.upd rv i v]? = some x := by
      intro i val hval v hv
      by_cases hvr : v = rv
      · subst hvr; exact ⟨val, Dict.get?_set_self _ _ _, by rw [Asg.upd_self]; exact hval⟩
      · rw [Dict.get?_set_ne _ _ (Ne.symm hvr), Asg.upd_ne _ _ hvr]
        exact hs v (by simpa [hvr] using hv)
    have hV' : bn.V = (pre ++ [rv]) ++ rvs := by rw [hV]; simp
    have hagree : ∀ {a' : Asg N} {i : ℕ}, (∀ v ∈ pre ++ [rv], a' v = a.upd rv i v) →
        (∀ u ∈ rv :: bn.parentsOf rv, a.upd rv i u = a' u) := by
      intro a' i ha' u hu
      rw [ha']
      rcases List.mem_cons.1 hu with rfl | hu
      · simp
      · simp [hpar u hu]
    cases hevr : ev.get? rv with
    | some e =>
      obtain ⟨i, h1, h2, h3⟩ := pyIndex_of_mem (hev rv hrv e hevr)
      have hic : i < bn.cardOf rv := by rw [w.card_len hrv]; exact h2
      have hrow : (row bn rv a)[i]? = some (bn.prob rv (a.upd rv i)) := by
        rw [row, List.getElem?_map, List.getElem?_range hic]; rfl
      obtain ⟨s', a', g1, g2, g3, g4, g5, g6⟩ := ih (pre ++ [rv]) k (s.set rv e) (wt * bn.prob rv (a.upd rv i)) (a.upd rv i) hV' (hkeys e)
        (hstep i e h3)
      have hfree : freeOf ev (rv :: rvs) = freeOf ev rvs := by simp [freeOf, hevr]
      have hobs : obsOf ev (rv :: rvs) = rv :: obsOf ev rvs := by simp [obsOf, hevr]
      refine ⟨s', a', ?_, g2, g3, fun v hv => ?_, ?_, ?_⟩
      · rw [lwNodes, hcond]
        simp only [Py.bind_ok, w.values_ok hrv, hevr, h1]
        rw [pyIdx_nat hrow]
        simp only [Py.bind_ok]
        rw [g1, hfree, hobs, List.map_cons, List.prod_cons, sprob_congr (hagree g4), mul_assoc]
      · rw [g4 v (by simp [hv]), Asg.upd_ne _ _ (by rintro rfl; exact hnd hv)]
      · intro v hv e' he'
        rcases List.mem_cons.1 hv with rfl | hv
        · rw [hevr] at he'; cases he'
          rw [g4 v (by simp), Asg.upd_self]; exact h3
        · exact g5 v hv e' he'
      · rw [hfree]; exact g6
    | none =>
      obtain ⟨i, x, h1, h2, h3, h4⟩ := draw_ok (K := K) h w hn ht hnorm hrv hain (hU k).1 (hU k).2
      obtain ⟨s', a', g1, g2, g3, g4, g5, g6⟩ := ih (pre ++ [rv]) (k + 1) (s.set rv x) wt (a.upd rv i) hV' (hkeys x) (hstep i x h2)
      have hfree : freeOf ev (rv :: rvs) = rv :: freeOf ev rvs := by simp [freeOf, hevr]
      have hobs : obsOf ev (rv :: rvs) = obsOf ev rvs := by simp [obsOf, hevr]
      refine ⟨s', a', ?_, g2, g3, fun v hv => ?_, ?_, ?_⟩
      · rw [lwNodes, hcond]
        simp only [Py.bind_ok, w.values_ok hrv, hevr]
        rw [h1]
        simp only [Py.bind_ok]
        rw [g1, hfree, hobs, List.length_cons]
        congr 2; omega
      · rw [g4 v (by simp [hv]), Asg.upd_ne _ _ (by rintro rfl; exact hnd hv)]
      · intro v hv e' he'
        rcases List.mem_cons.1 hv with rfl | hv
        · rw [hevr] at he'; cases he'
        · exact g5 v hv e' he'
      · intro j v hj
        rw [hfree] at hj
        cases j with
        | zero =>
          simp only [List.getElem?_cons_zero, Option.some.injEq] at hj
          subst hj
          rw [Nat.add_zero, ← falls_congr (hagree g4)]; exact h4
        | succ j =>
          have := g6 j v (by simpa using hj)
          rwa [show k + (j + 1) = k + 1 + j by omega]

/-- Without evidence, `lw_sample` draws what `forward_sample` draws. -/
theorem lwNodes_nil (tol : ℚ) (h : HashOrder N) (bn : BayesNet N A) (U : ℕ → K) : ∀ (rvs : List N) (k : ℕ) (s : Dict N A) (wt : ℚ),
    lwNodes tol h bn [] U rvs k s wt = (forwardNodes tol h bn U rvs k s).map fun r => (r.1, r.2, wt) := by
  intro rvs
  induction rvs with
  | nil => intro k s wt; rfl
  | cons rv rvs ih =>
    intro k s wt
    rw [lwNodes, forwardNodes]
    cases conditional h bn s rv with
    | error e => rfl
    | ok ps =>
      simp only [Py.bind_ok]
      cases bn.values rv with
      | error e => rfl
      | ok vs =>
        simp only [Py.bind_ok, Dict.get?_nil]
        cases choice tol (U k) vs ps with
        | error e => rfl
        | ok val => simp only [Py.bind_ok]; exact ih _ _ _

theorem forwardNodes_ok (h : HashOrder N) {bn : BayesNet N A} (w : bn.WF) (hn : bn.Nonneg) {tol : ℚ} (ht : tol < 1)
    (hnorm : bn.NearNormalised tol) (hpf : bn.ParentsFirst) {U : ℕ → K} (hU : ∀ i, 0 ≤ U i ∧ U i < 1) (k : ℕ) :
    ∃ s a, forwardNodes tol h bn U bn.V k [] = .ok (k + bn.V.length, s) ∧ s.keys = bn.V ∧ bn.Shows s a ∧
      ∀ j v, bn.V[j]? = some v → bn.Falls a v (U (k + j)) := by
  obtain ⟨s, a, g1, g2, g3, _, _, g6⟩ := lwNodes_ok h w hn ht hnorm hpf (ev := []) (fun _ _ e he => by cases he) hU bn.V [] k [] 1 (fun _ => 0)
    rfl rfl (by simp)
  have hfree : ∀ l : List N, freeOf ([] : Dict N A) l = l := by
    intro l; unfold freeOf; rw [List.filter_eq_self]; intro v _; rfl
  rw [lwNodes_nil] at g1
  rw [hfree] at g1 g6
  refine ⟨s, a, ?_, g2, g3, g6⟩
  cases hf : forwardNodes tol h bn U bn.V k [] with
  | error e => rw [hf] at g1; cases g1
  | ok r =>
    rw [hf] at g1
    simp only [Except.map, Except.ok.injEq, Prod.mk.injEq] at g1
    obtain ⟨e1, e2, _⟩ := g1
    obtain ⟨r1, r2⟩ := r
    simp only at e1 e2
    rw [e1, e2]

theorem cum_pos {bn : BayesNet N A} {tol : ℚ} (ht : tol < 1) (hnorm : bn.NearNormalised tol) {v : N} (hv : v ∈ bn.V) {a : Asg N}
    (ha : InRange bn.cardOf (bn.parentsOf v) a) : 0 < bn.cum v a (bn.cardOf v) := by
  have := (abs_le.1 (hnorm v hv a ha)).1
  linarith

/-- Two assignments into whose intervals the same random numbers fall, and which agree with the evidence, are equal. -/
theorem falls_all_unique {bn : BayesNet N A} (w : bn.WF) (hn : bn.Nonneg) {tol : ℚ} (ht : tol < 1) (hnorm : bn.NearNormalised tol)
    (hpf : bn.ParentsFirst) {u : N → K} {a b : Asg N} {obs : N → Prop} [DecidablePred obs]
    (ha : InRange bn.cardOf bn.V a) (hobs : ∀ v ∈ bn.V, obs v → a v = b v)
    (h1 : ∀ v ∈ bn.V, ¬ obs v → bn.Falls a v (u v)) (h2 : ∀ v ∈ bn.V, ¬ obs v → bn.Falls b v (u v)) : ∀ v ∈ bn.V, a v = b v := by
  have key : ∀ (post pre : List N), bn.V = pre ++ post → (∀ v ∈ pre, a v = b v) → ∀ v ∈ bn.V, a v = b v := by
    intro post
    induction post with
    | nil => intro pre hV hp v hv; rw [hV, List.append_nil] at hv; exact hp v hv
    | cons x post ih =>
      intro pre hV hp
      apply ih (pre ++ [x]) (by rw [hV]; simp)
      intro v hv
      rcases List.mem_append.1 hv with hv | hv
      · exact hp v hv
      · rw [List.mem_singleton] at hv; subst hv
        have hvV : v ∈ bn.V := by rw [hV]; simp
        by_cases ho : obs v
        · exact hobs v hvV ho
        · have hin : InRange bn.cardOf (bn.parentsOf v) a := fun p hp' => ha p (w.parents_mem v hvV p hp')
          exact falls_unique hn hvV (fun p hp' => hp p (hpf pre v post hV p hp')) (cum_pos ht hnorm hvV hin).le (h1 v hvV ho) (h2 v hvV ho)
  exact key bn.V [] rfl (by simp)

theorem shows_inRange {bn : BayesNet N A} (w : bn.WF) {s : Dict N A} {a : Asg N} (h : bn.Shows s a) : InRange bn.cardOf bn.V a := by
  intro v hv
  obtain ⟨x, _, hx⟩ := h v hv
  rw [w.card_len hv]; exact (List.getElem?_eq_some_iff.1 hx).1

theorem shows_unique {bn : BayesNet N A} (w : bn.WF) {s : Dict N A} {a b : Asg N} (h1 : bn.Shows s a) (h2 : bn.Shows s b) :
    ∀ v ∈ bn.V, a v = b v := by
  intro v hv
  obtain ⟨x, e1, e2⟩ := h1 v hv
  obtain ⟨y, e3, e4⟩ := h2 v hv
  rw [e1] at e3; cases e3
  exact (List.getElem?_inj (List.getElem?_eq_some_iff.1 e2).1 (w.values_nodup v hv)).1 (e2.trans e4.symm)

theorem shows_congr {bn : BayesNet N A} {s : Dict N A} {a b : Asg N} (h1 : bn.Shows s a) (h : ∀ v ∈ bn.V, a v = b v) : bn.Shows s b := by
  intro v hv
  rw [← h v hv]; exact h1 v hv

/-! ## Gibbs sweeps -/

theorem gibbsProbs_ok (h : HashOrder N) {bn : BayesNet N A} (w : bn.WF) {v : N} (hv : v ∈ bn.V) {s : Dict N A} {a : Asg N}
    (hs : bn.Shows s a) : gibbsProbs h bn s v = .ok (row bn v a) := by
  have hc := conditional_ok h w hv (s := s) (a := a) fun p hp => hs p (w.parents_mem v hv p hp)
  unfold gibbsProbs
  rw [w.parents_ok hv, Py.bind_ok]
  split_ifs with hp
  · rw [w.cpt_ok hv]
    congr 1
    apply List.ext_getElem?
    intro j
    have hlen : (bn.cptOf v).length = bn.cardOf v := by rw [w.cpt_len v hv, hp]; simp
    by_cases hj : j < bn.cardOf v
    · rw [row, List.getElem?_map, List.getElem?_range hj, Option.map_some]
      unfold BayesNet.prob
      rw [hp]
      simp only [enc, Asg.upd_self, mul_zero, add_zero]
      rw [List.getElem?_eq_getElem (by rw [hlen]; exact hj)]; rfl
    · rw [List.getElem?_eq_none_iff.2 (by rw [hlen]; omega), List.getElem?_eq_none_iff.2 (by simp [row]; omega)]
  · exact hc

theorem gibbsNodes_ok (h : HashOrder N) {bn : BayesNet N A} (w : bn.WF) (hn : bn.Nonneg) {tol : ℚ} (ht : tol < 1)
    (hnorm : bn.NearNormalised tol) {U : ℕ → K} (hU : ∀ i, 0 ≤ U i ∧ U i < 1) :
    ∀ (rvs : List N) (k : ℕ) (s : Dict N A) (a : Asg N), (∀ v ∈ rvs, v ∈ bn.V) → s.keys = bn.V → bn.Shows s a →
      ∃ s' a', gibbsNodes tol h bn U rvs k s = .ok (k + rvs.length, s') ∧ s'.keys = bn.V ∧ bn.Shows s' a' := by
  intro rvs
  induction rvs with
  | nil => intro k s a _ hk hs; exact ⟨s, a, by simp [gibbsNodes], hk, hs⟩
  | cons rv rvs ih =>
    intro k s a hV hk hs
    have hrv := hV rv (by simp)
    have hain : InRange bn.cardOf (bn.parentsOf rv) a := fun p hp => shows_inRange w hs p (w.parents_mem rv hrv p hp)
    obtain ⟨i, x, h1, h2, h3, _⟩ := draw_ok (K := K) h w hn ht hnorm hrv hain (hU k).1 (hU k).2
    obtain ⟨s', a', g1, g2, g3⟩ := ih (k + 1) (s.set rv x) (a.upd rv i) (fun v hv => hV v (by simp [hv]))
      (by rw [Dict.keys_set, hk, if_pos hrv]) (by
        intro v hv
        by_cases hvr : v = rv
        · subst hvr; exact ⟨x, Dict.get?_set_self _ _ _, by rw [Asg.upd_self]; exact h2⟩
        · rw [Dict.get?_set_ne _ _ (Ne.symm hvr), Asg.upd_ne _ _ hvr]; exact hs v hv)
    refine ⟨s', a', ?_, g2, g3⟩
    rw [gibbsNodes, gibbsProbs_ok h w hrv hs]
    simp only [Py.bind_ok, w.values_ok hrv]
    rw [h1]
    simp only [Py.bind_ok]
    rw [g1, List.length_cons]
    congr 2; omega

end PyBN
