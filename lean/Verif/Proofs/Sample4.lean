import Verif.Proofs.Sample3

set_option linter.unusedSectionVars false

namespace PyBN
open BayesNet Sampling
variable {N A : Type _} [DecidableEq N] [DecidableEq A] {K : Type _} [Field K] [LinearOrder K] [IsStrictOrderedRing K]

/-! ## random_sample -/

theorem conditionOnRow_eq (h : HashOrder N) {bn : BayesNet N A} (w : bn.WF) {s : Dict N A} {pos : Dict N ℕ} {r : List ℤ} {a : Asg N} :
    ∀ (ps : List N) (f : Factor N), (∀ p ∈ ps, p ∈ bn.V ∧ (∃ x, s.get? p = some x ∧ (bn.valuesOf p)[a p]? = some x) ∧
      ∃ j, pos.get? p = some j ∧ r[j]? = some ((a p : ℕ) : ℤ)) →
    conditionOnRow h bn pos r ps f = conditionOn h bn s ps f := by
  intro ps
  induction ps with
  | nil => intro f _; rfl
  | cons p ps ih =>
    intro f hp
    obtain ⟨hV, ⟨x, hx1, hx2⟩, j, hj1, hj2⟩ := hp p (by simp)
    rw [conditionOnRow, conditionOn, Dict.get_of_get? hj1, Dict.get_of_get? hx1]
    simp only [Py.bind_ok]
    rw [pyIdx_nat hj2]
    simp only [Py.bind_ok, w.values_ok hV]
    rw [pyIdx_nat hx2]
    simp only [Py.bind_ok]
    cases f.reduce h bn p x with
    | error e => rfl
    | ok f' => simp only [Py.bind_ok]; exact ih f' fun q hq => hp q (by simp [hq])

theorem Dict.keys_zipIdx {α : Type _} (l : List α) : Dict.keys l.zipIdx = l := by
  unfold Dict.keys; rw [List.zipIdx_map_fst]

theorem pos_get {l : List N} (hn : l.Nodup) {j : ℕ} {v : N} (hj : l[j]? = some v) : (Dict.ofPairs l.zipIdx).get? v = some j := by
  rw [Dict.ofPairs_eq (by rw [Dict.keys_zipIdx]; exact hn)]
  apply Dict.get?_of_mem (by rw [Dict.keys_zipIdx]; exact hn)
  rw [List.mk_mem_zipIdx_iff_getElem?]; exact hj

theorem randomRow_ok (h : HashOrder N) {bn : BayesNet N A} (w : bn.WF) (hn : bn.Nonneg) {tol : ℚ} (ht : tol < 1)
    (hnorm : bn.NearNormalised tol) (hpf : bn.ParentsFirst) {U : ℕ → K} (hU : ∀ i, 0 ≤ U i ∧ U i < 1) :
    ∀ (rvs pre : List N) (k : ℕ) (r : List ℤ) (a : Asg N), bn.V = pre ++ rvs → r.length = bn.V.length → InRange bn.cardOf pre a →
      r.take pre.length = pre.map (fun v => ((a v : ℕ) : ℤ)) →
      ∃ a' : Asg N, randomRow tol h bn (Dict.ofPairs bn.V.zipIdx) U rvs k r = .ok (k + rvs.length, bn.V.map fun v => ((a' v : ℕ) : ℤ)) ∧
        InRange bn.cardOf bn.V a' ∧ (∀ v ∈ pre, a' v = a v) ∧ ∀ j v, rvs[j]? = some v → bn.Falls a' v (U (k + j)) := by
  classical
  intro rvs
  induction rvs with
  | nil =>
    intro pre k r a hV hr hin htk
    rw [List.append_nil] at hV
    refine ⟨a, ?_, hV ▸ hin, fun _ _ => rfl, by simp⟩
    rw [randomRow, hV, ← htk, List.take_of_length_le (by rw [hr, hV])]
    simp
  | cons rv rvs ih =>
    intro pre k r a hV hr hin htk
    have hrv : rv ∈ bn.V := by rw [hV]; simp
    have hpar := hpf pre rv rvs hV
    have hnd : rv ∉ pre := by
      have := w.nodup
      rw [hV, List.nodup_middle] at this
      exact fun hm => (List.nodup_cons.1 this).1 (by simp [hm])
    have hpreV : ∀ v ∈ pre, v ∈ bn.V := fun v hv => by rw [hV]; simp [hv]
    -- the dictionary with the same content as the row
    have hAne : Nonempty A := by
      obtain ⟨x, _⟩ := List.exists_mem_of_ne_nil _ (w.values_ne rv hrv)
      exact ⟨x⟩
    let val : N → A := fun v => ((bn.valuesOf v)[a v]?).getD hAne.some
    have hval : ∀ v ∈ pre, (bn.valuesOf v)[a v]? = some (val v) := by
      intro v hv
      have hlt : a v < (bn.valuesOf v).length := by rw [← w.card_len (hpreV v hv)]; exact hin v hv
      simp only [val]
      rw [List.getElem?_eq_getElem hlt]; rfl
    let s : Dict N A := pre.map fun v => (v, val v)
    have hs : ∀ v ∈ pre, ∃ x, s.get? v = some x ∧ (bn.valuesOf v)[a v]? = some x := by
      intro v hv
      exact ⟨val v, by simp only [s]; rw [Dict.get?_map_pair, if_pos hv], hval v hv⟩
    have hcond := conditional_ok h w hrv (s := s) (a := a) fun p hp => hs p (hpar p hp)
    have hain : InRange bn.cardOf (bn.parentsOf rv) a := fun p hp => hin p (hpar p hp)
    obtain ⟨f, hf⟩ : ∃ f, Factor.init bn rv = .ok f := ⟨_, (Factor.init_ok w hrv).choose_spec.1⟩
    have hrow : ∃ f', conditionOn h bn s (bn.parentsOf rv) f = .ok f' ∧ f'.cpt = row bn rv a := by
      unfold conditional at hcond
      rw [hf] at hcond
      simp only [Py.bind_ok, w.parents_ok hrv] at hcond
      cases hc : conditionOn h bn s (bn.parentsOf rv) f with
      | error e => rw [hc] at hcond; cases hcond
      | ok f' => rw [hc] at hcond; simp only [Py.bind_ok, Py.pure_eq, Except.ok.injEq] at hcond; exact ⟨f', rfl, hcond⟩
    obtain ⟨f', hf1, hf2⟩ := hrow
    have heq := conditionOnRow_eq h w (s := s) (pos := Dict.ofPairs bn.V.zipIdx) (r := r) (a := a) (bn.parentsOf rv) f (by
      intro p hp
      obtain ⟨j, hj⟩ := List.getElem?_of_mem (hpar p hp)
      have hjl : j < pre.length := (List.getElem?_eq_some_iff.1 hj).1
      refine ⟨hpreV p (hpar p hp), hs p (hpar p hp), j, pos_get w.nodup (by rw [hV, List.getElem?_append_left hjl]; exact hj), ?_⟩
      rw [← List.getElem?_take_of_lt hjl, htk, List.getElem?_map, hj]; rfl)
    obtain ⟨i, x, h1, h2, h3, h4⟩ := draw_ok (K := K) h w hn ht hnorm hrv hain (hU k).1 (hU k).2
    obtain ⟨i', e1, e2, e3⟩ := pyIndex_of_mem (List.mem_of_getElem? h2)
    have hii : i' = i := (List.getElem?_inj e2 (w.values_nodup rv hrv)).1 (e3.trans h2.symm)
    subst hii
    have hposv : (Dict.ofPairs bn.V.zipIdx).get? rv = some pre.length := pos_get w.nodup (by rw [hV]; simp)
    have hplt : pre.length < r.length := by rw [hr, hV]; simp
    obtain ⟨a', g1, g2, g3, g4⟩ := ih (pre ++ [rv]) (k + 1) (r.set pre.length ((i' : ℕ) : ℤ)) (a.upd rv i') (by rw [hV]; simp)
      (by rw [List.length_set, hr]) (by
        intro v hv
        by_cases hvr : v = rv
        · subst hvr; rw [Asg.upd_self]; exact h3
        · rw [Asg.upd_ne _ _ hvr]; exact hin v (by simpa [hvr] using hv)) (by
        rw [List.length_append, List.length_singleton, List.take_succ, List.take_set_of_le (le_refl _), htk, List.map_append]
        congr 1
        · apply List.map_congr_left
          intro v hv
          rw [Asg.upd_ne _ _ (by rintro rfl; exact hnd hv)]
        · rw [List.getElem?_set_self hplt]; simp [Asg.upd_self])
    refine ⟨a', ?_, g2, fun v hv => ?_, ?_⟩
    · rw [randomRow, hf]
      simp only [Py.bind_ok, w.parents_ok hrv]
      rw [heq, hf1]
      simp only [Py.bind_ok, w.values_ok hrv, hf2]
      rw [h1]
      simp only [Py.bind_ok]
      rw [e1]
      simp only [Py.bind_ok]
      rw [Dict.get_of_get? hposv]
      simp only [Py.bind_ok]
      rw [g1, List.length_cons]
      congr 2; omega
    · rw [g3 v (by simp [hv]), Asg.upd_ne _ _ (by rintro rfl; exact hnd hv)]
    · intro j v hj
      cases j with
      | zero =>
        simp only [List.getElem?_cons_zero, Option.some.injEq] at hj
        subst hj
        rw [Nat.add_zero, ← falls_congr (a := a.upd rv i')]
        · exact h4
        · intro u hu
          rw [g3]
          rcases List.mem_cons.1 hu with rfl | hu
          · simp
          · simp [hpar u hu]
      | succ j =>
        have := g4 j v (by simpa using hj)
        rwa [show k + (j + 1) = k + 1 + j by omega]

theorem randomRows_ok (h : HashOrder N) {bn : BayesNet N A} (w : bn.WF) (hn : bn.Nonneg) {tol : ℚ} (ht : tol < 1)
    (hnorm : bn.NearNormalised tol) (hpf : bn.ParentsFirst) {U : ℕ → K} (hU : ∀ i, 0 ≤ U i ∧ U i < 1) :
    ∀ (gs : List (List ℤ)) (k : ℕ), (∀ g ∈ gs, g.length = bn.V.length) → ∃ smp : ℕ → Asg N,
      randomRows tol h bn (Dict.ofPairs bn.V.zipIdx) U gs k =
        .ok ((List.range gs.length).map fun t => bn.V.map fun v => ((smp t v : ℕ) : ℤ)) ∧
      ∀ t, t < gs.length → InRange bn.cardOf bn.V (smp t) ∧ ∀ j v, bn.V[j]? = some v → bn.Falls (smp t) v (U (k + t * bn.V.length + j)) := by
  intro gs
  induction gs with
  | nil => intro k _; exact ⟨fun _ _ => 0, by simp [randomRows], fun t ht => absurd ht (Nat.not_lt_zero t)⟩
  | cons g gs ih =>
    intro k hg
    obtain ⟨a, g1, g2, _, g4⟩ := randomRow_ok h w hn ht hnorm hpf hU bn.V [] k g (fun _ => 0) rfl (hg g (by simp)) (by intro v hv; simp at hv)
      (by simp)
    obtain ⟨smp, e1, e2⟩ := ih (k + bn.V.length) (fun g' hg' => hg g' (by simp [hg']))
    refine ⟨fun t => match t with | 0 => a | t + 1 => smp t, ?_, ?_⟩
    · rw [randomRows, g1]
      simp only [Py.bind_ok]
      rw [e1]
      simp only [Py.bind_ok, Py.pure_eq]
      rw [List.length_cons, List.range_succ_eq_map, List.map_cons, List.map_map]
      rfl
    · intro t htn
      cases t with
      | zero => exact ⟨g2, fun j v hj => by rw [Nat.zero_mul, Nat.add_zero]; exact g4 j v hj⟩
      | succ t =>
        obtain ⟨q1, q2⟩ := e2 t (by simpa using htn)
        refine ⟨q1, fun j v hj => ?_⟩
        have := q2 j v hj
        rwa [show k + (t + 1) * bn.V.length + j = k + bn.V.length + t * bn.V.length + j by ring]

/-! ## A node listed before a parent -/

theorem conditionOn_append (h : HashOrder N) (bn : BayesNet N A) (s : Dict N A) : ∀ (l l' : List N) (f : Factor N),
    conditionOn h bn s (l ++ l') f = (conditionOn h bn s l f >>= fun f' => conditionOn h bn s l' f') := by
  intro l
  induction l with
  | nil => intro l' f; rfl
  | cons p l ih =>
    intro l' f
    rw [List.cons_append, conditionOn, conditionOn]
    cases s.get p with
    | error e => rfl
    | ok x =>
      simp only [Py.bind_ok]
      cases f.reduce h bn p x with
      | error e => rfl
      | ok f' => simp only [Py.bind_ok]; exact ih l' f'

theorem conditional_keyError (h : HashOrder N) {bn : BayesNet N A} (w : bn.WF) {v : N} (hv : v ∈ bn.V) {s : Dict N A}
    (hs : ∀ p x, s.get? p = some x → x ∈ bn.valuesOf p) {p : N} (hp : p ∈ bn.parentsOf v) (hno : s.get? p = none) :
    conditional h bn s v = .error .keyError := by
  classical
  obtain ⟨f, h1, h2, h3, h4, h5, h6⟩ := Factor.init_ok w hv
  have hnd := List.nodup_cons.1 (w.fam_nodup v hv)
  -- the first missing parent
  have key : ∀ l : List N, (∃ p ∈ l, s.get? p = none) → ∃ l1 q l2, l = l1 ++ q :: l2 ∧ s.get? q = none ∧ ∀ r ∈ l1, (s.get? r).isSome := by
    intro l
    induction l with
    | nil => rintro ⟨p, hp, _⟩; simp at hp
    | cons r l ih =>
      rintro ⟨p, hp, hno⟩
      cases hr : s.get? r with
      | none => exact ⟨[], r, l, rfl, hr, by simp⟩
      | some y =>
        have hpl : p ∈ l := by
          rcases List.mem_cons.1 hp with rfl | hp
          · rw [hno] at hr; cases hr
          · exact hp
        obtain ⟨l1, q, l2, e1, e2, e3⟩ := ih ⟨p, hpl, hno⟩
        exact ⟨r :: l1, q, l2, by rw [e1]; rfl, e2, by
          intro r' hr'
          rcases List.mem_cons.1 hr' with rfl | hr'
          · rw [hr]; rfl
          · exact e3 r' hr'⟩
  obtain ⟨l1, q, l2, e1, e2, e3⟩ := key _ ⟨p, hp, hno⟩
  have hAne : Nonempty A := by
    obtain ⟨x, _⟩ := List.exists_mem_of_ne_nil _ (w.values_ne v hv)
    exact ⟨x⟩
  let val : N → A := fun u => (s.get? u).getD hAne.some
  have hval : ∀ r ∈ l1, s.get? r = some (val r) := by
    intro r hr
    have := e3 r hr
    simp only [val]
    cases hg : s.get? r with
    | none => rw [hg] at this; cases this
    | some y => rfl
  have hl1 : ∀ r ∈ l1, r ∈ bn.parentsOf v := fun r hr => by rw [e1]; simp [hr]
  have hfst : (l1.map fun p => (p, val p)).map Prod.fst = l1 := by simp [Function.comp_def]
  obtain ⟨f', g1, _, _, _⟩ := Factor.reduceList_ok h w (l1.map fun p => (p, val p)) h2 (by
      rw [hfst]; have := hnd.2; rw [e1] at this; exact (List.nodup_append.1 this).1)
    (by
      intro e he
      obtain ⟨r, hr, rfl⟩ := List.mem_map.1 he
      exact ⟨by rw [h4]; simp [hl1 r hr], w.parents_mem v hv r (hl1 r hr), hs r _ (hval r hr)⟩)
  unfold conditional
  rw [h1]
  simp only [Py.bind_ok, w.parents_ok hv]
  rw [e1, conditionOn_append, conditionOn_eq h bn l1 f hval, g1]
  simp only [Py.bind_ok]
  rw [conditionOn, Dict.get_of_none e2]
  rfl

/-- A pass raises as soon as it reaches a node listed before one of its parents. -/
theorem forwardNodes_keyError (h : HashOrder N) {bn : BayesNet N A} (w : bn.WF) (hn : bn.Nonneg) {tol : ℚ} (ht : tol < 1)
    (hnorm : bn.NearNormalised tol) {U : ℕ → K} (hU : ∀ i, 0 ≤ U i ∧ U i < 1) :
    ∀ (rvs pre : List N) (k : ℕ) (s : Dict N A) (a : Asg N), bn.V = pre ++ rvs → s.keys = pre →
      (∀ v ∈ pre, ∃ x, s.get? v = some x ∧ (bn.valuesOf v)[a v]? = some x) →
      (∃ r1 v r2, rvs = r1 ++ v :: r2 ∧ ∃ p ∈ bn.parentsOf v, p ∉ pre ++ r1) →
      forwardNodes tol h bn U rvs k s = .error .keyError := by
  intro rvs
  induction rvs with
  | nil => rintro pre k s a _ _ _ ⟨r1, v, r2, e, _⟩; simp at e
  | cons rv rvs ih =>
    intro pre k s a hV hk hs hbad
    have hrv : rv ∈ bn.V := by rw [hV]; simp
    have hnd : rv ∉ pre := by
      have := w.nodup
      rw [hV, List.nodup_middle] at this
      exact fun hm => (List.nodup_cons.1 this).1 (by simp [hm])
    have hsv : ∀ p x, s.get? p = some x → x ∈ bn.valuesOf p := by
      intro p x hx
      have hp : p ∈ pre := by rw [← hk, Dict.mem_keys_iff, hx]; rfl
      obtain ⟨y, h1, h2⟩ := hs p hp
      rw [hx] at h1; cases h1
      exact List.mem_of_getElem? h2
    by_cases hpar : ∀ p ∈ bn.parentsOf rv, p ∈ pre
    · have hcond := conditional_ok h w hrv (s := s) (a := a) fun p hp => hs p (hpar p hp)
      have hain : InRange bn.cardOf (bn.parentsOf rv) a := by
        intro p hp
        obtain ⟨x, _, hx⟩ := hs p (hpar p hp)
        rw [w.card_len (w.parents_mem rv hrv p hp)]
        exact (List.getElem?_eq_some_iff.1 hx).1
      obtain ⟨i, x, h1, h2, h3, h4⟩ := draw_ok (K := K) h w hn ht hnorm hrv hain (hU k).1 (hU k).2
      rw [forwardNodes, hcond]
      simp only [Py.bind_ok, w.values_ok hrv]
      rw [h1]
      simp only [Py.bind_ok]
      apply ih (pre ++ [rv]) (k + 1) (s.set rv x) (a.upd rv i) (by rw [hV]; simp) (by rw [Dict.keys_set, hk, if_neg hnd])
      · intro v hv
        by_cases hvr : v = rv
        · subst hvr; exact ⟨x, Dict.get?_set_self _ _ _, by rw [Asg.upd_self]; exact h2⟩
        · rw [Dict.get?_set_ne _ _ (Ne.symm hvr), Asg.upd_ne _ _ hvr]
          exact hs v (by simpa [hvr] using hv)
      · obtain ⟨r1, v, r2, e, p, hp, hpn⟩ := hbad
        cases r1 with
        | nil =>
          simp only [List.nil_append, List.cons.injEq] at e
          obtain ⟨rfl, _⟩ := e
          exact absurd (hpar p hp) (by simpa using hpn)
        | cons y r1 =>
          simp only [List.cons_append, List.cons.injEq] at e
          obtain ⟨rfl, e⟩ := e
          exact ⟨r1, v, r2, e, p, hp, by simpa using hpn⟩
    · push Not at hpar
      obtain ⟨p, hp, hpn⟩ := hpar
      rw [forwardNodes, conditional_keyError h w hrv hsv hp (Dict.get?_eq_none_iff.2 (by rw [hk]; exact hpn))]
      rfl

end PyBN
