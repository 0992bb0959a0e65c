import Verif.Proofs.Sample2
import Mathlib.Algebra.BigOperators.Field

set_option linter.unusedSectionVars false

namespace PyBN
open BayesNet Sampling
variable {N A : Type _} [DecidableEq N] [DecidableEq A] {K : Type _} [Field K] [LinearOrder K] [IsStrictOrderedRing K]

/-! ## Tables of counters -/

/-- A table of counters, given by a function. -/
def tableOf (bn : BayesNet N A) (g : N → A → ℚ) : Dict N (Dict A ℚ) :=
  bn.V.map fun v => (v, (bn.valuesOf v).map fun x => (x, g v x))

theorem Dict.update_append {α β : Type _} [DecidableEq α] : ∀ (l d : Dict α β), (d.keys ++ l.keys).Nodup → Dict.update d l = d ++ l := by
  intro l
  induction l with
  | nil => intro d _; simp [Dict.update]
  | cons e l ih =>
    intro d hd
    rw [Dict.update_cons]
    have hn : e.1 ∉ d.keys := by
      intro hm
      have := (List.nodup_append.1 hd).2.2 e.1 hm e.1 (by simp [Dict.keys])
      exact this rfl
    have hset : ∀ d : Dict α β, e.1 ∉ d.keys → d.set e.1 e.2 = d ++ [e] := by
      intro d
      induction d with
      | nil => intro _; rfl
      | cons f d ih =>
        intro hn
        simp only [Dict.keys, List.map_cons, List.mem_cons, not_or] at hn
        rw [Dict.set, if_neg (Ne.symm hn.1), ih hn.2]; rfl
    rw [hset d hn, ih]
    · simp
    · rw [show Dict.keys (d ++ [e]) = d.keys ++ [e.1] by simp [Dict.keys]]
      simpa [Dict.keys] using hd

theorem Dict.ofPairs_eq {α β : Type _} [DecidableEq α] {l : List (α × β)} (h : (Dict.keys l).Nodup) : Dict.ofPairs l = l := by
  unfold Dict.ofPairs; rw [Dict.update_append]
  · rfl
  · exact h

theorem Dict.set_map_pair {α β : Type _} [DecidableEq α] (f : α → β) (k : α) (y : β) : ∀ {l : List α}, k ∈ l → l.Nodup →
    Dict.set (l.map fun v => (v, f v)) k y = l.map fun v => (v, if v = k then y else f v) := by
  intro l
  induction l with
  | nil => intro h; simp at h
  | cons a l ih =>
    intro h hn
    rw [List.map_cons, Dict.set, List.map_cons]
    split_ifs with hak
    · subst hak
      congr 1
      apply List.map_congr_left
      intro v hv
      rw [if_neg (by rintro rfl; exact (List.nodup_cons.1 hn).1 hv)]
    · rw [ih (by simpa [Ne.symm hak] using h) (List.nodup_cons.1 hn).2]

theorem zeroCounts_ok {bn : BayesNet N A} (w : bn.WF) : zeroCounts bn = .ok (tableOf bn fun _ _ => 0) := by
  unfold zeroCounts
  rw [pyMap_ok (g := fun v => (v, (bn.valuesOf v).map fun x => (x, (0 : ℚ)))) (by
    intro v hv
    simp only [w.values_ok hv, Py.bind_ok, Py.pure_eq]
    rw [Dict.ofPairs_eq]
    rw [Dict.keys_map_pair]; exact w.values_nodup v hv)]
  simp only [Py.bind_ok, Py.pure_eq]
  rw [Dict.ofPairs_eq (by rw [Dict.keys_map_pair]; exact w.nodup)]
  rfl

theorem tableOf_congr {bn : BayesNet N A} {g g' : N → A → ℚ} (h : ∀ v ∈ bn.V, ∀ x ∈ bn.valuesOf v, g v x = g' v x) :
    tableOf bn g = tableOf bn g' := by
  unfold tableOf
  apply List.map_congr_left
  intro v hv
  congr 1
  apply List.map_congr_left
  intro x hx
  rw [h v hv x hx]

theorem bump_ok {bn : BayesNet N A} (w : bn.WF) (wt : ℚ) : ∀ (s : Dict N A) (g : N → A → ℚ), s.keys.Nodup → (∀ v ∈ s.keys, v ∈ bn.V) →
    (∀ v x, (v, x) ∈ s → x ∈ bn.valuesOf v) →
    bump wt s (tableOf bn g) = .ok (tableOf bn fun v x => g v x + if Dict.get? s v = some x then wt else 0) := by
  intro s
  induction s with
  | nil => intro g _ _ _; simp [bump]
  | cons e s ih =>
    obtain ⟨rv, val⟩ := e
    intro g hn hV hx
    have hrv : rv ∈ bn.V := hV rv (by simp [Dict.keys])
    have hval : val ∈ bn.valuesOf rv := hx rv val (by simp)
    simp only [Dict.keys, List.map_cons, List.nodup_cons] at hn
    have h1 : Dict.get? (tableOf bn g) rv = some ((bn.valuesOf rv).map fun x => (x, g rv x)) := by
      unfold tableOf; rw [Dict.get?_map_pair, if_pos hrv]
    have h2 : Dict.get? ((bn.valuesOf rv).map fun x => (x, g rv x)) val = some (g rv val) := by
      rw [Dict.get?_map_pair, if_pos hval]
    rw [bump, Dict.get_of_get? h1]
    simp only [Py.bind_ok]
    rw [Dict.get_of_get? h2]
    simp only [Py.bind_ok]
    rw [Dict.set_map_pair _ _ _ hval (w.values_nodup rv hrv)]
    have h3 : Dict.set (tableOf bn g) rv ((bn.valuesOf rv).map fun x => (x, if x = val then g rv val + wt else g rv x)) =
        tableOf bn fun v x => if v = rv ∧ x = val then g v x + wt else g v x := by
      unfold tableOf
      rw [Dict.set_map_pair _ _ _ hrv w.nodup]
      apply List.map_congr_left
      intro v _
      by_cases hv : v = rv
      · subst hv
        rw [if_pos rfl]
        congr 1
        apply List.map_congr_left
        intro x _
        by_cases hxv : x = val
        · subst hxv; simp
        · simp [hxv]
      · rw [if_neg hv]
        congr 1
        apply List.map_congr_left
        intro x _
        simp [hv]
    rw [h3, ih _ hn.2 (fun v hv => hV v (by simp only [Dict.keys, List.map_cons, List.mem_cons]; exact .inr hv)) (fun v x h => hx v x (by simp [h]))]
    congr 1
    apply tableOf_congr
    intro v _ x _
    rw [Dict.get?_cons]
    by_cases hv : rv = v
    · subst hv
      have hnone : Dict.get? s rv = none := Dict.get?_eq_none_iff.2 hn.1
      simp only [true_and, if_true, hnone]
      by_cases hxv : x = val
      · subst hxv; simp
      · have : ¬ val = x := fun h => hxv h.symm
        simp [hxv, this]
    · have : ¬ v = rv := fun h => hv h.symm
      simp [hv, this]

/-- Adding one sample that shows `a`. -/
theorem bump_shows {bn : BayesNet N A} (w : bn.WF) (wt : ℚ) {s : Dict N A} {a : Asg N} (hk : s.keys = bn.V) (hs : bn.Shows s a) (g : N → A → ℚ) :
    bump wt s (tableOf bn g) = .ok (tableOf bn fun v x => g v x + if (bn.valuesOf v)[a v]? = some x then wt else 0) := by
  rw [bump_ok w wt s g (by rw [hk]; exact w.nodup) (by rw [hk]; exact fun _ h => h)]
  · congr 1
    apply tableOf_congr
    intro v hv x _
    obtain ⟨y, h1, h2⟩ := hs v hv
    rw [h1, h2]
  · intro v x h
    have hget := Dict.get?_of_mem (by rw [hk]; exact w.nodup) h
    have hv : v ∈ bn.V := by rw [← hk, Dict.mem_keys_iff, hget]; rfl
    obtain ⟨y, h1, h2⟩ := hs v hv
    rw [hget] at h1; cases h1
    exact List.mem_of_getElem? h2

theorem mapCounts_tableOf (bn : BayesNet N A) (f : ℚ → ℚ) (g : N → A → ℚ) :
    mapCounts f (tableOf bn g) = tableOf bn fun v x => f (g v x) := by
  unfold mapCounts tableOf
  simp [List.map_map, Function.comp_def]

theorem anyEntry_tableOf {bn : BayesNet N A} (w : bn.WF) (g : N → A → ℚ) : anyEntry (tableOf bn g) = true ↔ bn.V ≠ [] := by
  unfold anyEntry tableOf
  rw [List.any_map, List.any_eq_true]
  constructor
  · rintro ⟨v, hv, _⟩ he; rw [he] at hv; simp at hv
  · intro hne
    obtain ⟨v, hv⟩ := List.exists_mem_of_ne_nil _ hne
    refine ⟨v, hv, ?_⟩
    have := w.values_ne v hv
    simp [this]

theorem tableOf_get {bn : BayesNet N A} (g : N → A → ℚ) {v : N} (hv : v ∈ bn.V) :
    (tableOf bn g).get? v = some ((bn.valuesOf v).map fun x => (x, g v x)) := by
  unfold tableOf; rw [Dict.get?_map_pair, if_pos hv]

/-! ## The loops -/

/-- The weight of a sample. -/
def evWeight (bn : BayesNet N A) (ev : Dict N A) (a : Asg N) : ℚ := ((obsOf ev bn.V).map fun v => bn.prob v a).prod

theorem lwLoop_ok (h : HashOrder N) {bn : BayesNet N A} (w : bn.WF) (hn : bn.Nonneg) {tol : ℚ} (ht : tol < 1)
    (hnorm : bn.NearNormalised tol) (hpf : bn.ParentsFirst) {ev : Dict N A}
    (hev : ∀ v ∈ bn.V, ∀ e, ev.get? v = some e → e ∈ bn.valuesOf v) {U : ℕ → K} (hU : ∀ i, 0 ≤ U i ∧ U i < 1) :
    ∀ (n k : ℕ) (ws : ℚ) (g : N → A → ℚ), ∃ smp : ℕ → Asg N,
      lwLoop tol h bn ev U n k ws (tableOf bn g) = .ok (ws + ∑ t ∈ Finset.range n, evWeight bn ev (smp t),
        tableOf bn fun v x => g v x + ∑ t ∈ Finset.range n, if (bn.valuesOf v)[smp t v]? = some x then evWeight bn ev (smp t) else 0) ∧
      ∀ t, t < n → InRange bn.cardOf bn.V (smp t) ∧ (∀ v ∈ bn.V, ∀ e, ev.get? v = some e → (bn.valuesOf v)[smp t v]? = some e) ∧
        ∀ j v, (freeOf ev bn.V)[j]? = some v → bn.Falls (smp t) v (U (k + t * (freeOf ev bn.V).length + j)) := by
  intro n
  induction n with
  | zero => intro k ws g; exact ⟨fun _ _ => 0, by simp [lwLoop], fun t ht => absurd ht (Nat.not_lt_zero t)⟩
  | succ n ih =>
    intro k ws g
    obtain ⟨s, a, g1, g2, g3, _, g5, g6⟩ := lwNodes_ok h w hn ht hnorm hpf hev hU bn.V [] k [] 1 (fun _ => 0) rfl rfl (by simp)
    obtain ⟨smp, e1, e2⟩ := ih (k + (freeOf ev bn.V).length) (ws + evWeight bn ev a)
      (fun v x => g v x + if (bn.valuesOf v)[a v]? = some x then evWeight bn ev a else 0)
    refine ⟨fun t => match t with | 0 => a | t + 1 => smp t, ?_, ?_⟩
    · rw [lwLoop, g1, one_mul]
      simp only [Py.bind_ok]
      rw [show ((obsOf ev bn.V).map fun v => bn.prob v a).prod = evWeight bn ev a from rfl, bump_shows w _ g2 g3]
      simp only [Py.bind_ok]
      rw [e1]
      congr 2
      · rw [Finset.sum_range_succ']; dsimp only; ring
      · apply tableOf_congr
        intro v _ x _
        rw [Finset.sum_range_succ']; dsimp only; ring
    · intro t htn
      cases t with
      | zero =>
        refine ⟨shows_inRange w g3, g5, ?_⟩
        intro j v hj
        rw [Nat.zero_mul, Nat.add_zero]; exact g6 j v hj
      | succ t =>
        obtain ⟨q1, q2, q3⟩ := e2 t (by omega)
        refine ⟨q1, q2, ?_⟩
        intro j v hj
        have := q3 j v hj
        rwa [show k + (t + 1) * (freeOf ev bn.V).length + j = k + (freeOf ev bn.V).length + t * (freeOf ev bn.V).length + j by ring]

theorem lwLoop_nil (tol : ℚ) (h : HashOrder N) (bn : BayesNet N A) (U : ℕ → K) : ∀ (n k : ℕ) (ws : ℚ) (d : Dict N (Dict A ℚ)),
    lwLoop tol h bn [] U n k ws d = (forwardLoop tol h bn U n k d).map fun d' => (ws + n, d') := by
  intro n
  induction n with
  | zero => intro k ws d; simp [lwLoop, forwardLoop, Except.map]
  | succ n ih =>
    intro k ws d
    rw [lwLoop, forwardLoop, lwNodes_nil]
    cases forwardNodes tol h bn U bn.V k [] with
    | error e => rfl
    | ok r =>
      simp only [Py.bind_ok, Except.map]
      cases bump 1 r.2 d with
      | error e => rfl
      | ok d' =>
        simp only [Py.bind_ok]
        rw [ih]
        cases forwardLoop tol h bn U n r.1 d' with
        | error e => rfl
        | ok d'' => simp only [Except.map]; congr 2; push_cast; ring

theorem freeOf_nil (l : List N) : freeOf ([] : Dict N A) l = l := by
  unfold freeOf; rw [List.filter_eq_self]; intro v _; rfl

theorem evWeight_nil (bn : BayesNet N A) (a : Asg N) : evWeight bn [] a = 1 := by
  have : obsOf ([] : Dict N A) bn.V = [] := by unfold obsOf; rw [List.filter_eq_nil_iff]; intro v _; simp
  unfold evWeight; rw [this]; rfl

theorem forwardLoop_ok (h : HashOrder N) {bn : BayesNet N A} (w : bn.WF) (hn : bn.Nonneg) {tol : ℚ} (ht : tol < 1)
    (hnorm : bn.NearNormalised tol) (hpf : bn.ParentsFirst) {U : ℕ → K} (hU : ∀ i, 0 ≤ U i ∧ U i < 1) (n k : ℕ) (g : N → A → ℚ) :
    ∃ smp : ℕ → Asg N,
      forwardLoop tol h bn U n k (tableOf bn g) = .ok (tableOf bn fun v x => g v x + ∑ t ∈ Finset.range n,
        if (bn.valuesOf v)[smp t v]? = some x then 1 else 0) ∧
      ∀ t, t < n → InRange bn.cardOf bn.V (smp t) ∧ ∀ j v, bn.V[j]? = some v → bn.Falls (smp t) v (U (k + t * bn.V.length + j)) := by
  obtain ⟨smp, h1, h2⟩ := lwLoop_ok h w hn ht hnorm hpf (ev := []) (fun _ _ e he => by cases he) hU n k 0 g
  rw [lwLoop_nil] at h1
  simp only [evWeight_nil, freeOf_nil] at h1 h2
  refine ⟨smp, ?_, fun t ht => ⟨(h2 t ht).1, (h2 t ht).2.2⟩⟩
  cases hf : forwardLoop tol h bn U n k (tableOf bn g) with
  | error e => rw [hf] at h1; cases h1
  | ok r =>
    rw [hf] at h1
    simp only [Except.map, Except.ok.injEq, Prod.mk.injEq] at h1
    rw [h1.2]

/-! ## Gibbs -/

/-- With parents first, a Gibbs sweep is a forward pass: the old state is forgotten. -/
theorem gibbsNodes_forward (h : HashOrder N) {bn : BayesNet N A} (w : bn.WF) (hn : bn.Nonneg) {tol : ℚ} (ht : tol < 1)
    (hnorm : bn.NearNormalised tol) (hpf : bn.ParentsFirst) {U : ℕ → K} (hU : ∀ i, 0 ≤ U i ∧ U i < 1) :
    ∀ (rvs pre : List N) (k : ℕ) (s : Dict N A) (a : Asg N), bn.V = pre ++ rvs → s.keys = bn.V → bn.Shows s a →
      ∃ s' a', gibbsNodes tol h bn U rvs k s = .ok (k + rvs.length, s') ∧ s'.keys = bn.V ∧ bn.Shows s' a' ∧ (∀ v ∈ pre, a' v = a v) ∧
        ∀ j v, rvs[j]? = some v → bn.Falls a' v (U (k + j)) := by
  intro rvs
  induction rvs with
  | nil => intro pre k s a _ hk hs; exact ⟨s, a, by simp [gibbsNodes], hk, hs, fun _ _ => rfl, by simp⟩
  | cons rv rvs ih =>
    intro pre k s a hV hk hs
    have hrv : rv ∈ bn.V := by rw [hV]; simp
    have hpar := hpf pre rv rvs hV
    have hnd : rv ∉ pre := by
      have := w.nodup
      rw [hV, List.nodup_middle] at this
      exact fun hm => (List.nodup_cons.1 this).1 (by simp [hm])
    have hain : InRange bn.cardOf (bn.parentsOf rv) a := fun p hp => shows_inRange w hs p (w.parents_mem rv hrv p hp)
    obtain ⟨i, x, h1, h2, h3, h4⟩ := draw_ok (K := K) h w hn ht hnorm hrv hain (hU k).1 (hU k).2
    obtain ⟨s', a', g1, g2, g3, g4, g5⟩ := ih (pre ++ [rv]) (k + 1) (s.set rv x) (a.upd rv i) (by rw [hV]; simp)
      (by rw [Dict.keys_set, hk, if_pos hrv]) (by
        intro v hv
        by_cases hvr : v = rv
        · subst hvr; exact ⟨x, Dict.get?_set_self _ _ _, by rw [Asg.upd_self]; exact h2⟩
        · rw [Dict.get?_set_ne _ _ (Ne.symm hvr), Asg.upd_ne _ _ hvr]; exact hs v hv)
    refine ⟨s', a', ?_, g2, g3, fun v hv => ?_, ?_⟩
    · rw [gibbsNodes, gibbsProbs_ok h w hrv hs]
      simp only [Py.bind_ok, w.values_ok hrv]
      rw [h1]
      simp only [Py.bind_ok]
      rw [g1, List.length_cons]
      congr 2; omega
    · rw [g4 v (by simp [hv]), Asg.upd_ne _ _ (by rintro rfl; exact hnd hv)]
    · intro j v hj
      cases j with
      | zero =>
        simp only [List.getElem?_cons_zero, Option.some.injEq] at hj
        subst hj
        rw [Nat.add_zero, ← falls_congr (a := a.upd rv i)]
        · exact h4
        · intro u hu
          rw [g4]
          rcases List.mem_cons.1 hu with rfl | hu
          · simp
          · simp [hpar u hu]
      | succ j =>
        have := g5 j v (by simpa using hj)
        rwa [show k + (j + 1) = k + 1 + j by omega]

theorem gibbsInit_ok [FloorRing K] {bn : BayesNet N A} (w : bn.WF) {U : ℕ → K} (hU : ∀ i, 0 ≤ U i ∧ U i < 1) :
    ∀ (rvs pre : List N) (k : ℕ) (s : Dict N A) (a : Asg N), bn.V = pre ++ rvs → s.keys = pre →
      (∀ v ∈ pre, ∃ x, s.get? v = some x ∧ (bn.valuesOf v)[a v]? = some x) →
      ∃ s' a', gibbsInit bn U rvs k s = .ok (k + rvs.length, s') ∧ s'.keys = bn.V ∧ bn.Shows s' a' := by
  intro rvs
  induction rvs with
  | nil =>
    intro pre k s a hV hk hs
    rw [List.append_nil] at hV
    exact ⟨s, a, by simp [gibbsInit], by rw [hk, hV], fun v hv => hs v (hV ▸ hv)⟩
  | cons rv rvs ih =>
    intro pre k s a hV hk hs
    have hrv : rv ∈ bn.V := by rw [hV]; simp
    have hnd : rv ∉ pre := by
      have := w.nodup
      rw [hV, List.nodup_middle] at this
      exact fun hm => (List.nodup_cons.1 this).1 (by simp [hm])
    have hlen : 0 < (bn.valuesOf rv).length := List.length_pos_of_ne_nil (w.values_ne rv hrv)
    have hf0 : 0 ≤ ⌊U k * ((bn.valuesOf rv).length : K)⌋ := Int.floor_nonneg.2 (mul_nonneg (hU k).1 (by positivity))
    have hf1 : ⌊U k * ((bn.valuesOf rv).length : K)⌋ < ((bn.valuesOf rv).length : ℤ) := by
      rw [Int.floor_lt]
      have : (0 : K) < ((bn.valuesOf rv).length : K) := by exact_mod_cast hlen
      simpa using mul_lt_of_lt_one_left this (hU k).2
    obtain ⟨i, hi⟩ : ∃ i : ℕ, ⌊U k * ((bn.valuesOf rv).length : K)⌋ = (i : ℤ) := ⟨_, (Int.toNat_of_nonneg hf0).symm⟩
    have hil : i < (bn.valuesOf rv).length := by rw [hi] at hf1; exact_mod_cast hf1
    have hx := List.getElem?_eq_getElem hil
    obtain ⟨s', a', g1, g2, g3⟩ := ih (pre ++ [rv]) (k + 1) (s.set rv (bn.valuesOf rv)[i]) (a.upd rv i) (by rw [hV]; simp)
      (by rw [Dict.keys_set, hk, if_neg hnd]) (by
        intro v hv
        by_cases hvr : v = rv
        · subst hvr; exact ⟨_, Dict.get?_set_self _ _ _, by rw [Asg.upd_self]; exact hx⟩
        · rw [Dict.get?_set_ne _ _ (Ne.symm hvr), Asg.upd_ne _ _ hvr]
          exact hs v (by simpa [hvr] using hv))
    refine ⟨s', a', ?_, g2, g3⟩
    rw [gibbsInit, w.values_ok hrv]
    simp only [Py.bind_ok]
    unfold choiceUniform
    rw [if_neg (w.values_ne rv hrv), hi, pyIdx_nat hx]
    simp only [Py.bind_ok]
    rw [g1, List.length_cons]
    congr 2; omega

theorem gibbsLoop_ok (h : HashOrder N) {bn : BayesNet N A} (w : bn.WF) (hn : bn.Nonneg) {tol : ℚ} (ht : tol < 1)
    (hnorm : bn.NearNormalised tol) (burn : ℤ) {U : ℕ → K} (hU : ∀ i, 0 ≤ U i ∧ U i < 1) :
    ∀ (n i k : ℕ) (s : Dict N A) (a : Asg N) (g : N → A → ℚ), s.keys = bn.V → bn.Shows s a → ∃ smp : ℕ → Asg N,
      gibbsLoop tol h bn burn U n i k s (tableOf bn g) = .ok (tableOf bn fun v x => g v x + ∑ t ∈ Finset.range n,
        if burn < ((i + t : ℕ) : ℤ) ∧ (bn.valuesOf v)[smp t v]? = some x then 1 else 0) ∧
      ∀ t, t < n → InRange bn.cardOf bn.V (smp t) ∧
        (bn.ParentsFirst → ∀ j v, bn.V[j]? = some v → bn.Falls (smp t) v (U (k + t * bn.V.length + j))) := by
  intro n
  induction n with
  | zero => intro i k s a g _ _; exact ⟨fun _ _ => 0, by simp [gibbsLoop], fun t ht => absurd ht (Nat.not_lt_zero t)⟩
  | succ n ih =>
    intro i k s a g hk hs
    have hsweep : ∃ s' a', gibbsNodes tol h bn U bn.V k s = .ok (k + bn.V.length, s') ∧ s'.keys = bn.V ∧ bn.Shows s' a' ∧
        (bn.ParentsFirst → ∀ j v, bn.V[j]? = some v → bn.Falls a' v (U (k + j))) := by
      by_cases hpf : bn.ParentsFirst
      · obtain ⟨s', a', g1, g2, g3, _, g5⟩ := gibbsNodes_forward h w hn ht hnorm hpf hU bn.V [] k s a rfl hk hs
        exact ⟨s', a', g1, g2, g3, fun _ => g5⟩
      · obtain ⟨s', a', g1, g2, g3⟩ := gibbsNodes_ok h w hn ht hnorm hU bn.V k s a (fun _ h => h) hk hs
        exact ⟨s', a', g1, g2, g3, fun hp => absurd hp hpf⟩
    obtain ⟨s', a', g1, g2, g3, g5⟩ := hsweep
    obtain ⟨smp, e1, e2⟩ := ih (i + 1) (k + bn.V.length) s' a'
      (fun v x => g v x + if burn < (i : ℤ) ∧ (bn.valuesOf v)[a' v]? = some x then 1 else 0) g2 g3
    have hb : tally burn i s' (tableOf bn g) =
        .ok (tableOf bn fun v x => g v x + if burn < (i : ℤ) ∧ (bn.valuesOf v)[a' v]? = some x then 1 else 0) := by
      unfold tally
      split_ifs with hb
      · rw [bump_shows w 1 g2 g3]
        simp [hb]
      · simp [hb]
    refine ⟨fun t => match t with | 0 => a' | t + 1 => smp t, ?_, ?_⟩
    · rw [gibbsLoop, g1]
      simp only [Py.bind_ok]
      rw [hb]
      simp only [Py.bind_ok]
      rw [e1]
      congr 1
      apply tableOf_congr
      intro v _ x _
      rw [Finset.sum_range_succ']; dsimp only
      rw [Finset.sum_congr rfl (g := fun t => if burn < ((i + (t + 1) : ℕ) : ℤ) ∧ (bn.valuesOf v)[smp t v]? = some x then (1 : ℚ) else 0) (by
        intro t _
        rw [show i + 1 + t = i + (t + 1) by omega])]
      rw [Nat.add_zero]; ring
    · intro t htn
      cases t with
      | zero => exact ⟨shows_inRange w g3, fun hp j v hj => by rw [Nat.zero_mul, Nat.add_zero]; exact g5 hp j v hj⟩
      | succ t =>
        obtain ⟨q1, q2⟩ := e2 t (by omega)
        refine ⟨q1, fun hp j v hj => ?_⟩
        have := q2 hp j v hj
        rwa [show k + (t + 1) * bn.V.length + j = k + bn.V.length + t * bn.V.length + j by ring]

end PyBN
