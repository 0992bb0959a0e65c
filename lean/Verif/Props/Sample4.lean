import Verif.Props.Sample3

/-!
# C69 - C73: Gibbs sampling is forward sampling; errors of the samplers
-/

set_option linter.unusedSectionVars false

namespace PyBN
open BayesNet Sampling
variable {N A : Type} [DecidableEq N] [DecidableEq A] {K : Type} [Field K] [LinearOrder K] [IsStrictOrderedRing K]

theorem falls_pass_unique {bn : BayesNet N A} (w : bn.WF) (hn : bn.Nonneg) {tol : ℚ} (ht : tol < 1) (hnorm : bn.NearNormalised tol)
    (hpf : bn.ParentsFirst) {U : ℕ → K} {a b : Asg N} (ha : InRange bn.cardOf bn.V a)
    (h1 : ∀ j v, bn.V[j]? = some v → bn.Falls a v (U j)) (h2 : ∀ j v, bn.V[j]? = some v → bn.Falls b v (U j)) : ∀ v ∈ bn.V, a v = b v :=
  falls_all_unique w hn ht hnorm hpf (u := fun v => U (bn.V.idxOf v)) (obs := fun _ => False) ha (fun _ _ h => h.elim)
    (fun v hv _ => h1 _ v (List.getElem?_idxOf hv)) (fun v hv _ => h2 _ v (List.getElem?_idxOf hv))

theorem estimate_of {bn : BayesNet N A} {d : Dict N (Dict A ℚ)} {g : N → ℕ → ℚ} (h : bn.Estimates d g) {v : N} (hv : v ∈ bn.V) {i : ℕ} {x : A}
    (hx : (bn.valuesOf v)[i]? = some x) : estimate (.ok d) v x = g v i := by
  obtain ⟨t, h1, _, h3⟩ := h.2 v hv
  unfold estimate
  simp only [h1, Option.bind_some, h3 i x hx, Option.getD_some]

/-- C69: `gibbs_sample` never consults the children of a node: on a network listed parents first its result is, up to the wrong
divisor, that of `forward_sample` with the random numbers that remain after the initialisation and the first `burn + 1` sweeps. -/
theorem C69_gibbs_is_forward [FloorRing K] (h : HashOrder N) (bn : BayesNet N A) (w : bn.WF) (hn : bn.Nonneg) (tol : ℚ) (ht : tol < 1)
    (hnorm : bn.NearNormalised tol) (hpf : bn.ParentsFirst) (U : ℕ → K) (hU : ∀ i, 0 ≤ U i ∧ U i < 1) (n burn : ℕ) (hb : burn + 1 < n) :
    ∃ d d', gibbsSample tol h bn n burn U = .ok d ∧ d.keys = bn.V ∧
      forwardSample tol h bn (n - burn - 1) (fun i => U ((burn + 2) * bn.V.length + i)) = .ok d' ∧
      ∀ v ∈ bn.V, ∀ x ∈ bn.valuesOf v,
        estimate (.ok d) v x = roundAway 4 (estimate (.ok d') v x * ((n - burn - 1 : ℕ) : ℚ) / ((n - burn : ℕ) : ℚ)) := by
  obtain ⟨d, smp, g1, g2, g3⟩ := C68_gibbs_counts h bn w hn tol ht hnorm U hU n burn (by exact_mod_cast (by omega : burn < n))
  obtain ⟨d', smp', e1, e2, e3⟩ := C37_counts h bn w hn tol ht hnorm hpf (fun i => U ((burn + 2) * bn.V.length + i)) (fun i => hU _)
    (n - burn - 1) (by omega)
  refine ⟨d, d', g1, g3.1, e1, fun v hv x hx => ?_⟩
  obtain ⟨i, hi⟩ := List.getElem?_of_mem hx
  rw [estimate_of g3 hv hi, estimate_of e3 hv hi]
  have hm : ((n - burn - 1 : ℕ) : ℚ) ≠ 0 := by exact_mod_cast (by omega : n - burn - 1 ≠ 0)
  rw [div_mul_cancel₀ _ hm]
  have hsame : ∀ s < n - burn - 1, ∀ u ∈ bn.V, smp (burn + 1 + s) u = smp' s u := by
    intro s hs
    have k1 := g2 (burn + 1 + s) (by omega)
    have k2 := e2 s hs
    apply falls_pass_unique w hn ht hnorm hpf (U := fun j => U ((burn + 2) * bn.V.length + (s * bn.V.length + j))) k1.1
    · intro j u hj
      have := k1.2 hpf j u hj
      rwa [show bn.V.length + (burn + 1 + s) * bn.V.length + j = (burn + 2) * bn.V.length + (s * bn.V.length + j) by ring] at this
    · exact k2.2
  have hcard : ((Finset.range n).filter fun (t : ℕ) => ((burn : ℕ) : ℤ) < t ∧ smp t v = i).card =
      ((Finset.range (n - burn - 1)).filter fun s => smp' s v = i).card := by
    symm
    apply Finset.card_bij (fun s _ => burn + 1 + s)
    · intro s hs
      rw [Finset.mem_filter, Finset.mem_range] at hs
      rw [Finset.mem_filter, Finset.mem_range, hsame s hs.1 v hv]
      refine ⟨by omega, ?_, hs.2⟩
      push_cast; omega
    · intro a _ b _ hab; omega
    · intro t htm
      rw [Finset.mem_filter, Finset.mem_range] at htm
      obtain ⟨h1, h2, h3⟩ := htm
      have h2' : burn < t := by exact_mod_cast h2
      refine ⟨t - (burn + 1), ?_, by omega⟩
      rw [Finset.mem_filter, Finset.mem_range]
      refine ⟨by omega, ?_⟩
      rw [← hsame _ (by omega) v hv, show burn + 1 + (t - (burn + 1)) = t by omega]; exact h3
  rw [hcard]
  have : (((n : ℤ) - (burn : ℤ) : ℤ) : ℚ) = ((n - burn : ℕ) : ℚ) := by
    rw [Nat.cast_sub (by omega)]; push_cast; rfl
  rw [this]

/-- C70: `forward_sample` raises `KeyError` on every network in which some node is listed before one of its parents. -/
theorem C70_forward_keyError (h : HashOrder N) (bn : BayesNet N A) (w : bn.WF) (hn : bn.Nonneg) (tol : ℚ) (ht : tol < 1)
    (hnorm : bn.NearNormalised tol) (U : ℕ → K) (hU : ∀ i, 0 ≤ U i ∧ U i < 1) (n : ℕ) (h1 : 1 ≤ n)
    (hbad : ¬ bn.ParentsFirst) : forwardSample tol h bn n U = .error .keyError := by
  have hex : ∃ r1 v r2, bn.V = r1 ++ v :: r2 ∧ ∃ p ∈ bn.parentsOf v, p ∉ ([] : List N) ++ r1 := by
    unfold BayesNet.ParentsFirst at hbad
    push Not at hbad
    obtain ⟨pre, v, post, e, p, hp, hpn⟩ := hbad
    exact ⟨pre, v, post, e, p, hp, by simpa using hpn⟩
  obtain ⟨m, rfl⟩ : ∃ m, n = m + 1 := ⟨n - 1, by omega⟩
  unfold forwardSample
  rw [zeroCounts_ok w]
  simp only [Py.bind_ok]
  rw [forwardLoop, forwardNodes_keyError h w hn ht hnorm hU bn.V [] 0 [] (fun _ => 0) rfl rfl (by simp) hex]
  rfl

/-- The nodes 0 → 2, 0 → 1, 2 → 1 in the order `topsort` computes for them: 0, 1, 2 (1 before its parent 2). -/
def badNet : BayesNet ℕ ℕ where
  V := [0, 1, 2]
  E := [(0, [1, 2]), (2, [1]), (1, [])]
  F := [(0, ⟨[], [10, 11], [1/4, 3/4]⟩),
        (1, ⟨[0, 2], [20, 21], [1/2, 1/2, 1/3, 2/3, 1, 0, 0, 1]⟩),
        (2, ⟨[0], [30, 31], [1/2, 1/2, 1/3, 2/3]⟩)]

/-- `badNet` meets the hypotheses of C70, and its node order is the one `topsort` returns for its edges. -/
example : badNet.WF ∧ badNet.Nonneg ∧ ¬ badNet.ParentsFirst ∧
    (topsort HashOrder.id badNet.E none).okAnd (fun l => decide (l = badNet.V)) = true := by
  refine ⟨.of_dec _ (by decide) (by decide), by unfold BayesNet.Nonneg; decide +kernel, ?_, by decide +kernel⟩
  intro hp
  have := hp [0] 1 [2] rfl 2 (by decide)
  revert this; decide

example : (match forwardSample (1 / 10 ^ 8) HashOrder.id badNet 1 (fun _ => (0 : ℚ)) with | .ok _ => false | .error e => decide (e = .keyError)) = true := by
  decide +kernel

/-- C71: `random_sample` returns, whatever the uninitialised array contained, one row per pass, the row holding the value indices
of the assignment `forward_sample` draws in that pass. -/
theorem C71_random_is_forward (h : HashOrder N) (bn : BayesNet N A) (w : bn.WF) (hn : bn.Nonneg) (tol : ℚ) (ht : tol < 1)
    (hnorm : bn.NearNormalised tol) (hpf : bn.ParentsFirst) (U : ℕ → K) (hU : ∀ i, 0 ≤ U i ∧ U i < 1) (n : ℕ) (h1 : 1 ≤ n) :
    ∃ smp : ℕ → Asg N, (∀ t < n, InRange bn.cardOf bn.V (smp t)) ∧
      (∀ garbage : List (List ℤ), garbage.length = n → (∀ g ∈ garbage, g.length = bn.V.length) →
        randomSample tol h bn garbage U = .ok ((List.range n).map fun t => bn.V.map fun v => ((smp t v : ℕ) : ℤ))) ∧
      ∃ d, forwardSample tol h bn n U = .ok d ∧
        bn.Estimates d fun v i => (((Finset.range n).filter fun t => smp t v = i).card : ℚ) / n := by
  obtain ⟨d, smp, g1, g2, g3⟩ := C37_counts h bn w hn tol ht hnorm hpf U hU n h1
  refine ⟨smp, fun t ht => (g2 t ht).1, fun garbage hl hg => ?_, d, g1, g3⟩
  obtain ⟨smp', e1, e2⟩ := randomRows_ok h w hn ht hnorm hpf hU garbage 0 hg
  rw [hl] at e1 e2
  obtain ⟨fs, hinit⟩ := inits_ok w
  unfold randomSample
  rw [hinit]
  simp only [Py.bind_ok]
  rw [e1]
  congr 1
  apply List.map_congr_left
  intro t htm
  have htn := List.mem_range.1 htm
  apply List.map_congr_left
  intro v hv
  have := falls_pass_unique w hn ht hnorm hpf (U := fun j => U (t * bn.V.length + j)) (e2 t htn).1
    (by have := (e2 t htn).2; simpa using this) (g2 t htn).2 v hv
  rw [this]

example : (randomSample (1 / 10 ^ 8) HashOrder.id exNet [[7, -3, 9], [5, 5, 5]] (fun i => ([1/2, 3/5, 1/10, 1/8, 0, 2/3] : List ℚ).getD i 0)).okAnd
    (fun r => decide (r = [[1, 1, 1], [0, 0, 1]])) = true := by decide +kernel

theorem lw_nil_eq (tol : ℚ) (h : HashOrder N) (bn : BayesNet N A) (n : ℕ) (h1 : 1 ≤ n) (U : ℕ → K) :
    lwSample tol h bn [] n U = (forwardSample tol h bn n U).map (mapCounts (roundAway 4)) := by
  unfold lwSample forwardSample
  cases hz : zeroCounts bn with
  | error e => rfl
  | ok d0 =>
    simp only [Py.bind_ok]
    rw [lwLoop_nil]
    cases hl : forwardLoop tol h bn U n 0 d0 with
    | error e => rfl
    | ok d =>
      have hn0 : ¬ ((0 : ℚ) + n = 0) := by rw [zero_add]; exact_mod_cast (by omega : n ≠ 0)
      simp only [Except.map, Py.bind_ok]
      rw [if_neg (fun hh => hn0 hh.1), if_neg (by rintro ⟨rfl, _⟩; omega)]
      simp only [Py.pure_eq]
      congr 1
      unfold mapCounts
      simp [List.map_map, Function.comp_def]

theorem get?_map_val {α β γ : Type} [DecidableEq α] (f : β → γ) (d : Dict α β) (k : α) :
    Dict.get? (d.map fun kt => (kt.1, f kt.2)) k = (Dict.get? d k).map f := by
  induction d with
  | nil => rfl
  | cons e d ih =>
    obtain ⟨k', t⟩ := e
    rw [List.map_cons, Dict.get?_cons, Dict.get?_cons, ih]
    split_ifs <;> rfl

/-- C72: without evidence `lw_sample` returns what `forward_sample` returns for the same random numbers, rounded to four digits, and
raises whatever `forward_sample` raises. -/
theorem C72_lw_without_evidence (tol : ℚ) (h : HashOrder N) (bn : BayesNet N A) (n : ℕ) (h1 : 1 ≤ n) (U : ℕ → K) :
    (∀ e, forwardSample tol h bn n U = .error e → lwSample tol h bn [] n U = .error e) ∧
    ∀ d, forwardSample tol h bn n U = .ok d → ∃ d', lwSample tol h bn [] n U = .ok d' ∧ d'.keys = d.keys ∧
      ∀ v t, d.get? v = some t → ∃ t', d'.get? v = some t' ∧ t'.keys = t.keys ∧ ∀ x y, t.get? x = some y → t'.get? x = some (roundAway 4 y) := by
  rw [lw_nil_eq tol h bn n h1 U]
  refine ⟨fun e he => by rw [he]; rfl, fun d hd => ⟨mapCounts (roundAway 4) d, by rw [hd]; rfl, ?_, ?_⟩⟩
  · unfold mapCounts Dict.keys; simp [Function.comp_def]
  · intro v t hv
    refine ⟨t.map fun vx => (vx.1, roundAway 4 vx.2), ?_, ?_, ?_⟩
    · unfold mapCounts
      rw [get?_map_val (fun t : Dict A ℚ => t.map fun vx => (vx.1, roundAway 4 vx.2)) d v, hv]; rfl
    · unfold Dict.keys; simp [Function.comp_def]
    · intro x y hx
      rw [get?_map_val (roundAway 4) t x, hx]; rfl

/-- C73: if the table of the first node, a root, does not sum to one within numpy's tolerance, `forward_sample` raises `ValueError`
(there is no re-normalisation). -/
theorem C73_unnormalised_error (h : HashOrder N) (bn : BayesNet N A) (w : bn.WF) (tol : ℚ) (U : ℕ → K) (n : ℕ) (h1 : 1 ≤ n)
    (v : N) (rest : List N) (hV : bn.V = v :: rest) (hroot : bn.parentsOf v = []) (hbad : tol < |(bn.cptOf v).sum - 1|) :
    forwardSample tol h bn n U = .error .valueError := by
  have hv : v ∈ bn.V := by rw [hV]; simp
  have hcond := conditional_ok h w hv (s := []) (a := fun _ => 0) (by rw [hroot]; simp)
  have hrow : row bn v (fun _ => 0) = bn.cptOf v := by
    have hlen : (bn.cptOf v).length = bn.cardOf v := by rw [w.cpt_len v hv, hroot]; simp
    apply List.ext_getElem?
    intro j
    by_cases hj : j < bn.cardOf v
    · rw [row, List.getElem?_map, List.getElem?_range hj, Option.map_some]
      unfold BayesNet.prob
      rw [hroot]
      simp only [enc, Asg.upd_self, mul_zero, add_zero]
      rw [List.getElem?_eq_getElem (by rw [hlen]; exact hj)]; rfl
    · rw [List.getElem?_eq_none_iff.2 (by rw [row_length]; omega), List.getElem?_eq_none_iff.2 (by rw [hlen]; omega)]
  obtain ⟨m, rfl⟩ : ∃ m, n = m + 1 := ⟨n - 1, by omega⟩
  unfold forwardSample
  rw [zeroCounts_ok w]
  simp only [Py.bind_ok]
  rw [forwardLoop, hV, forwardNodes, hcond]
  simp only [Py.bind_ok, w.values_ok hv]
  unfold choice
  rw [if_pos (.inr (.inr (.inr (by rw [hrow]; exact hbad))))]
  rfl

/-- Such networks come out of `mle_estimator`: three observations of three different values give the table `0.33333, 0.33333, 0.33333`,
and sampling from the learned network fails. -/
theorem C73_learned_example :
    ∃ bn2 : BayesNet ℕ ℤ, BayesNet.mleEstimator HashOrder.id HashOrder.id ⟨[0], [(0, [])], [(0, ⟨[], [], []⟩)]⟩ ⟨1, [[1], [2], [3]]⟩ none = .ok bn2 ∧
      bn2.cptOf 0 = [33333 / 100000, 33333 / 100000, 33333 / 100000] ∧
      ∀ (U : ℕ → K) (n : ℕ), 1 ≤ n → ∀ tol : ℚ, tol < 1 / 100000 → forwardSample tol HashOrder.id bn2 n U = .error .valueError := by
  have hc : (BayesNet.mleEstimator HashOrder.id HashOrder.id ⟨[0], [(0, [])], [(0, ⟨[], [], []⟩)]⟩ ⟨1, [[1], [2], [3]]⟩ none).okAnd
      (fun r => decide (r.V = [0] ∧ r.E = [(0, [])] ∧ r.F = [(0, ⟨[], [1, 2, 3], [33333 / 100000, 33333 / 100000, 33333 / 100000]⟩)])) = true := by decide +kernel
  obtain ⟨r, h1, h2⟩ := Py.of_okAnd hc
  have h2' := of_decide_eq_true h2
  obtain ⟨V, E, F⟩ := r
  simp only at h2'
  obtain ⟨rfl, rfl, rfl⟩ := h2'
  refine ⟨_, h1, rfl, fun U n hn tol htol => ?_⟩
  apply C73_unnormalised_error HashOrder.id _ _ tol U n hn 0 [] rfl rfl
  · have : |([33333 / 100000, 33333 / 100000, 33333 / 100000] : List ℚ).sum - 1| = 1 / 100000 := by decide +kernel
    show tol < |([33333 / 100000, 33333 / 100000, 33333 / 100000] : List ℚ).sum - 1|
    rw [this]; exact htol
  · exact .of_dec _ (by decide) (by decide)

end PyBN
