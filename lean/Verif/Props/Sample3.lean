import Verif.Props.Sample2

/-!
# C39, C40, C68 - C73: likelihood weighting, Gibbs sampling, errors
-/

set_option linter.unusedSectionVars false

namespace PyBN
open BayesNet Sampling MeasureTheory
variable {N A : Type} [DecidableEq N] [DecidableEq A] {K : Type} [Field K] [LinearOrder K] [IsStrictOrderedRing K]

/-! ## lw_sample -/

theorem roundAway_zero (d : ℕ) : roundAway d 0 = 0 := by
  unfold roundAway rintAway; norm_num

theorem roundAway_one (d : ℕ) : roundAway d 1 = 1 := by
  unfold roundAway rintAway
  have h : (0 : ℚ) ≤ 1 * 10 ^ d := by positivity
  rw [if_pos h]
  have hf : ⌊(1 : ℚ) * 10 ^ d + 1 / 2⌋ = 10 ^ d := by
    rw [Int.floor_eq_iff]; push_cast; constructor <;> linarith
  rw [hf]; push_cast; exact div_self (by positivity)

theorem freeOf_eq (ev : Dict N A) (l : List N) : freeOf ev l = l.filter fun v => v ∉ ev.keys := by
  unfold freeOf; apply List.filter_congr
  intro v _
  have := Dict.mem_keys_iff (d := ev) (k := v)
  cases hg : ev.get? v <;> rw [hg] at this <;> simp at this <;> simp [this]

theorem obsOf_eq (ev : Dict N A) (l : List N) : obsOf ev l = l.filter fun v => v ∈ ev.keys := by
  unfold obsOf; apply List.filter_congr
  intro v _
  have := Dict.mem_keys_iff (d := ev) (k := v)
  cases hg : ev.get? v <;> rw [hg] at this <;> simp at this <;> simp [this]

/-- C39 (what is computed): `lw_sample` makes `n` passes.  Pass `t` draws an assignment that agrees with the evidence and into whose
intervals the random numbers of the pass fall (one per unobserved node, in node order); its weight is the product of the probabilities
of the observed values.  If all weights are zero the call fails; otherwise each returned number is the share of the total weight,
rounded to four digits. -/
theorem C39_weighted_counts (h : HashOrder N) (bn : BayesNet N A) (w : bn.WF) (hn : bn.Nonneg) (tol : ℚ) (ht : tol < 1)
    (hnorm : bn.NearNormalised tol) (hpf : bn.ParentsFirst) (ev : Dict N A) (hev : bn.LegalEvidence ev)
    (U : ℕ → K) (hU : ∀ i, 0 ≤ U i ∧ U i < 1) (n : ℕ) :
    ∃ smp : ℕ → Asg N,
      (∀ t < n, InRange bn.cardOf bn.V (smp t) ∧ bn.Agrees ev (smp t) ∧
        ∀ j v, (bn.V.filter fun v => v ∉ ev.keys)[j]? = some v →
          bn.Falls (smp t) v (U (t * (bn.V.filter fun v => v ∉ ev.keys).length + j))) ∧
      (let wt : ℕ → ℚ := fun t => ((bn.V.filter fun v => v ∈ ev.keys).map fun v => bn.prob v (smp t)).prod
       let W := ∑ t ∈ Finset.range n, wt t
       (W = 0 → bn.V ≠ [] → lwSample tol h bn ev n U = .error .zeroDivision) ∧
       (W ≠ 0 → ∃ d, lwSample tol h bn ev n U = .ok d ∧
         bn.Estimates d fun v i => roundAway 4 ((∑ t ∈ (Finset.range n).filter (fun t => smp t v = i), wt t) / W))) := by
  have hfree := freeOf_eq ev bn.V
  have hobs := obsOf_eq ev bn.V
  obtain ⟨smp, g1, g2⟩ := lwLoop_ok h w hn ht hnorm hpf (ev := ev) (fun v _ e he => (hev.legal _ (Dict.get?_mem he)).2) hU n 0 0 (fun _ _ => 0)
  rw [hfree] at g2
  unfold evWeight at g1
  simp only [hobs, zero_add] at g1 g2
  refine ⟨smp, fun t ht => ⟨(g2 t ht).1, ?_, (g2 t ht).2.2⟩, ?_, ?_⟩
  · intro e he
    exact (g2 t ht).2.1 e.1 (hev.legal e he).1 e.2 (Dict.get?_of_mem hev.nodup he)
  · intro hW hne
    unfold lwSample
    rw [zeroCounts_ok w]
    simp only [Py.bind_ok]
    rw [g1]
    simp only [Py.bind_ok]
    rw [if_pos ⟨hW, (anyEntry_tableOf w _).2 hne⟩]
  · intro hW
    refine ⟨_, ?_, tableOf_estimates (fun v x => roundAway 4 ((∑ t ∈ Finset.range n, if (bn.valuesOf v)[smp t v]? = some x then
      ((bn.V.filter fun v => v ∈ ev.keys).map fun v => bn.prob v (smp t)).prod else 0) /
      ∑ t ∈ Finset.range n, ((bn.V.filter fun v => v ∈ ev.keys).map fun v => bn.prob v (smp t)).prod)) ?_⟩
    · unfold lwSample
      rw [zeroCounts_ok w]
      simp only [Py.bind_ok]
      rw [g1]
      simp only [Py.bind_ok]
      rw [if_neg (fun hh => hW hh.1), mapCounts_tableOf]
      rfl
    · intro v hv i x hx
      congr 2
      rw [Finset.sum_filter]
      apply Finset.sum_congr rfl
      intro t _
      simp only [value_eq_iff w hv hx]

/-- C39: whatever the random numbers, unless all weights are zero, `lw_sample` returns a table over exactly the node's values for every
node; an evidence node gets exactly 1 for its observed value and 0 for the others; the estimates of a node are, up to rounding to four
digits, non-negative numbers that sum to one. -/
theorem C39_evidence (h : HashOrder N) (bn : BayesNet N A) (w : bn.WF) (hn : bn.Nonneg) (tol : ℚ) (ht : tol < 1)
    (hnorm : bn.NearNormalised tol) (hpf : bn.ParentsFirst) (ev : Dict N A) (hev : bn.LegalEvidence ev)
    (U : ℕ → K) (hU : ∀ i, 0 ≤ U i ∧ U i < 1) (n : ℕ) (hne : bn.V ≠ [])
    (hW : lwSample tol h bn ev n U ≠ .error .zeroDivision) :
    ∃ (d : Dict N (Dict A ℚ)) (g : N → ℕ → ℚ), lwSample tol h bn ev n U = .ok d ∧
      (bn.Estimates d fun v i => roundAway 4 (g v i)) ∧
      (∀ v ∈ bn.V, (∀ i, 0 ≤ g v i) ∧ ∑ i ∈ Finset.range (bn.cardOf v), g v i = 1) ∧
      ∀ v e, (v, e) ∈ ev → ∃ t, d.get? v = some t ∧ ∀ x ∈ bn.valuesOf v, t.get? x = some (if x = e then 1 else 0) := by
  obtain ⟨smp, g1, g2⟩ := C39_weighted_counts h bn w hn tol ht hnorm hpf ev hev U hU n
  simp only at g2
  set wt : ℕ → ℚ := fun t => ((bn.V.filter fun v => v ∈ ev.keys).map fun v => bn.prob v (smp t)).prod with hwt
  have hwt0 : ∀ t, 0 ≤ wt t := by
    intro t
    apply List.prod_nonneg
    intro y hy
    obtain ⟨v, hv, rfl⟩ := List.mem_map.1 hy
    exact sprob_nonneg hn (List.mem_filter.1 hv).1 _
  obtain ⟨q1, q2⟩ := g2
  have hW0 : ∑ t ∈ Finset.range n, wt t ≠ 0 := fun hz => hW (q1 hz hne)
  obtain ⟨d, e1, e2⟩ := q2 hW0
  refine ⟨d, _, e1, e2, fun v hv => ⟨fun i => ?_, ?_⟩, ?_⟩
  · exact div_nonneg (Finset.sum_nonneg fun t _ => hwt0 t) (Finset.sum_nonneg fun t _ => hwt0 t)
  · rw [← Finset.sum_div, div_eq_one_iff_eq hW0]
    apply Finset.sum_fiberwise_of_maps_to
    intro t htm
    exact Finset.mem_range.2 ((g1 t (Finset.mem_range.1 htm)).1 v hv)
  · intro v e hve
    have hv := (hev.legal _ hve).1
    obtain ⟨t, k1, _, k3⟩ := e2.2 v hv
    refine ⟨t, k1, fun x hx => ?_⟩
    obtain ⟨i, hi⟩ := List.getElem?_of_mem hx
    rw [k3 i x hi]
    congr 1
    have hsh : ∀ t ∈ Finset.range n, (smp t v = i ↔ x = e) := by
      intro t htm
      have hag : (bn.valuesOf v)[smp t v]? = some e := (g1 t (Finset.mem_range.1 htm)).2.1 _ hve
      constructor
      · rintro rfl; rw [hi] at hag; exact Option.some.inj hag
      · rintro rfl; exact (value_eq_iff w hv hi).1 hag
    dsimp only
    by_cases hxe : x = e
    · rw [if_pos hxe, Finset.filter_true_of_mem fun t ht => (hsh t ht).2 hxe, div_self hW0, roundAway_one]
    · rw [if_neg hxe, Finset.filter_false_of_mem fun t ht hh => hxe ((hsh t ht).1 hh), Finset.sum_empty, zero_div, roundAway_zero]

example : exNet.LegalEvidence [(2, 31)] := ⟨by decide, by decide⟩

example : (lwSample (1 / 10 ^ 8) HashOrder.id exNet [(2, 31)] 2 (fun i => ([1/2, 3/5, 1/10, 1/8] : List ℚ).getD i 0)).okAnd (fun d => decide (d =
    [(0, [(10, 3333 / 10000), (11, 6667 / 10000)]), (1, [(20, 3333 / 10000), (21, 6667 / 10000), (22, 0)]), (2, [(30, 0), (31, 1)])])) = true := by
  decide +kernel

/-- C39 (unbiased): the expected weight that one pass of `lw_sample` gives to a complete assignment agreeing with the evidence is the
joint probability of that assignment. -/
theorem C39_expected_weight (h : HashOrder N) (bn : BayesNet N A) (w : bn.WF) (hn : bn.Nonneg) (hno : bn.Normalised) (tol : ℚ) (h0 : 0 ≤ tol)
    (ht : tol < 1) (hpf : bn.ParentsFirst) (ev : Dict N A) (hev : bn.LegalEvidence ev) (a : Asg N) (ha : InRange bn.cardOf bn.V a)
    (hag : bn.Agrees ev a) :
    ∃ X : (Fin (bn.V.filter fun v => v ∉ ev.keys).length → ℝ) → ℚ,
      (∀ u ∈ cube (bn.V.filter fun v => v ∉ ev.keys).length, ∃ k s wt, lwNodes tol h bn ev (stream u) bn.V 0 [] 1 = .ok (k, s, wt) ∧
        (bn.Shows s a → X u = wt) ∧ (¬ bn.Shows s a → X u = 0)) ∧
      ∫ u in cube (bn.V.filter fun v => v ∉ ev.keys).length, ((X u : ℚ) : ℝ) = ((bn.joint a : ℚ) : ℝ) := by
  classical
  have hfree := freeOf_eq ev bn.V
  rw [← hfree]
  have hL : ∀ v ∈ freeOf ev bn.V, v ∈ bn.V := fun v hv => (List.mem_filter.1 hv).1
  have key : ∀ m, 1 * (freeOf ev bn.V).length = m → ∃ X : (Fin m → ℝ) → ℚ,
      (∀ u ∈ cube m, ∃ k s wt, lwNodes tol h bn ev (stream u) bn.V 0 [] 1 = .ok (k, s, wt) ∧
        (bn.Shows s a → X u = wt) ∧ (¬ bn.Shows s a → X u = 0)) ∧
      ∫ u in cube m, ((X u : ℚ) : ℝ) = ((bn.joint a : ℚ) : ℝ) := by
    rintro m rfl
    refine ⟨fun u => if u ∈ box bn (freeOf ev bn.V) 1 (fun _ => some a) then evWeight bn ev a else 0, ?_, ?_⟩
    · intro u hu
      obtain ⟨s, b, g1, g2, g3, _, g5, g6⟩ := lwNodes_ok h w hn ht (normalised_near hno h0) hpf
        (ev := ev) (fun v _ e he => (hev.legal _ (Dict.get?_mem he)).2) (stream_mem hu) bn.V [] 0 [] 1 (fun _ => 0) rfl rfl (by simp)
      have hbin := shows_inRange w g3
      have hiff : u ∈ box bn (freeOf ev bn.V) 1 (fun _ => some a) ↔ ∀ v ∈ bn.V, b v = a v := by
        rw [mem_box w hn hno hL (by intro t b ht he; cases he; exact ha)]
        constructor
        · rintro ⟨_, hf⟩
          have hf' := hf 0 a (by norm_num) rfl
          apply falls_all_unique w hn (tol := 0) (by norm_num) (normalised_near hno (le_refl _)) hpf
            (u := fun v => stream u ((freeOf ev bn.V).idxOf v)) (obs := fun v => (ev.get? v).isSome = true) hbin
          · intro v hv ho
            obtain ⟨e, he⟩ := Option.isSome_iff_exists.1 ho
            have k1 := g5 v hv e he
            have k2 : (bn.valuesOf v)[a v]? = some e := hag _ (Dict.get?_mem he)
            exact ((value_eq_iff w hv k1).1 k2).symm
          · intro v hv ho
            have hm : v ∈ freeOf ev bn.V := List.mem_filter.2 ⟨hv, by simpa using ho⟩
            have := g6 _ v (List.getElem?_idxOf hm)
            rwa [zero_add] at this
          · intro v hv ho
            have hm : v ∈ freeOf ev bn.V := List.mem_filter.2 ⟨hv, by simpa using ho⟩
            have := hf' _ v (List.getElem?_idxOf hm)
            rwa [zero_mul, zero_add] at this
        · intro he
          refine ⟨hu, fun t a' ht' hs j v hj => ?_⟩
          cases hs
          obtain rfl : t = 0 := by omega
          have hv := hL v (List.mem_of_getElem? hj)
          rw [← falls_congr (a := b)]
          · have := g6 j v hj
            rwa [zero_mul]
          · intro u' hu'
            rcases List.mem_cons.1 hu' with rfl | hu'
            · exact he _ hv
            · exact he u' (w.parents_mem v hv u' hu')
      refine ⟨_, s, _, g1, fun hsh => ?_, fun hsh => ?_⟩
      · have hab := shows_unique w g3 hsh
        simp only
        rw [if_pos (hiff.2 hab), one_mul]
        unfold evWeight
        apply congrArg
        apply List.map_congr_left
        intro v hv
        have hvV := (List.mem_filter.1 hv).1
        apply sprob_congr
        intro u' hu'
        rcases List.mem_cons.1 hu' with rfl | hu'
        · exact (hab _ hvV).symm
        · exact (hab u' (w.parents_mem v hvV u' hu')).symm
      · exact if_neg fun hb => hsh (shows_congr g3 (hiff.1 hb))
    · rw [(integral_box w hn hno hL 1 (by intro t b ht he; cases he; exact ha) (evWeight bn ev a)).2]
      congr 1
      unfold selProb evWeight BayesNet.joint
      rw [Finset.prod_range_one]
      simp only
      have hperm : (freeOf ev bn.V ++ obsOf ev bn.V).Perm bn.V := by
        have hneg : (fun v => (ev.get? v).isNone) = fun v => !(ev.get? v).isSome := by
          funext v; cases ev.get? v <;> rfl
        unfold freeOf obsOf
        rw [hneg]
        exact (List.perm_append_comm).trans (List.filter_append_perm (fun v => (ev.get? v).isSome) bn.V)
      rw [← ((hperm.map fun v => bn.prob v a).prod_eq), List.map_append, List.prod_append]
  exact key _ (one_mul _)

/-! ## gibbs_sample -/

/-- C68 (what `gibbs_sample` returns): for `burn < n`, the number returned for a value is the number of sweeps `t` with
`burn < t < n` that ended with it, divided by `n - burn` and rounded to four digits. -/
theorem C68_gibbs_counts [FloorRing K] (h : HashOrder N) (bn : BayesNet N A) (w : bn.WF) (hn : bn.Nonneg) (tol : ℚ) (ht : tol < 1)
    (hnorm : bn.NearNormalised tol) (U : ℕ → K) (hU : ∀ i, 0 ≤ U i ∧ U i < 1) (n : ℕ) (burn : ℤ) (hb : burn < n) :
    ∃ (d : Dict N (Dict A ℚ)) (smp : ℕ → Asg N), gibbsSample tol h bn n burn U = .ok d ∧
      (∀ t < n, InRange bn.cardOf bn.V (smp t) ∧
        (bn.ParentsFirst → ∀ j v, bn.V[j]? = some v → bn.Falls (smp t) v (U (bn.V.length + t * bn.V.length + j)))) ∧
      bn.Estimates d fun v i => roundAway 4
        ((((Finset.range n).filter fun (t : ℕ) => burn < t ∧ smp t v = i).card : ℚ) / (((n : ℤ) - burn : ℤ) : ℚ)) := by
  obtain ⟨s, a, g1, g2, g3⟩ := gibbsInit_ok w hU bn.V [] 0 [] (fun _ => 0) rfl rfl (by simp)
  obtain ⟨smp, e1, e2⟩ := gibbsLoop_ok h w hn ht hnorm burn hU n 0 (0 + bn.V.length) s a (fun _ _ => 0) g2 g3
  rw [zero_add] at g1 e1 e2
  refine ⟨_, smp, ?_, fun t htn => e2 t htn, tableOf_estimates (fun v x => roundAway 4 ((∑ t ∈ Finset.range n,
    if burn < ((t : ℕ) : ℤ) ∧ (bn.valuesOf v)[smp t v]? = some x then (1 : ℚ) else 0) / (((n : ℤ) - burn : ℤ) : ℚ))) ?_⟩
  · unfold gibbsSample
    rw [zeroCounts_ok w]
    simp only [Py.bind_ok]
    rw [g1]
    simp only [Py.bind_ok]
    rw [e1]
    simp only [Py.bind_ok]
    rw [if_neg (by rintro ⟨hh, _⟩; omega), mapCounts_tableOf]
    simp only [zero_add, Py.pure_eq]
  · intro v hv i x hx
    simp only [value_eq_iff w hv hx]
    rw [Finset.sum_boole]

/-- C68: hence for `0 ≤ burn < n` the estimates of a node, before rounding, sum to `(n - burn - 1) / (n - burn)`, not to one. -/
theorem C68_gibbs_sum [FloorRing K] (h : HashOrder N) (bn : BayesNet N A) (w : bn.WF) (hn : bn.Nonneg) (tol : ℚ) (ht : tol < 1)
    (hnorm : bn.NearNormalised tol) (U : ℕ → K) (hU : ∀ i, 0 ≤ U i ∧ U i < 1) (n burn : ℕ) (hb : burn < n) :
    ∃ (d : Dict N (Dict A ℚ)) (g : N → ℕ → ℚ), gibbsSample tol h bn n burn U = .ok d ∧
      (bn.Estimates d fun v i => roundAway 4 (g v i)) ∧
      ∀ v ∈ bn.V, (∀ i, 0 ≤ g v i) ∧ ∑ i ∈ Finset.range (bn.cardOf v), g v i = ((n : ℚ) - burn - 1) / ((n : ℚ) - burn) := by
  obtain ⟨d, smp, g1, g2, g3⟩ := C68_gibbs_counts h bn w hn tol ht hnorm U hU n burn (by exact_mod_cast hb)
  have hpos : (0 : ℚ) < (((n : ℤ) - (burn : ℤ) : ℤ) : ℚ) := by
    exact_mod_cast (by omega : (0 : ℤ) < (n : ℤ) - (burn : ℤ))
  refine ⟨d, _, g1, g3, fun v hv => ⟨fun i => by positivity, ?_⟩⟩
  rw [← Finset.sum_div]
  have hcard : ∑ i ∈ Finset.range (bn.cardOf v), (((Finset.range n).filter fun (t : ℕ) => ((burn : ℕ) : ℤ) < t ∧ smp t v = i).card : ℚ) =
      ((n : ℚ) - burn - 1) := by
    have h1 := Finset.card_eq_sum_card_fiberwise (s := (Finset.range n).filter fun (t : ℕ) => ((burn : ℕ) : ℤ) < t)
      (t := Finset.range (bn.cardOf v)) (f := fun t => smp t v)
      (by intro t htm; simp only [Finset.coe_filter, Finset.mem_range, Set.mem_setOf_eq, Finset.coe_range, Set.mem_Iio] at htm ⊢
          exact (g2 t htm.1).1 v hv)
    simp only [Finset.filter_filter] at h1
    have h2 : (Finset.range n).filter (fun (t : ℕ) => ((burn : ℕ) : ℤ) < t) = Finset.Ico (burn + 1) n := by
      ext t; simp only [Finset.mem_filter, Finset.mem_range, Finset.mem_Ico]; omega
    rw [h2, Nat.card_Ico] at h1
    have h3 : ((n - (burn + 1) : ℕ) : ℚ) = (n : ℚ) - burn - 1 := by
      rw [Nat.cast_sub (by omega)]; push_cast; ring
    rw [← h3, h1]
    push_cast
    rfl
  rw [hcard]
  push_cast
  rfl

/-- C68: `gibbs_sample(bn, n, n)` divides by zero. -/
theorem C68_gibbs_zero [FloorRing K] (h : HashOrder N) (bn : BayesNet N A) (w : bn.WF) (hn : bn.Nonneg) (tol : ℚ) (ht : tol < 1)
    (hnorm : bn.NearNormalised tol) (U : ℕ → K) (hU : ∀ i, 0 ≤ U i ∧ U i < 1) (n : ℕ) (hne : bn.V ≠ []) :
    gibbsSample tol h bn n n U = .error .zeroDivision := by
  obtain ⟨s, a, g1, g2, g3⟩ := gibbsInit_ok w hU bn.V [] 0 [] (fun _ => 0) rfl rfl (by simp)
  obtain ⟨smp, e1, e2⟩ := gibbsLoop_ok h w hn ht hnorm n hU n 0 (0 + bn.V.length) s a (fun _ _ => 0) g2 g3
  rw [zero_add] at g1 e1
  unfold gibbsSample
  rw [zeroCounts_ok w]
  simp only [Py.bind_ok]
  rw [g1]
  simp only [Py.bind_ok]
  rw [e1]
  simp only [Py.bind_ok]
  rw [if_pos ⟨by trivial, (anyEntry_tableOf w _).2 hne⟩]

/-- C40 is false of the code: with two sweeps and no burn-in the estimates sum to one half. -/
theorem C40_false : ¬ ∀ (n : ℕ) (burn : ℤ), burn < n → ∀ U : ℕ → ℚ, (∀ i, 0 ≤ U i ∧ U i < 1) →
    ∃ d, gibbsSample (1 / 10 ^ 8) HashOrder.id exNet n burn U = .ok d ∧ ∀ v ∈ exNet.V, ∃ t, d.get? v = some t ∧ |t.vals.sum - 1| ≤ 1 / 1000 := by
  intro hall
  obtain ⟨d, h1, h2⟩ := hall 2 0 (by norm_num) (fun _ => 0) (fun _ => by norm_num)
  have hc : (gibbsSample (1 / 10 ^ 8) HashOrder.id exNet 2 0 (fun _ => (0 : ℚ))).okAnd
      (fun d => decide (Dict.get? d 0 = some [(10, 1/2), (11, 0)])) = true := by decide +kernel
  obtain ⟨d', k1, k2⟩ := Py.of_okAnd hc
  rw [h1] at k1; cases k1
  obtain ⟨t, e1, e2⟩ := h2 0 (by decide)
  rw [of_decide_eq_true k2] at e1
  cases e1
  revert e2
  decide +kernel

/-- C40, the part that holds: for `burn < n` the call returns tables over exactly the node's values with non-negative estimates
whose sum before rounding is at most one.  Missing: that the sum is one (false, see `C40_false`, `C68_gibbs_sum`). -/
theorem C40_partial [FloorRing K] (h : HashOrder N) (bn : BayesNet N A) (w : bn.WF) (hn : bn.Nonneg) (tol : ℚ) (ht : tol < 1)
    (hnorm : bn.NearNormalised tol) (U : ℕ → K) (hU : ∀ i, 0 ≤ U i ∧ U i < 1) (n burn : ℕ) (hb : burn < n) :
    ∃ (d : Dict N (Dict A ℚ)) (g : N → ℕ → ℚ), gibbsSample tol h bn n burn U = .ok d ∧
      (bn.Estimates d fun v i => roundAway 4 (g v i)) ∧
      ∀ v ∈ bn.V, (∀ i, 0 ≤ g v i) ∧ ∑ i ∈ Finset.range (bn.cardOf v), g v i ≤ 1 := by
  obtain ⟨d, g, h1, h2, h3⟩ := C68_gibbs_sum h bn w hn tol ht hnorm U hU n burn hb
  refine ⟨d, g, h1, h2, fun v hv => ⟨(h3 v hv).1, ?_⟩⟩
  rw [(h3 v hv).2]
  have : (0 : ℚ) < (n : ℚ) - burn := by rw [sub_pos]; exact_mod_cast hb
  rw [div_le_one this]; linarith

end PyBN
