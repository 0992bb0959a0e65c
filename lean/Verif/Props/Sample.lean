import Verif.Proofs.SampleMeasure
import Verif.Proofs.Infer
import Verif.Proofs.Learn2
import Verif.Model.Learn
import Verif.Model.Graph
import Verif.Props.Example

/-!
# C37 - C40, C68 - C73: sampling
-/

set_option linter.unusedSectionVars false

namespace PyBN
open BayesNet Sampling MeasureTheory
variable {N A : Type} [DecidableEq N] [DecidableEq A] {K : Type} [Field K] [LinearOrder K] [IsStrictOrderedRing K]

/-- `exNet` meets the hypotheses of the sampling theorems. -/
theorem exNet_parentsFirst : exNet.ParentsFirst := by
  intro pre v post h p hp
  have hv : v = 2 := by
    have hm : v ∈ exNet.V := by rw [h]; simp
    have : v = 0 ∨ v = 1 ∨ v = 2 := by simpa [exNet] using hm
    rcases this with rfl | rfl | rfl
    · simp [exNet, BayesNet.parentsOf, Dict.get?] at hp
    · simp [exNet, BayesNet.parentsOf, Dict.get?] at hp
    · rfl
  subst hv
  have hp' : p = 0 ∨ p = 1 := by simpa [exNet, BayesNet.parentsOf, Dict.get?] using hp
  have hpre : pre = [0, 1] := by
    have hlen : exNet.V = [0, 1, 2] := rfl
    rw [hlen] at h
    match pre, h with
    | [], h => simp at h
    | [x], h => simp at h
    | [x, y], h => simp at h; rw [← h.1, ← h.2.1]
    | x :: y :: z :: l, h => simp at h
  rw [hpre]
  rcases hp' with rfl | rfl <;> simp

theorem exNet_normalised : exNet.Normalised := by
  intro v hv a ha
  have hv' : v = 0 ∨ v = 1 ∨ v = 2 := by simpa [exNet] using hv
  rcases hv' with rfl | rfl | rfl
  · simp [exNet, BayesNet.cardOf, BayesNet.prob, BayesNet.cptOf, BayesNet.parentsOf, Dict.get?, Finset.sum_range_succ, enc, Asg.upd]; norm_num
  · simp [exNet, BayesNet.cardOf, BayesNet.prob, BayesNet.cptOf, BayesNet.parentsOf, Dict.get?, Finset.sum_range_succ, enc, Asg.upd]; norm_num
  · have h0 : a 0 < 2 := ha 0 (by simp [exNet, BayesNet.parentsOf, Dict.get?])
    have h1 : a 1 < 3 := ha 1 (by simp [exNet, BayesNet.parentsOf, Dict.get?])
    have key : ∀ x < 2, ∀ y < 3, ∑ z ∈ Finset.range 2,
        (([1/2, 1/2, 1/3, 2/3, 1, 0, 0, 1, 1/5, 4/5, 3/4, 1/4] : List ℚ)[z + 2 * (x + 2 * (y + 3 * 0))]?).getD 0 = 1 := by decide +kernel
    exact key (a 0) h0 (a 1) h1

/-! ## forward_sample -/

theorem tableOf_estimates {bn : BayesNet N A} (g : N → A → ℚ) {g' : N → ℕ → ℚ}
    (h : ∀ v ∈ bn.V, ∀ i x, (bn.valuesOf v)[i]? = some x → g v x = g' v i) : bn.Estimates (tableOf bn g) g' := by
  refine ⟨by unfold tableOf; rw [Dict.keys_map_pair], fun v hv => ⟨_, tableOf_get g hv, by rw [Dict.keys_map_pair], ?_⟩⟩
  intro i x hx
  rw [Dict.get?_map_pair, if_pos (List.mem_of_getElem? hx), h v hv i x hx]

theorem value_eq_iff {bn : BayesNet N A} (w : bn.WF) {v : N} (hv : v ∈ bn.V) {i j : ℕ} {x : A} (hi : (bn.valuesOf v)[i]? = some x)
    : (bn.valuesOf v)[j]? = some x ↔ j = i := by
  constructor
  · intro hj
    exact ((List.getElem?_inj (List.getElem?_eq_some_iff.1 hi).1 (w.values_nodup v hv)).1 (hi.trans hj.symm)).symm
  · rintro rfl; exact hi

theorem forwardSample_ok (h : HashOrder N) {bn : BayesNet N A} (w : bn.WF) (hn : bn.Nonneg) {tol : ℚ} (ht : tol < 1)
    (hnorm : bn.NearNormalised tol) (hpf : bn.ParentsFirst) {U : ℕ → K} (hU : ∀ i, 0 ≤ U i ∧ U i < 1) {n : ℕ} (h1 : 1 ≤ n) :
    ∃ smp : ℕ → Asg N,
      forwardSample tol h bn n U = .ok (tableOf bn fun v x => (∑ t ∈ Finset.range n, if (bn.valuesOf v)[smp t v]? = some x then 1 else 0) / n) ∧
      ∀ t, t < n → InRange bn.cardOf bn.V (smp t) ∧ ∀ j v, bn.V[j]? = some v → bn.Falls (smp t) v (U (t * bn.V.length + j)) := by
  obtain ⟨smp, g1, g2⟩ := forwardLoop_ok h w hn ht hnorm hpf hU n 0 (fun _ _ => 0)
  refine ⟨smp, ?_, fun t ht => ?_⟩
  · unfold forwardSample
    rw [zeroCounts_ok w]
    simp only [Py.bind_ok]
    rw [g1]
    simp only [Py.bind_ok]
    rw [if_neg (by rintro ⟨rfl, _⟩; omega), mapCounts_tableOf]
    simp only [zero_add, Py.pure_eq]
  · have := g2 t ht
    simpa using this

/-- C37 (with the counts): `forward_sample(bn, n)` makes `n` passes; the random numbers of pass `t` fall into the intervals of the
assignment drawn by pass `t` (so they determine it), and the returned number for a value of a node is the fraction of the passes that
drew it. -/
theorem C37_counts (h : HashOrder N) (bn : BayesNet N A) (w : bn.WF) (hn : bn.Nonneg) (tol : ℚ) (ht : tol < 1)
    (hnorm : bn.NearNormalised tol) (hpf : bn.ParentsFirst) (U : ℕ → K) (hU : ∀ i, 0 ≤ U i ∧ U i < 1) (n : ℕ) (h1 : 1 ≤ n) :
    ∃ (d : Dict N (Dict A ℚ)) (smp : ℕ → Asg N), forwardSample tol h bn n U = .ok d ∧
      (∀ t < n, InRange bn.cardOf bn.V (smp t) ∧ ∀ j v, bn.V[j]? = some v → bn.Falls (smp t) v (U (t * bn.V.length + j))) ∧
      bn.Estimates d fun v i => (((Finset.range n).filter fun t => smp t v = i).card : ℚ) / n := by
  obtain ⟨smp, g1, g2⟩ := forwardSample_ok h w hn ht hnorm hpf hU h1
  refine ⟨_, smp, g1, g2, tableOf_estimates _ ?_⟩
  intro v hv i x hx
  rw [Finset.sum_boole]
  congr 3
  ext t
  simp only [Finset.mem_filter, value_eq_iff w hv hx]

theorem estimates_vals {bn : BayesNet N A} (w : bn.WF) {d : Dict N (Dict A ℚ)} {g : N → ℕ → ℚ} (he : bn.Estimates d g) {v : N} (hv : v ∈ bn.V) :
    ∃ t, d.get? v = some t ∧ t.keys = bn.valuesOf v ∧ t.vals = (List.range (bn.cardOf v)).map (g v) := by
  obtain ⟨t, h1, h2, h3⟩ := he.2 v hv
  refine ⟨t, h1, h2, ?_⟩
  apply List.ext_getElem?
  intro i
  have hlen : t.length = bn.cardOf v := by rw [w.card_len hv, ← h2]; simp [Dict.keys]
  by_cases hi : i < bn.cardOf v
  · rw [List.getElem?_map, List.getElem?_range hi, Option.map_some]
    have hit : i < t.length := by rw [hlen]; exact hi
    unfold Dict.vals
    rw [List.getElem?_map, List.getElem?_eq_getElem hit, Option.map_some]
    have hk : (bn.valuesOf v)[i]? = some t[i].1 := by
      rw [← h2]; unfold Dict.keys; rw [List.getElem?_map, List.getElem?_eq_getElem hit]; rfl
    have := h3 i _ hk
    have h4 := Dict.get?_of_mem (d := t) (by rw [h2]; exact w.values_nodup v hv) (k := t[i].1) (v := t[i].2) (List.getElem_mem hit)
    rw [h4] at this
    exact this
  · rw [List.getElem?_eq_none_iff.2 (by simp [Dict.vals]; omega), List.getElem?_eq_none_iff.2 (by simp; omega)]

/-- C37: for `n ≥ 1`, whatever the random numbers, `forward_sample` returns for every node a table over exactly its values, with
entries between 0 and 1 summing to one. -/
theorem C37_relative_frequencies (h : HashOrder N) (bn : BayesNet N A) (w : bn.WF) (hn : bn.Nonneg) (tol : ℚ) (ht : tol < 1)
    (hnorm : bn.NearNormalised tol) (hpf : bn.ParentsFirst) (U : ℕ → K) (hU : ∀ i, 0 ≤ U i ∧ U i < 1) (n : ℕ) (h1 : 1 ≤ n) :
    ∃ d, forwardSample tol h bn n U = .ok d ∧ d.keys = bn.V ∧
      ∀ v ∈ bn.V, ∃ t, d.get? v = some t ∧ t.keys = bn.valuesOf v ∧ (∀ y ∈ t.vals, 0 ≤ y ∧ y ≤ 1) ∧ t.vals.sum = 1 := by
  obtain ⟨d, smp, g1, g2, g3⟩ := C37_counts h bn w hn tol ht hnorm hpf U hU n h1
  have hn0 : (0 : ℚ) < n := by exact_mod_cast h1
  refine ⟨d, g1, g3.1, fun v hv => ?_⟩
  obtain ⟨t, e1, e2, e3⟩ := estimates_vals w g3 hv
  refine ⟨t, e1, e2, ?_, ?_⟩
  · rw [e3]
    intro y hy
    obtain ⟨i, _, rfl⟩ := List.mem_map.1 hy
    refine ⟨by positivity, ?_⟩
    rw [div_le_one hn0]
    exact_mod_cast (Finset.card_filter_le _ _).trans (by simp)
  · rw [e3, list_sum_range, ← Finset.sum_div, div_eq_one_iff_eq hn0.ne']
    have := Finset.card_eq_sum_card_fiberwise (s := Finset.range n) (t := Finset.range (bn.cardOf v)) (f := fun t => smp t v)
      (by intro t ht; simp only [Finset.coe_range, Set.mem_Iio] at ht ⊢; exact (g2 t ht).1 v hv)
    rw [Finset.card_range] at this
    exact_mod_cast this.symm

example : exNet.WF ∧ exNet.Nonneg ∧ exNet.NearNormalised (1 / 10 ^ 8) ∧ exNet.ParentsFirst :=
  ⟨exNet_wf, exNet_nonneg, normalised_near exNet_normalised (by norm_num), exNet_parentsFirst⟩

/-- A concrete run: two passes over `exNet`. -/
example : (forwardSample (1 / 10 ^ 8) HashOrder.id exNet 2 (fun i => ([1/2, 3/5, 1/10, 1/8, 0, 2/3].getD i 0 : ℚ))).okAnd (fun d => decide (d =
    [(0, [(10, 1/2), (11, 1/2)]), (1, [(20, 1/2), (21, 1/2), (22, 0)]), (2, [(30, 0), (31, 1)])])) = true := by decide +kernel

/-! ## The law of a sample: C38 -/

theorem selFalls_iff {bn : BayesNet N A} (w : bn.WF) (hn : bn.Nonneg) (hno : bn.Normalised) (hpf : bn.ParentsFirst) {U : ℕ → ℝ} {t : ℕ}
    {a b : Asg N} (ha : InRange bn.cardOf bn.V a)
    (h1 : ∀ j v, bn.V[j]? = some v → bn.Falls a v (U (t * bn.V.length + j))) :
    (∀ j v, bn.V[j]? = some v → bn.Falls b v (U (t * bn.V.length + j))) ↔ ∀ v ∈ bn.V, a v = b v := by
  constructor
  · intro h2
    apply falls_all_unique w hn (tol := 0) (by norm_num) (normalised_near hno (le_refl _)) hpf
      (u := fun v => U (t * bn.V.length + bn.V.idxOf v)) (obs := fun _ => False) ha (fun _ _ h => h.elim)
    · intro v hv _
      exact h1 _ v (List.getElem?_idxOf hv)
    · intro v hv _
      exact h2 _ v (List.getElem?_idxOf hv)
  · intro h2 j v hj
    rw [← falls_congr (a := a)]
    · exact h1 j v hj
    · intro u hu
      have hv := List.mem_of_getElem? hj
      rcases List.mem_cons.1 hu with rfl | hu
      · exact h2 _ hv
      · exact h2 u (w.parents_mem v hv u hu)

theorem inits_ok {bn : BayesNet N A} (w : bn.WF) : ∃ fs, pyMap (Factor.init bn) bn.V = .ok fs := by
  have key : ∀ l : List N, (∀ v ∈ l, v ∈ bn.V) → ∃ fs, pyMap (Factor.init bn) l = .ok fs := by
    intro l
    induction l with
    | nil => intro _; exact ⟨[], rfl⟩
    | cons v l ih =>
      intro hl
      obtain ⟨fs, hfs⟩ := ih fun u hu => hl u (by simp [hu])
      obtain ⟨f, hf, _⟩ := Factor.init_ok w (hl v (by simp))
      exact ⟨f :: fs, by simp only [pyMap, hf, hfs, Py.bind_ok, Py.pure_eq]⟩
  exact key bn.V fun _ h => h

/-- C38: `random_sample` draws independent observations from the network's joint distribution: the probability (Lebesgue measure of
the set of uniform random numbers) that it returns the rows `rows 0, …, rows (n-1)` is the product of their joint probabilities;
the content of the uninitialised array is irrelevant. -/
theorem C38_random_sample (h : HashOrder N) (bn : BayesNet N A) (w : bn.WF) (hn : bn.Nonneg) (hno : bn.Normalised) (tol : ℚ) (h0 : 0 ≤ tol)
    (ht : tol < 1) (hpf : bn.ParentsFirst) (n : ℕ) (garbage : List (List ℤ)) (hg : garbage.length = n ∧ ∀ g ∈ garbage, g.length = bn.V.length)
    (rows : ℕ → Asg N) (hrows : ∀ t < n, InRange bn.cardOf bn.V (rows t)) :
    volume {u ∈ cube (n * bn.V.length) | randomSample tol h bn garbage (stream u) =
        .ok ((List.range n).map fun t => bn.V.map fun v => ((rows t v : ℕ) : ℤ))} =
      ENNReal.ofReal ((∏ t ∈ Finset.range n, bn.joint (rows t) : ℚ) : ℝ) := by
  have hset : {u ∈ cube (n * bn.V.length) | randomSample tol h bn garbage (stream u) =
        .ok ((List.range n).map fun t => bn.V.map fun v => ((rows t v : ℕ) : ℤ))} = box bn bn.V n fun t => some (rows t) := by
    ext u
    rw [mem_box w hn hno (fun _ h => h) (by intro t a ht he; cases he; exact hrows t ht), Set.mem_setOf_eq]
    apply and_congr_right
    intro hu
    obtain ⟨smp, g1, g2⟩ := randomRows_ok h w hn ht (normalised_near hno h0) hpf (stream_mem hu) garbage 0 hg.2
    rw [hg.1] at g1 g2
    simp only [zero_add] at g2
    obtain ⟨fs, hinit⟩ := inits_ok w
    have hrun : randomSample tol h bn garbage (stream u) = .ok ((List.range n).map fun t => bn.V.map fun v => ((smp t v : ℕ) : ℤ)) := by
      unfold randomSample
      rw [hinit]
      simp only [Py.bind_ok]
      exact g1
    rw [hrun]
    constructor
    · intro he t a htn hsa j v hj
      cases hsa
      rw [Except.ok.injEq] at he
      have h1 : (bn.V.map fun v => ((smp t v : ℕ) : ℤ)) = bn.V.map fun v => ((rows t v : ℕ) : ℤ) := by
        have := congrArg (fun l => l[t]?) he
        simp only [List.getElem?_map, List.getElem?_range htn, Option.map_some, Option.some.injEq] at this
        exact this
      have h2 : ∀ v ∈ bn.V, smp t v = rows t v := by
        intro v hv
        have := List.map_inj_left.1 h1 v hv
        exact_mod_cast this
      exact (selFalls_iff w hn hno hpf (g2 t htn).1 (g2 t htn).2).2 h2 j v hj
    · intro hf
      congr 1
      apply List.map_congr_left
      intro t htm
      have htn := List.mem_range.1 htm
      apply List.map_congr_left
      intro v hv
      rw [(selFalls_iff w hn hno hpf (g2 t htn).1 (g2 t htn).2).1 (hf t _ htn rfl) v hv]
  rw [hset, volume_box hn (fun _ h => h)]
  rfl

open Classical in
/-- C38: the probability that a pass of `forward_sample` draws the complete assignment `a` is `a`'s joint probability.  (With `n = 1`
the returned table shows what the pass drew.) -/
theorem C38_forward_sample (h : HashOrder N) (bn : BayesNet N A) (w : bn.WF) (hn : bn.Nonneg) (hno : bn.Normalised) (tol : ℚ) (h0 : 0 ≤ tol)
    (ht : tol < 1) (hpf : bn.ParentsFirst) (a : Asg N) (ha : InRange bn.cardOf bn.V a) :
    volume {u ∈ cube bn.V.length | ∃ d, forwardSample tol h bn 1 (stream u) = .ok d ∧ bn.Estimates d fun v i => if a v = i then 1 else 0} =
      ENNReal.ofReal ((bn.joint a : ℚ) : ℝ) := by
  have hbox := volume_box hn (L := bn.V) (fun _ h => h) 1 (fun _ => some a)
  have hsel : selProb bn bn.V 1 (fun _ => some a) = bn.joint a := by simp [selProb, BayesNet.joint]
  rw [hsel] at hbox
  have hlen : 1 * bn.V.length = bn.V.length := one_mul _
  have key : ∀ m (hm : 1 * bn.V.length = m),
      volume {u ∈ cube m | ∃ d, forwardSample tol h bn 1 (stream u) = .ok d ∧ bn.Estimates d fun v i => if a v = i then 1 else 0} =
      ENNReal.ofReal ((bn.joint a : ℚ) : ℝ) := by
    rintro m rfl
    rw [← hbox]
    congr 1
    ext u
    rw [mem_box w hn hno (fun _ h => h) (by intro t b ht he; cases he; exact ha), Set.mem_setOf_eq]
    apply and_congr_right
    intro hu
    obtain ⟨d, smp, g1, g2, g3⟩ := C37_counts h bn w hn tol ht (normalised_near hno h0) hpf (stream u) (stream_mem hu) 1 (le_refl 1)
    have g2' := g2 0 (by norm_num)
    constructor
    · rintro ⟨d', e1, e2⟩ t b htn hb
      cases hb
      obtain rfl : t = 0 := by omega
      rw [g1, Except.ok.injEq] at e1
      subst e1
      refine (selFalls_iff w hn hno hpf g2'.1 g2'.2).2 fun v hv => ?_
      obtain ⟨t1, k1, _, k3⟩ := e2.2 v hv
      obtain ⟨t2, l1, _, l3⟩ := g3.2 v hv
      rw [k1, Option.some.injEq] at l1; subst l1
      have hlt : a v < (bn.valuesOf v).length := by rw [← w.card_len hv]; exact ha v hv
      have q1 := k3 _ _ (List.getElem?_eq_getElem hlt)
      have q2 := l3 _ _ (List.getElem?_eq_getElem hlt)
      rw [q1, Option.some.injEq] at q2
      dsimp only at q2
      rw [if_pos rfl, Nat.cast_one, div_one] at q2
      by_contra hne
      rw [Finset.filter_false_of_mem] at q2
      · simp at q2
      · intro t ht; rw [Finset.mem_range] at ht; obtain rfl : t = 0 := by omega
        exact hne
    · intro hf
      have heq := (selFalls_iff w hn hno hpf g2'.1 g2'.2).1 (hf 0 a (by norm_num) rfl)
      refine ⟨d, g1, g3.1, fun v hv => ?_⟩
      obtain ⟨t2, l1, l2, l3⟩ := g3.2 v hv
      refine ⟨t2, l1, l2, fun i x hx => ?_⟩
      rw [l3 i x hx]
      dsimp only
      rw [Nat.cast_one, div_one, Finset.range_one, Finset.filter_singleton, heq v hv]
      split_ifs <;> simp
  exact key _ hlen

end PyBN
