import Verif.Proofs.SampleLearn
import Verif.Props.Indep
import Verif.Proofs.Indep5
import Verif.Props.Entropy

/-!
# From sampled rows to frequencies: what the independence tests see on `random_sample` data
-/

set_option linter.unusedSectionVars false

namespace PyBN
open BayesNet Sampling Indep MeasureTheory ProbabilityTheory Filter Topology
variable {A : Type} [DecidableEq A] {Ω : Type} [MeasurableSpace Ω] {P : Measure Ω} {U : ℕ → Ω → ℝ}

theorem prob1_eq_sum {bn : BayesNet ℕ A} (w : bn.WF) {u v : ℕ} (hv : v ∈ bn.V) (huv : u ≠ v) (x : ℕ) :
    prob1 bn u x = ∑ y ∈ Finset.range (bn.cardOf v), prob2 bn u v x y := by
  unfold prob1
  have hp : (bn.V.filter fun w => w ∉ [u]).Perm (v :: bn.V.filter fun w => w ∉ [u, v]) := by
    rw [List.perm_ext_iff_of_nodup (w.nodup.filter _) (List.nodup_cons.2 ⟨by simp, w.nodup.filter _⟩)]
    intro z
    simp only [List.mem_filter, List.mem_cons, List.not_mem_nil, or_false, decide_eq_true_eq, not_or]
    constructor
    · rintro ⟨h1, h2⟩
      by_cases hz : z = v
      · exact .inl hz
      · exact .inr ⟨h1, h2, hz⟩
    · rintro (rfl | ⟨h1, h2, h3⟩)
      · exact ⟨hv, fun h => huv h.symm⟩
      · exact ⟨h1, h2⟩
  unfold margOf
  rw [sumAll_perm hp _ (w.nodup.filter _)]
  simp only [sumAll]
  apply Finset.sum_congr rfl
  intro y _
  refine margOf_congr (vs := [u, v]) w ?_
  intro z hz
  simp only [List.mem_cons, List.not_mem_nil, or_false] at hz
  rcases hz with rfl | rfl
  · rw [Asg.upd_ne _ _ huv]; simp [pairAsg]
  · simp [Asg.upd, pairAsg, huv.symm]

theorem prob2_comm {bn : BayesNet ℕ A} {u v : ℕ} (huv : u ≠ v) (w : bn.WF) (x y : ℕ) : prob2 bn u v x y = prob2 bn v u y x := by
  unfold prob2
  rw [margOf_congr (b := pairAsg v y x) w ?_]
  · unfold margOf
    congr 1
    apply List.filter_congr
    intro z _
    simp only [List.mem_cons, List.not_mem_nil, or_false]
    exact decide_eq_decide.2 (not_congr or_comm)
  · intro z hz
    simp only [List.mem_cons, List.not_mem_nil, or_false] at hz
    rcases hz with rfl | rfl
    · simp [pairAsg, huv]
    · simp [pairAsg, huv.symm]

theorem prob1_eq_sum' {bn : BayesNet ℕ A} (w : bn.WF) {u v : ℕ} (hu : u ∈ bn.V) (huv : u ≠ v) (y : ℕ) :
    prob1 bn v y = ∑ x ∈ Finset.range (bn.cardOf u), prob2 bn u v x y := by
  rw [prob1_eq_sum w hu huv.symm]
  exact Finset.sum_congr rfl fun x _ => (prob2_comm huv w x y).symm

theorem prob1_sum {bn : BayesNet ℕ A} (S : Sampleable bn) {u : ℕ} (hu : u ∈ bn.V) : ∑ x ∈ Finset.range (bn.cardOf u), prob1 bn u x = 1 := by
  have hp : bn.V.Perm (u :: bn.V.filter fun w => w ∉ [u]) := by
    rw [List.perm_ext_iff_of_nodup S.wf.nodup (List.nodup_cons.2 ⟨by simp, S.wf.nodup.filter _⟩)]
    intro z
    simp only [List.mem_filter, List.mem_cons, List.not_mem_nil, or_false, decide_eq_true_eq]
    constructor
    · intro h1
      by_cases hz : z = u
      · exact .inl hz
      · exact .inr ⟨h1, hz⟩
    · rintro (rfl | ⟨h1, h2⟩)
      · exact hu
      · exact h1
  have h1 := sumAll_suffix S.normalised bn.V [] (by simpa using S.wf.nodup) (fun v hv => hv)
    (fun o1 v o2 he p hp => by simpa using S.parentsFirst o1 v o2 he p hp) (fun _ => 0) (by simp [InRange])
  rw [← h1]
  change _ = sumAll bn.cardOf bn.V bn.joint _
  rw [sumAll_perm hp _ S.wf.nodup]
  simp only [sumAll]
  apply Finset.sum_congr rfl
  intro x _
  refine margOf_congr (vs := [u]) S.wf ?_
  intro z hz
  rw [List.mem_singleton] at hz
  subst hz; simp [Asg.upd]

theorem prob2_sum {bn : BayesNet ℕ A} (S : Sampleable bn) {u v : ℕ} (hu : u ∈ bn.V) (hv : v ∈ bn.V) (huv : u ≠ v) :
    ∑ x ∈ Finset.range (bn.cardOf u), ∑ y ∈ Finset.range (bn.cardOf v), (prob2 bn u v x y : ℝ) = 1 := by
  have : ((∑ x ∈ Finset.range (bn.cardOf u), ∑ y ∈ Finset.range (bn.cardOf v), prob2 bn u v x y : ℚ) : ℝ) = ((1 : ℚ) : ℝ) := by
    rw [← prob1_sum S hu]
    congr 1
    exact Finset.sum_congr rfl fun x _ => (prob1_eq_sum S.wf hv huv x).symm
  push_cast at this
  exact this

/-- The smoothed mutual information of two nodes is what the code computes from their joint table. -/
theorem pairMI_eq {bn : BayesNet ℕ A} (S : Sampleable bn) {u v : ℕ} (hu : u ∈ bn.V) (hv : v ∈ bn.V) (huv : u ≠ v) :
    pairMI (1 / 10 ^ 7) bn u v = mi2 (bn.cardOf u) (bn.cardOf v) fun i j => (prob2 bn u v i j : ℝ) := by
  unfold pairMI mi2
  refine Finset.sum_congr rfl fun x _ => Finset.sum_congr rfl fun y _ => ?_
  rw [prob1_eq_sum S.wf hv huv x, prob1_eq_sum' S.wf hu huv y]
  push_cast
  rfl

theorem pairMI_nonneg {bn : BayesNet ℕ A} (S : Sampleable bn) {u v : ℕ} (hu : u ∈ bn.V) (hv : v ∈ bn.V) (huv : u ≠ v) :
    0 ≤ pairMI (1 / 10 ^ 7) bn u v := by
  rw [pairMI_eq S hu hv huv]
  exact mi2_nonneg (fun i j => by exact_mod_cast margOf_nonneg S.nonneg _ _) (prob2_sum S hu hv huv)

theorem pairMI_zero {bn : BayesNet ℕ A} (S : Sampleable bn) {u v : ℕ} (hu : u ∈ bn.V) (hv : v ∈ bn.V) (huv : u ≠ v) :
    pairMI (1 / 10 ^ 7) bn u v = 0 ↔ NodesIndep bn u v := by
  rw [pairMI_eq S hu hv huv, mi2_eq_zero_iff (fun i j => by exact_mod_cast margOf_nonneg S.nonneg _ _) (prob2_sum S hu hv huv)]
  unfold NodesIndep
  refine forall_congr' fun x => forall_congr' fun _ => forall_congr' fun y => forall_congr' fun _ => ?_
  rw [prob1_eq_sum S.wf hv huv x, prob1_eq_sum' S.wf hu huv y]
  constructor
  · intro h; exact_mod_cast h
  · intro h; rw [h]; push_cast; rfl

/-- A column of an array of the values `0, …, k - 1` read as natural numbers. -/
theorem nat_entry {m : ℕ} {rows : List (List ℤ)} {v k : ℕ} (hv : v < m) (hf : ∀ r ∈ rows, r.length = m)
    (hval : (⟨m, rows⟩ : Data).IsValues v (upTo k)) {r : List ℤ} (hr : r ∈ rows) :
    ∃ i < k, r[v]? = some ((i : ℕ) : ℤ) ∧ (r.map Int.toNat).getD v 0 = i := by
  have hlen : v < r.length := by rw [hf r hr]; exact hv
  have hx := (hval.2 r[v]).2 ⟨r, hr, List.getElem?_eq_getElem hlen⟩
  obtain ⟨i, hi, he⟩ := List.mem_map.1 hx
  refine ⟨i, List.mem_range.1 hi, by rw [List.getElem?_eq_getElem hlen, ← he], ?_⟩
  rw [List.getD_eq_getElem?_getD, List.getElem?_map, List.getElem?_eq_getElem hlen, ← he]
  simp

theorem select_length (cols : List ℕ) (rows : List (List ℕ)) : (select cols rows).length = rows.length := by simp [select]

/-- The frequency of a pair of values in two columns is the number of rows showing them. -/
theorem freq_pair {m : ℕ} {rows : List (List ℤ)} {u v : ℕ} {c : ℕ → ℕ} (hu : u < m) (hv : v < m) (hf : ∀ r ∈ rows, r.length = m)
    (hval : ∀ z, z = u ∨ z = v → (⟨m, rows⟩ : Data).IsValues z (upTo (c z))) (huv : u ≠ v) {x y : ℕ} (hx : x < c u) (hy : y < c v) :
    freq (select [u, v] (natRows rows)) (fun r => entry 0 r = x ∧ entry 1 r = y) =
      ((((⟨m, rows⟩ : Data).count (fun z => upTo (c z)) [u, v] (pairAsg u x y) : ℕ) : ℚ) : ℝ) / rows.length := by
  unfold freq
  rw [select_length, show (natRows rows).length = rows.length by simp [natRows]]
  congr 1
  rw [← List.countP_eq_length_filter]
  unfold select natRows Data.count
  rw [List.countP_map, List.countP_map]
  push_cast
  congr 1
  apply List.countP_congr
  intro r hr
  obtain ⟨i, hi, h1, h2⟩ := nat_entry hu hf (hval u (.inl rfl)) hr
  obtain ⟨j, hj, h3, h4⟩ := nat_entry hv hf (hval v (.inr rfl)) hr
  simp only [Function.comp, decide_eq_true_eq]
  have e0 : entry 0 (List.map (fun c => (r.map Int.toNat).getD c 0) [u, v]) = i := by simp only [entry, List.map_cons, List.getD_cons_zero]; exact h2
  have e1 : entry 1 (List.map (fun c => (r.map Int.toNat).getD c 0) [u, v]) = j := by
    simp only [entry, List.map_cons, List.getD_cons_succ, List.getD_cons_zero]; exact h4
  rw [e0, e1]
  unfold Matches
  have hpu : pairAsg u x y u = x := by simp [pairAsg]
  have hpv : pairAsg u x y v = y := by simp [pairAsg, huv.symm]
  constructor
  · rintro ⟨rfl, rfl⟩ z hz
    simp only [List.mem_cons, List.not_mem_nil, or_false] at hz
    rcases hz with rfl | rfl
    · rw [hpu, upTo_get, if_pos hx]; exact ⟨rfl, h1⟩
    · rw [hpv, upTo_get, if_pos hy]; exact ⟨rfl, h3⟩
  · intro h
    have a1 := (h u (by simp)).2
    have a2 := (h v (by simp)).2
    rw [hpu, upTo_get, if_pos hx, h1] at a1
    rw [hpv, upTo_get, if_pos hy, h3] at a2
    refine ⟨?_, ?_⟩
    · have := Option.some.inj a1; exact_mod_cast this
    · have := Option.some.inj a2; exact_mod_cast this

/-- The same for one column: entry `k` of the selected columns. -/
theorem freq_single {m : ℕ} {rows : List (List ℤ)} {u k : ℕ} {cols : List ℕ} {c : ℕ → ℕ} (hk : cols[k]? = some u) (hu : u < m)
    (hf : ∀ r ∈ rows, r.length = m) (hval : (⟨m, rows⟩ : Data).IsValues u (upTo (c u))) {x : ℕ} (hx : x < c u) :
    freq (select cols (natRows rows)) (fun r => entry k r = x) =
      ((((⟨m, rows⟩ : Data).count (fun z => upTo (c z)) [u] (fun _ => x) : ℕ) : ℚ) : ℝ) / rows.length := by
  unfold freq
  rw [select_length, show (natRows rows).length = rows.length by simp [natRows]]
  congr 1
  rw [← List.countP_eq_length_filter]
  unfold select natRows Data.count
  rw [List.countP_map, List.countP_map]
  push_cast
  congr 1
  apply List.countP_congr
  intro r hr
  obtain ⟨i, hi, h1, h2⟩ := nat_entry hu hf hval hr
  simp only [Function.comp, decide_eq_true_eq]
  have e0 : entry k (List.map (fun c => (r.map Int.toNat).getD c 0) cols) = i := by
    unfold entry
    rw [List.getD_eq_getElem?_getD, List.getElem?_map, hk]
    exact h2
  rw [e0]
  unfold Matches
  constructor
  · rintro rfl z hz
    rw [List.mem_singleton] at hz
    subst hz
    rw [upTo_get, if_pos hx]; exact ⟨rfl, h1⟩
  · intro h
    have a1 := (h u (by simp)).2
    rw [upTo_get, if_pos hx, h1] at a1
    have := Option.some.inj a1; exact_mod_cast this

theorem values_select {m : ℕ} {rows : List (List ℤ)} {u k : ℕ} {cols : List ℕ} {c : ℕ} (hk : cols[k]? = some u) (hu : u < m)
    (hf : ∀ r ∈ rows, r.length = m) (hval : (⟨m, rows⟩ : Data).IsValues u (upTo c)) :
    Indep.valuesOf (select cols (natRows rows)) k = Finset.range c ∧ Coded (select cols (natRows rows)) k := by
  have hent : ∀ r ∈ rows, entry k (cols.map fun c => (r.map Int.toNat).getD c 0) = (r.map Int.toNat).getD u 0 := by
    intro r _
    unfold entry
    rw [List.getD_eq_getElem?_getD, List.getElem?_map, hk]
    rfl
  have hmem : ∀ x, (∃ r ∈ select cols (natRows rows), entry k r = x) ↔ x < c := by
    intro x
    constructor
    · rintro ⟨r, hr, rfl⟩
      unfold select natRows at hr
      rw [List.map_map] at hr
      obtain ⟨r0, hr0, rfl⟩ := List.mem_map.1 hr
      obtain ⟨i, hi, _, h2⟩ := nat_entry hu hf hval hr0
      simp only [Function.comp]
      rw [hent r0 hr0, h2]; exact hi
    · intro hx
      obtain ⟨r0, hr0, h1⟩ := (hval.2 (x : ℤ)).1 (List.mem_map.2 ⟨x, List.mem_range.2 hx, rfl⟩)
      refine ⟨cols.map fun c => (r0.map Int.toNat).getD c 0, ?_, ?_⟩
      · unfold select natRows
        rw [List.map_map]
        exact List.mem_map.2 ⟨r0, hr0, rfl⟩
      · rw [hent r0 hr0, List.getD_eq_getElem?_getD, List.getElem?_map, h1]; simp
  constructor
  · ext x
    rw [Finset.mem_range, ← hmem x]
    unfold Indep.valuesOf
    rw [List.mem_toFinset, List.mem_map]
  · intro r hr v hv
    obtain ⟨r', hr', he⟩ := (hmem v).2 (hv.trans ((hmem _).1 ⟨r, hr, rfl⟩))
    exact ⟨r', hr', he⟩

end PyBN
