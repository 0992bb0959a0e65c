import Verif.Spec.Grid
import Verif.Props.Repeat
import Verif.Props.LearnState

/-!
# C266: the prior of `bayes_estimator` is a set of imagined rows
-/

set_option linter.unusedSectionVars false

namespace PyBN
open BayesNet

theorem grid_length : ∀ (L : List (List ℤ)), (grid L).length = (L.map List.length).prod
  | [] => rfl
  | l :: L => by
    rw [grid, List.length_flatMap, List.map_cons, List.prod_cons, ← grid_length L]
    simp

theorem mem_grid : ∀ {L : List (List ℤ)} {r : List ℤ}, r ∈ grid L ↔ r.length = L.length ∧ ∀ (i : ℕ) (x : ℤ) (l : List ℤ), r[i]? = some x → L[i]? = some l → x ∈ l
  | [], r => by
    rw [grid, List.mem_singleton]
    constructor
    · rintro rfl; simp
    · intro h; simpa using h.1
  | l :: L, r => by
    rw [grid, List.mem_flatMap]
    constructor
    · rintro ⟨x, hx, h⟩
      obtain ⟨r', hr', rfl⟩ := List.mem_map.1 h
      obtain ⟨h1, h2⟩ := mem_grid.1 hr'
      refine ⟨by simp [h1], ?_⟩
      rintro (_ | i) y m hy hm
      · simp only [List.getElem?_cons_zero, Option.some.injEq] at hy hm
        subst hy; subst hm; exact hx
      · simp only [List.getElem?_cons_succ] at hy hm
        exact h2 i y m hy hm
    · rintro ⟨h1, h2⟩
      cases r with
      | nil => simp at h1
      | cons x r =>
        refine ⟨x, h2 0 x l rfl rfl, List.mem_map.2 ⟨r, mem_grid.2 ⟨by simpa using h1, fun i y m hy hm => h2 (i + 1) y m (by simpa using hy) (by simpa using hm)⟩, rfl⟩⟩

/-- The number of grid rows that satisfy one condition per column. -/
theorem countP_grid : ∀ (L : List (List ℤ)) (q : ℕ → ℤ → Bool),
    (grid L).countP (fun r => (r.zipIdx).all fun p => q p.2 p.1) = ((L.zipIdx).map fun p => p.1.countP (q p.2)).prod
  | L, q => by
    have key : ∀ (L : List (List ℤ)) (n : ℕ), (grid L).countP (fun r => (r.zipIdx n).all fun p => q p.2 p.1) = ((L.zipIdx n).map fun p => p.1.countP (q p.2)).prod := by
      intro L
      induction L with
      | nil => intro n; simp [grid]
      | cons l L ih =>
        intro n
        rw [grid, List.countP_flatMap, List.zipIdx_cons, List.map_cons, List.prod_cons, ← ih (n + 1)]
        induction l with
        | nil => simp
        | cons x l ihl =>
          rw [List.map_cons, List.sum_cons, ihl, List.countP_cons, Function.comp, List.countP_map]
          simp only [Function.comp_def, List.zipIdx_cons, List.all_cons]
          cases h : q n x <;> simp [Nat.add_mul, Nat.add_comm]
    exact key L 0

/-- How many grid rows show a configuration, times the number of configurations. -/
theorem grid_count {n : ℕ} {vals : ℕ → List ℤ} (hnd : ∀ i < n, (vals i).Nodup) {fam : List ℕ} (hf : fam.Nodup) (hlt : ∀ u ∈ fam, u < n)
    {a : Asg ℕ} (ha : ∀ u ∈ fam, a u < (vals u).length) :
    ((grid ((List.range n).map vals)).countP fun row => decide (Matches vals fam a row)) * (fam.map fun u => (vals u).length).prod =
      ((List.range n).map fun i => (vals i).length).prod := by
  have h1 : ((grid ((List.range n).map vals)).countP fun row => decide (Matches vals fam a row)) =
      (grid ((List.range n).map vals)).countP (fun r => (r.zipIdx).all fun p => (fun i x => decide (i ∈ fam → (vals i)[a i]? = some x)) p.2 p.1) := by
    refine List.countP_congr fun r hr => ?_
    have hl := (mem_grid.1 hr).1
    rw [List.length_map, List.length_range] at hl
    rw [decide_eq_true_eq, List.all_eq_true]
    unfold Matches
    constructor
    · intro h p hp
      obtain ⟨x, i⟩ := p
      rw [List.mem_zipIdx_iff_getElem?] at hp
      rw [decide_eq_true_eq]
      intro hi
      rw [← (h i hi).2]
      exact hp
    · intro h u hu
      have hul : u < r.length := by rw [hl]; exact hlt u hu
      have := h (r[u], u) (by rw [List.mem_zipIdx_iff_getElem?]; exact List.getElem?_eq_getElem hul)
      rw [decide_eq_true_eq] at this
      have := this hu
      exact ⟨by rw [this]; rfl, by rw [this]; exact List.getElem?_eq_getElem hul⟩
  have hz : ((List.range n).map vals).zipIdx = (List.range n).map fun i => (vals i, i) := by
    refine List.ext_getElem (by simp) fun i h1 h2 => by simp
  have h2 : ((((List.range n).map vals).zipIdx).map fun p => p.1.countP ((fun i x => decide (i ∈ fam → (vals i)[a i]? = some x)) p.2)).prod =
      ∏ i ∈ Finset.range n, (if i ∈ fam then 1 else (vals i).length) := by
    rw [hz, List.map_map, ← List.toFinset_range, List.prod_toFinset _ List.nodup_range]
    congr 1
    refine List.map_congr_left fun i hi => ?_
    rw [List.mem_range] at hi
    simp only [Function.comp_apply]
    split_ifs with hm
    · have hai := ha i hm
      rw [List.getElem?_eq_getElem hai]
      rw [show (vals i).countP (fun x => decide (i ∈ fam → some (vals i)[a i] = some x)) = (vals i).count (vals i)[a i] by
        unfold List.count
        refine List.countP_congr fun x _ => ?_
        rw [decide_eq_true_eq, beq_iff_eq]
        exact ⟨fun h => (Option.some.inj (h hm)).symm, fun h _ => by rw [h]⟩]
      exact List.count_eq_one_of_mem (hnd i hi) (List.getElem_mem _)
    · simp [hm]
  rw [h1]
  rw [countP_grid ((List.range n).map vals) (fun i x => decide (i ∈ fam → (vals i)[a i]? = some x)), h2, ← List.prod_toFinset _ hf, ← List.prod_toFinset _ List.nodup_range, List.toFinset_range]
  have hsub : fam.toFinset ⊆ Finset.range n := fun u hu => Finset.mem_range.2 (hlt u (List.mem_toFinset.1 hu))
  rw [← Finset.prod_sdiff hsub, ← Finset.prod_sdiff hsub]
  rw [Finset.prod_eq_one (s := fam.toFinset) (f := fun i => if i ∈ fam then 1 else (vals i).length) (fun i hi => if_pos (List.mem_toFinset.1 hi)), mul_one]
  congr 1
  refine Finset.prod_congr rfl fun i hi => if_neg fun h => (Finset.mem_sdiff.1 hi).2 (List.mem_toFinset.2 h)

variable {data : Data} {vals : ℕ → List ℤ} {k : ℕ}

theorem grid_mem_iff (hv : ∀ i < data.ncol, data.IsValues i (vals i)) (hr : ∀ row ∈ data.rows, row.length = data.ncol) {i : ℕ} (hi : i < data.ncol) (hne : data.rows ≠ [])
    (x : ℤ) : (∃ row ∈ (data.withGrid vals k).rows, row[i]? = some x) ↔ ∃ row ∈ data.rows, row[i]? = some x := by
  unfold Data.withGrid
  simp only [List.mem_append, List.mem_flatten]
  constructor
  · rintro ⟨row, h | ⟨l, hl, h⟩, hx⟩
    · exact ⟨row, h, hx⟩
    · rw [(List.mem_replicate.1 hl).2] at h
      have := (mem_grid.1 h).2 i x (vals i) hx (by rw [List.getElem?_map, List.getElem?_range hi]; rfl)
      exact ((hv i hi).2 x).1 this
  · rintro ⟨row, h, hx⟩
    exact ⟨row, .inl h, hx⟩

theorem grid_rect (hr : ∀ row ∈ data.rows, row.length = data.ncol) : ∀ row ∈ (data.withGrid vals k).rows, row.length = data.ncol := by
  intro row h
  unfold Data.withGrid at h
  rcases List.mem_append.1 h with h | h
  · exact hr row h
  · obtain ⟨l, hl, h⟩ := List.mem_flatten.1 h
    rw [(List.mem_replicate.1 hl).2] at h
    rw [(mem_grid.1 h).1]; simp

theorem withGrid_count (fam : List ℕ) (a : Asg ℕ) (vs : ℕ → List ℤ) : (data.withGrid vals k).count vs fam a =
    data.count vs fam a + k * (grid ((List.range data.ncol).map vals)).countP fun row => decide (Matches vs fam a row) := by
  unfold Data.count Data.withGrid
  rw [List.countP_append, List.countP_flatten, List.map_replicate, List.sum_replicate, smul_eq_mul]

theorem matches_congr {vs ws : ℕ → List ℤ} {fam : List ℕ} (h : ∀ u ∈ fam, vs u = ws u) (a : Asg ℕ) (rows : List (List ℤ)) :
    rows.countP (fun row => decide (Matches vs fam a row)) = rows.countP fun row => decide (Matches ws fam a row) := by
  refine List.countP_congr fun row _ => ?_
  rw [decide_eq_true_eq, decide_eq_true_eq]
  unfold Matches
  exact ⟨fun g u hu => by rw [← h u hu]; exact g u hu, fun g u hu => by rw [h u hu]; exact g u hu⟩

/-- What one family of the network sees of the imagined rows. -/
theorem family_weight {bn' : BayesNet ℕ ℤ} (w : bn'.WF) {v : ℕ} (hv : v ∈ bn'.V) (hval : ∀ u ∈ v :: bn'.parentsOf v, bn'.valuesOf u = vals u)
    (hcols : ∀ u ∈ bn'.V, u < data.ncol) (hvs : ∀ i < data.ncol, data.IsValues i (vals i)) {a : Asg ℕ} (ha : InRange bn'.cardOf (v :: bn'.parentsOf v) a) :
    (((List.range data.ncol).map fun i => (vals i).length).prod : ℚ) / ((bn'.cptOf v).length : ℚ) =
      ((grid ((List.range data.ncol).map vals)).countP fun row => decide (Matches bn'.valuesOf (v :: bn'.parentsOf v) a row) : ℕ) ∧
    (bn'.cardOf v : ℚ) * ((((List.range data.ncol).map fun i => (vals i).length).prod : ℚ) / ((bn'.cptOf v).length : ℚ)) =
      ((grid ((List.range data.ncol).map vals)).countP fun row => decide (Matches bn'.valuesOf (bn'.parentsOf v) a row) : ℕ) := by
  have hmem : ∀ u ∈ v :: bn'.parentsOf v, u ∈ bn'.V := by
    intro u hu
    rcases List.mem_cons.1 hu with rfl | hu
    · exact hv
    · exact w.parents_mem v hv u hu
  have hcard : ∀ u ∈ v :: bn'.parentsOf v, bn'.cardOf u = (vals u).length := fun u hu => by rw [w.card_len (hmem u hu), hval u hu]
  have hn : ∀ i < data.ncol, (vals i).Nodup := fun i hi => (hvs i hi).1.imp fun h => ne_of_lt h
  have hfn := w.fam_nodup v hv
  have key : ∀ fam : List ℕ, fam.Nodup → (∀ u ∈ fam, u ∈ v :: bn'.parentsOf v) →
      ((grid ((List.range data.ncol).map vals)).countP fun row => decide (Matches bn'.valuesOf fam a row)) * (fam.map bn'.cardOf).prod =
        ((List.range data.ncol).map fun i => (vals i).length).prod := by
    intro fam hf hsub
    rw [matches_congr (fun u hu => hval u (hsub u hu)), ← grid_count hn hf (fun u hu => hcols u (hmem u (hsub u hu))) (a := a)
      fun u hu => by rw [← hcard u (hsub u hu)]; exact ha u (hsub u hu)]
    congr 2
    exact List.map_congr_left fun u hu => hcard u (hsub u hu)
  have k1 := key _ hfn fun u hu => hu
  have k2 := key _ (List.nodup_cons.1 hfn).2 fun u hu => List.mem_cons_of_mem _ hu
  have hpos : ∀ u ∈ v :: bn'.parentsOf v, 0 < bn'.cardOf u := fun u hu => lt_of_le_of_lt (Nat.zero_le _) (ha u hu)
  have hc : (0 : ℚ) < bn'.cardOf v := by exact_mod_cast hpos v (by simp)
  have hp : (0 : ℚ) < (((bn'.parentsOf v).map bn'.cardOf).prod : ℕ) := by
    have : 0 < ((bn'.parentsOf v).map bn'.cardOf).prod := List.prod_pos fun x hx => by
      obtain ⟨u, hu, rfl⟩ := List.mem_map.1 hx
      exact hpos u (by simp [hu])
    exact_mod_cast this
  rw [w.cpt_len v hv]
  constructor
  · rw [← k1, List.map_cons, List.prod_cons]
    push_cast at hp ⊢
    field_simp
  · rw [← k2, List.map_cons, List.prod_cons]
    push_cast at hp ⊢
    field_simp

/-- The number of rows that can be made of the values of the columns. -/
def gridSize (data : Data) (vals : ℕ → List ℤ) : ℕ := (grid ((List.range data.ncol).map vals)).length

theorem gridSize_pos (hne : data.rows ≠ []) (hr : ∀ row ∈ data.rows, row.length = data.ncol) (hv : ∀ i < data.ncol, data.IsValues i (vals i)) : 0 < gridSize data vals := by
  obtain ⟨row, hrow⟩ := List.exists_mem_of_ne_nil _ hne
  refine List.length_pos_of_mem (a := row) (mem_grid.2 ⟨by rw [hr row hrow]; simp, fun i x l hx hl => ?_⟩)
  obtain ⟨hi, _⟩ := List.getElem?_eq_some_iff.1 hx
  rw [hr row hrow] at hi
  rw [List.getElem?_map, List.getElem?_range hi] at hl
  cases hl
  exact ((hv i hi).2 x).2 ⟨row, hrow, hx⟩

/-- **C266** (1): `bayes_estimator` with a positive prior weight `k` times the number of possible rows learns the relative frequencies, rounded to five decimals, of the data to
which `k` copies of every possible row have been added. -/
theorem C266_relative_frequencies (hE : HashOrder (ℕ × ℤ)) (hI : HashOrder ℤ) (bn : BayesNet ℕ ℤ) (s : bn.Shape) (data : Data)
    (hf : data.Fits bn.V) (nodes : Option (List ℕ)) (hns : (nodes.getD bn.V).Perm bn.V)
    (hcol : ∀ v ∈ bn.V, data.SameValues ((nodes.getD bn.V).idxOf v) v) (vals : ℕ → List ℤ) (hvals : ∀ i < data.ncol, data.IsValues i (vals i)) (k : ℕ)
    (hk : 0 < k) :
    ∃ b, bayesEstimator hE hI bn data (some (k * gridSize data vals)) nodes = .ok b ∧ b.V = bn.V ∧ b.E = bn.E ∧
      ∀ v ∈ bn.V, b.parentsOf v = bn.parentsOf v ∧ b.valuesOf v = vals v ∧ ∀ a, InRange b.cardOf (v :: b.parentsOf v) a →
        b.prob v a = roundAway 5 ((data.withGrid vals k).count vals (v :: b.parentsOf v) a / (data.withGrid vals k).count vals (b.parentsOf v) a) := by
  obtain ⟨b, b1, b2, b3, b4, b5⟩ := C67_bayes_probabilities hE hI bn s data hf nodes hns hcol (some (k * gridSize data vals))
    (fun e he => by cases he; exact mul_pos (by exact_mod_cast hk) (by exact_mod_cast gridSize_pos hf.ne hf.rect hvals))
  have hval : ∀ v ∈ bn.V, b.valuesOf v = vals v := fun v hv => (b5 v hv).2.1.unique (hvals v (hf.cols v hv))
  refine ⟨b, b1, b2, b3, fun v hv => ⟨(b5 v hv).1, hval v hv, fun a ha => ?_⟩⟩
  have hfam : ∀ u ∈ v :: b.parentsOf v, u ∈ bn.V := by
    intro u hu
    rcases List.mem_cons.1 hu with rfl | hu
    · exact hv
    · rw [(b5 v hv).1] at hu; exact s.parents_mem v hv u hu
  obtain ⟨w1, w2⟩ := family_weight (data := data) (vals := vals) b4 (b2 ▸ hv) (fun u hu => hval u (hfam u hu)) (fun u hu => hf.cols u (b2 ▸ hu)) hvals ha
  rw [(b5 v hv).2.2 a ha, withGrid_count, withGrid_count, Option.getD_some]
  have hg : (gridSize data vals : ℚ) = (((List.range data.ncol).map fun i => (vals i).length).prod : ℕ) := by
    unfold gridSize; rw [grid_length, List.map_map]; rfl
  have e1 : (k : ℚ) * gridSize data vals / ((b.cptOf v).length : ℚ) = k * ((gridSize data vals : ℚ) / ((b.cptOf v).length : ℚ)) := by ring
  have c1 : data.count b.valuesOf (v :: b.parentsOf v) a = data.count vals (v :: b.parentsOf v) a := matches_congr (fun u hu => hval u (hfam u hu)) a _
  have c2 : data.count b.valuesOf (b.parentsOf v) a = data.count vals (b.parentsOf v) a := matches_congr (fun u hu => hval u (hfam u (by simp [hu]))) a _
  rw [e1, ← mul_assoc, mul_comm (b.cardOf v : ℚ), mul_assoc, hg, w2, w1, c1, c2, matches_congr (fun u hu => hval u (hfam u hu)) a,
    matches_congr (fun u hu => hval u (hfam u (by simp [hu]))) a]
  congr 1
  push_cast
  rw [add_comm, add_comm ((k : ℚ) * _)]

/-- **C266** (2): adding `k` copies of every possible row to the data is the same as adding `k` times the number of possible rows to the prior weight. -/
theorem C266_prior_is_rows (hE : HashOrder (ℕ × ℤ)) (hI : HashOrder ℤ) (bn : BayesNet ℕ ℤ) (s : bn.Shape) (data : Data)
    (hf : data.Fits bn.V) (nodes : Option (List ℕ)) (hns : (nodes.getD bn.V).Perm bn.V)
    (hcol : ∀ v ∈ bn.V, data.SameValues ((nodes.getD bn.V).idxOf v) v) (vals : ℕ → List ℤ) (hvals : ∀ i < data.ncol, data.IsValues i (vals i)) (k : ℕ)
    (e : ℚ) (he : 0 < e) :
    ∃ b c, bayesEstimator hE hI bn data (some (e + k * gridSize data vals)) nodes = .ok b ∧ bayesEstimator hE hI bn (data.withGrid vals k) (some e) nodes = .ok c ∧
      c.V = b.V ∧ c.E = b.E ∧ ∀ v ∈ bn.V, c.parentsOf v = b.parentsOf v ∧ c.valuesOf v = b.valuesOf v ∧
        ∀ a, InRange b.cardOf (v :: b.parentsOf v) a → c.prob v a = b.prob v a := by
  obtain ⟨b, b1, b2, b3, b4, b5⟩ := C67_bayes_probabilities hE hI bn s data hf nodes hns hcol (some (e + k * gridSize data vals))
    (fun x hx => by cases hx; positivity)
  have hix : ∀ v ∈ bn.V, (nodes.getD bn.V).idxOf v < data.ncol := by
    intro v hv
    obtain ⟨row, hrow⟩ := List.exists_mem_of_ne_nil _ hf.ne
    have hvl : v < row.length := by rw [hf.rect row hrow]; exact hf.cols v hv
    obtain ⟨row', hr', hx⟩ := (hcol v hv row[v]).2 ⟨row, hrow, List.getElem?_eq_getElem hvl⟩
    rw [← hf.rect row' hr']
    exact (List.getElem?_eq_some_iff.1 hx).1
  have hf' : (data.withGrid vals k).Fits bn.V := by
    refine ⟨fun h => ?_, grid_rect hf.rect, hf.cols⟩
    unfold Data.withGrid at h
    exact hf.ne (List.append_eq_nil_iff.1 h).1
  have hcol' : ∀ v ∈ bn.V, (data.withGrid vals k).SameValues ((nodes.getD bn.V).idxOf v) v := by
    intro v hv x
    rw [grid_mem_iff hvals hf.rect (hix v hv) hf.ne, grid_mem_iff hvals hf.rect (hf.cols v hv) hf.ne]
    exact hcol v hv x
  obtain ⟨c, c1, c2, c3, c4, c5⟩ := C67_bayes_probabilities hE hI bn s (data.withGrid vals k) hf' nodes hns hcol' (some e) (fun x hx => by cases hx; exact he)
  have hpar : ∀ v ∈ bn.V, c.parentsOf v = b.parentsOf v := fun v hv => (c5 v hv).1.trans (b5 v hv).1.symm
  have hvb : ∀ v ∈ bn.V, b.valuesOf v = vals v := fun v hv => (b5 v hv).2.1.unique (hvals v (hf.cols v hv))
  have hval : ∀ v ∈ bn.V, c.valuesOf v = b.valuesOf v := by
    intro v hv
    refine Data.IsValues.unique (d := data) ⟨(c5 v hv).2.1.1, fun x => ?_⟩ (b5 v hv).2.1
    rw [(c5 v hv).2.1.2, grid_mem_iff hvals hf.rect (hf.cols v hv) hf.ne]
  refine ⟨b, c, b1, c1, c2.trans b2.symm, c3.trans b3.symm, fun v hv => ⟨hpar v hv, hval v hv, fun a ha => ?_⟩⟩
  have hcard : ∀ u ∈ bn.V, c.cardOf u = b.cardOf u := fun u hu => by rw [c4.card_len (c2 ▸ hu), b4.card_len (b2 ▸ hu), hval u hu]
  have hfam : ∀ u ∈ v :: b.parentsOf v, u ∈ bn.V := by
    intro u hu
    rcases List.mem_cons.1 hu with rfl | hu
    · exact hv
    · rw [(b5 v hv).1] at hu; exact s.parents_mem v hv u hu
  have hlen : (c.cptOf v).length = (b.cptOf v).length := by
    rw [c4.cpt_len v (c2 ▸ hv), b4.cpt_len v (b2 ▸ hv), hpar v hv]
    congr 1
    refine List.map_congr_left fun u hu => hcard u (hfam u hu)
  have ha' : InRange c.cardOf (v :: c.parentsOf v) a := by
    rw [hpar v hv]
    intro u hu
    rw [hcard u (hfam u hu)]
    exact ha u hu
  obtain ⟨w1, w2⟩ := family_weight (data := data) (vals := vals) b4 (b2 ▸ hv) (fun u hu => hvb u (hfam u hu)) (fun u hu => hf.cols u (b2 ▸ hu)) hvals ha
  have cnt : ∀ fam, (∀ u ∈ fam, u ∈ bn.V) → (data.withGrid vals k).count c.valuesOf fam a = (data.withGrid vals k).count b.valuesOf fam a :=
    fun fam hfm => matches_congr (fun u hu => hval u (hfm u hu)) a _
  rw [(c5 v hv).2.2 a ha', (b5 v hv).2.2 a ha, hpar v hv, hlen, cnt _ hfam, cnt _ (fun u hu => hfam u (by simp [hu])), hcard v hv, withGrid_count, withGrid_count,
    Option.getD_some, Option.getD_some]
  have hg : (gridSize data vals : ℚ) = (((List.range data.ncol).map fun i => (vals i).length).prod : ℕ) := by
    unfold gridSize; rw [grid_length, List.map_map]; rfl
  have e1 : (e + (k : ℚ) * gridSize data vals) / ((b.cptOf v).length : ℚ) = e / ((b.cptOf v).length : ℚ) + k * ((gridSize data vals : ℚ) / ((b.cptOf v).length : ℚ)) := by ring
  rw [e1, mul_add, ← mul_assoc (b.cardOf v : ℚ) (k : ℚ), mul_comm (b.cardOf v : ℚ) (k : ℚ), mul_assoc (k : ℚ), hg, w2, w1]
  congr 1
  push_cast
  congr 1 <;> ring

/-- Four rows. -/
def gridData : Data := ⟨2, [[0, 1], [1, 1], [0, 0], [2, 1]]⟩

/-- The values of its columns. -/
def gridVals (i : ℕ) : List ℤ := if i = 0 then [0, 1, 2] else [0, 1]

/-- Witness: three and two values, so six possible rows; two copies of each are worth a prior weight of 12. -/
example : gridSize gridData gridVals = 6 ∧ (∀ i < gridData.ncol, gridData.IsValues i (gridVals i)) ∧ pairNet.Shape ∧
    (∀ v ∈ pairNet.V, gridData.SameValues v v) ∧
    (bayesEstimator .id .id pairNet gridData (some 12) none).okAnd (fun b => decide (b.cptOf 0 = [3 / 8, 5 / 16, 5 / 16] ∧ b.cptOf 1 = [1/2, 1/2, 2/5, 3/5, 2/5, 3/5])) = true ∧
    (gridData.withGrid gridVals 2).count gridVals [0] (fun _ => 0) = 6 ∧ (gridData.withGrid gridVals 2).rows.length = 16 := by
  refine ⟨by decide, ?_, pairNet_shape, fun v _ x => Iff.rfl, by decide +kernel, by decide, by decide⟩
  intro i hi
  have : i = 0 ∨ i = 1 := by have : i < 2 := hi; omega
  rcases this with rfl | rfl
  · refine ⟨by decide, fun x => ?_⟩
    simp [gridVals, gridData]
    tauto
  · refine ⟨by decide, fun x => ?_⟩
    simp [gridVals, gridData]
    tauto

end PyBN
