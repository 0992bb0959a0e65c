import Verif.Props.Learn
import Verif.Spec.InfoScore
import Verif.Proofs.Infer
import Mathlib.Analysis.SpecialFunctions.Exp

/-!
# C247, C248: how likely the data are under the parameters `mle_estimator` returns
-/

set_option linter.unusedSectionVars false

namespace PyBN
open BayesNet

/-- A row of data as positions among the values. -/
def rowPos (vals : ℕ → List ℤ) (row : List ℤ) : Asg ℕ := fun u => (vals u).idxOf (row.getD u 0)

/-! ## The likelihood is largest at the relative frequencies -/

theorem prod_le_one_of_sum {ι : Type} (s : Finset ι) (r : ι → ℝ) (h0 : ∀ i ∈ s, 0 ≤ r i) (h : ∑ i ∈ s, r i ≤ s.card) : ∏ i ∈ s, r i ≤ 1 := by
  calc ∏ i ∈ s, r i ≤ ∏ i ∈ s, Real.exp (r i - 1) := Finset.prod_le_prod h0 fun i _ => by have := Real.add_one_le_exp (r i - 1); linarith only [this]
    _ = Real.exp (∑ i ∈ s, (r i - 1)) := (Real.exp_sum s _).symm
    _ ≤ Real.exp 0 := Real.exp_le_exp.2 (by rw [Finset.sum_sub_distrib, Finset.sum_const, nsmul_eq_mul, mul_one]; linarith only [h])
    _ = 1 := Real.exp_zero

section
variable {ι : Type} [Fintype ι] (A : ι → Asg ℕ)

open Classical in
/-- How many of the rows agree with row `i` on `S`. -/
noncomputable def agreeing (S : List ℕ) (i : ι) : ℕ := (Finset.univ.filter fun j => ∀ u ∈ S, A j u = A i u).card

theorem agreeing_pos (S : List ℕ) (i : ι) : 0 < agreeing A S i := Finset.card_pos.2 ⟨i, by simp⟩

theorem agreeing_mono {S T : List ℕ} (h : ∀ u ∈ S, u ∈ T) (i : ι) : agreeing A T i ≤ agreeing A S i :=
  Finset.card_le_card fun j hj => by
    simp only [Finset.mem_filter, Finset.mem_univ, true_and] at hj ⊢
    exact fun u hu => hj u (h u hu)

open Classical in
theorem ratio_sum {v : ℕ} {S : List ℕ} {k : ℕ} {q : Asg ℕ → ℚ} (hq0 : ∀ a, 0 ≤ q a) (hdep : ∀ a b : Asg ℕ, (∀ u ∈ v :: S, a u = b u) → q a = q b)
    (hvS : v ∉ S) (hsum : ∀ i, ∑ x ∈ Finset.range k, q ((A i).upd v x) = 1) (hk : ∀ i, A i v < k) :
    ∑ i, q (A i) * agreeing A S i / agreeing A (v :: S) i ≤ Fintype.card ι := by
  have e1 : ∀ i, q (A i) * agreeing A S i / agreeing A (v :: S) i = ∑ j, if ∀ u ∈ S, A j u = A i u then q (A i) / agreeing A (v :: S) i else 0 := by
    intro i
    rw [← Finset.sum_filter, Finset.sum_const, nsmul_eq_mul]
    unfold agreeing
    ring
  rw [Finset.sum_congr rfl fun i _ => e1 i, Finset.sum_comm]
  have e2 : ∀ j, (∑ i, if ∀ u ∈ S, A j u = A i u then q (A i) / agreeing A (v :: S) i else 0) ≤ 1 := by
    intro j
    rw [← Finset.sum_filter, ← Finset.sum_fiberwise_of_maps_to (t := Finset.range k) (g := fun i => A i v) fun i _ => Finset.mem_range.2 (hk i), ← hsum j]
    refine Finset.sum_le_sum fun x _ => ?_
    have e3 : ∀ i ∈ (Finset.univ.filter fun i => ∀ u ∈ S, A j u = A i u).filter (fun i => A i v = x), q (A i) / agreeing A (v :: S) i =
        q ((A j).upd v x) / ((Finset.univ.filter fun i => ∀ u ∈ S, A j u = A i u).filter (fun i => A i v = x)).card := by
      intro i hi
      simp only [Finset.mem_filter, Finset.mem_univ, true_and] at hi
      congr 1
      · refine hdep _ _ fun u hu => ?_
        by_cases h : u = v
        · subst h; rw [Asg.upd_self]; exact hi.2
        · rw [Asg.upd_ne _ _ h]; exact (hi.1 u ((List.mem_cons.1 hu).resolve_left h)).symm
      · unfold agreeing
        congr 2
        ext l
        simp only [Finset.mem_filter, Finset.mem_univ, true_and, List.forall_mem_cons]
        constructor
        · rintro ⟨h1, h2⟩; exact ⟨fun u hu => (hi.1 u hu).trans (h2 u hu).symm, h1.trans hi.2⟩
        · rintro ⟨h1, h2⟩; exact ⟨h2.trans hi.2.symm, fun u hu => (h1 u hu).symm.trans (hi.1 u hu)⟩
    rw [Finset.sum_congr rfl e3, Finset.sum_const, nsmul_eq_mul]
    rcases Nat.eq_zero_or_pos ((Finset.univ.filter fun i => ∀ u ∈ S, A j u = A i u).filter (fun i => A i v = x)).card with h | h
    · rw [h, Nat.cast_zero, zero_mul]; exact hq0 _
    · rw [mul_div_cancel₀ _ (Nat.cast_ne_zero.2 h.ne')]
  calc _ ≤ ∑ _j : ι, (1 : ℚ) := Finset.sum_le_sum fun j _ => e2 j
    _ = _ := by simp

theorem freq_best {v : ℕ} {S : List ℕ} {k : ℕ} {q : Asg ℕ → ℚ} (hq0 : ∀ a, 0 ≤ q a) (hdep : ∀ a b : Asg ℕ, (∀ u ∈ v :: S, a u = b u) → q a = q b)
    (hvS : v ∉ S) (hsum : ∀ i, ∑ x ∈ Finset.range k, q ((A i).upd v x) = 1) (hk : ∀ i, A i v < k) :
    ∏ i, q (A i) ≤ ∏ i, (agreeing A (v :: S) i / agreeing A S i : ℚ) := by
  have h := ratio_sum A hq0 hdep hvS hsum hk
  have hr : ∏ i, (q (A i) * agreeing A S i / agreeing A (v :: S) i) ≤ 1 := by
    have := prod_le_one_of_sum Finset.univ (fun i => ((q (A i) * agreeing A S i / agreeing A (v :: S) i : ℚ) : ℝ))
      (fun i _ => by exact_mod_cast div_nonneg (mul_nonneg (hq0 _) (Nat.cast_nonneg _)) (Nat.cast_nonneg _))
      (by rw [Finset.card_univ]; exact_mod_cast h)
    exact_mod_cast this
  have e : ∀ i, q (A i) = q (A i) * agreeing A S i / agreeing A (v :: S) i * (agreeing A (v :: S) i / agreeing A S i) := by
    intro i
    have h1 : (agreeing A (v :: S) i : ℚ) ≠ 0 := Nat.cast_ne_zero.2 (agreeing_pos A _ i).ne'
    have h2 : (agreeing A S i : ℚ) ≠ 0 := Nat.cast_ne_zero.2 (agreeing_pos A _ i).ne'
    field_simp
  rw [Finset.prod_congr rfl fun i _ => e i, Finset.prod_mul_distrib]
  exact mul_le_of_le_one_left (Finset.prod_nonneg fun i _ => div_nonneg (Nat.cast_nonneg _) (Nat.cast_nonneg _)) hr

end

/-! ## Rows of data -/

theorem countP_card {α : Type} (p : α → Bool) (l : List α) : l.countP p = (Finset.univ.filter fun i : Fin l.length => p l[i] = true).card := by
  rw [Finset.card_filter]
  refine Eq.trans ?_ (Fin.sum_univ_fun_getElem l fun x => if p x = true then 1 else 0).symm
  induction l with
  | nil => rfl
  | cons x l ih => rw [List.countP_cons, ih, List.map_cons, List.sum_cons, add_comm]

theorem row_get {data : Data} {V : List ℕ} (hf : data.Fits V) {u : ℕ} (hu : u ∈ V) {row : List ℤ} (hr : row ∈ data.rows) : row[u]? = some (row.getD u 0) := by
  have : u < row.length := by rw [hf.rect row hr]; exact hf.cols u hu
  simp [this]

theorem rowPos_get {data : Data} {V : List ℕ} (hf : data.Fits V) {vals : ℕ → List ℤ} {u : ℕ} (hu : u ∈ V) (hv : data.IsValues u (vals u)) {row : List ℤ} (hr : row ∈ data.rows) :
    (vals u)[rowPos vals row u]? = some (row.getD u 0) ∧ rowPos vals row u < (vals u).length := by
  have hm : row.getD u 0 ∈ vals u := (hv.2 _).2 ⟨row, hr, row_get hf hu hr⟩
  exact ⟨List.getElem?_idxOf hm, List.idxOf_lt_length_of_mem hm⟩

theorem matches_rowPos {data : Data} {V : List ℕ} (hf : data.Fits V) {vals : ℕ → List ℤ} {S : List ℕ} (hS : ∀ u ∈ S, u ∈ V) (hv : ∀ u ∈ S, data.IsValues u (vals u))
    {r r' : List ℤ} (hr : r ∈ data.rows) (hr' : r' ∈ data.rows) : Matches vals S (rowPos vals r) r' ↔ ∀ u ∈ S, rowPos vals r' u = rowPos vals r u := by
  unfold Matches
  refine forall₂_congr fun u hu => ?_
  obtain ⟨h1, h2⟩ := rowPos_get hf (hS u hu) (hv u hu) hr
  obtain ⟨h3, h4⟩ := rowPos_get hf (hS u hu) (hv u hu) hr'
  rw [h1, row_get hf (hS u hu) hr']
  constructor
  · rintro ⟨_, e⟩
    exact (List.getElem?_inj h4 ((hv u hu).1.imp fun h => h.ne)).1 (by rw [h3, h1]; exact e)
  · intro e
    rw [e, h1] at h3
    exact ⟨rfl, h3.symm⟩

theorem count_agreeing {data : Data} {V : List ℕ} (hf : data.Fits V) {vals : ℕ → List ℤ} {S : List ℕ} (hS : ∀ u ∈ S, u ∈ V) (hv : ∀ u ∈ S, data.IsValues u (vals u))
    (i : Fin data.rows.length) : data.count vals S (rowPos vals data.rows[i]) = agreeing (fun j : Fin data.rows.length => rowPos vals data.rows[j]) S i := by
  unfold Data.count agreeing
  rw [countP_card]
  congr 1
  ext j
  simp only [Finset.mem_filter, Finset.mem_univ, true_and, decide_eq_true_eq]
  exact matches_rowPos hf hS hv (List.getElem_mem _) (List.getElem_mem _)

theorem prod_swap {ι : Type} [Fintype ι] {α : Type} (f : α → ι → ℚ) : ∀ V : List α, ∏ i, (V.map fun v => f v i).prod = (V.map fun v => ∏ i, f v i).prod
  | [] => by simp
  | v :: V => by simp only [List.map_cons, List.prod_cons]; rw [Finset.prod_mul_distrib, prod_swap f V]

theorem likelihood_fin (b : BayesNet ℕ ℤ) (vals : ℕ → List ℤ) (rows : List (List ℤ)) :
    b.likelihood (rows.map (rowPos vals)) = (b.V.map fun v => ∏ i : Fin rows.length, b.prob v (rowPos vals rows[i])).prod := by
  unfold likelihood
  rw [List.map_map, ← prod_swap, ← Fin.prod_univ_fun_getElem rows]
  rfl

theorem list_prod_mono {α : Type} {f g : α → ℚ} : ∀ {V : List α}, (∀ v ∈ V, 0 ≤ f v) → (∀ v ∈ V, f v ≤ g v) → (V.map f).prod ≤ (V.map g).prod
  | [], _, _ => le_refl _
  | v :: V, h0, h => by
    rw [List.map_cons, List.map_cons, List.prod_cons, List.prod_cons]
    exact mul_le_mul (h v (by simp)) (list_prod_mono (fun v hv => h0 v (by simp [hv])) fun v hv => h v (by simp [hv]))
      (List.prod_nonneg fun x hx => by obtain ⟨w, hw, rfl⟩ := List.mem_map.1 hx; exact h0 w (by simp [hw])) ((h0 v (by simp)).trans (h v (by simp)))

theorem prob_nonneg' {b : BayesNet ℕ ℤ} (h : b.Nonneg) {v : ℕ} (hv : v ∈ b.V) (a : Asg ℕ) : 0 ≤ b.prob v a := by
  unfold BayesNet.prob
  cases e : (b.cptOf v)[enc b.cardOf (v :: b.parentsOf v) a]? with
  | none => exact le_refl _
  | some x => exact h v hv x (List.mem_of_getElem? e)

theorem round_lower {m n N : ℕ} (hm : 0 < m) (hmn : m ≤ n) (hn : n ≤ N) : (1 - (N : ℚ) / 100000) * (m / n) ≤ roundAway 5 (m / (n + 1 / 10000000)) := by
  have h := (abs_le.1 (roundAway_close 5 ((m : ℚ) / (n + 1 / 10000000)))).1
  have h1 : (1 : ℚ) ≤ m := by exact_mod_cast hm
  have h2 : (m : ℚ) ≤ n := by exact_mod_cast hmn
  have h3 : (n : ℚ) ≤ N := by exact_mod_cast hn
  have hn0 : (0 : ℚ) < n := by linarith only [h1, h2]
  have e1 : (1 : ℚ) ≤ N * (m / n) := by
    rw [← mul_div_assoc, le_div_iff₀ hn0]
    nlinarith only [h1, h3, hn0]
  have e2 : (m : ℚ) / n - 1 / 10000000 ≤ m / (n + 1 / 10000000) := by
    rw [le_div_iff₀ (by linarith only [hn0]), sub_mul, mul_add, div_mul_cancel₀ _ hn0.ne']
    have : (m : ℚ) / n ≤ 1 := (div_le_one hn0).2 h2
    nlinarith only [this, hn0, h1, h2]
  have e3 : (1 - (N : ℚ) / 100000) * (m / n) = m / n - N * (m / n) / 100000 := by ring
  rw [e3]
  linarith only [h, e1, e2]

/-- **C247.**  No network of the same shape makes the data much more likely than the one `mle_estimator` returns: with `N ≤ 10^5` rows, not by more than the factor
`(1 - N/10^5)^(-N*|V|)`, which the rounding of the tables accounts for; and the frequencies before rounding make the data most likely of all. -/
theorem C247_max_likelihood (hE : HashOrder (ℕ × ℤ)) (hI : HashOrder ℤ) (bn : BayesNet ℕ ℤ) (s : bn.Shape) (data : Data)
    (hf : data.Fits bn.V) (nodes : Option (List ℕ)) (hns : (nodes.getD bn.V).Perm bn.V)
    (hcol : ∀ v ∈ bn.V, data.SameValues ((nodes.getD bn.V).idxOf v) v) (hEk : ∀ v ∈ bn.V, v ∈ bn.E.keys)
    (hpar : ∀ v ∈ bn.V, (bn.parentsOf v).Sublist (nodes.getD bn.V) ∧ ∀ u, u ∈ bn.parentsOf v ↔ u ∈ bn.V ∧ v ∈ bn.childrenOf u) :
    ∃ bn', mleEstimator hE hI bn data nodes = .ok bn' ∧ (∀ v ∈ bn.V, data.IsValues v (bn'.valuesOf v)) ∧
      ∀ u : BayesNet ℕ ℤ, u.Nonneg → u.Normalised → SameShape bn' u →
        u.likelihood (data.rows.map (rowPos bn'.valuesOf)) ≤
          (data.rows.map fun row => (bn.V.map fun v => (data.count bn'.valuesOf (v :: bn.parentsOf v) (rowPos bn'.valuesOf row) : ℚ) /
            data.count bn'.valuesOf (bn.parentsOf v) (rowPos bn'.valuesOf row)).prod).prod ∧
        (data.rows.length ≤ 100000 →
          (1 - (data.rows.length : ℚ) / 100000) ^ (data.rows.length * bn.V.length) * u.likelihood (data.rows.map (rowPos bn'.valuesOf)) ≤
            bn'.likelihood (data.rows.map (rowPos bn'.valuesOf))) := by
  obtain ⟨bn', h1, hV, hE', w, hall⟩ := C66_mle_probabilities hE hI bn s data hf nodes hns hcol hEk hpar
  have hvals : ∀ v ∈ bn.V, data.IsValues v (bn'.valuesOf v) := fun v hv => (hall v hv).2.1
  have hcard : ∀ v, bn'.cardOf v = (bn'.valuesOf v).length := fun v => by unfold cardOf valuesOf; cases bn'.F.get? v <;> rfl
  have hfam : ∀ v ∈ bn.V, ∀ u ∈ v :: bn.parentsOf v, u ∈ bn.V := by
    intro v hv u hu
    rcases List.mem_cons.1 hu with rfl | hu
    · exact hv
    · exact s.parents_mem v hv u hu
  refine ⟨bn', h1, hvals, fun u u0 u1 hs => ?_⟩
  obtain ⟨sV, -, sp⟩ := hs
  rw [hV] at sV sp
  have hlt : ∀ v ∈ bn.V, ∀ i : Fin data.rows.length, rowPos bn'.valuesOf data.rows[i] v < bn'.cardOf v := fun v hv i => by
    rw [hcard]; exact (rowPos_get hf hv (hvals v hv) (List.getElem_mem _)).2
  have hbest : u.likelihood (data.rows.map (rowPos bn'.valuesOf)) ≤ (bn.V.map fun v => ∏ i : Fin data.rows.length,
      ((data.count bn'.valuesOf (v :: bn.parentsOf v) (rowPos bn'.valuesOf data.rows[i]) : ℚ) / data.count bn'.valuesOf (bn.parentsOf v) (rowPos bn'.valuesOf data.rows[i]))).prod := by
    rw [likelihood_fin, sV]
    refine list_prod_mono (fun v hv => Finset.prod_nonneg fun i _ => prob_nonneg' u0 (sV ▸ hv) _) fun v hv => ?_
    have hp : u.parentsOf v = bn.parentsOf v := (sp v hv).1.trans (hall v hv).1
    have := freq_best (fun i : Fin data.rows.length => rowPos bn'.valuesOf data.rows[i]) (v := v) (S := bn.parentsOf v) (k := u.cardOf v) (q := u.prob v)
      (fun a => prob_nonneg' u0 (sV ▸ hv) a) (fun a b hab => prob_congr (by unfold BayesNet.fam; rw [hp]; exact hab)) (List.nodup_cons.1 (s.fam_nodup v hv)).1
      (fun i => u1 v (sV ▸ hv) _ fun p hpm => by
        rw [hp] at hpm
        rw [(sp p (s.parents_mem v hv p hpm)).2]
        exact hlt p (s.parents_mem v hv p hpm) i)
      (fun i => by rw [(sp v hv).2]; exact hlt v hv i)
    refine this.trans (le_of_eq (Finset.prod_congr rfl fun i _ => ?_))
    rw [count_agreeing hf (hfam v hv) (fun u hu => hvals u (hfam v hv u hu)), count_agreeing hf (s.parents_mem v hv) (fun u hu => hvals u (s.parents_mem v hv u hu))]
  have hcl : (bn.V.map fun v => ∏ i : Fin data.rows.length,
      ((data.count bn'.valuesOf (v :: bn.parentsOf v) (rowPos bn'.valuesOf data.rows[i]) : ℚ) / data.count bn'.valuesOf (bn.parentsOf v) (rowPos bn'.valuesOf data.rows[i]))).prod =
      (data.rows.map fun row => (bn.V.map fun v => (data.count bn'.valuesOf (v :: bn.parentsOf v) (rowPos bn'.valuesOf row) : ℚ) /
            data.count bn'.valuesOf (bn.parentsOf v) (rowPos bn'.valuesOf row)).prod).prod := by
    rw [← prod_swap, ← Fin.prod_univ_fun_getElem data.rows]
    rfl
  refine ⟨hcl ▸ hbest, fun hN => ?_⟩
  have hd : (0 : ℚ) ≤ 1 - (data.rows.length : ℚ) / 100000 := by
    have : (data.rows.length : ℚ) ≤ 100000 := by exact_mod_cast hN
    linarith only [this, div_le_one_of_le₀ this (by norm_num)]
  refine (mul_le_mul_of_nonneg_left hbest (pow_nonneg hd _)).trans ?_
  rw [likelihood_fin, hV, pow_mul]
  have hpp : ∀ V : List ℕ, ((1 - (data.rows.length : ℚ) / 100000) ^ data.rows.length) ^ V.length = (V.map fun _ => ∏ _i : Fin data.rows.length, (1 - (data.rows.length : ℚ) / 100000)).prod := by
    intro V
    rw [Finset.prod_const, Finset.card_univ, Fintype.card_fin, List.map_const', List.prod_replicate]
  rw [hpp, ← List.prod_map_mul]
  refine list_prod_mono (fun v hv => ?_) fun v hv => ?_
  · exact mul_nonneg (Finset.prod_nonneg fun _ _ => hd) (Finset.prod_nonneg fun _ _ => div_nonneg (Nat.cast_nonneg _) (Nat.cast_nonneg _))
  · rw [← Finset.prod_mul_distrib]
    refine Finset.prod_le_prod (fun i _ => mul_nonneg hd (div_nonneg (Nat.cast_nonneg _) (Nat.cast_nonneg _))) fun i _ => ?_
    obtain ⟨e1, -, e2⟩ := hall v hv
    rw [e2 _ fun p hp => by rw [e1] at hp; exact hlt p (hfam v hv p hp) i, e1]
    rw [count_agreeing hf (hfam v hv) (fun u hu => hvals u (hfam v hv u hu)), count_agreeing hf (s.parents_mem v hv) (fun u hu => hvals u (s.parents_mem v hv u hu))]
    refine round_lower (agreeing_pos _ _ i) (agreeing_mono _ (fun u hu => List.mem_cons_of_mem _ hu) i) ?_
    have := Finset.card_le_univ (Finset.univ.filter fun j : Fin data.rows.length => ∀ u ∈ bn.parentsOf v, rowPos bn'.valuesOf data.rows[j] u = rowPos bn'.valuesOf data.rows[i] u)
    rw [Fintype.card_fin] at this
    refine le_trans (le_of_eq ?_) this
    unfold agreeing
    congr 1

/-- **C248.**  A combination that is rare among the rows with its parents' values - at most one in 200000 - gets probability exactly 0, so the learned network calls the data it
was learned from impossible. -/
theorem C248_rare (hE : HashOrder (ℕ × ℤ)) (hI : HashOrder ℤ) (bn : BayesNet ℕ ℤ) (s : bn.Shape) (data : Data)
    (hf : data.Fits bn.V) (nodes : Option (List ℕ)) (hns : (nodes.getD bn.V).Perm bn.V)
    (hcol : ∀ v ∈ bn.V, data.SameValues ((nodes.getD bn.V).idxOf v) v) (hEk : ∀ v ∈ bn.V, v ∈ bn.E.keys)
    (hpar : ∀ v ∈ bn.V, (bn.parentsOf v).Sublist (nodes.getD bn.V) ∧ ∀ u, u ∈ bn.parentsOf v ↔ u ∈ bn.V ∧ v ∈ bn.childrenOf u) :
    ∃ bn', mleEstimator hE hI bn data nodes = .ok bn' ∧ (∀ v ∈ bn.V, data.IsValues v (bn'.valuesOf v)) ∧
      ∀ row ∈ data.rows, ∀ v ∈ bn.V,
        200000 * data.count bn'.valuesOf (v :: bn.parentsOf v) (rowPos bn'.valuesOf row) ≤ data.count bn'.valuesOf (bn.parentsOf v) (rowPos bn'.valuesOf row) →
        bn'.joint (rowPos bn'.valuesOf row) = 0 ∧ bn'.likelihood (data.rows.map (rowPos bn'.valuesOf)) = 0 := by
  obtain ⟨bn', h1, hV, hE', w, hall⟩ := C66_mle_probabilities hE hI bn s data hf nodes hns hcol hEk hpar
  have hvals : ∀ v ∈ bn.V, data.IsValues v (bn'.valuesOf v) := fun v hv => (hall v hv).2.1
  have hcard : ∀ v, bn'.cardOf v = (bn'.valuesOf v).length := fun v => by unfold cardOf valuesOf; cases bn'.F.get? v <;> rfl
  refine ⟨bn', h1, hvals, fun row hrow v hv hr => ?_⟩
  obtain ⟨e1, -, e2⟩ := hall v hv
  have hp : bn'.prob v (rowPos bn'.valuesOf row) = 0 := by
    rw [e2 _ fun p hp => by
      rw [e1] at hp
      have : p ∈ bn.V := by
        rcases List.mem_cons.1 hp with rfl | hp
        · exact hv
        · exact s.parents_mem v hv p hp
      rw [hcard]
      exact (rowPos_get hf this (hvals p this) hrow).2, e1]
    generalize data.count bn'.valuesOf (v :: bn.parentsOf v) (rowPos bn'.valuesOf row) = m at hr ⊢
    generalize data.count bn'.valuesOf (bn.parentsOf v) (rowPos bn'.valuesOf row) = n at hr ⊢
    have hr' : (200000 : ℚ) * m ≤ n := by exact_mod_cast hr
    have hm : (0 : ℚ) ≤ m := Nat.cast_nonneg m
    have hx0 : (0 : ℚ) ≤ m / (n + 1 / 10000000) := div_nonneg hm (by linarith only [hr', hm])
    have hx : (m : ℚ) / (n + 1 / 10000000) < 1 / 200000 := by
      rw [div_lt_iff₀ (by linarith only [hr', hm])]
      linarith only [hr', hm]
    unfold roundAway rintAway
    rw [if_pos (mul_nonneg hx0 (by norm_num)), Int.floor_eq_zero_iff.2 ⟨by linarith only [hx0], by linarith only [hx]⟩]
    simp
  have hj : bn'.joint (rowPos bn'.valuesOf row) = 0 := by
    unfold joint
    exact List.prod_eq_zero (List.mem_map.2 ⟨v, by rw [hV]; exact hv, hp⟩)
  refine ⟨hj, ?_⟩
  unfold likelihood
  exact List.prod_eq_zero (List.mem_map.2 ⟨_, List.mem_map_of_mem hrow, hj⟩)

/-! ## A concrete case -/

/-- One node without a table. -/
def soloNet : BayesNet ℕ ℤ := ⟨[0], [(0, [])], [(0, ⟨[], [], []⟩)]⟩
/-- `n` times the value 0 and once the value 1. -/
def rareData (n : ℕ) : Data := ⟨1, [1] :: List.replicate n [0]⟩

theorem soloNet_shape : soloNet.Shape where
  nodup := by decide
  dom := fun v => by
    by_cases h : v = 0
    · subst h; decide
    · simp [soloNet, Dict.get?, h, Ne.symm h]
  fam_nodup := by decide
  parents_mem := by decide

theorem rareData_fits (n : ℕ) : (rareData n).Fits soloNet.V where
  ne := by simp [rareData]
  rect := fun row hr => by
    rcases List.mem_cons.1 hr with rfl | hr
    · rfl
    · rw [List.eq_of_mem_replicate hr]; rfl
  cols := fun v hv => by
    obtain rfl : v = 0 := by simpa [soloNet] using hv
    exact Nat.zero_lt_one

/-- The hypotheses of both theorems hold of `mle_estimator(soloNet, rareData n)`, and in the data with 200000 zeros the one is rare. -/
example (n : ℕ) : soloNet.Shape ∧ (rareData n).Fits soloNet.V ∧ ((none : Option (List ℕ)).getD soloNet.V).Perm soloNet.V ∧
    (∀ v ∈ soloNet.V, (rareData n).SameValues (((none : Option (List ℕ)).getD soloNet.V).idxOf v) v) ∧ (∀ v ∈ soloNet.V, v ∈ soloNet.E.keys) ∧
    (∀ v ∈ soloNet.V, (soloNet.parentsOf v).Sublist ((none : Option (List ℕ)).getD soloNet.V) ∧ ∀ u, u ∈ soloNet.parentsOf v ↔ u ∈ soloNet.V ∧ v ∈ soloNet.childrenOf u) :=
  ⟨soloNet_shape, rareData_fits n, .refl _, fun v hv => by
    obtain rfl : v = 0 := by simpa [soloNet] using hv
    exact fun x => Iff.rfl, by decide, fun v hv => by
    obtain rfl : v = 0 := by simpa [soloNet] using hv
    refine ⟨by decide, fun u => ⟨fun h => absurd h (by simp [soloNet, parentsOf, Dict.get?]), fun h => ?_⟩⟩
    obtain rfl : u = 0 := by simpa [soloNet] using h.1
    exact absurd h.2 (by decide)⟩

theorem rare_counts (vals : ℕ → List ℤ) (h : vals 0 = [0, 1]) (n : ℕ) : [1] ∈ (rareData n).rows ∧
    (rareData n).count vals (0 :: soloNet.parentsOf 0) (rowPos vals [1]) = 1 ∧ (rareData n).count vals (soloNet.parentsOf 0) (rowPos vals [1]) = n + 1 := by
  refine ⟨List.mem_cons_self, ?_⟩
  have e : soloNet.parentsOf 0 = [] := rfl
  rw [e]
  have p1 : (fun row => decide (Matches vals [0] (rowPos vals [1]) row)) = fun row : List ℤ => decide (row[0]? = some 1) := by
    funext row
    simp [Matches, rowPos, h]
  have p2 : (fun row => decide (Matches vals [] (rowPos vals [1]) row)) = fun _ : List ℤ => true := by
    funext row
    simp [Matches]
  unfold Data.count rareData
  rw [p1, p2, List.countP_cons, List.countP_replicate, List.countP_cons, List.countP_replicate]
  simp

example (vals : ℕ → List ℤ) (h : vals 0 = [0, 1]) : 200000 * (rareData 200000).count vals (0 :: soloNet.parentsOf 0) (rowPos vals [1]) ≤
    (rareData 200000).count vals (soloNet.parentsOf 0) (rowPos vals [1]) := by
  rw [(rare_counts vals h 200000).2.1, (rare_counts vals h 200000).2.2]
  decide

end PyBN
