import Verif.Props.RoundedBayes

/-!
# C275, C276: the tables learned in floating point are distributions, up to rounding
-/

set_option linter.unusedSectionVars false

namespace PyBN
open BayesNet

/-- **C275**: with a positive equivalent sample size, in rounded arithmetic of relative error `u` and with any summation that rounds at most once per summand, every learned probability is
non-negative and at most `1 + E`, and for every assignment of the parents the learned probabilities of a node sum to one within `card * E`, where `E` is `1/200000` plus the error of
`rows + card + 2` roundings: also for combinations of parent values that no row shows, and whatever columns the nodes are read from. -/
theorem C275_bayes_rounded_sums {u : ℚ} {rnd : ℚ → ℚ} (r : Rounds u rnd) {fsum : List ℚ → ℚ} (hs : SumsTo u fsum) (hE : HashOrder (ℕ × ℤ)) (hI : HashOrder ℤ)
    (bn : BayesNet ℕ ℤ) (s : bn.Shape) (data : Data) (hf : data.Fits bn.V) (nodes : Option (List ℕ)) (hns : (nodes.getD bn.V).Perm bn.V)
    (equiv : Option ℚ) (he : ∀ e ∈ equiv, 0 < e) :
    ∃ b, bayesEstimatorR rnd fsum hE hI bn data equiv nodes = .ok b ∧ b.V = bn.V ∧ b.WF ∧
      ∀ v ∈ bn.V, ∀ err E : ℚ, err = ((1 + u) / (1 - u)) ^ (data.rows.length + b.cardOf v + 2) - 1 → E = 1 / 200000 + err + u * (2 + err) →
        ∀ a, InRange b.cardOf (b.parentsOf v) a →
          (∀ x < b.cardOf v, 0 ≤ b.prob v (a.upd v x) ∧ b.prob v (a.upd v x) ≤ 1 + E) ∧
          |∑ x ∈ Finset.range (b.cardOf v), b.prob v (a.upd v x) - 1| ≤ b.cardOf v * E := by
  obtain ⟨b, h1, hV, _, w, hval, hp, htab⟩ := bayesR_ok r hs hE hI bn s data hf nodes hns equiv he
  refine ⟨b, h1, hV, w, fun v hv err E herr hEq a ha => ?_⟩
  have hvB : v ∈ b.V := by rw [hV]; exact hv
  rw [hp] at ha
  have hnd := List.nodup_cons.1 (s.fam_nodup v hv)
  obtain ⟨hlen, hent⟩ := htab v hv
  have hepos : 0 < equiv.getD (data.rows.length : ℚ) := by
    cases equiv with
    | none => simp only [Option.getD_none]; exact_mod_cast List.length_pos_of_ne_nil hf.ne
    | some x => exact he x rfl
  have hcn := w.card_pos hvB
  have hcp : (1 : ℚ) ≤ b.cardOf v := by exact_mod_cast hcn
  have hlp : (0 : ℚ) < (b.cptOf v).length := by
    have : 0 < (b.cptOf v).length := by
      rw [w.cpt_len v hvB]
      apply List.prod_pos
      intro c hc
      obtain ⟨p, hp', rfl⟩ := List.mem_map.1 hc
      exact w.card_pos (w.fam_mem hvB p hp')
    exact_mod_cast this
  set e0 : ℚ := equiv.getD data.rows.length / (b.cptOf v).length with he0
  have hpr : 0 < e0 := div_pos hepos hlp
  set n : ℕ → ℚ := fun x => ((data.rows.countP fun row => decide (MatchesOrLast b.valuesOf (v :: bn.parentsOf v) (a.upd v x) row) : ℕ) : ℚ) with hn
  set P : ℚ := ((data.rows.countP fun row => decide (MatchesOrLast b.valuesOf (bn.parentsOf v) a row) : ℕ) : ℚ) with hP
  have hP0 : 0 ≤ P := Nat.cast_nonneg _
  have hn0 : ∀ x, 0 ≤ n x := fun x => Nat.cast_nonneg _
  have hS : 0 < b.cardOf v * e0 + P := by positivity
  have hcard : (b.valuesOf v).length = b.cardOf v := by rw [card_eq_len]
  have hsum : ∑ x ∈ Finset.range (b.cardOf v), n x = P := by
    rw [← hcard]
    exact count_split' hnd.1 (w.values_ne v hvB) data.rows a fun row hrow => by rw [hf.rect row hrow]; exact hf.cols v hv
  have hnP : ∀ x < b.cardOf v, n x ≤ P := fun x hx => by
    rw [← hsum]; exact Finset.single_le_sum (fun i _ => hn0 i) (Finset.mem_range.2 hx)
  have hw : 0 ≤ err := by rw [herr]; exact divErr_nonneg r.nonneg r.lt_one _
  have key : ∀ x < b.cardOf v, 0 ≤ b.prob v (a.upd v x) ∧ |b.prob v (a.upd v x) - (e0 + n x) / (b.cardOf v * e0 + P)| ≤ E := by
    intro x hx
    have hin : InRange b.cardOf (v :: bn.parentsOf v) (a.upd v x) := by
      intro u hu
      by_cases h : u = v
      · subst h; rw [Asg.upd_self]; exact hx
      · rw [Asg.upd_ne _ _ h]; exact ha u ((List.mem_cons.1 hu).resolve_left h)
    obtain ⟨y, z1, y0, yq⟩ := hent _ hin
    rw [countP_upd hnd.1] at yq
    have herr' : err = divErr u (data.rows.length + b.cardOf v + 2) := herr
    rw [← herr'] at yq
    have hz : b.prob v (a.upd v x) = rnd (roundAway 5 y) := by
      unfold BayesNet.prob
      rw [hp, z1, Option.getD_some]
    have hq1 : (e0 + n x) / (b.cardOf v * e0 + P) ≤ 1 := by
      rw [div_le_one hS]
      nlinarith [hnP x hx]
    have yq' : |y - (e0 + n x) / (b.cardOf v * e0 + P)| ≤ err := yq
    rw [hz]
    refine ⟨(r.near (roundAway_nonneg y0)).nonneg r.lt_one, ?_⟩
    have r1 := roundAway_close 5 y
    have r2 := r.err (roundAway 5 y)
    rw [abs_of_nonneg (roundAway_nonneg y0)] at r2
    have a1 := abs_le.1 r1
    have a3 := abs_le.1 yq'
    have hR : roundAway 5 y ≤ 2 + err := by
      have := a1.2
      norm_num at this
      linarith [a3.2]
    have r3 : u * roundAway 5 y ≤ u * (2 + err) := mul_le_mul_of_nonneg_left hR r.nonneg
    have a2 := abs_le.1 (r2.trans r3)
    norm_num at a1
    rw [abs_le, hEq]
    constructor <;> linarith [a1.1, a1.2, a2.1, a2.2, a3.1, a3.2]
  have hone : ∑ x ∈ Finset.range (b.cardOf v), (e0 + n x) / (b.cardOf v * e0 + P) = 1 := by
    rw [← Finset.sum_div, Finset.sum_add_distrib, hsum, Finset.sum_const, Finset.card_range, nsmul_eq_mul, div_self hS.ne']
  constructor
  · intro x hx
    obtain ⟨k1, k2⟩ := key x hx
    have hq1 : (e0 + n x) / (b.cardOf v * e0 + P) ≤ 1 := by
      rw [div_le_one hS]
      nlinarith [hnP x hx]
    exact ⟨k1, by linarith [(abs_le.1 k2).2]⟩
  · rw [← hone, ← Finset.sum_sub_distrib]
    refine (Finset.abs_sum_le_sum_abs _ _).trans ?_
    refine (Finset.sum_le_sum fun x hx => (key x (Finset.mem_range.1 hx)).2).trans ?_
    rw [Finset.sum_const, Finset.card_range, nsmul_eq_mul]

/-- The hypotheses hold of `pairNet` and `pairData` (C274); the root's learned doubles, with an equivalent sample size of 12. -/
theorem C275_example : Rounds ((1 / 2) ^ 53) (flBin 53) ∧ pairNet.Shape ∧ pairData.Fits pairNet.V ∧
    (bayesEstimatorR (flBin 53) (fun l => l.foldl (fun s x => flBin 53 (s + x)) 0) .id .id pairNet pairData (some 12) none).okAnd
      (fun b => decide (b.cptOf 0 = [flBin 53 (53333 / 100000), flBin 53 (46667 / 100000)] ∧ b.prob 0 (fun _ => 1) = flBin 53 (46667 / 100000))) = true :=
  ⟨C166_binary_rounding 53 (by norm_num), pairNet_shape, ⟨by decide, by decide, by decide⟩, by decide +kernel⟩

/-- **C276**: in rounded arithmetic of relative error `u`, every probability `mle_estimator` learns is non-negative and at most `1 + E`, and for every assignment of the parents the
learned probabilities of a node are all zero or sum to one within `card * E + 1/10000000`, where `E` is `1/200000` plus the error of a few roundings. -/
theorem C276_mle_rounded_sums {u : ℚ} {rnd : ℚ → ℚ} (r : Rounds u rnd) (hE : HashOrder (ℕ × ℤ)) (hI : HashOrder ℤ) (bn : BayesNet ℕ ℤ) (s : bn.Shape) (data : Data)
    (hf : data.Fits bn.V) (nodes : Option (List ℕ)) (hns : (nodes.getD bn.V).Perm bn.V) (hEk : ∀ v ∈ bn.V, v ∈ bn.E.keys)
    (hpar : ∀ v ∈ bn.V, (bn.parentsOf v).Sublist (nodes.getD bn.V) ∧ ∀ u, u ∈ bn.parentsOf v ↔ u ∈ bn.V ∧ v ∈ bn.childrenOf u) :
    ∃ b, mleEstimatorR rnd hE hI bn data nodes = .ok b ∧ b.V = bn.V ∧
      ∀ v ∈ bn.V, b.parentsOf v = bn.parentsOf v ∧ ∀ E : ℚ, E = 1 / 200000 + (((1 + u) / (1 - u)) ^ 2 - 1) + u * (2 + (((1 + u) / (1 - u)) ^ 2 - 1)) →
        ∀ a, InRange b.cardOf (b.parentsOf v) a →
          (∀ x < b.cardOf v, 0 ≤ b.prob v (a.upd v x) ∧ b.prob v (a.upd v x) ≤ 1 + E) ∧
          (|∑ x ∈ Finset.range (b.cardOf v), b.prob v (a.upd v x) - 1| ≤ b.cardOf v * E + 1 / 10000000 ∨ ∀ x < b.cardOf v, b.prob v (a.upd v x) = 0) := by
  obtain ⟨b, h1, hV, _, _, hval, hp, htab⟩ := mleR_ok r hE hI bn s data hf nodes hns hEk
  have hnd' : (nodes.getD bn.V).Nodup := hns.nodup_iff.2 s.nodup
  have hpe : ∀ v ∈ bn.V, b.parentsOf v = bn.parentsOf v := by
    intro v hv
    obtain ⟨s1, m1⟩ := hp v hv
    obtain ⟨s2, m2⟩ := hpar v hv
    refine sublist_ext hnd' s1 s2 fun p => ?_
    rw [m1, m2]
    apply and_congr_right
    intro _
    unfold childrenOf Arc
    constructor
    · rintro ⟨l, hl, hvl⟩; rw [hl]; exact hvl
    · intro h
      cases hg : Dict.get? bn.E p with
      | none => rw [hg] at h; cases h
      | some l => rw [hg] at h; exact ⟨l, rfl, h⟩
  refine ⟨b, h1, hV, fun v hv => ⟨hpe v hv, fun E hEq a ha => ?_⟩⟩
  rw [hpe v hv] at ha
  have hnd := List.nodup_cons.1 (s.fam_nodup v hv)
  obtain ⟨hlen, hent⟩ := htab v hv
  have hcard : (b.valuesOf v).length = b.cardOf v := by rw [card_eq_len]
  set n : ℕ → ℚ := fun x => ((data.rows.countP fun row => decide (MatchesOrLast b.valuesOf (v :: bn.parentsOf v) (a.upd v x) row) : ℕ) : ℚ) with hn
  set k : ℕ := data.rows.countP fun row => decide (MatchesOrLast b.valuesOf (bn.parentsOf v) a row) with hk
  have hn0 : ∀ x, 0 ≤ n x := fun x => Nat.cast_nonneg _
  have hk0 : (0 : ℚ) ≤ k := Nat.cast_nonneg _
  have hsum : ∑ x ∈ Finset.range (b.cardOf v), n x = k := by
    rw [← hcard]
    exact count_split' hnd.1 (hval v hv).2 data.rows a fun row hrow => by rw [hf.rect row hrow]; exact hf.cols v hv
  have hnP : ∀ x < b.cardOf v, n x ≤ k := fun x hx => by
    rw [← hsum]; exact Finset.single_le_sum (fun i _ => hn0 i) (Finset.mem_range.2 hx)
  have hval' : ∀ x < b.cardOf v, b.prob v (a.upd v x) = flShare rnd (n x) k := by
    intro x hx
    have hin : InRange b.cardOf (v :: bn.parentsOf v) (a.upd v x) := by
      intro u hu
      by_cases h : u = v
      · subst h; rw [Asg.upd_self]; exact hx
      · rw [Asg.upd_ne _ _ h]; exact ha u ((List.mem_cons.1 hu).resolve_left h)
    have z1 := hent _ hin
    rw [countP_upd hnd.1] at z1
    unfold BayesNet.prob
    rw [hpe v hv, z1, Option.getD_some]
  have hw := learnErr_nonneg r.nonneg r.lt_one
  have hS : (0 : ℚ) < k + 1 / 10000000 := by positivity
  have key : ∀ x < b.cardOf v, 0 ≤ b.prob v (a.upd v x) ∧ |b.prob v (a.upd v x) - n x / (k + 1 / 10000000)| ≤ E := by
    intro x hx
    rw [hval' x hx]
    obtain ⟨y0, yq⟩ := quotient_close r (hn0 x) (hnP x hx)
    have hq1 : n x / (k + 1 / 10000000) ≤ 1 := by
      rw [div_le_one hS]; linarith [hnP x hx]
    unfold flShare
    set y : ℚ := rnd (rnd (n x) / flDen rnd k)
    refine ⟨(r.near (roundAway_nonneg y0)).nonneg r.lt_one, ?_⟩
    have r1 := roundAway_close 5 y
    have r2 := r.err (roundAway 5 y)
    rw [abs_of_nonneg (roundAway_nonneg y0)] at r2
    have a1 := abs_le.1 r1
    have a3 := abs_le.1 yq
    have hR : roundAway 5 y ≤ 2 + learnErr u := by
      have := a1.2
      norm_num at this
      linarith [a3.2]
    have r3 : u * roundAway 5 y ≤ u * (2 + learnErr u) := mul_le_mul_of_nonneg_left hR r.nonneg
    have a2 := abs_le.1 (r2.trans r3)
    have hEq' : E = 1 / 200000 + learnErr u + u * (2 + learnErr u) := hEq
    norm_num at a1
    rw [abs_le, hEq']
    constructor <;> linarith [a1.1, a1.2, a2.1, a2.2, a3.1, a3.2]
  have hone : ∑ x ∈ Finset.range (b.cardOf v), n x / (k + 1 / 10000000) = k / (k + 1 / 10000000) := by
    rw [← Finset.sum_div, hsum]
  constructor
  · intro x hx
    obtain ⟨k1, k2⟩ := key x hx
    have hq1 : n x / (k + 1 / 10000000) ≤ 1 := by
      rw [div_le_one hS]; linarith [hnP x hx]
    exact ⟨k1, by linarith [(abs_le.1 k2).2]⟩
  · by_cases hkz : k = 0
    · right
      intro x hx
      have hnx : n x = 0 := le_antisymm (by have := hnP x hx; rw [hkz] at this; simpa using this) (hn0 x)
      have hr0 : rnd 0 = 0 := by
        have := r.err 0
        simpa using this
      rw [hval' x hx, hnx]
      unfold flShare
      rw [hr0, zero_div, hr0]
      have : roundAway 5 0 = 0 := by decide +kernel
      rw [this, hr0]
    · left
      have hk1 : (1 : ℚ) ≤ k := by exact_mod_cast Nat.one_le_iff_ne_zero.2 hkz
      have d1 : |∑ x ∈ Finset.range (b.cardOf v), b.prob v (a.upd v x) - k / (k + 1 / 10000000)| ≤ b.cardOf v * E := by
        rw [← hone, ← Finset.sum_sub_distrib]
        refine (Finset.abs_sum_le_sum_abs _ _).trans ?_
        refine (Finset.sum_le_sum fun x hx => (key x (Finset.mem_range.1 hx)).2).trans ?_
        rw [Finset.sum_const, Finset.card_range, nsmul_eq_mul]
      have d2 : (k : ℚ) / (k + 1 / 10000000) ≤ 1 := by rw [div_le_one hS]; linarith
      have d3 : 1 - 1 / 10000000 ≤ (k : ℚ) / (k + 1 / 10000000) := by rw [le_div_iff₀ hS]; nlinarith
      have := abs_le.1 d1
      rw [abs_le]
      constructor <;> linarith [this.1, this.2]

/-- The hypotheses hold of `pairNet` and `pairData` (C273); a parent value no row shows would give zeros, here both values occur and the two doubles are learned. -/
theorem C276_example : Rounds ((1 / 2) ^ 53) (flBin 53) ∧ pairNet.Shape ∧ pairData.Fits pairNet.V ∧ (∀ v ∈ pairNet.V, v ∈ pairNet.E.keys) ∧
    (mleEstimatorR (flBin 53) .id .id pairNet pairData none).okAnd
      (fun b => decide (b.prob 0 (fun _ => 0) = flBin 53 (66667 / 100000) ∧ b.prob 0 (fun _ => 1) = flBin 53 (33333 / 100000))) = true :=
  ⟨C166_binary_rounding 53 (by norm_num), pairNet_shape, ⟨by decide, by decide, by decide⟩, by decide +kernel, by decide +kernel⟩

end PyBN
