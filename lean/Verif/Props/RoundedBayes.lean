import Verif.Proofs.RoundedBayes2
import Verif.Props.RoundedLearn

/-!
# C274: floating point and `bayes_estimator`
-/

set_option linter.unusedSectionVars false

namespace PyBN
open BayesNet

/-- Adding from left to right, each addition rounded, is a summation. -/
theorem sumsTo_foldl {u : ℚ} {rnd : ℚ → ℚ} (r : Rounds u rnd) : SumsTo u (fun l => l.foldl (fun s x => rnd (s + x)) 0) := by
  intro l hl
  have := r.near_fold l 0 0 0 hl (Near.refl u (le_refl 0))
  rwa [Nat.zero_add, zero_add] at this

/-- **C274**: in rounded arithmetic with relative error `u`, with any summation that rounds at most once per summand, `bayes_estimator` with a positive equivalent sample size returns
whenever it does in exact arithmetic, with the same structure and values; every learned probability is within `1/200000`, plus the error of `m = rows + card + 2` roundings, of the exact
quotient; and it is the number nearest to the exactly learned one unless the exact quotient lies within the error of those roundings of a rounding boundary. -/
theorem C274_bayes_rounded {u : ℚ} {rnd : ℚ → ℚ} (r : Rounds u rnd) {fsum : List ℚ → ℚ} (hs : SumsTo u fsum) (hE : HashOrder (ℕ × ℤ)) (hI : HashOrder ℤ)
    (bn : BayesNet ℕ ℤ) (s : bn.Shape) (data : Data)
    (hf : data.Fits bn.V) (nodes : Option (List ℕ)) (hns : (nodes.getD bn.V).Perm bn.V)
    (hcol : ∀ v ∈ bn.V, data.SameValues ((nodes.getD bn.V).idxOf v) v) (equiv : Option ℚ) (he : ∀ e ∈ equiv, 0 < e) :
    ∃ b b', bayesEstimator hE hI bn data equiv nodes = .ok b ∧ bayesEstimatorR rnd fsum hE hI bn data equiv nodes = .ok b' ∧ b'.V = bn.V ∧ b'.E = bn.E ∧ b'.WF ∧
      ∀ v ∈ bn.V, b'.parentsOf v = bn.parentsOf v ∧ b'.valuesOf v = b.valuesOf v ∧ (b'.cptOf v).length = (b.cptOf v).length ∧
        ∀ a, InRange b.cardOf (v :: bn.parentsOf v) a →
          ∀ q err : ℚ, q = (equiv.getD data.rows.length / (b.cptOf v).length + data.count b.valuesOf (v :: bn.parentsOf v) a) /
              (b.cardOf v * (equiv.getD data.rows.length / (b.cptOf v).length) + data.count b.valuesOf (bn.parentsOf v) a) →
            err = ((1 + u) / (1 - u)) ^ (data.rows.length + b.cardOf v + 2) - 1 →
            |b'.prob v a - q| ≤ 1 / 200000 + err + u * (2 + err) ∧
            ((∀ n : ℕ, err < |q - (n + 1 / 2) / 10 ^ 5|) → b'.prob v a = rnd (b.prob v a)) := by
  obtain ⟨b, h1, hV1, _, w, h5⟩ := C67_bayes_probabilities hE hI bn s data hf nodes hns hcol equiv he
  obtain ⟨b', h1', hV, hE', w', hval, hp, htab⟩ := bayesR_ok r hs hE hI bn s data hf nodes hns equiv he
  have hvv : ∀ v ∈ bn.V, data.IsValues v (b'.valuesOf v) := fun v hv => (hval v hv).same (hcol v hv)
  have hfam : ∀ v ∈ bn.V, ∀ u ∈ v :: bn.parentsOf v, u ∈ bn.V := by
    intro v hv u hu
    rcases List.mem_cons.1 hu with rfl | hu
    · exact hv
    · exact s.parents_mem v hv u hu
  have hvb : ∀ v ∈ bn.V, b'.valuesOf v = b.valuesOf v := fun v hv => (hvv v hv).unique (h5 v hv).2.1
  have hcb : ∀ v ∈ bn.V, b'.cardOf v = b.cardOf v := fun v hv => by rw [card_eq_len, card_eq_len]; show List.length _ = List.length _; rw [hvb v hv]
  have hlen : ∀ v ∈ bn.V, (b'.cptOf v).length = (b.cptOf v).length := by
    intro v hv
    rw [(htab v hv).1, w.cpt_len v (by rw [hV1]; exact hv), (h5 v hv).1]
    exact congrArg _ (List.map_congr_left fun u hu => hcb u (hfam v hv u hu))
  refine ⟨b, b', h1, h1', hV, hE', w', fun v hv => ⟨hp v, hvb v hv, hlen v hv, fun a ha q err hq herr => ?_⟩⟩
  have ha' : InRange b'.cardOf (v :: bn.parentsOf v) a := fun u hu => by rw [hcb u (hfam v hv u hu)]; exact ha u hu
  have hc : ∀ fam, (∀ u ∈ fam, u ∈ bn.V) → data.count b'.valuesOf fam a = data.count b.valuesOf fam a := by
    intro fam hfm
    refine List.countP_congr fun row _ => ?_
    rw [decide_eq_true_eq, decide_eq_true_eq]
    unfold Matches
    exact forall₂_congr fun u hu => by rw [hvb u (hfm u hu)]
  obtain ⟨y, z1, y0, yq⟩ := (htab v hv).2 a ha'
  rw [count_eq hf (hfam v hv) fun u hu => hvv u (hfam v hv u hu),
    count_eq hf (s.parents_mem v hv) fun u hu => hvv u (s.parents_mem v hv u hu), hc _ (hfam v hv), hc _ (s.parents_mem v hv), hlen v hv, hcb v hv, ← hq] at yq
  have hz : b'.prob v a = rnd (roundAway 5 y) := by
    unfold BayesNet.prob
    rw [hp, z1, Option.getD_some]
  obtain ⟨p1, _, p3⟩ := h5 v hv
  have hpq := p3 a (by rw [p1]; exact ha)
  rw [p1, ← hq] at hpq
  have herr' : err = divErr u (data.rows.length + b.cardOf v + 2) := herr
  rw [← herr'] at yq
  have hw : 0 ≤ err := by rw [herr']; exact divErr_nonneg r.nonneg r.lt_one _
  have hepos : 0 < equiv.getD (data.rows.length : ℚ) := by
    cases equiv with
    | none => simp only [Option.getD_none]; exact_mod_cast List.length_pos_of_ne_nil hf.ne
    | some x => exact he x rfl
  have hvB : v ∈ b.V := by rw [hV1]; exact hv
  have hcp : (1 : ℚ) ≤ b.cardOf v := by exact_mod_cast w.card_pos hvB
  have hlp : (0 : ℚ) < (b.cptOf v).length := by
    have : 0 < (b.cptOf v).length := by
      rw [w.cpt_len v hvB]
      apply List.prod_pos
      intro c hc
      obtain ⟨p, hp', rfl⟩ := List.mem_map.1 hc
      exact w.card_pos (w.fam_mem hvB p hp')
    exact_mod_cast this
  have hpr : (0 : ℚ) < equiv.getD data.rows.length / (b.cptOf v).length := div_pos hepos hlp
  have hq0 : 0 ≤ q := by rw [hq]; positivity
  have hq1 : q ≤ 1 := by
    rw [hq, div_le_one (by positivity)]
    have : (data.count b.valuesOf (v :: bn.parentsOf v) a : ℚ) ≤ data.count b.valuesOf (bn.parentsOf v) a := by
      exact_mod_cast List.countP_mono_left fun row _ h => by
        rw [decide_eq_true_eq] at h ⊢
        exact fun u hu => h u (List.mem_cons_of_mem _ hu)
    nlinarith
  rw [hz, hpq]
  refine ⟨?_, fun hb => by rw [roundAway_stable hq0 y0 yq hb]⟩
  have r1 := roundAway_close 5 y
  have r2 := r.err (roundAway 5 y)
  rw [abs_of_nonneg (roundAway_nonneg y0)] at r2
  have a1 := abs_le.1 r1
  have a3 := abs_le.1 yq
  have hR : roundAway 5 y ≤ 2 + err := by
    have := a1.2
    norm_num at this
    linarith [a3.2]
  have r3 : u * roundAway 5 y ≤ u * (2 + err) := mul_le_mul_of_nonneg_left hR r.nonneg
  have a2 := abs_le.1 (r2.trans r3)
  norm_num at a1
  rw [abs_le]
  constructor <;> linarith [a1.1, a1.2, a2.1, a2.2, a3.1, a3.2]

/-- **C274** (doubles): with 53 significant bits and a million rows or so the error is at most `1/200000 + 2⁻²⁹`. -/
theorem C274_double {fsum : List ℚ → ℚ} (hs : SumsTo ((1 / 2) ^ 53) fsum) (hE : HashOrder (ℕ × ℤ)) (hI : HashOrder ℤ)
    (bn : BayesNet ℕ ℤ) (s : bn.Shape) (data : Data)
    (hf : data.Fits bn.V) (nodes : Option (List ℕ)) (hns : (nodes.getD bn.V).Perm bn.V)
    (hcol : ∀ v ∈ bn.V, data.SameValues ((nodes.getD bn.V).idxOf v) v) (equiv : Option ℚ) (he : ∀ e ∈ equiv, 0 < e) :
    ∃ b b', bayesEstimator hE hI bn data equiv nodes = .ok b ∧ bayesEstimatorR (flBin 53) fsum hE hI bn data equiv nodes = .ok b' ∧
      ∀ v ∈ bn.V, data.rows.length + b.cardOf v + 2 ≤ 2 ^ 20 → ∀ a, InRange b.cardOf (v :: bn.parentsOf v) a →
        |b'.prob v a - (equiv.getD data.rows.length / (b.cptOf v).length + data.count b.valuesOf (v :: bn.parentsOf v) a) /
              (b.cardOf v * (equiv.getD data.rows.length / (b.cptOf v).length) + data.count b.valuesOf (bn.parentsOf v) a)| ≤ 1 / 200000 + 1 / 2 ^ 29 := by
  obtain ⟨b, b', h1, h2, _, _, _, h5⟩ := C274_bayes_rounded (C166_binary_rounding 53 (by norm_num)) hs hE hI bn s data hf nodes hns hcol equiv he
  refine ⟨b, b', h1, h2, fun v hv hm a ha => ?_⟩
  have h := ((h5 v hv).2.2.2 a ha _ _ rfl rfl).1
  refine h.trans ?_
  have hT : (((1 : ℚ) + (1 / 2) ^ 53) / (1 - (1 / 2) ^ 53)) ^ (data.rows.length + b.cardOf v + 2) - 1 ≤ 1 / 2 ^ 30 := by
    have t1 : (1 : ℚ) ≤ (1 + (1 / 2) ^ 53) / (1 - (1 / 2) ^ 53) := by norm_num
    have t2 : ((1 : ℚ) + (1 / 2) ^ 53) / (1 - (1 / 2) ^ 53) ≤ 1 + 1 / 2 ^ 51 := by norm_num
    have e1 : (((1 : ℚ) + (1 / 2) ^ 53) / (1 - (1 / 2) ^ 53)) ^ (data.rows.length + b.cardOf v + 2) ≤ (1 + 1 / 2 ^ 51) ^ (2 ^ 20 : ℕ) :=
      (pow_le_pow_right₀ t1 hm).trans (pow_le_pow_left₀ (by linarith) t2 _)
    have e2 := one_add_mul_le_pow (a := -(1 / 2 ^ 51 : ℚ)) (by norm_num) (2 ^ 20)
    have e3 : ((1 : ℚ) + 1 / 2 ^ 51) ^ (2 ^ 20 : ℕ) * (1 + -(1 / 2 ^ 51)) ^ (2 ^ 20 : ℕ) ≤ 1 := by
      rw [← mul_pow]
      exact pow_le_one₀ (by norm_num) (by norm_num)
    set z : ℚ := (1 + 1 / 2 ^ 51) ^ (2 ^ 20 : ℕ)
    have z0 : 0 ≤ z := by positivity
    have e4 := (mul_le_mul_of_nonneg_left e2 z0).trans e3
    norm_num at e4 ⊢
    linarith
  set w : ℚ := (((1 : ℚ) + (1 / 2) ^ 53) / (1 - (1 / 2) ^ 53)) ^ (data.rows.length + b.cardOf v + 2) - 1
  have : ((1 : ℚ) / 2) ^ 53 * (2 + w) ≤ (1 / 2) ^ 53 * (2 + 1 / 2 ^ 30) := mul_le_mul_of_nonneg_left (by linarith) (by positivity)
  norm_num at this hT ⊢
  linarith

/-- The hypotheses hold of `pairNet` and `pairData`; with doubles, added from left to right, and an equivalent sample size of 12. -/
theorem C274_example : Rounds ((1 / 2) ^ 53) (flBin 53) ∧ pairNet.Shape ∧ pairData.Fits pairNet.V ∧ (∀ v ∈ pairNet.V, pairNet.V.idxOf v = v) ∧
    (bayesEstimatorR (flBin 53) (fun l => l.foldl (fun s x => flBin 53 (s + x)) 0) .id .id pairNet pairData (some 12) none).okAnd (fun b =>
      (bayesEstimator .id .id pairNet pairData (some 12) none).okAnd (fun b0 =>
        decide (b0.cptOf 0 = [53333 / 100000, 46667 / 100000] ∧ b.cptOf 0 = (b0.cptOf 0).map (flBin 53) ∧ b.cptOf 1 = (b0.cptOf 1).map (flBin 53)))) = true :=
  ⟨C166_binary_rounding 53 (by norm_num), pairNet_shape, ⟨by decide, by decide, by decide⟩, by decide +kernel, by decide +kernel⟩

end PyBN
