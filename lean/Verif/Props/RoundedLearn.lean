import Verif.Proofs.RoundedLearn
import Verif.Props.Rounded
import Verif.Props.LearnState

/-!
# C273: floating point and `mle_estimator`
-/

set_option linter.unusedSectionVars false

namespace PyBN
open BayesNet

/-- The relative error of a learned quotient: four roundings. -/
def learnErr (u : ℚ) : ℚ := ((1 + u) / (1 - u)) ^ 2 - 1

theorem learnErr_nonneg {u : ℚ} (h0 : 0 ≤ u) (h1 : u < 1) : 0 ≤ learnErr u := by
  unfold learnErr
  have : 1 ≤ (1 + u) / (1 - u) := by rw [le_div_iff₀ (by linarith)]; linarith
  have := one_le_pow₀ this (n := 2)
  linarith

/-- The quotient before it is rounded to five decimals. -/
theorem quotient_close {u : ℚ} {rnd : ℚ → ℚ} (r : Rounds u rnd) {x s : ℚ} (hx : 0 ≤ x) (hxs : x ≤ s) :
    0 ≤ rnd (rnd x / flDen rnd s) ∧ |rnd (rnd x / flDen rnd s) - x / (s + 1 / 10000000)| ≤ learnErr u := by
  have hu := r.lt_one
  have h0 := r.nonneg
  have hs : 0 ≤ s := hx.trans hxs
  have nx := r.near hx
  have nd : Near u 2 (s + 1 / 10000000) (flDen rnd s) := ((r.near hs).add (r.near (x := 1 / 10000000) (by norm_num))).trans h0 hu (r.near (by
    have := (r.near hs).nonneg hu
    have := (r.near (x := 1 / 10000000) (by norm_num)).nonneg hu
    linarith))
  have hd := flDen_pos r hs
  have hS : 0 < s + 1 / 10000000 := by linarith
  have hrx := nx.nonneg hu
  have nq := r.near (div_nonneg hrx hd.le)
  have hy := nq.nonneg hu
  refine ⟨hy, ?_⟩
  set y := rnd (rnd x / flDen rnd s) with hydef
  set q := x / (s + 1 / 10000000) with hq
  have hq0 : 0 ≤ q := div_nonneg hx hS.le
  have hq1 : q ≤ 1 := by rw [hq, div_le_one hS]; linarith
  obtain ⟨_, x1, x2⟩ := nx
  obtain ⟨_, d1, d2⟩ := nd
  obtain ⟨_, y1, y2⟩ := nq
  rw [pow_one] at x1 x2 y1 y2
  have m0 : 0 < 1 - u := by linarith
  have p0 : 0 < 1 + u := by linarith
  have hxq : x = q * (s + 1 / 10000000) := by rw [hq]; field_simp
  have up : rnd x / flDen rnd s ≤ (1 + u) / (1 - u) ^ 2 * q := by
    rw [div_le_iff₀ hd]
    calc rnd x ≤ (1 + u) * x := x2
      _ = (1 + u) / (1 - u) ^ 2 * q * ((1 - u) ^ 2 * (s + 1 / 10000000)) := by rw [hxq]; field_simp
      _ ≤ _ := mul_le_mul_of_nonneg_left d1 (by positivity)
  have lo : (1 - u) / (1 + u) ^ 2 * q ≤ rnd x / flDen rnd s := by
    rw [le_div_iff₀ hd]
    calc (1 - u) / (1 + u) ^ 2 * q * flDen rnd s ≤ (1 - u) / (1 + u) ^ 2 * q * ((1 + u) ^ 2 * (s + 1 / 10000000)) := mul_le_mul_of_nonneg_left d2 (by positivity)
      _ = (1 - u) * x := by rw [hxq]; field_simp
      _ ≤ _ := x1
  set t := (1 + u) / (1 - u) with ht
  have ht1 : 1 ≤ t := by rw [ht, le_div_iff₀ m0]; linarith
  have up' : y ≤ t ^ 2 * q := by
    calc y ≤ (1 + u) * (rnd x / flDen rnd s) := y2
      _ ≤ (1 + u) * ((1 + u) / (1 - u) ^ 2 * q) := mul_le_mul_of_nonneg_left up p0.le
      _ = t ^ 2 * q := by rw [ht]; field_simp
  have lo' : q ≤ t ^ 2 * y := by
    calc q = t ^ 2 * ((1 - u) * ((1 - u) / (1 + u) ^ 2 * q)) := by rw [ht]; field_simp
      _ ≤ t ^ 2 * ((1 - u) * (rnd x / flDen rnd s)) := by gcongr
      _ ≤ t ^ 2 * y := by gcongr
  have ht2 : 1 ≤ t ^ 2 := one_le_pow₀ ht1
  unfold learnErr
  rw [abs_le]
  constructor
  · rcases le_total q y with h | h
    · nlinarith
    · have : q - y ≤ (t ^ 2 - 1) * y := by linarith
      nlinarith
  · have : y - q ≤ (t ^ 2 - 1) * q := by linarith
    nlinarith

/-- Rounding to five decimals of two numbers with no rounding boundary between them. -/
theorem roundAway_stable {d : ℕ} {x y w : ℚ} (hx : 0 ≤ x) (hy : 0 ≤ y) (h : |y - x| ≤ w) (hb : ∀ n : ℕ, w < |x - (n + 1 / 2) / 10 ^ d|) : roundAway d y = roundAway d x := by
  have hp : (0 : ℚ) < 10 ^ d := by positivity
  unfold roundAway rintAway
  rw [if_pos (by positivity), if_pos (by positivity)]
  congr 2
  obtain ⟨h1, h2⟩ := abs_le.1 h
  set m := ⌊x * 10 ^ d + 1 / 2⌋ with hm
  have hm0 : 0 ≤ m := Int.floor_nonneg.2 (by positivity)
  obtain ⟨k, hk⟩ := Int.eq_ofNat_of_zero_le hm0
  have f1 : (m : ℚ) ≤ x * 10 ^ d + 1 / 2 := Int.floor_le _
  have f2 : x * 10 ^ d + 1 / 2 < m + 1 := Int.lt_floor_add_one _
  rw [hk] at f1 f2
  rw [hk, Int.floor_eq_iff]
  have up := hb k
  have e1 : x ≤ (k + 1 / 2) / 10 ^ d := by rw [le_div_iff₀ hp]; push_cast at f2; linarith
  rw [abs_of_nonpos (by linarith)] at up
  have g1 : y < (k + 1 / 2) / 10 ^ d := by linarith
  rw [lt_div_iff₀ hp] at g1
  push_cast
  refine ⟨?_, by linarith⟩
  rcases k with _ | k
  · push_cast; positivity
  · have lo := hb k
    have e2 : ((k : ℚ) + 1 / 2) / 10 ^ d ≤ x := by rw [div_le_iff₀ hp]; push_cast at f1; linarith
    rw [abs_of_nonneg (by linarith)] at lo
    have g2 : ((k : ℚ) + 1 / 2) / 10 ^ d < y := by linarith
    rw [div_lt_iff₀ hp] at g2
    push_cast
    linarith

/-- **C273**: in rounded arithmetic with relative error `u`, `mle_estimator` returns whenever it does in exact arithmetic (structure in node order, positions matching columns), with the same
structure and values; every learned probability is within `1/200000`, plus the error of a few roundings, of the relative frequency; and it is the number nearest to the exactly learned one
unless the relative frequency lies within the error of four roundings of a rounding boundary. -/
theorem C273_mle_rounded {u : ℚ} {rnd : ℚ → ℚ} (r : Rounds u rnd) (hE : HashOrder (ℕ × ℤ)) (hI : HashOrder ℤ) (bn : BayesNet ℕ ℤ) (s : bn.Shape) (data : Data)
    (hf : data.Fits bn.V) (nodes : Option (List ℕ)) (hns : (nodes.getD bn.V).Perm bn.V)
    (hcol : ∀ v ∈ bn.V, data.SameValues ((nodes.getD bn.V).idxOf v) v) (hEk : ∀ v ∈ bn.V, v ∈ bn.E.keys)
    (hpar : ∀ v ∈ bn.V, (bn.parentsOf v).Sublist (nodes.getD bn.V) ∧ ∀ u, u ∈ bn.parentsOf v ↔ u ∈ bn.V ∧ v ∈ bn.childrenOf u) :
    ∃ b b', mleEstimator hE hI bn data nodes = .ok b ∧ mleEstimatorR rnd hE hI bn data nodes = .ok b' ∧ b'.V = bn.V ∧ b'.E = bn.E ∧
      ∀ v ∈ bn.V, b'.parentsOf v = bn.parentsOf v ∧ b'.valuesOf v = b.valuesOf v ∧
        ∀ a, InRange b.cardOf (v :: bn.parentsOf v) a →
          |b'.prob v a - data.count b.valuesOf (v :: bn.parentsOf v) a / (data.count b.valuesOf (bn.parentsOf v) a + 1 / 10000000)| ≤
            1 / 200000 + learnErr u + u * (2 + learnErr u) ∧
          ((∀ n : ℕ, learnErr u < |(data.count b.valuesOf (v :: bn.parentsOf v) a : ℚ) / (data.count b.valuesOf (bn.parentsOf v) a + 1 / 10000000) - (n + 1 / 2) / 10 ^ 5|) →
            b'.prob v a = rnd (b.prob v a)) := by
  obtain ⟨b, h1, _, _, w, h5⟩ := C66_mle_probabilities hE hI bn s data hf nodes hns hcol hEk hpar
  obtain ⟨b', h1', hV, hE', hdom, hval, hp, htab⟩ := mleR_ok r hE hI bn s data hf nodes hns hEk
  have hnd : (nodes.getD bn.V).Nodup := hns.nodup_iff.2 s.nodup
  have hpe : ∀ v ∈ bn.V, b'.parentsOf v = bn.parentsOf v := by
    intro v hv
    obtain ⟨s1, m1⟩ := hp v hv
    obtain ⟨s2, m2⟩ := hpar v hv
    refine sublist_ext hnd s1 s2 fun p => ?_
    rw [m1, m2]
    apply and_congr_right
    intro _
    unfold childrenOf Arc
    constructor
    · rintro ⟨l, hl, hvl⟩; rw [hl]; exact hvl
    · intro h
      cases hg : Dict.get? bn.E p with
      | none => rw [hg] at h; cases h
      | some l => rw [hg] at h; exact ⟨l, rfl, h⟩
  have hvv : ∀ v ∈ bn.V, data.IsValues v (b'.valuesOf v) := fun v hv => ((hval v hv).1).same (hcol v hv)
  have hfam : ∀ v ∈ bn.V, ∀ u ∈ v :: bn.parentsOf v, u ∈ bn.V := by
    intro v hv u hu
    rcases List.mem_cons.1 hu with rfl | hu
    · exact hv
    · exact s.parents_mem v hv u hu
  have hvb : ∀ v ∈ bn.V, b'.valuesOf v = b.valuesOf v := fun v hv => (hvv v hv).unique (h5 v hv).2.1
  have hcb : ∀ v ∈ bn.V, b'.cardOf v = b.cardOf v := fun v hv => by rw [card_eq_len, card_eq_len]; show List.length _ = List.length _; rw [hvb v hv]
  refine ⟨b, b', h1, h1', hV, hE', fun v hv => ⟨hpe v hv, hvb v hv, fun a ha => ?_⟩⟩
  have ha' : InRange b'.cardOf (v :: bn.parentsOf v) a := fun u hu => by rw [hcb u (hfam v hv u hu)]; exact ha u hu
  have hc : ∀ fam, (∀ u ∈ fam, u ∈ bn.V) → data.count b'.valuesOf fam a = data.count b.valuesOf fam a := by
    intro fam hfm
    refine List.countP_congr fun row _ => ?_
    rw [decide_eq_true_eq, decide_eq_true_eq]
    unfold Matches
    exact forall₂_congr fun u hu => by rw [hvb u (hfm u hu)]
  have hz : b'.prob v a = flShare rnd (data.count b.valuesOf (v :: bn.parentsOf v) a) (data.count b.valuesOf (bn.parentsOf v) a) := by
    unfold BayesNet.prob
    rw [hpe v hv, (htab v hv).2 a ha', Option.getD_some, count_eq hf (hfam v hv) fun u hu => hvv u (hfam v hv u hu),
      count_eq hf (s.parents_mem v hv) fun u hu => hvv u (s.parents_mem v hv u hu), hc _ (hfam v hv), hc _ (s.parents_mem v hv)]
  have hx : data.count b.valuesOf (v :: bn.parentsOf v) a ≤ data.count b.valuesOf (bn.parentsOf v) a := by
    refine List.countP_mono_left fun row _ h => ?_
    rw [decide_eq_true_eq] at h ⊢
    exact fun u hu => h u (List.mem_cons_of_mem _ hu)
  obtain ⟨p1, _, p3⟩ := h5 v hv
  have hq := p3 a (by rw [p1]; exact ha)
  rw [p1] at hq
  rw [hz, hq]
  obtain ⟨y0, yq⟩ := quotient_close r (x := data.count b.valuesOf (v :: bn.parentsOf v) a) (s := data.count b.valuesOf (bn.parentsOf v) a) (by positivity) (by exact_mod_cast hx)
  have hq0 : (0 : ℚ) ≤ data.count b.valuesOf (v :: bn.parentsOf v) a / (data.count b.valuesOf (bn.parentsOf v) a + 1 / 10000000) := by positivity
  have hq1 : (data.count b.valuesOf (v :: bn.parentsOf v) a : ℚ) / (data.count b.valuesOf (bn.parentsOf v) a + 1 / 10000000) ≤ 1 := by
    rw [div_le_one (by positivity)]
    have : (data.count b.valuesOf (v :: bn.parentsOf v) a : ℚ) ≤ data.count b.valuesOf (bn.parentsOf v) a := by exact_mod_cast hx
    linarith
  unfold flShare
  set q : ℚ := data.count b.valuesOf (v :: bn.parentsOf v) a / (data.count b.valuesOf (bn.parentsOf v) a + 1 / 10000000)
  set y : ℚ := rnd (rnd (data.count b.valuesOf (v :: bn.parentsOf v) a) / flDen rnd (data.count b.valuesOf (bn.parentsOf v) a))
  refine ⟨?_, fun hb => by rw [roundAway_stable hq0 y0 yq hb]⟩
  have r1 := roundAway_close 5 y
  have r2 := r.err (roundAway 5 y)
  rw [abs_of_nonneg (roundAway_nonneg y0)] at r2
  have a1 := abs_le.1 r1
  have a3 := abs_le.1 yq
  have hw := learnErr_nonneg r.nonneg r.lt_one
  have hR : roundAway 5 y ≤ 2 + learnErr u := by
    have := a1.2
    norm_num at this
    linarith [a3.2]
  have r3 : u * roundAway 5 y ≤ u * (2 + learnErr u) := mul_le_mul_of_nonneg_left hR r.nonneg
  have a2 := abs_le.1 (r2.trans r3)
  norm_num at a1
  rw [abs_le]
  constructor <;> linarith [a1.1, a1.2, a2.1, a2.2, a3.1, a3.2]

/-- **C273** (doubles): with 53 significant bits the error is at most `1/200000 + 2⁻⁴⁹`. -/
theorem C273_double (hE : HashOrder (ℕ × ℤ)) (hI : HashOrder ℤ) (bn : BayesNet ℕ ℤ) (s : bn.Shape) (data : Data)
    (hf : data.Fits bn.V) (nodes : Option (List ℕ)) (hns : (nodes.getD bn.V).Perm bn.V)
    (hcol : ∀ v ∈ bn.V, data.SameValues ((nodes.getD bn.V).idxOf v) v) (hEk : ∀ v ∈ bn.V, v ∈ bn.E.keys)
    (hpar : ∀ v ∈ bn.V, (bn.parentsOf v).Sublist (nodes.getD bn.V) ∧ ∀ u, u ∈ bn.parentsOf v ↔ u ∈ bn.V ∧ v ∈ bn.childrenOf u) :
    ∃ b', mleEstimatorR (flBin 53) hE hI bn data nodes = .ok b' ∧
      ∀ v ∈ bn.V, data.IsValues v (b'.valuesOf v) ∧ ∀ a, InRange b'.cardOf (v :: bn.parentsOf v) a →
        |b'.prob v a - data.count b'.valuesOf (v :: bn.parentsOf v) a / (data.count b'.valuesOf (bn.parentsOf v) a + 1 / 10000000)| ≤ 1 / 200000 + 1 / 2 ^ 49 := by
  obtain ⟨b, b', h1, h2, _, _, h5⟩ := C273_mle_rounded (C166_binary_rounding 53 (by norm_num)) hE hI bn s data hf nodes hns hcol hEk hpar
  obtain ⟨b0, k1, _, _, _, k5⟩ := C66_mle_probabilities hE hI bn s data hf nodes hns hcol hEk hpar
  rw [h1] at k1
  cases k1
  have hfam : ∀ v ∈ bn.V, ∀ u ∈ v :: bn.parentsOf v, u ∈ bn.V := by
    intro v hv u hu
    rcases List.mem_cons.1 hu with rfl | hu
    · exact hv
    · exact s.parents_mem v hv u hu
  have hc : ∀ fam, (∀ u ∈ fam, u ∈ bn.V) → ∀ a, data.count b'.valuesOf fam a = data.count b.valuesOf fam a := by
    intro fam hfm a
    refine List.countP_congr fun row _ => ?_
    rw [decide_eq_true_eq, decide_eq_true_eq]
    unfold Matches
    exact forall₂_congr fun u hu => by rw [(h5 u (hfm u hu)).2.1]
  refine ⟨b', h2, fun v hv => ⟨by rw [(h5 v hv).2.1]; exact (k5 v hv).2.1, fun a ha => ?_⟩⟩
  have := ((h5 v hv).2.2 a fun u hu => by
    have h := ha u hu
    rw [card_eq_len] at h ⊢
    dsimp only at h ⊢
    rw [(h5 u (hfam v hv u hu)).2.1] at h; exact h).1
  rw [hc _ (hfam v hv), hc _ (s.parents_mem v hv)]
  refine this.trans ?_
  unfold learnErr
  norm_num

/-- The hypotheses hold of `pairNet` and `pairData`, and these are the doubles nearest to 0.66667, 0.33333, 0.5, 0.5, 0 and 1. -/
theorem C273_example : pairNet.Shape ∧ pairData.Fits pairNet.V ∧ (∀ v ∈ pairNet.V, v ∈ pairNet.E.keys) ∧
    (∀ v ∈ pairNet.V, (pairNet.parentsOf v).Sublist pairNet.V ∧ ∀ u, u ∈ pairNet.parentsOf v ↔ u ∈ pairNet.V ∧ v ∈ pairNet.childrenOf u) ∧
    (mleEstimatorR (flBin 53) .id .id pairNet pairData none).okAnd
      (fun b => decide (b.cptOf 0 = [6004829527158177 / 2 ^ 53, 3002369727582815 / 2 ^ 53] ∧ b.cptOf 1 = [1/2, 1/2, 0, 1])) = true := by
  have h : ∀ v ∈ pairNet.V, (pairNet.parentsOf v).Sublist pairNet.V ∧ ∀ u ∈ pairNet.V, u ∈ pairNet.parentsOf v ↔ u ∈ pairNet.V ∧ v ∈ pairNet.childrenOf u := by decide +kernel
  refine ⟨pairNet_shape, ⟨by decide, by decide, by decide⟩, by decide +kernel, fun v hv => ⟨(h v hv).1, fun u => ?_⟩, by decide +kernel⟩
  by_cases hu : u ∈ pairNet.V
  · exact (h v hv).2 u hu
  · exact ⟨fun hp => absurd (pairNet_shape.parents_mem v hv u hp) hu, fun hp => absurd hp.1 hu⟩

end PyBN
