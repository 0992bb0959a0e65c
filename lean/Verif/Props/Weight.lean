import Verif.Props.Grid

/-!
# C267: what the prior weight of `bayes_estimator` does
-/

set_option linter.unusedSectionVars false

namespace PyBN
open BayesNet

theorem rintAway_mono {x y : ℚ} (h : x ≤ y) : rintAway x ≤ rintAway y := by
  unfold rintAway
  split_ifs with h1 h2 h2
  · exact Int.floor_le_floor (by linarith)
  · linarith
  · have a1 : 0 ≤ ⌊-x + 1 / 2⌋ := Int.le_floor.2 (by push_cast; linarith)
    have a2 : 0 ≤ ⌊y + 1 / 2⌋ := Int.le_floor.2 (by push_cast; linarith)
    omega
  · have : ⌊-y + 1 / 2⌋ ≤ ⌊-x + 1 / 2⌋ := Int.floor_le_floor (by linarith)
    omega

theorem roundAway_mono {d : ℕ} {x y : ℚ} (h : x ≤ y) : roundAway d x ≤ roundAway d y := by
  unfold roundAway
  have : rintAway (x * 10 ^ d) ≤ rintAway (y * 10 ^ d) := rintAway_mono (by gcongr)
  have hq : (rintAway (x * 10 ^ d) : ℚ) ≤ rintAway (y * 10 ^ d) := by exact_mod_cast this
  gcongr

/-- What is rounded, minus the uniform probability. -/
theorem smooth_sub {w card c n : ℚ} (hw : 0 < w) (hc : 0 < card) (hn : 0 ≤ n) : (w / card + c) / (w + n) - 1 / card = (c - n / card) / (w + n) := by
  have : w + n ≠ 0 := by positivity
  field_simp
  ring

theorem abs_sub_le_of_le {c n card : ℚ} (hc : 1 ≤ card) (h0 : 0 ≤ c) (h1 : c ≤ n) : |c - n / card| ≤ n := by
  have : n / card ≤ n := div_le_self (h0.trans h1) hc
  have : 0 ≤ n / card := div_nonneg (h0.trans h1) (by linarith)
  rw [abs_le]; constructor <;> linarith

theorem count_fam_le (data : Data) (vs : ℕ → List ℤ) (v : ℕ) (fam : List ℕ) (a : Asg ℕ) : data.count vs (v :: fam) a ≤ data.count vs fam a := by
  unfold Data.count
  refine List.countP_mono_left fun row _ h => ?_
  rw [decide_eq_true_eq] at h ⊢
  exact fun u hu => h u (List.mem_cons_of_mem _ hu)

variable (hE : HashOrder (ℕ × ℤ)) (hI : HashOrder ℤ) (bn : BayesNet ℕ ℤ) (s : bn.Shape) (data : Data)
    (hf : data.Fits bn.V) (nodes : Option (List ℕ)) (hns : (nodes.getD bn.V).Perm bn.V)
    (hcol : ∀ v ∈ bn.V, data.SameValues ((nodes.getD bn.V).idxOf v) v)

include s hf hns hcol in
/-- `bayes_estimator` with a given positive weight: the probabilities in terms of the weight per configuration of the parents. -/
theorem bayes_weight (e : ℚ) (he : 0 < e) :
    ∃ b, bayesEstimator hE hI bn data (some e) nodes = .ok b ∧ b.V = bn.V ∧ b.E = bn.E ∧ b.WF ∧
      ∀ v ∈ bn.V, b.parentsOf v = bn.parentsOf v ∧ data.IsValues v (b.valuesOf v) ∧
        ∀ a, InRange b.cardOf (v :: b.parentsOf v) a → 0 < e / ((b.parentsOf v).map b.cardOf).prod ∧ (1 : ℚ) ≤ b.cardOf v ∧
          b.prob v a = roundAway 5 ((e / ((b.parentsOf v).map b.cardOf).prod / b.cardOf v + data.count b.valuesOf (v :: b.parentsOf v) a) /
            (e / ((b.parentsOf v).map b.cardOf).prod + data.count b.valuesOf (b.parentsOf v) a)) := by
  obtain ⟨b, b1, b2, b3, b4, b5⟩ := C67_bayes_probabilities hE hI bn s data hf nodes hns hcol (some e) (fun x hx => by cases hx; exact he)
  refine ⟨b, b1, b2, b3, b4, fun v hv => ⟨(b5 v hv).1, (b5 v hv).2.1, fun a ha => ?_⟩⟩
  have hpos : ∀ u ∈ v :: b.parentsOf v, 0 < b.cardOf u := fun u hu => lt_of_le_of_lt (Nat.zero_le _) (ha u hu)
  have hc : 0 < b.cardOf v := hpos v (by simp)
  have hm : (0 : ℚ) < (((b.parentsOf v).map b.cardOf).prod : ℕ) := by
    have : 0 < ((b.parentsOf v).map b.cardOf).prod := List.prod_pos fun x hx => by
      obtain ⟨u, hu, rfl⟩ := List.mem_map.1 hx
      exact hpos u (by simp [hu])
    exact_mod_cast this
  have hcq : (0 : ℚ) < b.cardOf v := by exact_mod_cast hc
  refine ⟨div_pos he hm, by exact_mod_cast hc, ?_⟩
  rw [(b5 v hv).2.2 a ha, Option.getD_some, b4.cpt_len v (b2 ▸ hv), List.map_cons, List.prod_cons]
  have e1 : e / ((b.cardOf v * ((b.parentsOf v).map b.cardOf).prod : ℕ) : ℚ) = e / ((b.parentsOf v).map b.cardOf).prod / b.cardOf v := by
    push_cast at hm ⊢
    field_simp
  rw [e1, mul_div_cancel₀ _ hcq.ne']

include s hf hns hcol in
/-- **C267** (1): a larger prior weight never moves a learned probability away from the uniform one by more than the rounding. -/
theorem C267_shrinks (e1 e2 : ℚ) (he : 0 < e1) (h12 : e1 ≤ e2) :
    ∃ b1 b2, bayesEstimator hE hI bn data (some e1) nodes = .ok b1 ∧ bayesEstimator hE hI bn data (some e2) nodes = .ok b2 ∧
      ∀ v ∈ bn.V, b1.parentsOf v = bn.parentsOf v ∧ b2.parentsOf v = bn.parentsOf v ∧ b2.valuesOf v = b1.valuesOf v ∧
        ∀ a, InRange b1.cardOf (v :: bn.parentsOf v) a →
          |b2.prob v a - 1 / (b1.valuesOf v).length| ≤ |b1.prob v a - 1 / (b1.valuesOf v).length| + 1 / 100000 := by
  obtain ⟨b, f1, f2, f3, f4, f5⟩ := bayes_weight hE hI bn s data hf nodes hns hcol e1 he
  obtain ⟨c, g1, g2, g3, g4, g5⟩ := bayes_weight hE hI bn s data hf nodes hns hcol e2 (he.trans_le h12)
  have hval : ∀ v ∈ bn.V, c.valuesOf v = b.valuesOf v := fun v hv => (g5 v hv).2.1.unique (f5 v hv).2.1
  have hcard : ∀ u ∈ bn.V, c.cardOf u = b.cardOf u := fun u hu => by rw [g4.card_len (g2 ▸ hu), f4.card_len (f2 ▸ hu), hval u hu]
  refine ⟨b, c, f1, g1, fun v hv => ⟨(f5 v hv).1, (g5 v hv).1, hval v hv, fun a ha => ?_⟩⟩
  have hfam : ∀ u ∈ v :: bn.parentsOf v, u ∈ bn.V := by
    intro u hu
    rcases List.mem_cons.1 hu with rfl | hu
    · exact hv
    · exact s.parents_mem v hv u hu
  obtain ⟨w1, k1, p1⟩ := (f5 v hv).2.2 a (by rw [(f5 v hv).1]; exact ha)
  obtain ⟨w2, k2, p2⟩ := (g5 v hv).2.2 a (by rw [(g5 v hv).1]; intro u hu; rw [hcard u (hfam u hu)]; exact ha u hu)
  have c1 : data.count c.valuesOf (v :: bn.parentsOf v) a = data.count b.valuesOf (v :: bn.parentsOf v) a := matches_congr (fun u hu => hval u (hfam u hu)) a _
  have c2 : data.count c.valuesOf (bn.parentsOf v) a = data.count b.valuesOf (bn.parentsOf v) a := matches_congr (fun u hu => hval u (hfam u (by simp [hu]))) a _
  have hm : (bn.parentsOf v).map c.cardOf = (bn.parentsOf v).map b.cardOf := List.map_congr_left fun u hu => hcard u (hfam u (by simp [hu]))
  rw [(g5 v hv).1, c1, c2, hm, hcard v hv] at p2
  rw [(g5 v hv).1, hm] at w2
  rw [(f5 v hv).1] at p1 w1
  rw [p1, p2, ← f4.card_len (f2 ▸ hv)]
  set n : ℚ := ((data.count b.valuesOf (bn.parentsOf v) a : ℕ) : ℚ)
  set x : ℚ := ((data.count b.valuesOf (v :: bn.parentsOf v) a : ℕ) : ℚ)
  set m : ℚ := ((((bn.parentsOf v).map b.cardOf).prod : ℕ) : ℚ)
  have hn : 0 ≤ n := Nat.cast_nonneg _
  have hcp : (0 : ℚ) < b.cardOf v := by linarith
  have hm0 : 0 < m := (div_pos_iff_of_pos_left he).1 w1
  have hw : e1 / m ≤ e2 / m := by gcongr
  have q1 := roundAway_close 5 ((e1 / m / b.cardOf v + x) / (e1 / m + n))
  have q2 := roundAway_close 5 ((e2 / m / b.cardOf v + x) / (e2 / m + n))
  have s1 := smooth_sub (card := b.cardOf v) (c := x) w1 hcp hn
  have s2 := smooth_sub (card := b.cardOf v) (c := x) w2 hcp hn
  have hle : |(x - n / b.cardOf v) / (e2 / m + n)| ≤ |(x - n / b.cardOf v) / (e1 / m + n)| := by
    rw [abs_div, abs_div, abs_of_pos (by positivity : 0 < e2 / m + n), abs_of_pos (by positivity : 0 < e1 / m + n)]
    gcongr
  rw [← s1, ← s2] at hle
  generalize (e1 / m / b.cardOf v + x) / (e1 / m + n) = y1 at *
  generalize (e2 / m / b.cardOf v + x) / (e2 / m + n) = y2 at *
  have t1 := abs_sub_abs_le_abs_sub (roundAway 5 y2 - 1 / (b.cardOf v : ℚ)) (y2 - 1 / b.cardOf v)
  have t2 := abs_sub_abs_le_abs_sub (y1 - 1 / (b.cardOf v : ℚ)) (roundAway 5 y1 - 1 / b.cardOf v)
  rw [sub_sub_sub_cancel_right] at t1 t2
  norm_num at q1 q2
  rw [abs_sub_comm y1 (roundAway 5 y1)] at t2
  linarith

include s hf hns hcol in
/-- **C267** (2), (3), (4): distance from the uniform probability, distance from the relative frequency, and the order of the frequencies. -/
theorem C267_between (e : ℚ) (he : 0 < e) :
    ∃ b, bayesEstimator hE hI bn data (some e) nodes = .ok b ∧ ∀ v ∈ bn.V, b.parentsOf v = bn.parentsOf v ∧ data.IsValues v (b.valuesOf v) ∧
      ∀ a, InRange b.cardOf (v :: bn.parentsOf v) a →
        |b.prob v a - 1 / (b.valuesOf v).length| ≤ data.count b.valuesOf (bn.parentsOf v) a * ((bn.parentsOf v).map b.cardOf).prod / e + 1 / 200000 ∧
        (data.count b.valuesOf (bn.parentsOf v) a ≠ 0 →
          |b.prob v a - data.count b.valuesOf (v :: bn.parentsOf v) a / data.count b.valuesOf (bn.parentsOf v) a| ≤
            e / (data.count b.valuesOf (bn.parentsOf v) a * ((bn.parentsOf v).map b.cardOf).prod) + 1 / 200000) ∧
        ∀ x, x < b.cardOf v → data.count b.valuesOf (v :: bn.parentsOf v) a ≤ data.count b.valuesOf (v :: bn.parentsOf v) (a.upd v x) → b.prob v a ≤ b.prob v (a.upd v x) := by
  obtain ⟨b, f1, f2, f3, f4, f5⟩ := bayes_weight hE hI bn s data hf nodes hns hcol e he
  refine ⟨b, f1, fun v hv => ⟨(f5 v hv).1, (f5 v hv).2.1, fun a ha => ?_⟩⟩
  have hnd := List.nodup_cons.1 (s.fam_nodup v hv)
  have key := (f5 v hv).2.2
  rw [(f5 v hv).1] at key
  obtain ⟨w1, k1, p1⟩ := key a ha
  have hx : data.count b.valuesOf (v :: bn.parentsOf v) a ≤ data.count b.valuesOf (bn.parentsOf v) a := count_fam_le _ _ _ _ _
  have hxq : (data.count b.valuesOf (v :: bn.parentsOf v) a : ℚ) ≤ data.count b.valuesOf (bn.parentsOf v) a := by exact_mod_cast hx
  have hcp : (0 : ℚ) < b.cardOf v := by linarith
  have hm0 : (0 : ℚ) < (((bn.parentsOf v).map b.cardOf).prod : ℕ) := (div_pos_iff_of_pos_left he).1 w1
  have hn : (0 : ℚ) ≤ (data.count b.valuesOf (bn.parentsOf v) a : ℕ) := Nat.cast_nonneg _
  have hx0 : (0 : ℚ) ≤ (data.count b.valuesOf (v :: bn.parentsOf v) a : ℕ) := Nat.cast_nonneg _
  refine ⟨?_, fun hn0 => ?_, fun x hxc hcnt => ?_⟩
  · rw [p1, ← f4.card_len (f2 ▸ hv)]
    generalize (((bn.parentsOf v).map b.cardOf).prod : ℚ) = m at *
    generalize (data.count b.valuesOf (bn.parentsOf v) a : ℚ) = n at *
    generalize (data.count b.valuesOf (v :: bn.parentsOf v) a : ℚ) = c at *
    have q := roundAway_close 5 ((e / m / b.cardOf v + c) / (e / m + n))
    have h1 := smooth_sub (card := b.cardOf v) (c := c) w1 hcp hn
    have h2 : |(c - n / b.cardOf v) / (e / m + n)| ≤ n * m / e := by
      rw [abs_div, abs_of_pos (by positivity : 0 < e / m + n)]
      calc |c - n / b.cardOf v| / (e / m + n) ≤ n / (e / m) := by
            gcongr
            · exact abs_sub_le_of_le k1 hx0 hxq
            · linarith
        _ = n * m / e := by field_simp
    rw [← h1] at h2
    have t := abs_sub_le (roundAway 5 ((e / m / b.cardOf v + c) / (e / m + n))) ((e / m / b.cardOf v + c) / (e / m + n)) (1 / b.cardOf v)
    norm_num at q t h2 ⊢
    linarith
  · rw [p1]
    have hn1 : (0 : ℚ) < (data.count b.valuesOf (bn.parentsOf v) a : ℕ) := by
      have : 0 < data.count b.valuesOf (bn.parentsOf v) a := Nat.pos_of_ne_zero hn0
      exact_mod_cast this
    generalize (((bn.parentsOf v).map b.cardOf).prod : ℚ) = m at *
    generalize (data.count b.valuesOf (bn.parentsOf v) a : ℚ) = n at *
    generalize (data.count b.valuesOf (v :: bn.parentsOf v) a : ℚ) = c at *
    have q := roundAway_close 5 ((e / m / b.cardOf v + c) / (e / m + n))
    have h1 : (e / m / b.cardOf v + c) / (e / m + n) - c / n = -((e / m) * (c - n / b.cardOf v)) / (n * (e / m + n)) := by
      have : e / m + n ≠ 0 := by positivity
      field_simp
      ring
    have h2 : |(e / m / b.cardOf v + c) / (e / m + n) - c / n| ≤ e / (n * m) := by
      rw [h1, abs_div, abs_neg, abs_mul, abs_of_pos w1, abs_of_pos (by positivity : 0 < n * (e / m + n))]
      calc e / m * |c - n / b.cardOf v| / (n * (e / m + n)) ≤ e / m * n / (n * n) := by
            gcongr
            · exact abs_sub_le_of_le k1 hx0 hxq
            · linarith
        _ = e / (n * m) := by field_simp
    have t := abs_sub_le (roundAway 5 ((e / m / b.cardOf v + c) / (e / m + n))) ((e / m / b.cardOf v + c) / (e / m + n)) (c / n)
    norm_num at q
    linarith
  · have ha' : InRange b.cardOf (v :: bn.parentsOf v) (a.upd v x) := by
      intro u hu
      by_cases h : u = v
      · subst h; rw [Asg.upd_self]; exact hxc
      · rw [Asg.upd_ne _ _ (h : u ≠ v)]; exact ha u hu
    obtain ⟨_, _, p2⟩ := key _ ha'
    have hp : data.count b.valuesOf (bn.parentsOf v) (a.upd v x) = data.count b.valuesOf (bn.parentsOf v) a := by
      unfold Data.count
      refine List.countP_congr fun row _ => ?_
      rw [decide_eq_true_eq, decide_eq_true_eq]
      unfold Matches
      refine forall₂_congr fun u hu => ?_
      rw [Asg.upd_ne _ _ (show u ≠ v from fun h => hnd.1 (h ▸ hu))]
    rw [p1, p2, hp]
    have hcq : (data.count b.valuesOf (v :: bn.parentsOf v) a : ℚ) ≤ data.count b.valuesOf (v :: bn.parentsOf v) (a.upd v x) := by exact_mod_cast hcnt
    apply roundAway_mono
    gcongr

/-- Witness: weights 1, 6 and 600 on four rows move node 0 from about its frequencies (1/2, 1/4, 1/4) to about the uniform ones, keeping their order. -/
example : gridData.Fits pairNet.V ∧ pairNet.Shape ∧ (∀ v ∈ pairNet.V, gridData.SameValues v v) ∧
    (bayesEstimator .id .id pairNet gridData (some 1) none).okAnd (fun b => decide (b.cptOf 0 = [46667/100000, 26667/100000, 26667/100000])) = true ∧
    (bayesEstimator .id .id pairNet gridData (some 6) none).okAnd (fun b => decide (b.cptOf 0 = [2/5, 3/10, 3/10])) = true ∧
    (bayesEstimator .id .id pairNet gridData (some 600) none).okAnd (fun b => decide (b.cptOf 0 = [33444/100000, 33278/100000, 33278/100000])) = true :=
  ⟨⟨by decide, by decide, by decide⟩, pairNet_shape, fun v _ x => Iff.rfl, by decide +kernel, by decide +kernel, by decide +kernel⟩

end PyBN
