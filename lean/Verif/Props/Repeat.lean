import Verif.Proofs.Repeat
import Verif.Props.Learn
import Verif.Props.RowOrder

/-!
# C258, C259: what rounding does to learned tables; repeated data
-/

set_option linter.unusedSectionVars false

namespace PyBN
open BayesNet

/-! ## Rounding -/

theorem rint_of_near {y : ℚ} {m : ℤ} (h1 : (m : ℚ) - 1 / 2 < y) (h2 : y < m + 1 / 2) : rintAway y = m ∧ rintEven y = m := by
  constructor
  · unfold rintAway
    split_ifs with h
    · rw [Int.floor_eq_iff]; constructor <;> linarith only [h1, h2]
    · have : ⌊-y + 1 / 2⌋ = -m := by
        rw [Int.floor_eq_iff]; push_cast; constructor <;> linarith only [h1, h2]
      rw [this]; ring
  · unfold rintEven
    dsimp only
    rcases lt_or_ge y (m : ℚ) with h | h
    · have hf : ⌊y⌋ = m - 1 := by rw [Int.floor_eq_iff]; push_cast; constructor <;> linarith only [h, h1]
      rw [hf, if_neg (by push_cast; linarith only [h1]), if_pos (by push_cast; linarith only [h1])]
      ring
    · have hf : ⌊y⌋ = m := by rw [Int.floor_eq_iff]; constructor <;> linarith only [h, h2]
      rw [hf, if_pos (by linarith only [h2])]

/-- The number to be rounded is never half-way between two five-digit decimals. -/
theorem freq_near (c n : ℕ) (h : c ≤ n) :
    ((⌈(c : ℚ) / n * 100000 - 1 / 2⌉ : ℤ) : ℚ) - 1 / 2 < (c : ℚ) / (n + 1 / 10000000) * 100000 ∧
    (c : ℚ) / (n + 1 / 10000000) * 100000 < ((⌈(c : ℚ) / n * 100000 - 1 / 2⌉ : ℤ) : ℚ) + 1 / 2 := by
  rcases Nat.eq_zero_or_pos c with rfl | hc
  · norm_num
  have hn : (0 : ℚ) < n := by exact_mod_cast hc.trans_le h
  have hcq : (0 : ℚ) < c := by exact_mod_cast hc
  have hcn : (c : ℚ) ≤ n := by exact_mod_cast h
  have hd : (0 : ℚ) < n + 1 / 10000000 := by linarith only [hn]
  set m : ℤ := ⌈(c : ℚ) / n * 100000 - 1 / 2⌉ with hm
  have h1 : (m : ℚ) - 1 < (c : ℚ) / n * 100000 - 1 / 2 := by have := Int.ceil_lt_add_one ((c : ℚ) / n * 100000 - 1 / 2); linarith only [this, hm]
  have h2 : (c : ℚ) / n * 100000 - 1 / 2 ≤ m := Int.le_ceil _
  constructor
  · -- `2 c 10^5 > (2 m - 1) n` between integers, so at least by one
    have e1 : ((2 * m - 1 : ℤ) : ℚ) * n < 200000 * c := by
      have : ((m : ℚ) - 1 / 2) < (c : ℚ) / n * 100000 := by linarith only [h1]
      rw [div_mul_eq_mul_div, lt_div_iff₀ hn] at this
      push_cast
      linarith only [this]
    have e2 : (2 * m - 1) * (n : ℤ) + 1 ≤ 200000 * c := by
      have : (2 * m - 1) * (n : ℤ) < 200000 * c := by exact_mod_cast e1
      omega
    have e3 : ((2 * m - 1 : ℤ) : ℚ) * n + 1 ≤ 200000 * c := by exact_mod_cast e2
    push_cast at e3
    rw [div_mul_eq_mul_div, lt_div_iff₀ hd]
    have hmn : ((m : ℚ) - 1 / 2) ≤ 100000 := by
      have : (c : ℚ) / n ≤ 1 := by rw [div_le_one hn]; exact hcn
      linarith only [h1, this]
    nlinarith only [e3, hmn]
  · have : (c : ℚ) / (n + 1 / 10000000) < (c : ℚ) / n := by
      apply div_lt_div_of_pos_left hcq hn; linarith only []
    linarith only [this, h2]

theorem roundAway_nearest (c n : ℕ) (h : c ≤ n) :
    roundAway 5 ((c : ℚ) / (n + 1 / 10000000)) = nearestDown ((c : ℚ) / n) ∧
    roundEven 5 ((c : ℚ) / (n + 1 / 10000000)) = nearestDown ((c : ℚ) / n) := by
  obtain ⟨h1, h2⟩ := freq_near c n h
  obtain ⟨h3, h4⟩ := rint_of_near h1 h2
  unfold roundAway roundEven nearestDown
  rw [show (10 : ℚ) ^ 5 = 100000 by norm_num, h3, h4]
  exact ⟨rfl, rfl⟩

theorem matches_count_le (data : Data) (vals : ℕ → List ℤ) (v : ℕ) (fam : List ℕ) (a : Asg ℕ) :
    data.count vals (v :: fam) a ≤ data.count vals fam a := by
  unfold Data.count
  refine List.countP_mono_left fun row _ h => ?_
  rw [decide_eq_true_eq] at h ⊢
  exact fun u hu => h u (by simp [hu])

/-- **C258**: what `mle_estimator` writes is the relative frequency itself, rounded to the nearest five-digit decimal, halves rounded
down (not away from zero as `round` does): the constant `1e-7` in the denominator has no other effect than to decide halves and to
write 0 where the parents' configuration was never seen.  The number that is rounded is never a half itself, so it makes no difference
that Python 3 rounds halves to even. -/
theorem C258_mle_nearest (hE : HashOrder (ℕ × ℤ)) (hI : HashOrder ℤ) (bn : BayesNet ℕ ℤ) (s : bn.Shape) (data : Data)
    (hf : data.Fits bn.V) (nodes : Option (List ℕ)) (hns : (nodes.getD bn.V).Perm bn.V)
    (hcol : ∀ v ∈ bn.V, data.SameValues ((nodes.getD bn.V).idxOf v) v) (hEk : ∀ v ∈ bn.V, v ∈ bn.E.keys)
    (hpar : ∀ v ∈ bn.V, (bn.parentsOf v).Sublist (nodes.getD bn.V) ∧ ∀ u, u ∈ bn.parentsOf v ↔ u ∈ bn.V ∧ v ∈ bn.childrenOf u) :
    ∃ bn', mleEstimator hE hI bn data nodes = .ok bn' ∧
      ∀ v ∈ bn.V, bn'.parentsOf v = bn.parentsOf v ∧ data.IsValues v (bn'.valuesOf v) ∧
        ∀ a, InRange bn'.cardOf (v :: bn'.parentsOf v) a →
          bn'.prob v a = nearestDown ((data.count bn'.valuesOf (v :: bn'.parentsOf v) a : ℚ) / data.count bn'.valuesOf (bn'.parentsOf v) a) ∧
          (data.count bn'.valuesOf (bn'.parentsOf v) a = 0 → bn'.prob v a = 0) ∧
          bn'.prob v a = roundEven 5 (data.count bn'.valuesOf (v :: bn'.parentsOf v) a /
            (data.count bn'.valuesOf (bn'.parentsOf v) a + 1 / 10000000)) := by
  obtain ⟨bn', h1, _, _, _, h2⟩ := C66_mle_probabilities hE hI bn s data hf nodes hns hcol hEk hpar
  refine ⟨bn', h1, fun v hv => ?_⟩
  obtain ⟨h3, h4, h5⟩ := h2 v hv
  refine ⟨h3, h4, fun a ha => ?_⟩
  have := h5 a ha
  rw [(roundAway_nearest _ _ (matches_count_le data _ v _ a)).1] at this
  refine ⟨this, fun h0 => ?_, this.trans (roundAway_nearest _ _ (matches_count_le data _ v _ a)).2.symm⟩
  rw [this, h0]
  unfold nearestDown
  norm_num

/-- Witness: a relative frequency of 3/64 (a half) is written as 0.04687; both usual rules would give 0.04688. -/
example : nearestDown (3 / 64) = 4687 / 100000 ∧ roundAway 5 (3 / 64) = 4688 / 100000 ∧ roundEven 5 (3 / 64) = 4688 / 100000 ∧
    roundAway 5 (3 / (64 + 1 / 10000000)) = 4687 / 100000 := by
  unfold nearestDown
  refine ⟨?_, by decide +kernel, by decide +kernel, by decide +kernel⟩
  rw [show ⌈(3 / 64 : ℚ) * 100000 - 1 / 2⌉ = 4687 by decide +kernel]; norm_num

/-! ## Repeated data -/

theorem roundAway_scale {k : ℕ} (hk : 0 < k) (c n : ℕ) (h : c ≤ n) :
    roundAway 5 ((k : ℚ) * c / ((k : ℚ) * n + 1 / 10000000)) = roundAway 5 ((c : ℚ) / (n + 1 / 10000000)) := by
  have := (roundAway_nearest (k * c) (k * n) (Nat.mul_le_mul_left k h)).1
  push_cast at this
  rw [this, (roundAway_nearest c n h).1, mul_div_mul_left _ _ (by exact_mod_cast hk.ne')]

theorem sum_scale (k : ℚ) : ∀ l : List ℚ, (l.map (k * ·)).sum = k * l.sum
  | [] => by simp
  | x :: l => by rw [List.map_cons, List.sum_cons, List.sum_cons, sum_scale k l]; ring

theorem normBlocks_scale {k : ℕ} (hk : 0 < k) (card : ℕ) : ∀ (fuel : ℕ) (l : List ℕ),
    BayesNet.normBlocks (1 / 10000000) card fuel ((l.map (Nat.cast : ℕ → ℚ)).map ((k : ℚ) * ·)) = BayesNet.normBlocks (1 / 10000000) card fuel (l.map (Nat.cast : ℕ → ℚ))
  | 0, l => by
    rw [BayesNet.normBlocks, BayesNet.normBlocks]
    cases l <;> simp
  | fuel + 1, l => by
    have ih := normBlocks_scale hk card fuel (l.drop card)
    rw [BayesNet.normBlocks, BayesNet.normBlocks]
    have hs : (((l.map (Nat.cast : ℕ → ℚ)).take card).sum) = (((l.take card).sum : ℕ) : ℚ) := by
      rw [← List.map_take, Nat.cast_list_sum]
    have hs' : ((((l.map (Nat.cast : ℕ → ℚ)).map ((k : ℚ) * ·)).take card).sum) = (k : ℚ) * (((l.take card).sum : ℕ) : ℚ) := by
      rw [← List.map_take, sum_scale, hs]
    have z1 : (k : ℚ) * (((l.take card).sum : ℕ) : ℚ) + 1 / 10000000 ≠ 0 := by
      have : (0 : ℚ) ≤ (k : ℚ) * (((l.take card).sum : ℕ) : ℚ) := by positivity
      intro h; linarith only [this, h]
    have z2 : (((l.take card).sum : ℕ) : ℚ) + 1 / 10000000 ≠ 0 := by
      have : (0 : ℚ) ≤ (((l.take card).sum : ℕ) : ℚ) := by positivity
      intro h; linarith only [this, h]
    simp only [hs, hs', List.length_map, List.map_eq_nil_iff, if_neg z1, if_neg z2]
    split_ifs with h1 h2 h3
    · rfl
    · rfl
    · rfl
    · rw [← List.map_drop, ← List.map_drop, ih, List.map_drop]
      congr 1
      funext r
      congr 2
      rw [← List.map_take, ← List.map_take, List.map_map, List.map_map, List.map_map]
      refine List.map_congr_left fun c hc => ?_
      exact roundAway_scale hk c _ (List.single_le_sum (fun _ _ => Nat.zero_le _) c hc)

namespace BayesNet

theorem natList {l : List ℚ} (h : ∀ y ∈ l, ∃ n : ℕ, y = n) : ∃ m : List ℕ, l = m.map (Nat.cast : ℕ → ℚ) := by
  induction l with
  | nil => exact ⟨[], rfl⟩
  | cons x l ih =>
    obtain ⟨m, hm⟩ := ih fun y hy => h y (by simp [hy])
    obtain ⟨n, hn⟩ := h x (by simp)
    exact ⟨n :: m, by rw [hn, hm]; rfl⟩

theorem mem_set_or {K V : Type _} [DecidableEq K] {k : K} {v : V} {x : K × V} : ∀ {d : Dict K V}, x ∈ Dict.set d k v → x = (k, v) ∨ x ∈ d
  | [], h => .inl (by simpa [Dict.set] using h)
  | (a, b) :: d, h => by
    by_cases ha : a = k
    · simp only [Dict.set, ha, if_true] at h
      rcases List.mem_cons.1 h with h | h
      · exact .inl h
      · exact .inr (by simp [h])
    · simp only [Dict.set, ha, if_false] at h
      rcases List.mem_cons.1 h with h | h
      · exact .inr (by simp [h])
      · rcases mem_set_or h with h | h
        · exact .inl h
        · exact .inr (by simp [h])

theorem ofPairs_zero {V : List (ℕ × List ℚ)} (h : ∀ q ∈ V, ∀ y ∈ q.2, y = (0 : ℚ)) : ∀ q ∈ Dict.ofPairs V, ∀ y ∈ q.2, y = (0 : ℚ) := by
  have gen : ∀ (V : List (ℕ × List ℚ)) (d : Dict ℕ (List ℚ)), (∀ q ∈ d, ∀ y ∈ q.2, y = (0 : ℚ)) → (∀ q ∈ V, ∀ y ∈ q.2, y = (0 : ℚ)) →
      ∀ q ∈ V.foldl (fun d p => Dict.set d p.1 p.2) d, ∀ y ∈ q.2, y = (0 : ℚ) := by
    intro V
    induction V with
    | nil => intro d hd _; exact hd
    | cons p V ih =>
      intro d hd hV
      refine ih _ ?_ fun q hq => hV q (by simp [hq])
      intro q hq
      rcases mem_set_or hq with h | h
      · subst h; exact hV p (by simp)
      · exact hd q h
  exact gen V [] (by simp) h

section
variable {data : Data} {k : ℕ} (hk : 0 < k) {hE : HashOrder (ℕ × ℤ)} {hI : HashOrder ℤ} {bn : BayesNet ℕ ℤ} {nodes : List ℕ}
include hk

theorem learn_times : (∀ {r}, learn hE hI (fun _ => .ok 0) bn data nodes = .ok r →
      learn hE hI (fun _ => .ok 0) bn (data.times k) nodes = .ok (r.1, scaleD k r.2) ∧ NatD r.2) ∧
    (∀ {r}, learn hE hI (fun _ => .ok 0) bn (data.times k) nodes = .ok r → ∃ r', learn hE hI (fun _ => .ok 0) bn data nodes = .ok r') := by
  have zero : ∀ {F1 : Dict ℕ (NodeData ℕ ℤ)} {b2 : BayesNet ℕ ℤ} {i0 : List (ℕ × List ℚ)}, setTables (fun _ => .ok 0) nodes { bn with F := F1 } = .ok b2 →
      pyMap (fun rv => do let c ← b2.cpt rv; pure (rv, c)) nodes = .ok i0 → ∀ q ∈ i0, ∀ y ∈ q.2, y = (0 : ℚ) := by
    intro F1 b2 i0 h2 h3
    have hz := setTables_zero [] (by simp) h2
    have hsub : ∀ v ∈ nodes, v ∈ nodes := fun _ h => h
    revert hsub
    generalize hns : nodes = ns at h3
    intro hsub
    have : ∀ (ns : List ℕ) (i0 : List (ℕ × List ℚ)), (∀ v ∈ ns, v ∈ nodes) → pyMap (fun rv => do let c ← b2.cpt rv; pure (rv, c)) ns = .ok i0 →
        ∀ q ∈ i0, ∀ y ∈ q.2, y = (0 : ℚ) := by
      intro ns
      induction ns with
      | nil => intro i0 _ h; cases h; simp
      | cons n ns ih =>
        intro i0 hs h q hq
        obtain ⟨p, ps, g1, g2, rfl⟩ := pyMap_cons_iff.1 h
        rcases List.mem_cons.1 hq with rfl | hq
        · obtain ⟨c, g3, g4⟩ := bind_ok_iff.1 g1
          cases g4
          obtain ⟨d, g5, g6⟩ := bind_ok_iff.1 g3
          cases g6
          exact hz n (.inr (hs n (by simp))) d (get_ok_iff.1 g5)
        · exact ih ps (fun v hv => hs v (by simp [hv])) g2 q hq
    exact this ns i0 (by rw [hns]; exact fun _ h => h) h3
  constructor
  · intro r e
    obtain ⟨F1, h1, e⟩ := bind_ok_iff.1 e
    obtain ⟨b2, h2, e⟩ := bind_ok_iff.1 e
    obtain ⟨i0, h3, e⟩ := bind_ok_iff.1 e
    obtain ⟨ct, h4, e⟩ := bind_ok_iff.1 e
    cases e
    have hz := ofPairs_zero (zero h2 h3)
    refine ⟨bind_ok_iff.2 ⟨F1, (setValues_times hk 0 nodes).2 h1, bind_ok_iff.2 ⟨b2, h2, bind_ok_iff.2 ⟨i0, h3, bind_ok_iff.2 ⟨scaleD k ct, ?_, rfl⟩⟩⟩⟩, ?_⟩
    · have := (countRows_times hk).1 h4
      rw [scaleD_zero k _ hz] at this
      exact this
    · obtain ⟨L, _, g2⟩ := (countRows_iff hE hI b2 nodes).1 h4
      exact bumps_nat (fun x l hl y hy => ⟨0, by rw [hz _ (Dict.get?_mem hl) y hy]; simp⟩) g2
  · intro r e
    obtain ⟨F1, h1, e⟩ := bind_ok_iff.1 e
    obtain ⟨b2, h2, e⟩ := bind_ok_iff.1 e
    obtain ⟨i0, h3, e⟩ := bind_ok_iff.1 e
    obtain ⟨ct, h4, e⟩ := bind_ok_iff.1 e
    obtain ⟨ct', h5⟩ := (countRows_times hk).2 h4
    exact ⟨_, bind_ok_iff.2 ⟨F1, (setValues_times hk 0 nodes).1 h1, bind_ok_iff.2 ⟨b2, h2, bind_ok_iff.2 ⟨i0, h3, bind_ok_iff.2 ⟨ct', h5, rfl⟩⟩⟩⟩⟩

theorem learn_cases : (∃ r, learn hE hI (fun _ => .ok 0) bn data nodes = .ok r ∧
      learn hE hI (fun _ => .ok 0) bn (data.times k) nodes = .ok (r.1, scaleD k r.2) ∧ NatD r.2) ∨
    ((∀ r, learn hE hI (fun _ => .ok 0) bn data nodes ≠ .ok r) ∧ ∀ r, learn hE hI (fun _ => .ok 0) bn (data.times k) nodes ≠ .ok r) := by
  by_cases h : ∃ r, learn hE hI (fun _ => .ok 0) bn data nodes = .ok r
  · obtain ⟨r, hr⟩ := h
    exact .inl ⟨r, hr, (learn_times hk).1 hr⟩
  · refine .inr ⟨fun r hr => h ⟨r, hr⟩, fun r hr => h ((learn_times hk).2 hr)⟩

theorem mleEstimator_times (nodes : Option (List ℕ)) {r : BayesNet ℕ ℤ} :
    mleEstimator hE hI bn (data.times k) nodes = .ok r ↔ mleEstimator hE hI bn data nodes = .ok r := by
  unfold mleEstimator
  dsimp only
  rcases learn_cases (data := data) (hE := hE) (hI := hI) (bn := bn) (nodes := nodes.getD bn.V) hk with ⟨x, h1, h2, h3⟩ | ⟨h1, h2⟩
  · rw [h1, h2, Py.bind_ok, Py.bind_ok]
    have : ∀ rv, (scaleD k x.2).get rv = (x.2.get rv >>= fun l => .ok (l.map ((k : ℚ) * ·))) := by
      intro rv
      unfold Dict.get
      rw [scaleD_get?]
      cases Dict.get? x.2 rv <;> rfl
    have key : (fun rv => do
        let ps ← parentList (nodes.getD bn.V) bn.E rv
        let vs ← x.1.values rv
        let l ← (scaleD k x.2).get rv
        let c ← x.1.card rv
        let l' ← BayesNet.normBlocks (1 / 10000000) c (l.length + 1) l
        pure (rv, (⟨ps, vs, l'⟩ : NodeData ℕ ℤ))) = (fun rv => do
        let ps ← parentList (nodes.getD bn.V) bn.E rv
        let vs ← x.1.values rv
        let l ← x.2.get rv
        let c ← x.1.card rv
        let l' ← BayesNet.normBlocks (1 / 10000000) c (l.length + 1) l
        pure (rv, (⟨ps, vs, l'⟩ : NodeData ℕ ℤ))) := by
      funext rv
      congr 1; funext ps
      congr 1; funext vs
      rw [this]
      cases hg : Dict.get? x.2 rv with
      | none => unfold Dict.get; rw [hg]; rfl
      | some l =>
        obtain ⟨m, hm⟩ := natList (h3 rv l hg)
        rw [Dict.get_of_get? hg, Py.bind_ok, Py.bind_ok, Py.bind_ok, List.length_map]
        congr 1; funext c
        rw [hm, normBlocks_scale hk]
    rw [key]
  · constructor
    · intro e
      obtain ⟨y, g, _⟩ := bind_ok_iff.1 e
      exact absurd g (h2 y)
    · intro e
      obtain ⟨y, g, _⟩ := bind_ok_iff.1 e
      exact absurd g (h1 y)

end

/-- The counts themselves are `k` times as large. -/
theorem mleCounts_times {data : Data} {k : ℕ} (hk : 0 < k) {hE : HashOrder (ℕ × ℤ)} {hI : HashOrder ℤ} {bn : BayesNet ℕ ℤ} (nodes : Option (List ℕ))
    {r : Dict ℕ (List ℤ × List ℚ)} (e : mleCounts hE hI bn data nodes = .ok r) :
    ∃ r', mleCounts hE hI bn (data.times k) nodes = .ok r' ∧ r'.keys = r.keys ∧
      ∀ v, r'.get? v = (r.get? v).map fun p => (p.1, p.2.map ((k : ℚ) * ·)) := by
  unfold mleCounts at e ⊢
  dsimp only at e ⊢
  obtain ⟨x, h1, e⟩ := bind_ok_iff.1 e
  obtain ⟨F, h2, e⟩ := bind_ok_iff.1 e
  cases e
  obtain ⟨g1, _⟩ := (learn_times hk).1 h1
  let sc : ℕ × (List ℤ × List ℚ) → ℕ × (List ℤ × List ℚ) := fun q => (q.1, (q.2.1, q.2.2.map ((k : ℚ) * ·)))
  have hF : ∀ (ns : List ℕ) (F : List (ℕ × (List ℤ × List ℚ))), pyMap (fun rv => do
      let vs ← x.1.values rv
      let l ← x.2.get rv
      pure (rv, (vs, l))) ns = .ok F → pyMap (fun rv => do
      let vs ← x.1.values rv
      let l ← (scaleD k x.2).get rv
      pure (rv, (vs, l))) ns = .ok (F.map sc) := by
    intro ns
    induction ns with
    | nil => intro F h; cases h; rfl
    | cons n ns ih =>
      intro F h
      obtain ⟨y, ys, h3, h4, rfl⟩ := pyMap_cons_iff.1 h
      obtain ⟨vs, h5, h3⟩ := bind_ok_iff.1 h3
      obtain ⟨l, h6, h3⟩ := bind_ok_iff.1 h3
      cases h3
      refine pyMap_cons_iff.2 ⟨sc (n, (vs, l)), ys.map sc, ?_, ih ys h4, rfl⟩
      refine bind_ok_iff.2 ⟨vs, h5, bind_ok_iff.2 ⟨l.map ((k : ℚ) * ·), get_ok_iff.2 ?_, rfl⟩⟩
      rw [scaleD_get?, get_ok_iff.1 h6]; rfl
  refine ⟨_, bind_ok_iff.2 ⟨_, g1, bind_ok_iff.2 ⟨_, hF _ _ h2, rfl⟩⟩, ?_⟩
  have key : ∀ (F : List (ℕ × (List ℤ × List ℚ))) (d d' : Dict ℕ (List ℤ × List ℚ)), d' = d.map sc →
      (F.map sc).foldl (fun d p => Dict.set d p.1 p.2) d' = (F.foldl (fun d p => Dict.set d p.1 p.2) d).map sc := by
    intro F
    induction F with
    | nil => intro d d' h; exact h
    | cons p F ih =>
      intro d d' h
      refine ih _ _ ?_
      rw [h]
      clear h ih
      induction d with
      | nil => rfl
      | cons q d ihd =>
        show Dict.set (sc q :: d.map sc) (sc p).1 (sc p).2 = _
        obtain ⟨a, b⟩ := q
        by_cases ha : a = p.1
        · simp [Dict.set, ha, sc]
        · simp only [Dict.set, sc, ha, if_false, List.map_cons]
          congr 1
  have hk' : Dict.ofPairs (F.map sc) = (Dict.ofPairs F).map sc := key F [] [] rfl
  rw [hk']
  generalize Dict.ofPairs F = d
  constructor
  · show (d.map sc).map Prod.fst = d.map Prod.fst
    rw [List.map_map]; rfl
  · intro v
    induction d with
    | nil => rfl
    | cons q d ih =>
      obtain ⟨a, b⟩ := q
      by_cases ha : a = v
      · simp [Dict.get?, ha, sc]
      · simp only [Dict.get?, sc, ha, if_false, List.map_cons]
        exact ih

theorem naiveBayes_times {data : Data} {k : ℕ} (hk : 0 < k) {hE : HashOrder (ℕ × ℤ)} {hI : HashOrder ℤ} {ho : HashOrder ℕ} {target : ℕ} {r : BayesNet ℕ ℤ} :
    naiveBayes hE hI ho (data.times k) target false = .ok r ↔ naiveBayes hE hI ho data target false = .ok r := by
  have hv : ∀ vd, nbValues (data.times k) = .ok vd ↔ nbValues data = .ok vd := by
    intro vd
    unfold nbValues
    rw [bind_ok_iff, bind_ok_iff]
    have : ∀ (l : List ℕ) ps, pyMap (fun i => do let c ← (data.times k).col i; pure (i, npUnique c)) l = .ok ps ↔
        pyMap (fun i => do let c ← data.col i; pure (i, npUnique c)) l = .ok ps := by
      intro l
      induction l with
      | nil => exact fun _ => Iff.rfl
      | cons i l ih =>
        intro ps
        rw [pyMap_cons_iff, pyMap_cons_iff]
        have h1 : ∀ y, (do let c ← (data.times k).col i; pure (i, npUnique c) : Py (ℕ × List ℤ)) = .ok y ↔
            (do let c ← data.col i; pure (i, npUnique c) : Py (ℕ × List ℤ)) = .ok y := by
          intro y
          rw [bind_ok_iff, bind_ok_iff]
          constructor
          · rintro ⟨c, h1, h2⟩
            obtain ⟨c', h3⟩ := (col_times hk i).2 h1
            rw [(col_times hk i).1 h3] at h1
            cases h1
            rw [npUnique_repeat hk] at h2
            exact ⟨c', h3, h2⟩
          · rintro ⟨c, h1, h2⟩
            refine ⟨_, (col_times hk i).1 h1, ?_⟩
            rw [npUnique_repeat hk]; exact h2
        constructor
        · rintro ⟨y, ys, h2, h3, h4⟩; exact ⟨y, ys, (h1 y).1 h2, (ih ys).1 h3, h4⟩
        · rintro ⟨y, ys, h2, h3, h4⟩; exact ⟨y, ys, (h1 y).2 h2, (ih ys).2 h3, h4⟩
    constructor
    · rintro ⟨ps, h1, h2⟩; exact ⟨ps, (this _ ps).1 h1, h2⟩
    · rintro ⟨ps, h1, h2⟩; exact ⟨ps, (this _ ps).2 h1, h2⟩
  unfold naiveBayes
  rw [bind_ok_iff, bind_ok_iff]
  constructor
  · rintro ⟨vd, h1, h2⟩
    obtain ⟨b, h3, h4⟩ := bind_ok_iff.1 h2
    exact ⟨vd, (hv vd).1 h1, bind_ok_iff.2 ⟨b, h3, (mleEstimator_times hk none).1 h4⟩⟩
  · rintro ⟨vd, h1, h2⟩
    obtain ⟨b, h3, h4⟩ := bind_ok_iff.1 h2
    exact ⟨vd, (hv vd).2 h1, bind_ok_iff.2 ⟨b, h3, (mleEstimator_times hk none).2 h4⟩⟩

end BayesNet

/-! ## C259 -/

/-- **C259** (1): a data set in which every row occurs `k` times as often, in whatever order, gives exactly the same network (and the
same failures): `mle_estimator`, `naive_bayes`.  Rounding and the constant `1e-7` notwithstanding. -/
theorem C259_mle {data data' : Data} (hn : data'.ncol = data.ncol) {k : ℕ} (hk : 0 < k)
    (hr : data'.rows.Perm (List.replicate k data.rows).flatten) (hE : HashOrder (ℕ × ℤ)) (hI : HashOrder ℤ) :
    (∀ (bn : BayesNet ℕ ℤ) nodes r, bn.mleEstimator hE hI data' nodes = .ok r ↔ bn.mleEstimator hE hI data nodes = .ok r) ∧
    ∀ ho target r, naiveBayes hE hI ho data' target false = .ok r ↔ naiveBayes hE hI ho data target false = .ok r := by
  have h := C246_estimators (data := data') (data' := data.times k) hn hr hE hI
  exact ⟨fun bn nodes r => (h.2.1 bn nodes r).trans (mleEstimator_times hk nodes),
    fun ho target r => (h.2.2.2 ho target false r).trans (naiveBayes_times hk)⟩

/-- **C259** (2): the counts are `k` times as large. -/
theorem C259_counts {data data' : Data} (hn : data'.ncol = data.ncol) {k : ℕ} (hk : 0 < k)
    (hr : data'.rows.Perm (List.replicate k data.rows).flatten) (hE : HashOrder (ℕ × ℤ)) (hI : HashOrder ℤ)
    (bn : BayesNet ℕ ℤ) (nodes : Option (List ℕ)) (r : Dict ℕ (List ℤ × List ℚ)) (e : bn.mleCounts hE hI data nodes = .ok r) :
    ∃ r', bn.mleCounts hE hI data' nodes = .ok r' ∧ r'.keys = r.keys ∧
      ∀ v, r'.get? v = (r.get? v).map fun p => (p.1, p.2.map ((k : ℚ) * ·)) := by
  obtain ⟨r', h1, h2⟩ := mleCounts_times hk nodes e
  exact ⟨r', ((C246_estimators (data := data') (data' := data.times k) hn hr hE hI).1 bn nodes r').2 h1, h2⟩

theorem times_mem {data : Data} {k : ℕ} (hk : 0 < k) (row : List ℤ) : row ∈ (data.times k).rows ↔ row ∈ data.rows := mem_repeat hk

theorem times_isValues {data : Data} {k : ℕ} (hk : 0 < k) (i : ℕ) (vs : List ℤ) : (data.times k).IsValues i vs ↔ data.IsValues i vs := by
  unfold Data.IsValues
  simp only [times_mem hk]

theorem times_count (data : Data) (vals : ℕ → List ℤ) (fam : List ℕ) (a : Asg ℕ) (k : ℕ) :
    (data.times k).count vals fam a = k * data.count vals fam a := by
  unfold Data.count Data.times
  dsimp only
  rw [List.countP_flatten, List.map_replicate, List.sum_replicate, smul_eq_mul]

theorem times_length (data : Data) (k : ℕ) : (data.times k).rows.length = k * data.rows.length := by
  unfold Data.times
  dsimp only
  rw [List.length_flatten, List.map_replicate, List.sum_replicate, smul_eq_mul]

/-- **C259** (3): `bayes_estimator` with its default prior weight, or with a weight that is repeated too, gives the same tables. -/
theorem C259_bayes (hE : HashOrder (ℕ × ℤ)) (hI : HashOrder ℤ) (bn : BayesNet ℕ ℤ) (s : bn.Shape) (data : Data)
    (hf : data.Fits bn.V) (nodes : Option (List ℕ)) (hns : (nodes.getD bn.V).Perm bn.V)
    (hcol : ∀ v ∈ bn.V, data.SameValues ((nodes.getD bn.V).idxOf v) v) (equiv : Option ℚ) (he : ∀ e ∈ equiv, 0 < e) (k : ℕ) (hk : 0 < k) :
    ∃ b c, bayesEstimator hE hI bn data equiv nodes = .ok b ∧
      bayesEstimator hE hI bn (data.times k) (equiv.map ((k : ℚ) * ·)) nodes = .ok c ∧ c.V = b.V ∧ c.E = b.E ∧
      ∀ v ∈ bn.V, c.parentsOf v = b.parentsOf v ∧ c.valuesOf v = b.valuesOf v ∧
        ∀ a, InRange b.cardOf (v :: b.parentsOf v) a → c.prob v a = b.prob v a := by
  obtain ⟨b, b1, b2, b3, b4, b5⟩ := C67_bayes_probabilities hE hI bn s data hf nodes hns hcol equiv he
  have hf' : (data.times k).Fits bn.V := by
    refine ⟨fun h => ?_, fun row hrow => hf.rect row ((times_mem hk row).1 hrow), hf.cols⟩
    apply hf.ne
    rw [List.eq_nil_iff_forall_not_mem] at h ⊢
    exact fun row hrow => h row ((times_mem hk row).2 hrow)
  have hcol' : ∀ v ∈ bn.V, (data.times k).SameValues ((nodes.getD bn.V).idxOf v) v := by
    intro v hv x
    simp only [times_mem hk]
    exact hcol v hv x
  have hkq : (0 : ℚ) < k := by exact_mod_cast hk
  have he' : ∀ e ∈ equiv.map ((k : ℚ) * ·), 0 < e := by
    intro e hm
    obtain ⟨e0, h0, rfl⟩ := Option.mem_map.1 hm
    exact mul_pos hkq (he e0 h0)
  obtain ⟨c, c1, c2, c3, c4, c5⟩ := C67_bayes_probabilities hE hI bn s (data.times k) hf' nodes hns hcol' (equiv.map ((k : ℚ) * ·)) he'
  have hpar : ∀ v ∈ bn.V, c.parentsOf v = b.parentsOf v := fun v hv => (c5 v hv).1.trans (b5 v hv).1.symm
  have hval : ∀ v ∈ bn.V, c.valuesOf v = b.valuesOf v := fun v hv =>
    ((times_isValues hk v _).1 (c5 v hv).2.1).unique (b5 v hv).2.1
  refine ⟨b, c, b1, c1, c2.trans b2.symm, c3.trans b3.symm, fun v hv => ⟨hpar v hv, hval v hv, fun a ha => ?_⟩⟩
  have hcard : ∀ u ∈ bn.V, c.cardOf u = b.cardOf u := fun u hu => by rw [c4.card_len (c2 ▸ hu), b4.card_len (b2 ▸ hu), hval u hu]
  have hfam : ∀ u ∈ v :: b.parentsOf v, u ∈ bn.V := by
    intro u hu
    rcases List.mem_cons.1 hu with rfl | hu
    · exact hv
    · rw [(b5 v hv).1] at hu; exact s.parents_mem v hv u hu
  have hcnt : ∀ fam, (∀ u ∈ fam, u ∈ bn.V) → (data.times k).count c.valuesOf fam a = k * data.count b.valuesOf fam a := by
    intro fam hfm
    rw [times_count]
    congr 1
    unfold Data.count
    refine List.countP_congr fun row _ => ?_
    rw [decide_eq_true_eq, decide_eq_true_eq]
    unfold Matches
    constructor
    · intro h u hu; have := h u hu; rw [hval u (hfm u hu)] at this; exact this
    · intro h u hu; have := h u hu; rw [hval u (hfm u hu)]; exact this
  have hlen : (c.cptOf v).length = (b.cptOf v).length := by
    rw [c4.cpt_len v (c2 ▸ hv), b4.cpt_len v (b2 ▸ hv), hpar v hv]
    congr 1
    refine List.map_congr_left fun u hu => hcard u (hfam u hu)
  have ha' : InRange c.cardOf (v :: c.parentsOf v) a := by
    rw [hpar v hv]
    intro u hu
    rw [hcard u (hfam u hu)]
    exact ha u hu
  rw [(c5 v hv).2.2 a ha', (b5 v hv).2.2 a ha, hpar v hv, hlen, hcnt _ hfam, hcnt _ (fun u hu => hfam u (by simp [hu])), hcard v hv]
  have hq : (equiv.map ((k : ℚ) * ·)).getD ((data.times k).rows.length : ℚ) = k * equiv.getD (data.rows.length : ℚ) := by
    cases equiv with
    | none => simp only [Option.map_none, Option.getD_none]; rw [times_length]; push_cast; rfl
    | some e => rfl
  rw [hq]
  push_cast
  congr 1
  rw [show (k : ℚ) * equiv.getD (data.rows.length : ℚ) / (b.cptOf v).length = k * (equiv.getD (data.rows.length : ℚ) / (b.cptOf v).length) by ring,
    ← mul_add, show (b.cardOf v : ℚ) * (k * (equiv.getD (data.rows.length : ℚ) / (b.cptOf v).length)) +
      k * (data.count b.valuesOf (b.parentsOf v) a : ℚ) = k * ((b.cardOf v : ℚ) * (equiv.getD (data.rows.length : ℚ) / (b.cptOf v).length) +
      (data.count b.valuesOf (b.parentsOf v) a : ℚ)) by ring, mul_div_mul_left _ _ hkq.ne']

/-- Witness: three rows and the same rows twice over, shuffled; both calls succeed with the same table. -/
example : (exArc.mleEstimator .id .id ⟨2, [[0, 5], [1, 7], [0, 5]]⟩ none).okAnd (fun r => decide (r.cptOf 1 = [1, 0, 0, 1] ∧ r.cptOf 0 = [66667 / 100000, 33333 / 100000])) = true ∧
    (exArc.mleEstimator .id .id ⟨2, [[1, 7], [1, 7], [0, 5], [0, 5], [0, 5], [0, 5]]⟩ none).okAnd
      (fun r => decide (r.cptOf 1 = [1, 0, 0, 1] ∧ r.cptOf 0 = [66667 / 100000, 33333 / 100000])) = true ∧
    List.Perm [[1, 7], [1, 7], [0, 5], [0, 5], [0, 5], [0, 5]] (List.replicate 2 [[(0 : ℤ), 5], [1, 7], [0, 5]]).flatten := by
  refine ⟨by decide +kernel, by decide +kernel, by decide +kernel⟩

end PyBN
