import Verif.Props.Sample5
import Verif.Props.Learn
import Verif.Spec.Recover

/-!
# From sampled rows to counts: what the estimators see on `random_sample` data
-/

set_option linter.unusedSectionVars false

namespace PyBN
open BayesNet Sampling MeasureTheory ProbabilityTheory Filter Topology
variable {N A : Type} [DecidableEq N] [DecidableEq A] {Ω : Type} [MeasurableSpace Ω] {P : Measure Ω} {U : ℕ → Ω → ℝ}

/-- In a network listed parents first, summing out nodes at the end of the list leaves the product of the earlier tables. -/
theorem sumAll_suffix {bn : BayesNet N A} (hno : bn.Normalised) : ∀ (o pre : List N), (pre ++ o).Nodup → (∀ v ∈ o, v ∈ bn.V) →
    (∀ o1 v o2, o = o1 ++ v :: o2 → ∀ p ∈ bn.parentsOf v, p ∈ pre ++ o1) → ∀ a, InRange bn.cardOf pre a →
    sumAll bn.cardOf o (fun b => (o.map fun v => bn.prob v b).prod) a = 1 := by
  intro o
  induction o using List.reverseRecOn with
  | nil => intro pre _ _ _ a _; simp [sumAll]
  | append_singleton o v ih =>
    intro pre hn hV ht a ha
    have hn' : (pre ++ o).Nodup := by rw [← List.append_assoc] at hn; exact (List.nodup_append.1 hn).1
    have hvo : v ∉ pre ++ o := by
      rw [← List.append_assoc] at hn
      exact fun hv => (List.nodup_append.1 hn).2.2 v hv v (by simp) rfl
    have hno' := (List.nodup_append.1 hn').2.1
    rw [sumAll_append]
    rw [← ih pre hn' (fun u hu => hV u (by simp [hu]))
      (fun o1 u o2 he p hp => ht o1 u (o2 ++ [v]) (by simp [he]) p hp) a ha]
    apply sumAll_congr _ hno'
    intro b hb hr
    have hpar : ∀ p ∈ bn.parentsOf v, p ∈ pre ++ o := fun p hp => ht o v [] (by simp) p hp
    have h1 : ∀ x, ((o.map fun u => bn.prob u (b.upd v x)).prod) = (o.map fun u => bn.prob u b).prod := by
      intro x
      congr 1
      apply List.map_congr_left
      intro u hu
      apply prob_congr
      intro w hw
      apply Asg.upd_ne
      rintro rfl
      rcases List.mem_cons.1 hw with rfl | hw
      · exact hvo (by simp [hu])
      · obtain ⟨o1, o2, rfl⟩ := List.append_of_mem hu
        have := ht o1 u (o2 ++ [w]) (by simp) w hw
        rcases List.mem_append.1 this with h0 | h0
        · exact hvo (by simp [h0])
        · exact hvo (by simp [h0])
    simp only [sumAll, List.map_append, List.map_cons, List.map_nil, List.prod_append, List.prod_cons, List.prod_nil, mul_one]
    simp only [h1]
    rw [← Finset.mul_sum, hno v (hV v (by simp)) b, mul_one]
    intro p hp
    rcases List.mem_append.1 (hpar p hp) with h0 | h0
    · have : p ∉ o := fun h2 => (List.nodup_append.1 hn').2.2 p h0 p h2 rfl
      rw [hb p this]; exact ha p h0
    · exact hr p h0

theorem prodProb_congr {bn : BayesNet N A} {l : List N} {a b : Asg N} (h : ∀ u ∈ l, ∀ w ∈ bn.fam u, a w = b w) :
    (l.map fun u => bn.prob u a).prod = (l.map fun u => bn.prob u b).prod := by
  congr 1
  apply List.map_congr_left
  intro u hu
  exact prob_congr fun w hw => h u hu w hw

/-- Summing out the last nodes of a network listed parents first. -/
theorem sumAll_prefix {bn : BayesNet N A} (w : bn.WF) (hno : bn.Normalised) (hpf : bn.ParentsFirst) {pre post : List N} (hV : bn.V = pre ++ post)
    {l : List N} (hl : l.Nodup) {a : Asg N} (ha : ∀ u ∈ pre, u ∉ l → a u < bn.cardOf u) :
    sumAll bn.cardOf (l ++ post) bn.joint a = sumAll bn.cardOf l (fun b => (pre.map fun u => bn.prob u b).prod) a := by
  have hnd : (pre ++ post).Nodup := by rw [← hV]; exact w.nodup
  rw [sumAll_append]
  apply sumAll_congr _ hl
  intro b hb hr
  have hj : bn.joint = fun c => (pre.map fun u => bn.prob u c).prod * (post.map fun u => bn.prob u c).prod := by
    funext c; unfold BayesNet.joint; rw [hV, List.map_append, List.prod_append]
  rw [hj, sumAll_mul_left (G := fun c => (pre.map fun u => bn.prob u c).prod), sumAll_suffix hno post pre hnd
    (fun v hv => by rw [hV]; simp [hv]), mul_one]
  · intro o1 v o2 he p hp
    exact hpf (pre ++ o1) v o2 (by rw [hV, he, List.append_assoc]) p hp
  · intro u hu
    by_cases hul : u ∈ l
    · exact hr u hul
    · rw [hb u hul]; exact ha u hu hul
  · intro c d hcd
    apply prodProb_congr
    intro u hu x hx
    apply hcd
    intro hxp
    obtain ⟨p1, p2, rfl⟩ := List.append_of_mem hu
    rcases List.mem_cons.1 hx with rfl | hx
    · exact (List.nodup_append.1 hnd).2.2 x (by simp) x hxp rfl
    · have := hpf p1 u (p2 ++ post) (by rw [hV]; simp) x hx
      exact (List.nodup_append.1 hnd).2.2 x (by simp [this]) x hxp rfl

/-- The chain rule for any set of earlier nodes that contains the parents. -/
theorem marg_within {bn : BayesNet N A} (w : bn.WF) (hno : bn.Normalised) (hpf : bn.ParentsFirst) {V1 V2 : List N} {v : N} (hV : bn.V = V1 ++ v :: V2) {W : List N}
    (hpW : ∀ p ∈ bn.parentsOf v, p ∈ W) (hpar : ∀ p ∈ W, p ∈ V1) {a : Asg N} (ha : InRange bn.cardOf (v :: W) a) :
    margOf bn (v :: W) a = bn.prob v a * margOf bn W a := by
  have hnd : (V1 ++ v :: V2).Nodup := by rw [← hV]; exact w.nodup
  have hv1 : v ∉ V1 := fun h0 => (List.nodup_append.1 hnd).2.2 v h0 v (by simp) rfl
  have hv2 : v ∉ V2 := (List.nodup_cons.1 (List.nodup_append.1 hnd).2.1).1
  have hd12 : ∀ u ∈ V2, u ∉ V1 := fun u h2 h1 => (List.nodup_append.1 hnd).2.2 u h1 u (by simp [h2]) rfl
  have hvp : v ∉ W := fun h0 => hv1 (hpar v h0)
  set l := V1.filter fun u => u ∉ W with hl
  have hln : l.Nodup := (List.nodup_append.1 hnd).1.filter _
  have hf1 : (bn.V.filter fun u => u ∉ v :: W) = l ++ V2 := by
    rw [hV, List.filter_append, List.filter_cons]
    have e1 : (V1.filter fun u => u ∉ v :: W) = l := by
      apply List.filter_congr
      intro u hu
      have : u ≠ v := by rintro rfl; exact hv1 hu
      simp [this]
    have e2 : (V2.filter fun u => u ∉ v :: W) = V2 := by
      rw [List.filter_eq_self]
      intro u hu
      have h1 : u ≠ v := by rintro rfl; exact hv2 hu
      have h2 : u ∉ W := fun h0 => hd12 u hu (hpar u h0)
      simp [h1, h2]
    rw [e1, e2]
    simp
  have hf2 : (bn.V.filter fun u => u ∉ W) = l ++ v :: V2 := by
    rw [hV, List.filter_append, List.filter_cons, if_pos (by simpa using hvp)]
    congr 2
    rw [List.filter_eq_self]
    intro u hu
    have h2 : u ∉ W := fun h0 => hd12 u hu (hpar u h0)
    simpa using h2
  unfold margOf
  rw [hf1, hf2, sumAll_prefix w hno hpf (pre := V1 ++ [v]) (post := V2) (by rw [hV]; simp) hln,
    sumAll_prefix w hno hpf (pre := V1) (post := v :: V2) hV hln]
  · have e : (fun b => ((V1 ++ [v]).map fun u => bn.prob u b).prod) = fun b => bn.prob v b * (V1.map fun u => bn.prob u b).prod := by
      funext b; simp [mul_comm]
    rw [e]
    apply sumAll_mul_left (G := fun b => bn.prob v b)
    intro c d hcd
    apply prob_congr
    intro x hx
    apply hcd
    rcases List.mem_cons.1 hx with rfl | hx
    · exact fun h0 => hv1 (List.mem_of_mem_filter h0)
    · intro h0
      have := (List.mem_filter.1 h0).2
      simp [hpW x hx] at this
  · intro u hu hul
    have : u ∈ W := by
      by_contra h0
      exact hul (List.mem_filter.2 ⟨hu, by simpa using h0⟩)
    exact ha u (List.mem_cons_of_mem _ this)
  · intro u hu hul
    rcases List.mem_append.1 hu with hu | hu
    · have : u ∈ W := by
        by_contra h0
        exact hul (List.mem_filter.2 ⟨hu, by simpa using h0⟩)
      exact ha u (List.mem_cons_of_mem _ this)
    · rw [List.mem_singleton] at hu; subst hu; exact ha u (by simp)

/-- The chain rule at a node: `P(v, parents) = P(parents) P(v | parents)`. -/
theorem marg_family {bn : BayesNet N A} (w : bn.WF) (hno : bn.Normalised) (hpf : bn.ParentsFirst) {v : N} (hv : v ∈ bn.V) {a : Asg N}
    (ha : InRange bn.cardOf (bn.fam v) a) :
    margOf bn (bn.fam v) a = bn.prob v a * margOf bn (bn.parentsOf v) a := by
  obtain ⟨V1, V2, hV⟩ := List.append_of_mem hv
  exact marg_within w hno hpf hV (fun _ hp => hp) (hpf V1 v V2 hV) ha

variable {B : Type} [DecidableEq B] in
theorem margOf_congr {bn : BayesNet N A} {vs : List N} {a b : Asg N} (w : bn.WF) (h : ∀ u ∈ vs, a u = b u) : margOf bn vs a = margOf bn vs b := by
  unfold margOf
  have hj : ∀ c d : Asg N, (∀ u ∈ bn.V, c u = d u) → bn.joint c = bn.joint d := by
    intro c d hcd
    apply prodProb_congr
    intro u hu x hx
    rcases List.mem_cons.1 hx with rfl | hx
    · exact hcd _ hu
    · exact hcd _ (w.parents_mem u hu x hx)
  let cut : Asg N → Asg N := fun c u => if u ∈ bn.V then c u else 0
  have h1 : ∀ c, sumAll bn.cardOf (bn.V.filter fun u => u ∉ vs) bn.joint c = sumAll bn.cardOf (bn.V.filter fun u => u ∉ vs) (fun d => bn.joint (cut d)) c := by
    intro c
    apply sumAll_congr _ (w.nodup.filter _)
    intro d _ _
    apply hj
    intro u hu
    simp [cut, hu]
  have h2 : ∀ (l : List N), (∀ u ∈ l, u ∈ bn.V) → ∀ c, sumAll bn.cardOf l (fun d => bn.joint (cut d)) c = sumAll bn.cardOf l (fun d => bn.joint (cut d)) (cut c) := by
    intro l
    induction l with
    | nil =>
      intro _ c
      simp only [sumAll]
      congr 1
      funext u; simp only [cut]; split_ifs <;> rfl
    | cons v l ih =>
      intro hl c
      simp only [sumAll]
      apply Finset.sum_congr rfl
      intro x _
      rw [ih (fun u hu => hl u (List.mem_cons_of_mem _ hu)), ih (fun u hu => hl u (List.mem_cons_of_mem _ hu)) ((cut c).upd v x)]
      congr 1
      funext u
      by_cases huv : u = v
      · subst huv; simp [cut, Asg.upd]
      · simp only [cut]; rw [Asg.upd_ne _ _ huv, Asg.upd_ne _ _ huv]; split_ifs <;> rfl
  rw [h1, h1, h2 _ fun u hu => List.mem_of_mem_filter hu, h2 _ (fun u hu => List.mem_of_mem_filter hu) b]
  apply sumAll_base
  intro u hu
  simp only [cut]
  split_ifs with huV
  · apply h
    by_contra h0
    exact hu (List.mem_filter.2 ⟨huV, by simpa using h0⟩)
  · rfl

variable {B : Type} [DecidableEq B] in
theorem margOf_nonneg {bn : BayesNet ℕ B} (hn : bn.Nonneg) (vs : List ℕ) (a : Asg ℕ) : 0 ≤ margOf bn vs a :=
  sumAll_nonneg (fun b => joint_nonneg hn b) a

/-- Almost surely, the share of passes that agree with `a` on `vs` converges to `P(vs = a)`. -/
theorem pass_freq (hU : Uniforms P U) {bn : BayesNet N A} (w : bn.WF) (hn : bn.Nonneg) (hno : bn.Normalised) (vs : List N) {a : Asg N}
    (ha : ∀ v ∈ bn.V, v ∈ vs → a v < bn.cardOf v) :
    ∀ᵐ ω ∂P, Tendsto (fun n : ℕ => (∑ t ∈ Finset.range n, ((passW bn [] (bn.V.filter fun u => u ∉ vs) a (blockOf U _ t ω) : ℚ) : ℝ)) / n) atTop
      (𝓝 ((margOf bn vs a : ℚ) : ℝ)) := by
  have hP := uniforms_prob hU
  obtain ⟨b1, b2, b3, b4⟩ := block_fun hU (passW_measurable bn [] (bn.V.filter fun u => u ∉ vs) a)
  have hi := passW_integral w hn hno (ev := []) (l := bn.V.filter fun u => u ∉ vs) (w.nodup.filter _) (a := a) (by
    intro u hu hul
    refine ha u hu ?_
    by_contra hne; exact hul (List.mem_filter.2 ⟨hu, by simpa using hne⟩))
  have := strong_law_ae_real _ ((b4 0).2 hi.1) (fun i j hij => b1.indepFun hij) b2
  rw [b3 0, hi.2] at this
  exact this

/-- The rows `random_sample` returns and what each pass contributes to each event. -/
theorem random_rows (h : HashOrder N) {bn : BayesNet N A} (w : bn.WF) (hn : bn.Nonneg) (hno : bn.Normalised) {tol : ℚ} (h0 : 0 ≤ tol)
    (ht : tol < 1) (hpf : bn.ParentsFirst) {ω : Ω} (hω : ∀ i, 0 ≤ U i ω ∧ U i ω < 1) {garbage : List (List ℤ)}
    (hg : ∀ g ∈ garbage, g.length = bn.V.length) :
    ∃ smp : ℕ → Asg N, randomSample tol h bn garbage (fun i => U i ω) =
        .ok ((List.range garbage.length).map fun t => bn.V.map fun v => ((smp t v : ℕ) : ℤ)) ∧
      (∀ t < garbage.length, InRange bn.cardOf bn.V (smp t)) ∧
      ∀ (vs : List N) (a : Asg N), (∀ v ∈ bn.V, v ∈ vs → a v < bn.cardOf v) → ∀ t < garbage.length,
        passW bn [] (bn.V.filter fun u => u ∉ vs) a (blockOf U _ t ω) = if ∀ v ∈ bn.V, v ∈ vs → a v = smp t v then 1 else 0 := by
  obtain ⟨smp, e1, e2⟩ := randomRows_ok h w hn ht (normalised_near hno h0) hpf hω garbage 0 hg
  obtain ⟨fs, hinit⟩ := inits_ok w
  refine ⟨smp, ?_, fun t htn => (e2 t htn).1, fun vs a ha t htn => ?_⟩
  · unfold randomSample
    rw [hinit]
    simp only [Py.bind_ok]
    exact e1
  · have hmem : ∀ u ∈ bn.V, (u ∉ bn.V.filter fun u => u ∉ vs) ↔ u ∈ vs := by
      intro u hu; rw [List.mem_filter]; simp [hu]
    rw [passW_ok w hn hno hpf (w.nodup.filter _) (by rw [freeOf_nil]; exact fun u hu => (List.mem_filter.1 hu).1) ?_
      (fun e he => absurd he (by simp)) (e2 t htn).1 (fun e he => absurd he (by simp)) (block_cube hω) ?_, evWeight_nil]
    · apply if_congr _ rfl rfl
      exact ⟨fun he u hu hul => he u hu ((hmem u hu).2 hul), fun he u hu hul => he u hu ((hmem u hu).1 hul)⟩
    · intro u hu hul
      exact ha u hu ((hmem u hu).1 hul)
    · intro j v' hj
      have hj' := (List.getElem?_eq_some_iff.1 hj).1
      rw [stream_block ω (by omega), one_mul]
      rw [freeOf_nil] at hj ⊢
      have := (e2 t htn).2 j v' hj
      rwa [Nat.zero_add] at this

/-- The rows as an array. -/
def rowsOf (m n : ℕ) (smp : ℕ → Asg ℕ) : List (List ℤ) := (List.range n).map fun t => (List.range m).map fun v => ((smp t v : ℕ) : ℤ)

/-- `0, 1, …, k - 1` as data values. -/
def upTo (k : ℕ) : List ℤ := (List.range k).map fun i : ℕ => ((i : ℕ) : ℤ)

theorem upTo_get {k i : ℕ} : (upTo k)[i]? = if i < k then some (i : ℤ) else none := by
  unfold upTo
  rw [List.getElem?_map]
  split_ifs with hik
  · rw [List.getElem?_range hik]; rfl
  · rw [List.getElem?_eq_none (by simp; omega)]; rfl

theorem rowsOf_get {m n : ℕ} {smp : ℕ → Asg ℕ} {t u : ℕ} (hu : u < m) :
    ((List.range m).map fun v => ((smp t v : ℕ) : ℤ))[u]? = some ((smp t u : ℕ) : ℤ) := by
  rw [List.getElem?_map, List.getElem?_range hu]; rfl

theorem rowsOf_fits {m n : ℕ} {smp : ℕ → Asg ℕ} (hn : 1 ≤ n) : (⟨m, rowsOf m n smp⟩ : Data).Fits (List.range m) := by
  refine ⟨?_, ?_, fun v hv => List.mem_range.1 hv⟩
  · intro h0
    have := congrArg List.length h0
    simp [rowsOf] at this
    omega
  · intro row hr
    obtain ⟨t, _, rfl⟩ := List.mem_map.1 hr
    simp

theorem rowsOf_values {m n : ℕ} {smp : ℕ → Asg ℕ} {c : ℕ → ℕ} (hr : ∀ t < n, ∀ v < m, smp t v < c v) {v : ℕ} (hv : v < m)
    (hall : ∀ x < c v, ∃ t < n, smp t v = x) : (⟨m, rowsOf m n smp⟩ : Data).IsValues v (upTo (c v)) := by
  refine ⟨?_, fun x => ?_⟩
  · unfold upTo
    rw [List.pairwise_map]
    exact List.pairwise_lt_range.imp fun h => by exact_mod_cast h
  · constructor
    · intro hx
      obtain ⟨i, hi, rfl⟩ := List.mem_map.1 hx
      obtain ⟨t, ht, he⟩ := hall i (List.mem_range.1 hi)
      exact ⟨_, List.mem_map.2 ⟨t, List.mem_range.2 ht, rfl⟩, by rw [rowsOf_get (n := n) hv, he]⟩
    · rintro ⟨row, hrow, he⟩
      obtain ⟨t, ht, rfl⟩ := List.mem_map.1 hrow
      rw [rowsOf_get (n := n) hv] at he
      cases he
      exact List.mem_map.2 ⟨smp t v, List.mem_range.2 (hr t (List.mem_range.1 ht) v hv), rfl⟩

theorem rowsOf_count {m n : ℕ} {smp : ℕ → Asg ℕ} {c : ℕ → ℕ} {vals : ℕ → List ℤ} {fam : List ℕ} (hf : ∀ u ∈ fam, u < m)
    (hvals : ∀ u ∈ fam, vals u = upTo (c u)) {a : Asg ℕ} (ha : ∀ u ∈ fam, a u < c u) :
    (((⟨m, rowsOf m n smp⟩ : Data).count vals fam a : ℕ) : ℚ) = ∑ t ∈ Finset.range n, if ∀ u ∈ List.range m, u ∈ fam → a u = smp t u then 1 else 0 := by
  unfold Data.count rowsOf
  rw [List.countP_map, Finset.sum_boole]
  congr 1
  rw [List.countP_eq_length_filter]
  have : (Finset.range n).filter (fun t => ∀ u ∈ List.range m, u ∈ fam → a u = smp t u) =
      ((List.range n).filter fun t => decide (∀ u ∈ List.range m, u ∈ fam → a u = smp t u)).toFinset := by
    ext t; simp
  rw [this, List.toFinset_card_of_nodup (List.nodup_range.filter _)]
  congr 1
  apply List.filter_congr
  intro t ht
  rw [Function.comp, decide_eq_decide]
  constructor
  · intro hm u hu huf
    have := (hm u huf).2
    rw [rowsOf_get (n := n) (hf u huf), hvals u huf, upTo_get, if_pos (ha u huf)] at this
    have := Option.some.inj this
    exact (by exact_mod_cast this.symm)
  · intro hm u huf
    rw [rowsOf_get (n := n) (hf u huf), hvals u huf, upTo_get, if_pos (ha u huf)]
    exact ⟨rfl, by rw [hm u (List.mem_range.2 (hf u huf)) huf]⟩

/-- What the estimators see, for given random numbers: when every value of every node has been drawn, the array has the right values in every column, and the
counts of any configuration are those of the passes. -/
theorem sampled_data_at (h : HashOrder ℕ) {bn : BayesNet ℕ A} (S : Sampleable bn) {tol : ℚ} (h0 : 0 ≤ tol) (ht : tol < 1) {n : ℕ} (h1 : 1 ≤ n)
    {garbage : List (List ℤ)} (hgl : garbage.length = n) (hg : ∀ g ∈ garbage, g.length = bn.V.length) {ω : Ω} (hr : ∀ i, 0 ≤ U i ω ∧ U i ω < 1)
    (hn : ∀ v ∈ bn.V, ∀ x < bn.cardOf v,
      0 < ∑ t ∈ Finset.range n, passW bn [] (bn.V.filter fun u => u ∉ [v]) (fun _ => x) (blockOf U _ t ω)) :
    ∃ rows, randomSample tol h bn garbage (fun i => U i ω) = .ok rows ∧ rows.length = n ∧
      (⟨bn.V.length, rows⟩ : Data).Fits bn.V ∧
      (∀ v ∈ bn.V, (⟨bn.V.length, rows⟩ : Data).IsValues v (upTo (bn.cardOf v))) ∧
      ∀ (fam : List ℕ) (vals : ℕ → List ℤ) (a : Asg ℕ), (∀ u ∈ fam, u ∈ bn.V) → (∀ u ∈ fam, vals u = upTo (bn.cardOf u)) →
        (∀ u ∈ fam, a u < bn.cardOf u) → (((⟨bn.V.length, rows⟩ : Data).count vals fam a : ℕ) : ℚ) =
          ∑ t ∈ Finset.range n, passW bn [] (bn.V.filter fun u => u ∉ fam) a (blockOf U _ t ω) := by
  obtain ⟨smp, e1, e2, e3⟩ := random_rows h S.wf S.nonneg S.normalised h0 ht S.parentsFirst hr hg
  rw [hgl] at e1 e2 e3
  have hcol := S.columns
  have hmemV : ∀ u, u ∈ bn.V ↔ u < bn.V.length := fun u => by conv_lhs => rw [hcol, List.mem_range]
  have hrows : ((List.range n).map fun t => bn.V.map fun v => ((smp t v : ℕ) : ℤ)) = rowsOf bn.V.length n smp := by
    unfold rowsOf
    conv_lhs => rw [hcol]
  rw [hrows] at e1
  refine ⟨rowsOf bn.V.length n smp, e1, by simp [rowsOf], ?_, fun v hv => ?_, ?_⟩
  · have := rowsOf_fits (m := bn.V.length) (smp := smp) h1
    rwa [← hcol] at this
  · refine rowsOf_values (c := bn.cardOf) (fun t htn u hu => e2 t htn u ((hmemV u).2 hu)) ((hmemV v).1 hv) fun x hx => ?_
    have h2 := hn v hv x hx
    by_contra hc
    push Not at hc
    have h3 : ∑ t ∈ Finset.range n, passW bn [] (bn.V.filter fun u => u ∉ [v]) (fun _ => x) (blockOf U _ t ω) = 0 := by
      apply Finset.sum_eq_zero
      intro t htm
      rw [e3 [v] (fun _ => x) (by intro u _ hu; rw [List.mem_singleton] at hu; subst hu; exact hx) t (Finset.mem_range.1 htm),
        if_neg]
      intro hall
      exact hc t (Finset.mem_range.1 htm) (hall v hv (by simp)).symm
    linarith
  · intro fam vals a hf hvals ha
    rw [rowsOf_count (fun u hu => (hmemV u).1 (hf u hu)) hvals ha]
    apply Finset.sum_congr rfl
    intro t htm
    rw [e3 fam a (fun u _ hu => ha u hu) t (Finset.mem_range.1 htm), ← hcol]

/-- What the estimators see: almost surely, for all large `n`, the array has the right values in every column, and the counts of any fixed
configuration are those of the passes. -/
theorem sampled_data (hU : Uniforms P U) (h : HashOrder ℕ) {bn : BayesNet ℕ A} (S : Sampleable bn) {tol : ℚ}
    (h0 : 0 ≤ tol) (ht : tol < 1) (garbage : ℕ → List (List ℤ)) (hgl : ∀ n, (garbage n).length = n)
    (hg : ∀ n, ∀ g ∈ garbage n, g.length = bn.V.length) :
    ∀ᵐ ω ∂P, ∀ᶠ n : ℕ in atTop, ∃ rows, randomSample tol h bn (garbage n) (fun i => U i ω) = .ok rows ∧ rows.length = n ∧
      (⟨bn.V.length, rows⟩ : Data).Fits bn.V ∧
      (∀ v ∈ bn.V, (⟨bn.V.length, rows⟩ : Data).IsValues v (upTo (bn.cardOf v))) ∧
      ∀ (fam : List ℕ) (vals : ℕ → List ℤ) (a : Asg ℕ), (∀ u ∈ fam, u ∈ bn.V) → (∀ u ∈ fam, vals u = upTo (bn.cardOf u)) →
        (∀ u ∈ fam, a u < bn.cardOf u) → (((⟨bn.V.length, rows⟩ : Data).count vals fam a : ℕ) : ℚ) =
          ∑ t ∈ Finset.range n, passW bn [] (bn.V.filter fun u => u ∉ fam) a (blockOf U _ t ω) := by
  have hpos : ∀ᵐ ω ∂P, ∀ v x : ℕ, v ∈ bn.V → x < bn.cardOf v → ∀ᶠ n : ℕ in atTop,
      0 < ∑ t ∈ Finset.range n, passW bn [] (bn.V.filter fun u => u ∉ [v]) (fun _ => x) (blockOf U _ t ω) := by
    rw [ae_all_iff]; intro v
    rw [ae_all_iff]; intro x
    by_cases hv : v ∈ bn.V
    · by_cases hx : x < bn.cardOf v
      · have := pass_freq hU S.wf S.nonneg S.normalised [v] (a := fun _ => x) (by
          intro u _ hu; rw [List.mem_singleton] at hu; subst hu; exact hx)
        filter_upwards [this] with ω hω _ _
        have hp : (0 : ℝ) < ((margOf bn [v] (fun _ => x) : ℚ) : ℝ) := by exact_mod_cast S.possible v hv x hx
        filter_upwards [hω.eventually (lt_mem_nhds hp)] with n hn
        by_contra hc
        push Not at hc
        have hc' : ∑ t ∈ Finset.range n, ((passW bn [] (bn.V.filter fun u => u ∉ [v]) (fun _ => x) (blockOf U _ t ω) : ℚ) : ℝ) ≤ 0 := by
          have : ((∑ t ∈ Finset.range n, passW bn [] (bn.V.filter fun u => u ∉ [v]) (fun _ => x) (blockOf U _ t ω) : ℚ) : ℝ) ≤ ((0 : ℚ) : ℝ) :=
            Rat.cast_le.2 hc
          push_cast at this
          exact this
        have := div_nonpos_of_nonpos_of_nonneg hc' (Nat.cast_nonneg (α := ℝ) n)
        linarith
      · exact Eventually.of_forall fun ω _ h2 => absurd h2 hx
    · exact Eventually.of_forall fun ω h1 => absurd h1 hv
  filter_upwards [hpos, uniforms_range hU] with ω hω hr
  have hev : ∀ᶠ n : ℕ in atTop, ∀ v ∈ bn.V, ∀ x < bn.cardOf v,
      0 < ∑ t ∈ Finset.range n, passW bn [] (bn.V.filter fun u => u ∉ [v]) (fun _ => x) (blockOf U _ t ω) := by
    have : ∀ᶠ n : ℕ in atTop, ∀ v ∈ bn.V.toFinset, ∀ x ∈ Finset.range (bn.cardOf v),
        0 < ∑ t ∈ Finset.range n, passW bn [] (bn.V.filter fun u => u ∉ [v]) (fun _ => x) (blockOf U _ t ω) := by
      rw [Filter.eventually_all_finset]
      intro v hv
      rw [Filter.eventually_all_finset]
      intro x hx
      exact hω v x (List.mem_toFinset.1 hv) (Finset.mem_range.1 hx)
    filter_upwards [this] with n hn v hv x hx
    exact hn v (List.mem_toFinset.2 hv) x (Finset.mem_range.2 hx)
  filter_upwards [hev, eventually_ge_atTop 1] with n hn h1
  exact sampled_data_at h S h0 ht h1 (hgl n) (hg n) hr hn

end PyBN
