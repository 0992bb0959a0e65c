import Verif.Props.SampleCMI
import Verif.Props.Iamb
import Verif.Spec.Distance

/-!
# `gs` and `iamb` on samples of a network: C207 - C209
-/

set_option linter.unusedSectionVars false

namespace PyBN
open BayesNet Sampling Indep Constraint MeasureTheory ProbabilityTheory Filter Topology
variable {A : Type} [DecidableEq A] {Ω : Type} [MeasurableSpace Ω] {P : Measure Ω} {U : ℕ → Ω → ℝ}

/-- A test the algorithms can make on `n` columns: two or more different ones. -/
def LegalTest (n : ℕ) (c : List ℕ) : Prop := 2 ≤ c.length ∧ c.Nodup ∧ ∀ t ∈ c, t < n

/-- One pair of dependent nodes: p-value 0 and a positive statistic on all large samples. -/
theorem pair_pvalue (hU : Uniforms P U) (h : HashOrder ℕ) {bn : BayesNet ℕ A} (S : Sampleable bn) {tol : ℚ}
    (h0 : 0 ≤ tol) (ht : tol < 1) (garbage : ℕ → List (List ℤ)) (hgl : ∀ n, (garbage n).length = n)
    (hg : ∀ n, ∀ g ∈ garbage n, g.length = bn.V.length) {u v : ℕ} (hu : u ∈ bn.V) (hv : v ∈ bn.V) (huv : u ≠ v) (hcu : 2 ≤ bn.cardOf u)
    (hcv : 2 ≤ bn.cardOf v) (hdep : ¬ NodesIndep bn u v) :
    ∀ᵐ ω ∂P, ∀ᶠ n : ℕ in atTop, ∃ rows, randomSample tol h bn (garbage n) (fun i => U i ω) = .ok rows ∧
      miTest 2 (select [u, v] (natRows rows)) = .ok (.fin 0) ∧ 0 < miStat 2 (select [u, v] (natRows rows)) := by
  have hpos : 0 < pairMI (1 / 10 ^ 7) bn u v := (pairMI_nonneg S hu hv huv).lt_of_ne fun he => hdep ((pairMI_zero S hu hv huv).1 he.symm)
  have hdf : (bn.cardOf u - 1) * (bn.cardOf v - 1) ≠ 0 := Nat.mul_ne_zero (by omega) (by omega)
  filter_upwards [stat_limit hU h S h0 ht garbage hgl hg hu hv huv] with ω hω
  obtain ⟨G, hG, hev⟩ := hω
  filter_upwards [hev, pvalue_zero hdf hpos.ne' hG, hG.eventually (lt_mem_nhds hpos)] with n hn hp hgp
  obtain ⟨rows, e1, e2, e3, e4, e5⟩ := hn
  refine ⟨rows, e1, ?_, by rw [e4]; exact hgp⟩
  unfold miTest
  rw [if_neg (by simp [select_cols_ne e3]), e4, e5, select_length, show (natRows rows).length = n by simp [natRows, e2], hp]

/-- All tests that condition, and the tests of all dependent pairs, at once. -/
theorem all_tests (hU : Uniforms P U) (h : HashOrder ℕ) {bn : BayesNet ℕ A} (S : Sampleable bn) (hr : NoRareRows bn)
    (h2 : ∀ t ∈ bn.V, 2 ≤ bn.cardOf t) {tol : ℚ} (h0 : 0 ≤ tol) (ht : tol < 1) (garbage : ℕ → List (List ℤ)) (hgl : ∀ n, (garbage n).length = n)
    (hg : ∀ n, ∀ g ∈ garbage n, g.length = bn.V.length) :
    ∀ᵐ ω ∂P, ∀ᶠ n : ℕ in atTop, ∃ rows, randomSample tol h bn (garbage n) (fun i => U i ω) = .ok rows ∧
      ∀ c : List ℕ, LegalTest bn.V.length c → (∀ u v, c = [u, v] → ¬ NodesIndep bn u v) →
        miTest c.length (select c (natRows rows)) = .ok (.fin 0) ∧ 0 < miStat c.length (select c (natRows rows)) := by
  have hpairs : ∀ᵐ ω ∂P, ∀ᶠ n : ℕ in atTop, ∀ u ∈ Finset.range bn.V.length, ∀ v ∈ Finset.range bn.V.length, u ≠ v → ¬ NodesIndep bn u v →
      ∃ rows, randomSample tol h bn (garbage n) (fun i => U i ω) = .ok rows ∧
        miTest 2 (select [u, v] (natRows rows)) = .ok (.fin 0) ∧ 0 < miStat 2 (select [u, v] (natRows rows)) := by
    have : ∀ u v : ℕ, ∀ᵐ ω ∂P, u ∈ Finset.range bn.V.length → v ∈ Finset.range bn.V.length → ∀ᶠ n : ℕ in atTop, u ≠ v → ¬ NodesIndep bn u v →
      ∃ rows, randomSample tol h bn (garbage n) (fun i => U i ω) = .ok rows ∧
        miTest 2 (select [u, v] (natRows rows)) = .ok (.fin 0) ∧ 0 < miStat 2 (select [u, v] (natRows rows)) := by
      intro u v
      by_cases hh : u ∈ bn.V ∧ v ∈ bn.V ∧ u ≠ v ∧ ¬ NodesIndep bn u v
      · obtain ⟨hu, hv, huv, hd⟩ := hh
        filter_upwards [pair_pvalue hU h S h0 ht garbage hgl hg hu hv huv (h2 _ hu) (h2 _ hv) hd] with ω hω _ _
        filter_upwards [hω] with n hn _ _
        exact hn
      · refine Eventually.of_forall fun ω hu hv => Eventually.of_forall fun n huv hd => absurd ⟨S.lt.2 (Finset.mem_range.1 hu), S.lt.2 (Finset.mem_range.1 hv), huv, hd⟩ hh
    have := ae_all_iff.2 fun u => ae_all_iff.2 (this u)
    filter_upwards [this] with ω hω
    simp only [Filter.eventually_all_finset]
    exact fun u hu v hv => hω u v hu hv
  filter_upwards [all_conditional_pvalues hU h S hr h2 h0 ht garbage hgl hg, hpairs] with ω hω hω2
  filter_upwards [hω, hω2] with n hn hn2
  obtain ⟨rows, e1, e2⟩ := hn
  refine ⟨rows, e1, fun c hc hd => ?_⟩
  obtain ⟨c1, c2, c3⟩ := hc
  match c, c1, c2, c3, hd with
  | [u, v], _, c2, c3, hd =>
    obtain ⟨rows', e1', e3, e4⟩ := hn2 u (Finset.mem_range.2 (c3 u (by simp))) v (Finset.mem_range.2 (c3 v (by simp))) (by simpa using c2) (hd u v rfl)
    rw [e1] at e1'
    cases e1'
    exact ⟨e3, e4⟩
  | u :: v :: w :: ws, _, c2, c3, _ => exact e2 _ (by simp) c2 fun t htc => S.lt.2 (c3 t htc)

open Classical in
theorem dataLt_true {rows : List (List ℕ)} {alpha : ℝ} (ha : 0 < alpha) {c : List ℕ} (h : miTest c.length (select c rows) = .ok (.fin 0)) :
    dataLt rows alpha c = true := by
  unfold dataLt
  rw [decide_eq_true_iff]
  exact ⟨_, h, ha⟩

theorem dataMI_nonneg {rows : List (List ℕ)} {c : List ℕ} (h : 0 < miStat c.length (select c rows)) : 0 ≤ dataMI rows c := by
  unfold dataMI miTestMI
  split_ifs
  · simp
  · simp only
    unfold Indep.round4
    rw [if_pos h.le]
    have : 0 ≤ ⌊miStat c.length (select c rows) * 10 ^ 4 + 1 / 2⌋ := Int.floor_nonneg.2 (by positivity)
    have : (0 : ℚ) ≤ (⌊miStat c.length (select c rows) * 10 ^ 4 + 1 / 2⌋ : ℚ) := by exact_mod_cast this
    positivity

/-! ## `gs` -/

/-- If every conditional test finds dependence and every variable is dependent on some other one, the blanket of a variable is everything else. -/
theorem gs_blanket_full {lt : List ℕ → Bool} {n : ℕ} (hlt : ∀ c, LegalTest n c → 3 ≤ c.length → lt c = true) {x : ℕ} (hx : x < n)
    (hp : ∃ y < n, y ≠ x ∧ lt [x, y] = true) :
    ∃ S : List ℕ, (∀ fuel ≥ n + 1, gsBlanket lt n fuel x = .ok S) ∧ S.Nodup ∧ ∀ y, y ∈ S ↔ y < n ∧ y ≠ x := by
  obtain ⟨S, h1, h2, h3, h4, h5, h6, _⟩ := C78_gs_blanket lt n x
  have hlegal : ∀ y q, y < n → y ≠ x → y ∉ q → x ∉ q → q.Nodup → (∀ t ∈ q, t < n) → LegalTest n (x :: y :: q) := by
    intro y q hy hne hyq hxq hq hqn
    refine ⟨by simp, ?_, ?_⟩
    · simp only [List.nodup_cons, List.mem_cons, not_or]
      exact ⟨⟨Ne.symm hne, hxq⟩, hyq, hq⟩
    · intro t htm
      simp only [List.mem_cons] at htm
      rcases htm with rfl | rfl | htm
      exacts [hx, hy, hqn t htm]
  obtain ⟨y0, hy0, hne0, hl0⟩ := hp
  have hSne : S ≠ [] := by
    rintro rfl
    rw [h5 y0 hy0 hne0 (by simp)] at hl0
    cases hl0
  have hmem : ∀ y, y ∈ S ↔ y < n ∧ y ≠ x := by
    intro y
    constructor
    · intro hy; exact ⟨h3 y hy, fun e => h2 (e ▸ hy)⟩
    · rintro ⟨hy, hne⟩
      by_contra hc
      have := h5 y hy hne hc
      rw [hlt _ (hlegal y S hy hne hc h2 h1 h3) (by have := List.length_pos_of_ne_nil hSne; simp; omega)] at this
      cases this
  refine ⟨S, h6 fun y hy => ?_, h1, hmem⟩
  by_cases he : S.erase y = []
  · -- only one other variable
    have hSy : S = [y] := by
      have hl : S.length = 1 := by
        have := congrArg List.length he
        rw [List.length_erase_of_mem hy] at this
        have := List.length_pos_of_ne_nil hSne
        simp at *; omega
      obtain ⟨a, rfl⟩ := List.length_eq_one_iff.1 hl
      simp at hy; rw [hy]
    have : y0 = y := by
      have := (hmem y0).2 ⟨hy0, hne0⟩
      rw [hSy] at this
      simpa using this
    rw [he, ← this]; exact hl0
  · have := List.length_pos_of_ne_nil he
    refine hlt _ (hlegal y _ (h3 y hy) (fun e => h2 (e ▸ hy)) (fun hm => (h1.mem_erase_iff.1 hm).1 rfl) (fun hm => h2 (List.mem_of_mem_erase hm)) (h1.erase y)
      fun t htm => h3 t (List.mem_of_mem_erase htm)) (by simp; omega)

/-- `gs` when every legal test finds dependence (compare `C79_gs_dependent_empty`, where this is asked of all tests). -/
theorem gs_all_dependent {B : Type} [DecidableEq B] (lt gt : List ℕ → Bool) (h : HashOrder ℕ) (n : ℕ) (hn : 2 ≤ n) (vd : Dict ℕ (List B))
    (hvd : ∀ v < n, v ∈ vd.keys) (hlt : ∀ c, LegalTest n c → lt c = true) (hgt : ∀ c, LegalTest n c → gt c = false) :
    ∃ bn, (∀ fuel ≥ n + 1, gs lt gt h n fuel vd = .ok bn) ∧ bn.V = [] ∧ ∀ x y, Arc bn.E x y ↔ x < n ∧ y < n ∧ x ≠ y := by
  classical
  have hS' : ∀ x, ∃ S : List ℕ, x < n → (∀ fuel ≥ n + 1, gsBlanket lt n fuel x = .ok S) ∧ S.Nodup ∧ ∀ y, y ∈ S ↔ y < n ∧ y ≠ x := by
    intro x
    by_cases hx : x < n
    · obtain ⟨y, hy, hne⟩ : ∃ y < n, y ≠ x := by
        by_cases h0 : x = 0
        · exact ⟨1, by omega, by omega⟩
        · exact ⟨0, by omega, by omega⟩
      obtain ⟨S, hS⟩ := gs_blanket_full (fun c hc _ => hlt c hc) hx ⟨y, hy, hne, hlt _ ⟨by simp, by simpa using Ne.symm hne, by simp [hx, hy]⟩⟩
      exact ⟨S, fun _ => hS⟩
    · exact ⟨[], fun hc => absurd hc hx⟩
  choose S hS using hS'
  have hmb : ∀ fuel ≥ n + 1, gsBlankets lt n fuel = .ok ((List.range n).map fun x => (x, S x)) := by
    intro fuel hf
    unfold gsBlankets
    rw [pyMap_ok (g := fun x => (x, S x)) (fun x hx => by rw [(hS x (List.mem_range.1 hx)).1 fuel hf]; rfl), Py.bind_ok,
      Dict.ofPairs_eq (by rw [Dict.keys_map_pair]; exact List.nodup_range)]
    rfl
  have hnb : ∀ x, nb ((List.range n).map fun x => (x, S x)) x = if x < n then S x else [] := by
    intro x; unfold nb; rw [Dict.get?_map_pair]; simp only [List.mem_range]; split_ifs <;> rfl
  have hisb : IsBlankets n ((List.range n).map fun x => (x, S x)) := by
    refine ⟨fun x hx => ?_, fun x y hy => ?_⟩
    · rw [Dict.get?_map_pair, if_pos (List.mem_range.2 hx)]; rfl
    · rw [hnb] at hy
      split_ifs at hy with hx
      · exact (((hS x hx).2.2 y).1 hy).1
      · cases hy
  obtain ⟨e, he, hu, _⟩ := C47_resolve_undirected gt n _ hisb
  obtain ⟨e', he', hx⟩ := C77_resolve_exact gt n _ hisb
  rw [he] at he'; cases he'
  have hcand : ∀ x y, x < n → y < n → x ≠ y → ∀ s : List ℕ, s.Sublist (candidateSet ((List.range n).map fun x => (x, S x)) x y) → LegalTest n (x :: y :: s) := by
    intro x y hxn hyn hne s hs
    have hc : (candidateSet ((List.range n).map fun x => (x, S x)) x y).Nodup ∧ ∀ t ∈ candidateSet ((List.range n).map fun x => (x, S x)) x y, t < n ∧ t ≠ x ∧ t ≠ y := by
      unfold candidateSet
      rw [hnb, hnb, if_pos hxn, if_pos hyn]
      obtain ⟨_, n1, m1⟩ := hS x hxn
      obtain ⟨_, n2, m2⟩ := hS y hyn
      split_ifs
      · refine ⟨n1.erase y, fun t htm => ?_⟩
        rw [n1.mem_erase_iff, m1] at htm
        exact ⟨htm.2.1, htm.2.2, htm.1⟩
      · refine ⟨n2.erase x, fun t htm => ?_⟩
        rw [n2.mem_erase_iff, m2] at htm
        exact ⟨htm.2.1, htm.1, htm.2.2⟩
    refine ⟨by simp, ?_, ?_⟩
    · simp only [List.nodup_cons, List.mem_cons, not_or]
      exact ⟨⟨hne, fun hm => (hc.2 x (hs.subset hm)).2.1 rfl⟩, fun hm => (hc.2 y (hs.subset hm)).2.2 rfl, hc.1.sublist hs⟩
    · intro t htm
      simp only [List.mem_cons] at htm
      rcases htm with rfl | rfl | htm
      exacts [hxn, hyn, (hc.2 t (hs.subset htm)).1]
  have hc : Complete n e := by
    intro x y
    constructor
    · intro hy
      have hyn := hu.lt _ _ hy
      have hxn := hu.lt _ _ (hu.symm _ _ hy)
      refine ⟨hxn, hyn, ?_⟩
      rcases (hx x y hxn hyn).1 hy with ⟨h1, _⟩ | ⟨h1, _⟩
      · rw [hnb, if_pos hxn] at h1; exact Ne.symm (((hS x hxn).2.2 y).1 h1).2
      · rw [hnb, if_pos hyn] at h1; exact (((hS y hyn).2.2 x).1 h1).2
    · rintro ⟨hxn, hyn, hne⟩
      refine (hx x y hxn hyn).2 (.inl ⟨?_, fun s hs _ => hgt _ (hcand x y hxn hyn hne s hs)⟩)
      rw [hnb, if_pos hxn]; exact ((hS x hxn).2.2 y).2 ⟨hyn, Ne.symm hne⟩
  have hkn : e.keys.Nodup := hu.keys.nodup_iff.2 List.nodup_range
  have hck : ChildrenAreKeys e := fun a b hab => hu.keys.mem_iff.2 (List.mem_range.2 (hu.lt a b (arc_iff_nb.1 hab)))
  obtain ⟨bn, hbn, _, hV, hE, _⟩ := C76_set_structure_general h e (some vd) hkn hck (fun d hd v hv => by
    cases hd; exact hvd v (List.mem_range.1 (hu.keys.mem_iff.1 hv)))
  refine ⟨bn, fun fuel hf => ?_, ?_, fun x y => ?_⟩
  · unfold gs
    rw [hmb fuel hf, Py.bind_ok, he, Py.bind_ok, orientMB_complete hu hc, Py.bind_ok]; exact hbn
  · rw [List.eq_nil_iff_forall_not_mem]
    intro v hv
    obtain ⟨r, hr, hno, _⟩ := (hV v).1 hv
    have hrn : r < n := List.mem_range.1 (hu.keys.mem_iff.1 hr)
    obtain ⟨u, hu', hur⟩ : ∃ u < n, u ≠ r := by
      by_cases h0 : r = 0
      · exact ⟨1, by omega, by omega⟩
      · exact ⟨0, by omega, by omega⟩
    exact hno u (arc_iff_nb.2 ((hc u r).2 ⟨hu', hrn, hur⟩))
  · rw [hE, arc_iff_nb]; exact hc x y

/-- C208: the Markov blankets `gs` finds in the long run.  From a network in which no row of values is rarer than 1/200, draw `n` rows with `random_sample`; almost
surely, for all large `n`, the blanket of every node that depends on some other node is *all* the other nodes, at every level. -/
theorem C208_gs_blanket_everything (hU : Uniforms P U) (h : HashOrder ℕ) (bn : BayesNet ℕ A) (S : Sampleable bn) (hr : NoRareRows bn)
    (h2 : ∀ t ∈ bn.V, 2 ≤ bn.cardOf t) (tol : ℚ) (h0 : 0 ≤ tol) (ht : tol < 1) (garbage : ℕ → List (List ℤ)) (hgl : ∀ n, (garbage n).length = n)
    (hg : ∀ n, ∀ g ∈ garbage n, g.length = bn.V.length) :
    ∀ᵐ ω ∂P, ∀ᶠ n : ℕ in atTop, ∃ rows, randomSample tol h bn (garbage n) (fun i => U i ω) = .ok rows ∧
      ∀ alpha > 0, ∀ x ∈ bn.V, (∃ y ∈ bn.V, y ≠ x ∧ ¬ NodesIndep bn x y) →
        ∃ B : List ℕ, (∀ fuel ≥ bn.V.length + 1, gsBlanket (dataLt (natRows rows) alpha) bn.V.length fuel x = .ok B) ∧ B.Nodup ∧
          ∀ y, y ∈ B ↔ y ∈ bn.V ∧ y ≠ x := by
  filter_upwards [all_tests hU h S hr h2 h0 ht garbage hgl hg] with ω hω
  filter_upwards [hω] with n hn
  obtain ⟨rows, e1, e2⟩ := hn
  refine ⟨rows, e1, fun alpha ha x hx ⟨y, hy, hne, hd⟩ => ?_⟩
  obtain ⟨B, b1, b2, b3⟩ := gs_blanket_full (lt := dataLt (natRows rows) alpha) (n := bn.V.length)
    (fun c hc hl => dataLt_true ha (e2 c hc (fun u v he => by rw [he] at hl; simp at hl)).1) (S.lt.1 hx)
    ⟨y, S.lt.1 hy, hne, dataLt_true ha (e2 [x, y] ⟨by simp, by simpa using Ne.symm hne, by simp [S.lt.1 hx, S.lt.1 hy]⟩ (fun u v he => by
      simp only [List.cons.injEq, and_true] at he; rw [← he.1, ← he.2]; exact hd)).1⟩
  exact ⟨B, b1, b2, fun y => by rw [b3]; exact and_congr_left fun _ => S.lt.symm⟩

/-- C208, the whole of `gs`: if moreover every two nodes are dependent (marginally), `gs` returns, on all large samples and at every level, a network without nodes, with
an arc in both directions between every two variables. -/
theorem C208_gs_learns_nothing (hU : Uniforms P U) (h h' : HashOrder ℕ) (bn : BayesNet ℕ A) (S : Sampleable bn) (hr : NoRareRows bn)
    (h2 : ∀ t ∈ bn.V, 2 ≤ bn.cardOf t) (hn2 : 2 ≤ bn.V.length) (hdep : ∀ x ∈ bn.V, ∀ y ∈ bn.V, x ≠ y → ¬ NodesIndep bn x y)
    (tol : ℚ) (h0 : 0 ≤ tol) (ht : tol < 1) (garbage : ℕ → List (List ℤ)) (hgl : ∀ n, (garbage n).length = n)
    (hg : ∀ n, ∀ g ∈ garbage n, g.length = bn.V.length) :
    ∀ᵐ ω ∂P, ∀ᶠ n : ℕ in atTop, ∃ rows, randomSample tol h bn (garbage n) (fun i => U i ω) = .ok rows ∧
      ∀ alpha > 0, ∀ vd : Dict ℕ (List ℤ), (∀ v ∈ bn.V, v ∈ vd.keys) →
        ∃ out, (∀ fuel ≥ bn.V.length + 1, gs (dataLt (natRows rows) alpha) (dataGt (natRows rows) (1 / 20)) h' bn.V.length fuel vd = .ok out) ∧
          out.V = [] ∧ ∀ x y, Arc out.E x y ↔ x ∈ bn.V ∧ y ∈ bn.V ∧ x ≠ y := by
  filter_upwards [all_tests hU h S hr h2 h0 ht garbage hgl hg] with ω hω
  filter_upwards [hω] with n hn
  obtain ⟨rows, e1, e2⟩ := hn
  refine ⟨rows, e1, fun alpha ha vd hvd => ?_⟩
  have hd : ∀ c, LegalTest bn.V.length c → ∀ u v, c = [u, v] → ¬ NodesIndep bn u v := by
    rintro c hc u v rfl
    exact hdep u (S.lt.2 (hc.2.2 u (by simp))) v (S.lt.2 (hc.2.2 v (by simp))) (by simpa using hc.2.1)
  obtain ⟨out, o1, o2, o3⟩ := gs_all_dependent (dataLt (natRows rows) alpha) (dataGt (natRows rows) (1 / 20)) h' bn.V.length hn2 vd
    (fun v hv => hvd v (S.lt.2 hv)) (fun c hc => dataLt_true ha (e2 c hc (hd c hc)).1) (fun c hc => dataGt_false (by norm_num) (e2 c hc (hd c hc)).1)
  exact ⟨out, o1, o2, fun x y => by rw [o3, S.lt, S.lt]⟩

/-! ## `iamb` -/

theorem everySecond_length (l : List ℕ) : (everySecond l).length = l.length / 2 := by
  fun_induction everySecond l with
  | case1 a b l ih => simp only [List.length_cons, ih]; omega
  | case2 l hl =>
    match l, hl with
    | [], _ => rfl
    | [_], _ => simp
    | a :: b :: l, hl => exact absurd rfl (hl a b l)

theorem everySecond_sublist (L : List ℕ) : (everySecond L).Sublist L := by
  fun_induction everySecond L with
  | case1 a b l ih => exact (ih.cons_cons b).cons a
  | case2 l hl => exact List.nil_sublist _

theorem _root_.PyBN.ShrinkRun.all_of {P : ℕ → List ℕ → Prop} {pre suf r : List ℕ} (h : ShrinkRun P pre suf r)
    (hP : ∀ x L, L.Sublist (pre ++ suf) → x ∈ L → P x L) : r = pre ++ everySecond suf := by
  induction h with
  | done => simp [everySecond]
  | keep pre x suf r h _ ih => exact absurd (hP _ _ (List.Sublist.refl _) (by simp)) h
  | last pre x h => simp [everySecond]
  | drop pre x y suf r h _ ih =>
    rw [ih fun z L hL hz => hP z L (hL.trans ?_) hz, everySecond]
    · simp
    · rw [List.append_assoc, List.singleton_append]
      exact (List.Sublist.refl pre).append (List.sublist_cons_self x _)

theorem strongest_exists {f : ℕ → ℚ} : ∀ {l : List ℕ}, l ≠ [] → (∀ c ∈ l, -1 < f c) → ∃ m, Strongest f l m
  | [], h, _ => absurd rfl h
  | [a], _, hf => ⟨a, [], [], rfl, by simp, by simp, hf a (by simp)⟩
  | a :: b :: l, _, hf => by
      obtain ⟨m, p, q, h1, h2, h3, h4⟩ := strongest_exists (f := f) (l := b :: l) (by simp) fun c hc => hf c (by simp only [List.mem_cons] at hc ⊢; tauto)
      by_cases ham : f a < f m
      · refine ⟨m, a :: p, q, by rw [h1]; rfl, ?_, h3, h4⟩
        simpa using ⟨ham, h2⟩
      · refine ⟨a, [], b :: l, rfl, by simp, ?_, hf a (by simp)⟩
        rw [h1]
        intro c hc
        push Not at ham
        simp only [List.mem_append, List.mem_cons] at hc
        rcases hc with hc | rfl | hc
        · exact (h2 c hc).le.trans ham
        · exact ham
        · exact (h3 c hc).trans ham

/-- If every test finds dependence, growing collects all the other variables and shrinking keeps every second of them. -/
theorem iamb_blanket_half {lt05 ltA : List ℕ → Bool} {mi : List ℕ → ℚ} (h : HashOrder ℕ) {n : ℕ} (h05 : ∀ c, LegalTest n c → lt05 c = true)
    (hA : ∀ c, LegalTest n c → ltA c = true) (hmi : ∀ c, LegalTest n c → 0 ≤ mi c) {t : ℕ} (ht : t < n) :
    ∃ S : List ℕ, (∀ fuel ≥ n + 1, iambBlanket lt05 ltA mi h n fuel t = .ok (everySecond S)) ∧ S.Nodup ∧ (∀ y, y ∈ S ↔ y < n ∧ y ≠ t) ∧
      ∀ p x q, S = p ++ x :: q → (outside h n t p).getLast? = some x := by
  obtain ⟨S, g1, g2, g3, g4, g5, g6⟩ := C121_iamb_growing lt05 mi h n t
  obtain ⟨S', B, s1, s2, s3, _⟩ := C123_iamb_shrinking lt05 ltA mi h n t
  have := g1 (n + 1) (le_refl _)
  rw [s1 (n + 1) (le_refl _)] at this
  cases this
  have hout : ∀ p y, y ∈ outside h n t p ↔ y < n ∧ y ≠ t ∧ y ∉ p := by
    intro p y
    unfold outside
    rw [(h.perm _).mem_iff]
    simp
  have hlegal : ∀ y q, y < n → y ≠ t → y ∉ q → t ∉ q → q.Nodup → (∀ z ∈ q, z < n) → LegalTest n (y :: t :: q) := by
    intro y q hy hne hyq htq hq hqn
    refine ⟨by simp, ?_, ?_⟩
    · simp only [List.nodup_cons, List.mem_cons, not_or]
      exact ⟨⟨hne, hyq⟩, htq, hq⟩
    · intro z hz
      simp only [List.mem_cons] at hz
      rcases hz with rfl | rfl | hz
      exacts [hy, ht, hqn z hz]
  have hall : ∀ y, y ∈ S ↔ y < n ∧ y ≠ t := by
    intro y
    refine ⟨fun hy => ⟨g4 y hy, fun e => g3 (e ▸ hy)⟩, fun ⟨hy, hne⟩ => ?_⟩
    by_contra hc
    have hm : y ∈ outside h n t S := (hout _ _).2 ⟨hy, hne, hc⟩
    obtain ⟨m, hm⟩ := strongest_exists (f := fun c => mi (c :: t :: S)) (l := outside h n t S) (List.ne_nil_of_mem hm) fun c hco => by
      obtain ⟨c1, c2, c3⟩ := (hout _ _).1 hco
      have := hmi _ (hlegal c S c1 c2 c3 g3 g2 g4)
      show (-1 : ℚ) < mi (c :: t :: S)
      linarith
    have hmo : m ∈ outside h n t S := by obtain ⟨p, q, e, _⟩ := hm; rw [e]; simp
    obtain ⟨c1, c2, c3⟩ := (hout _ _).1 hmo
    have := g6 m hm
    rw [h05 _ (hlegal m S c1 c2 c3 g3 g2 g4)] at this
    cases this
  have hB : B = everySecond S := by
    have := s3.all_of fun x L hL hx => by
      have hL' : L.Sublist S := by simpa using hL
      have hxS := (hall x).1 (hL'.subset hx)
      refine hA _ (hlegal x _ hxS.1 hxS.2 ?_ ?_ ?_ ?_)
      · rw [(h.perm _).mem_iff]; simp
      · rw [(h.perm _).mem_iff]; intro hm; exact g3 (hL'.subset (List.mem_of_mem_filter hm))
      · rw [(h.perm _).nodup_iff]; exact (g2.sublist hL').filter _
      · intro z hz
        rw [(h.perm _).mem_iff] at hz
        exact g4 z (hL'.subset (List.mem_of_mem_filter hz))
    simpa using this
  refine ⟨S, fun fuel hf => by rw [s2 fuel hf, hB], g2, hall, fun p x q e => ?_⟩
  obtain ⟨_, _, _, hl⟩ := g5 p x q e
  exact hl

/-- C209: the Markov blankets `iamb` finds in the long run.  From a network in which no row of values is rarer than 1/200 and every two nodes are dependent
(marginally), draw `n` rows with `random_sample`; almost surely, for all large `n`, at every level, `iamb` gives *every* node a blanket of exactly `(m - 1) / 2`
(rounded down) of the `m - 1` other nodes, whatever the edges of the network. -/
theorem C209_iamb_half (hU : Uniforms P U) (h h' : HashOrder ℕ) (bn : BayesNet ℕ A) (S : Sampleable bn) (hr : NoRareRows bn)
    (h2 : ∀ t ∈ bn.V, 2 ≤ bn.cardOf t) (hdep : ∀ x ∈ bn.V, ∀ y ∈ bn.V, x ≠ y → ¬ NodesIndep bn x y)
    (tol : ℚ) (h0 : 0 ≤ tol) (ht : tol < 1) (garbage : ℕ → List (List ℤ)) (hgl : ∀ n, (garbage n).length = n)
    (hg : ∀ n, ∀ g ∈ garbage n, g.length = bn.V.length) :
    ∀ᵐ ω ∂P, ∀ᶠ n : ℕ in atTop, ∃ rows, randomSample tol h bn (garbage n) (fun i => U i ω) = .ok rows ∧
      ∀ alpha > 0, ∀ x ∈ bn.V, ∃ B : List ℕ,
        (∀ fuel ≥ bn.V.length + 1, iambBlanket (dataLt (natRows rows) (1 / 20)) (dataLt (natRows rows) alpha) (dataMI (natRows rows)) h' bn.V.length fuel x = .ok B) ∧
          B.Nodup ∧ (∀ y ∈ B, y ∈ bn.V ∧ y ≠ x) ∧ B.length = (bn.V.length - 1) / 2 := by
  filter_upwards [all_tests hU h S hr h2 h0 ht garbage hgl hg] with ω hω
  filter_upwards [hω] with n hn
  obtain ⟨rows, e1, e2⟩ := hn
  refine ⟨rows, e1, fun alpha ha x hx => ?_⟩
  have hd : ∀ c, LegalTest bn.V.length c → ∀ u v, c = [u, v] → ¬ NodesIndep bn u v := by
    rintro c hc u v rfl
    exact hdep u (S.lt.2 (hc.2.2 u (by simp))) v (S.lt.2 (hc.2.2 v (by simp))) (by simpa using hc.2.1)
  obtain ⟨L, l1, l2, l3, _⟩ := iamb_blanket_half (lt05 := dataLt (natRows rows) (1 / 20)) (ltA := dataLt (natRows rows) alpha) (mi := dataMI (natRows rows)) h'
    (fun c hc => dataLt_true (by norm_num) (e2 c hc (hd c hc)).1) (fun c hc => dataLt_true ha (e2 c hc (hd c hc)).1)
    (fun c hc => dataMI_nonneg (e2 c hc (hd c hc)).2) (S.lt.1 hx)
  have hlen : L.length = bn.V.length - 1 := by
    have hp : L.Perm ((List.range bn.V.length).erase x) := by
      rw [List.perm_ext_iff_of_nodup l2 (List.nodup_range.erase x)]
      intro y
      rw [l3, List.nodup_range.mem_erase_iff, List.mem_range]
      tauto
    rw [hp.length_eq, List.length_erase_of_mem (List.mem_range.2 (S.lt.1 hx)), List.length_range]
  have hsub := everySecond_sublist L
  exact ⟨everySecond L, l1, l2.sublist hsub, fun y hy => by
    have := (l3 y).1 (hsub.subset hy); exact ⟨S.lt.2 this.1, this.2⟩, by rw [everySecond_length, hlen]⟩

/-- C209, three nodes (sets of small integers are iterated in increasing order): whatever the edges of the network, `iamb` returns the network with the two arcs
`0 -> 1` and `0 -> 2`. -/
theorem C209_three_nodes (hU : Uniforms P U) (h : HashOrder ℕ) (bn : BayesNet ℕ A) (S : Sampleable bn) (hr : NoRareRows bn)
    (h2 : ∀ t ∈ bn.V, 2 ≤ bn.cardOf t) (h3 : bn.V.length = 3) (hdep : ∀ x ∈ bn.V, ∀ y ∈ bn.V, x ≠ y → ¬ NodesIndep bn x y)
    (tol : ℚ) (h0 : 0 ≤ tol) (ht : tol < 1) (garbage : ℕ → List (List ℤ)) (hgl : ∀ n, (garbage n).length = n)
    (hg : ∀ n, ∀ g ∈ garbage n, g.length = bn.V.length) :
    ∀ᵐ ω ∂P, ∀ᶠ n : ℕ in atTop, ∃ rows, randomSample tol h bn (garbage n) (fun i => U i ω) = .ok rows ∧
      ∀ alpha > 0, ∀ vd : Dict ℕ (List ℤ), (∀ v ∈ bn.V, v ∈ vd.keys) → ∃ out,
        (∀ fuel ≥ 4, iamb (dataLt (natRows rows) (1 / 20)) (dataLt (natRows rows) alpha) (dataGt (natRows rows) (1 / 20)) (dataMI (natRows rows))
          HashOrder.id 3 fuel vd = .ok out) ∧ ∀ x y, Arc out.E x y ↔ x = 0 ∧ (y = 1 ∨ y = 2) := by
  filter_upwards [all_tests hU h S hr h2 h0 ht garbage hgl hg] with ω hω
  filter_upwards [hω] with n hn
  obtain ⟨rows, e1, e2⟩ := hn
  refine ⟨rows, e1, fun alpha ha vd hvd => ?_⟩
  have hd : ∀ c, LegalTest bn.V.length c → ∀ u v, c = [u, v] → ¬ NodesIndep bn u v := by
    rintro c hc u v rfl
    exact hdep u (S.lt.2 (hc.2.2 u (by simp))) v (S.lt.2 (hc.2.2 v (by simp))) (by simpa using hc.2.1)
  obtain ⟨out, mb, e, i1, i2, i3, i4, i5, i6, i7, i8, _⟩ := C127_iamb_exact (dataLt (natRows rows) (1 / 20)) (dataLt (natRows rows) alpha)
    (dataGt (natRows rows) (1 / 20)) (dataMI (natRows rows)) HashOrder.id 3 vd fun v hv => hvd v (S.lt.2 (by omega))
  refine ⟨out, i1, ?_⟩
  have hblk : ∀ t < 3, nb mb t = [if t = 0 then 1 else 0] := by
    intro t ht3
    obtain ⟨L, l1, l2, l3, l4⟩ := iamb_blanket_half (lt05 := dataLt (natRows rows) (1 / 20)) (ltA := dataLt (natRows rows) alpha) (mi := dataMI (natRows rows))
      HashOrder.id (fun c hc => dataLt_true (by norm_num) (e2 c hc (hd c hc)).1) (fun c hc => dataLt_true ha (e2 c hc (hd c hc)).1)
      (fun c hc => dataMI_nonneg (e2 c hc (hd c hc)).2) (n := bn.V.length) (t := t) (by omega)
    rw [h3] at l1 l3 l4
    have h4 := i2 4 (by omega) t ht3
    rw [l1 4 (by omega)] at h4
    rw [← Except.ok.inj h4]
    clear h4 l1
    match L, l2, l3, l4 with
    | [], _, l3, _ => exact absurd ((l3 (if t = 0 then 1 else 0)).2 (by split_ifs <;> omega)) (by simp)
    | [a], _, l3, _ =>
      have x1 := (l3 (if t = 0 then 1 else 0)).2 (by split_ifs <;> omega)
      have x2 := (l3 (if t = 2 then 1 else 2)).2 (by split_ifs <;> omega)
      simp at x1 x2
      split_ifs at x1 x2 <;> omega
    | [a, b], l2, l3, l4 =>
      have q1 := l4 [] a [b] rfl
      have q2 := l4 [a] b [] rfl
      simp only [everySecond]
      have hb := (l3 b).1 (by simp)
      have haa := (l3 a).1 (by simp)
      have hab : a ≠ b := by simpa using l2
      have : (outside HashOrder.id 3 t []).getLast? = some (if t = 2 then 1 else 2) := by
        have : ∀ t < 3, (outside HashOrder.id 3 t []).getLast? = some (if t = 2 then 1 else 2) := by decide
        exact this t ht3
      rw [this] at q1
      simp only [Option.some.injEq] at q1
      congr 1
      split_ifs at q1 ⊢ <;> omega
    | a :: b :: c :: L, l2, l3, _ =>
      have x1 := (l3 a).1 (by simp)
      have x2 := (l3 b).1 (by simp)
      have x3 := (l3 c).1 (by simp)
      simp only [List.nodup_cons, List.mem_cons, not_or] at l2
      omega
  have hcand : ∀ x y, x < 3 → y < 3 → ∀ s : List ℕ, s.length < (candidateSet mb x y).length → s = [] := by
    intro x y hx hy s hs
    have : (candidateSet mb x y).length ≤ 1 := by
      unfold candidateSet
      rw [hblk x hx, hblk y hy, List.length_singleton, List.length_singleton, if_neg (lt_irrefl 1)]
      exact (List.length_erase_le ..).trans (by simp)
    exact List.length_eq_zero_iff.1 (by omega)
  have hgt : ∀ x y, x < 3 → y < 3 → x ≠ y → dataGt (natRows rows) (1 / 20) [x, y] = false := by
    intro x y hx hy hne
    have hl : LegalTest bn.V.length [x, y] := ⟨by simp, by simpa using hne, fun t htm => by simp only [List.mem_cons, List.not_mem_nil, or_false] at htm; omega⟩
    exact dataGt_false (by norm_num) (e2 _ hl (hd _ hl)).1
  have hedge : ∀ x y, x < 3 → y < 3 → (y ∈ nb e x ↔ x ≠ y ∧ (x = 0 ∨ y = 0)) := by
    intro x y hx hy
    rw [i5 x y hx hy, hblk x hx, hblk y hy]
    simp only [List.mem_singleton]
    constructor
    · rintro (⟨a, _⟩ | ⟨a, _⟩) <;> split_ifs at a <;> omega
    · rintro ⟨hne, hz⟩
      have k1 : ∀ s, s.Sublist (candidateSet mb x y) → s.length < (candidateSet mb x y).length → dataGt (natRows rows) (1 / 20) (x :: y :: s) = false := by
        intro s _ hs; rw [hcand x y hx hy s hs]; exact hgt x y hx hy hne
      have k2 : ∀ s, s.Sublist (candidateSet mb y x) → s.length < (candidateSet mb y x).length → dataGt (natRows rows) (1 / 20) (y :: x :: s) = false := by
        intro s _ hs; rw [hcand y x hy hx s hs]; exact hgt y x hy hx (Ne.symm hne)
      rcases hz with rfl | rfl
      · exact .inr ⟨by split_ifs <;> omega, k2⟩
      · exact .inl ⟨by split_ifs <;> omega, k1⟩
  have hlt3 : ∀ x y, y ∈ nb e x → x < 3 ∧ y < 3 := fun x y hy => ⟨i3.lt _ _ (i3.symm _ _ hy), i3.lt _ _ hy⟩
  have hpriv0 : ∀ y < 3, privateNb e y 0 = [] := by
    intro y hy
    unfold privateNb
    rw [List.filter_eq_nil_iff]
    intro v hv
    have hv3 := (hlt3 _ _ hv).2
    have hy0 := (hedge y v hy hv3).1 hv
    by_cases hyz : y = 0
    · subst hyz; simp [hv]
    · simp; intro hv0; omega
  have hprivy : ∀ y < 3, y ≠ 0 → privateNb e 0 y ≠ [] := by
    intro y hy hne
    have : (3 - y) ∈ privateNb e 0 y := by
      unfold privateNb
      rw [List.mem_filter, decide_eq_true_iff, hedge 0 (3 - y) (by omega) (by omega), hedge y (3 - y) hy (by omega)]
      omega
    exact List.ne_nil_of_mem this
  have hone : ∀ y < 3, y ≠ 0 → Arc out.E 0 y ∧ ¬ Arc out.E y 0 := by
    intro y hy hne
    have hk : e.keys.Nodup := i3.keys.nodup_iff.2 List.nodup_range
    have hk0 : 0 ∈ e.keys := i3.keys.mem_iff.2 (by simp)
    have hky : y ∈ e.keys := i3.keys.mem_iff.2 (by simpa using hy)
    have he0 : y ∈ nb e 0 := (hedge 0 y (by omega) hy).2 ⟨Ne.symm hne, .inl rfl⟩
    have hey : 0 ∈ nb e y := (hedge y 0 hy (by omega)).2 ⟨hne, .inr rfl⟩
    have hord := pair_order hk0 hky (Ne.symm hne)
    rcases hord with ho | ho
    · obtain ⟨k1, k2⟩ := i8 0 y he0 ho
      refine ⟨k2.2 ⟨hprivy y hy hne, fun z hz => ?_⟩, fun hc => k1.1 hc (hpriv0 y hy)⟩
      rw [hpriv0 y hy] at hz
      cases hz
    · obtain ⟨k1, k2⟩ := i8 y 0 hey ho
      exact ⟨k1.2 (hprivy y hy hne), fun hc => (k2.1 hc).1 (hpriv0 y hy)⟩
  intro x y
  constructor
  · intro hxy
    have hm := i7 x y hxy
    obtain ⟨hx3, hy3⟩ := hlt3 x y hm
    obtain ⟨hne, hz⟩ := (hedge x y hx3 hy3).1 hm
    by_cases hx0 : x = 0
    · omega
    · obtain rfl : y = 0 := by omega
      exact absurd hxy (hone x hx3 hx0).2
  · rintro ⟨rfl, rfl | rfl⟩
    · exact (hone 1 (by omega) (by omega)).1
    · exact (hone 2 (by omega) (by omega)).1

/-! ## C207: do the learners find the Markov blankets? -/

theorem exFork_dependent : ∀ x ∈ exFork.V, ∀ y ∈ exFork.V, x ≠ y → ¬ NodesIndep exFork x y := by
  unfold NodesIndep
  decide +kernel

/-- C207 is false: in the fork `1 <- 0 -> 2` node 2 is not in the Markov blanket of node 1, and there is an edge between 0 and 1; on all large samples `gs` puts 2 into the
blanket of 1, and `pc` finds no edge. -/
theorem C207_false (hU : Uniforms P U) (h h' : HashOrder ℕ) (garbage : ℕ → List (List ℤ)) (hgl : ∀ n, (garbage n).length = n)
    (hg : ∀ n, ∀ g ∈ garbage n, g.length = 3) :
    ¬ exFork.InBlanket 1 2 ∧ Arc exFork.E 0 1 ∧
    ∀ᵐ ω ∂P, ∀ᶠ n : ℕ in atTop, ∃ rows, randomSample (1 / 10 ^ 8) h exFork (garbage n) (fun i => U i ω) = .ok rows ∧
      (∃ B, (∀ fuel ≥ 4, gsBlanket (dataLt (natRows rows) (1 / 20)) 3 fuel 1 = .ok B) ∧ 2 ∈ B) ∧
      ∀ vd : Dict ℕ (List ℤ), (∀ v ∈ exFork.V, v ∈ vd.keys) →
        ∃ out, (∀ fuel ≥ 4, pc (dataGt (natRows rows) (1 / 20)) h' 3 fuel vd = .ok out) ∧ ∀ a c, ¬ Arc out.E a c := by
  refine ⟨?_, arc_iff_nb.2 (by decide), ?_⟩
  · unfold BayesNet.InBlanket
    rintro (hc | hc | ⟨_, c, h1, _⟩)
    · revert hc; decide
    · revert hc; decide
    · rw [show exFork.childrenOf 1 = [] by decide] at h1; cases h1
  · filter_upwards [C208_gs_blanket_everything hU h exFork exFork_sampleable exFork_noRare (by decide) (1 / 10 ^ 8) (by norm_num) (by norm_num) garbage hgl hg,
      C206_pc_learns_nothing hU h h' exFork exFork_sampleable exFork_noRare (by decide) (1 / 10 ^ 8) (by norm_num) (by norm_num) garbage hgl hg] with ω h1 h2
    filter_upwards [h1, h2] with n k1 k2
    obtain ⟨rows, e1, e2⟩ := k1
    obtain ⟨rows', e1', e3⟩ := k2
    rw [e1] at e1'
    cases e1'
    refine ⟨rows, e1, ?_, fun vd hvd => ?_⟩
    · obtain ⟨B, b1, _, b3⟩ := e2 (1 / 20) (by norm_num) 1 (by decide) ⟨0, by decide, by decide, exFork_dependent 1 (by decide) 0 (by decide) (by decide)⟩
      exact ⟨B, b1, (b3 2).2 ⟨by decide, by decide⟩⟩
    · obtain ⟨out, o1, o2, _⟩ := e3 (1 / 20) (by norm_num) vd hvd
      exact ⟨out, o1, o2⟩

/-- C207, what holds of `gs`: the blanket it finds contains the true Markov blanket (of a node that depends on some other one, when no row of values is rare).
Missing: that it contains nothing else, which is false; `iamb` and `pc`, for which neither holds. -/
theorem C207_gs_superset_partial (hU : Uniforms P U) (h : HashOrder ℕ) (bn : BayesNet ℕ A) (S : Sampleable bn) (hs : bn.EdgeWF) (hr : NoRareRows bn)
    (h2 : ∀ t ∈ bn.V, 2 ≤ bn.cardOf t) (tol : ℚ) (h0 : 0 ≤ tol) (ht : tol < 1) (garbage : ℕ → List (List ℤ)) (hgl : ∀ n, (garbage n).length = n)
    (hg : ∀ n, ∀ g ∈ garbage n, g.length = bn.V.length) :
    ∀ᵐ ω ∂P, ∀ᶠ n : ℕ in atTop, ∃ rows, randomSample tol h bn (garbage n) (fun i => U i ω) = .ok rows ∧
      ∀ alpha > 0, ∀ x ∈ bn.V, (∃ y ∈ bn.V, y ≠ x ∧ ¬ NodesIndep bn x y) →
        ∃ B : List ℕ, (∀ fuel ≥ bn.V.length + 1, gsBlanket (dataLt (natRows rows) alpha) bn.V.length fuel x = .ok B) ∧
          ∀ y, bn.InBlanket x y → y ∈ B := by
  filter_upwards [C208_gs_blanket_everything hU h bn S hr h2 tol h0 ht garbage hgl hg] with ω hω
  filter_upwards [hω] with n hn
  obtain ⟨rows, e1, e2⟩ := hn
  refine ⟨rows, e1, fun alpha ha x hx hd => ?_⟩
  obtain ⟨B, b1, _, b3⟩ := e2 alpha ha x hx hd
  have hpv : ∀ u v, u ∈ bn.parentsOf v → v ∈ bn.V := by
    intro u v hu
    by_contra hc
    have : bn.F.get? v = none := by
      rw [← Option.not_isSome_iff_eq_none, S.wf.dom]; exact hc
    simp [BayesNet.parentsOf, this] at hu
  refine ⟨B, b1, fun y hy => (b3 y).2 ?_⟩
  have hself : ∀ v ∈ bn.V, v ∉ bn.parentsOf v := fun v hv => (List.nodup_cons.1 (S.wf.fam_nodup v hv)).1
  rcases hy with hy | hy | ⟨hne, c, hc, hy⟩
  · exact ⟨S.wf.parents_mem x hx y hy, fun e => hself x hx (e ▸ hy)⟩
  · rw [hs.iff] at hy
    exact ⟨hpv _ _ hy, fun e => hself x hx (e ▸ hy)⟩
  · exact ⟨S.wf.parents_mem c (hpv _ _ hy) y hy, hne⟩

/-- Witness for C207 - C209: the fork has three nodes with two values each, no rare rows, and every two nodes are dependent. -/
example : Sampleable exFork ∧ NoRareRows exFork ∧ (∀ t ∈ exFork.V, 2 ≤ exFork.cardOf t) ∧ exFork.V.length = 3 ∧ exFork.EdgeWF ∧
    ∀ x ∈ exFork.V, ∀ y ∈ exFork.V, x ≠ y → ¬ NodesIndep exFork x y :=
  ⟨exFork_sampleable, exFork_noRare, by decide, by decide, .of_dec _ (by decide) (by decide) (by decide) (by decide), exFork_dependent⟩

end PyBN
