import Verif.Props.ScoreCall
import Verif.Proofs.HcGreedy
import Verif.Props.SampleMI
import Verif.Props.SampleCMI
import Verif.Props.InfoScore

/-!
# `hc` on samples of a network: C214, C215, C216
-/

set_option linter.unusedSectionVars false

namespace PyBN
open BayesNet Sampling Indep MeasureTheory ProbabilityTheory Filter Topology
variable {A : Type} [DecidableEq A] {Ω : Type} [MeasurableSpace Ω] {P : Measure Ω} {U : ℕ → Ω → ℝ}

theorem natRows_binary {bn : BayesNet ℕ A} (S : Sampleable bn) (h2 : ∀ v ∈ bn.V, bn.cardOf v = 2) {rows : List (List ℤ)}
    (hf : (⟨bn.V.length, rows⟩ : Data).Fits bn.V) (hv : ∀ v ∈ bn.V, (⟨bn.V.length, rows⟩ : Data).IsValues v (upTo (bn.cardOf v))) :
    Binary bn.V.length (natRows rows) := by
  intro r hr
  obtain ⟨r', hr', rfl⟩ := List.mem_map.1 hr
  have hl : r'.length = bn.V.length := hf.rect r' hr'
  refine ⟨by rw [List.length_map]; exact hl, fun x hx => ?_⟩
  obtain ⟨z, hz, rfl⟩ := List.mem_map.1 hx
  obtain ⟨i, hi, rfl⟩ := List.getElem_of_mem hz
  have hiV : i ∈ bn.V := S.lt.2 (hl ▸ hi)
  have hm : r'[i] ∈ upTo (bn.cardOf i) := ((hv i hiV).2 _).2 ⟨r', hr', List.getElem?_eq_getElem hi⟩
  rw [h2 i hiV] at hm
  simp only [upTo, List.mem_map, List.mem_range] at hm
  obtain ⟨k, hk, he⟩ := hm
  rw [← he]
  simp; omega

/-- Almost surely, on all large samples the gain of every pair of columns is near the gain of the pair of nodes. -/
theorem gain_limit (hU : Uniforms P U) (h : HashOrder ℕ) {bn : BayesNet ℕ A} (S : Sampleable bn) {tol : ℚ}
    (h0 : 0 ≤ tol) (ht : tol < 1) (garbage : ℕ → List (List ℤ)) (hgl : ∀ n, (garbage n).length = n)
    (hg : ∀ n, ∀ g ∈ garbage n, g.length = bn.V.length) :
    ∀ᵐ ω ∂P, ∀ u v, u ∈ bn.V → v ∈ bn.V → u ≠ v → ∀ ε > 0, ∀ᶠ n : ℕ in atTop, ∃ rows, randomSample tol h bn (garbage n) (fun i => U i ω) = .ok rows ∧
      |(gain (natRows rows) u v : ℝ) - netGain bn u v| ≤ 1 / 10000 + ε := by
  rw [ae_all_iff]; intro u
  rw [ae_all_iff]; intro v
  by_cases hc : u ∈ bn.V ∧ v ∈ bn.V ∧ u ≠ v
  swap
  · exact Eventually.of_forall fun ω h1 h2 h3 => (hc ⟨h1, h2, h3⟩).elim
  obtain ⟨hu, hv, huv⟩ := hc
  filter_upwards [(C192_mi_consistent hU h bn S tol h0 ht garbage hgl hg v u hv hu huv.symm).2.2,
    C192_entropy_consistent hU h bn S tol h0 ht garbage hgl hg v hv] with ω k1 k2 _ _ _ ε hε
  filter_upwards [k1 (ε / 2) (by linarith), k2 (ε / 2) (by linarith)] with n e1 e2
  obtain ⟨rows, q, f1, f2, f3⟩ := e1
  obtain ⟨rows', q', f1', f4, f5⟩ := e2
  rw [f1] at f1'
  cases f1'
  refine ⟨rows, f1, ?_⟩
  have hq' : dataScore (natRows rows) [v] = some q' := by
    unfold dataScore
    show (match mutualInformation 1 (select [v] (natRows rows)) false with | .ok q => q | .error _ => none) = _
    have : mutualInformation 1 (select [v] (natRows rows)) false = entropy 1 (select [v] (natRows rows)) := by
      unfold mutualInformation entropy; rfl
    rw [this, f4]
  have hq : dataScore (natRows rows) [v, u] = some q := by
    unfold dataScore
    show (match mutualInformation 2 (select [v, u] (natRows rows)) false with | .ok q => q | .error _ => none) = _
    unfold miTestMI at f2
    split at f2
    · cases f2
    · rename_i hne
      cases f2
      unfold mutualInformation miStat
      rw [if_neg (by push Not at hne ⊢; exact ⟨hne.1, by omega⟩), if_neg (by omega), if_pos rfl, if_pos rfl]
  unfold gain netGain
  rw [hq, hq']
  simp only [Option.getD_some]
  push_cast
  rw [abs_le] at *
  constructor <;> linarith [f3.1, f3.2, f5.1, f5.2]

/-- On all large samples all strict comparisons of gains that hold with a margin hold of the data. -/
theorem gain_compare (hU : Uniforms P U) (h : HashOrder ℕ) {bn : BayesNet ℕ A} (S : Sampleable bn) {tol : ℚ}
    (h0 : 0 ≤ tol) (ht : tol < 1) (garbage : ℕ → List (List ℤ)) (hgl : ∀ n, (garbage n).length = n)
    (hg : ∀ n, ∀ g ∈ garbage n, g.length = bn.V.length) :
    ∀ᵐ ω ∂P, ∀ᶠ n : ℕ in atTop, ∃ rows, randomSample tol h bn (garbage n) (fun i => U i ω) = .ok rows ∧
      (⟨bn.V.length, rows⟩ : Data).Fits bn.V ∧ (∀ v ∈ bn.V, (⟨bn.V.length, rows⟩ : Data).IsValues v (upTo (bn.cardOf v))) ∧
      (∀ u ∈ bn.V, ∀ v ∈ bn.V, u ≠ v → 1 / 10000 < netGain bn u v → 0 < gain (natRows rows) u v) ∧
      ∀ u ∈ bn.V, ∀ v ∈ bn.V, ∀ u' ∈ bn.V, ∀ v' ∈ bn.V, u ≠ v → u' ≠ v' → netGain bn u' v' + 2 / 10000 < netGain bn u v →
        gain (natRows rows) u' v' < gain (natRows rows) u v := by
  filter_upwards [gain_limit hU h S h0 ht garbage hgl hg, sampled_data hU h S h0 ht garbage hgl hg] with ω hω hd
  have e1 : ∀ᶠ n : ℕ in atTop, ∀ u ∈ bn.V.toFinset, ∀ v ∈ bn.V.toFinset, u ≠ v → 1 / 10000 < netGain bn u v →
      ∀ rows, randomSample tol h bn (garbage n) (fun i => U i ω) = .ok rows → 0 < gain (natRows rows) u v := by
    rw [Filter.eventually_all_finset]; intro u hu
    rw [Filter.eventually_all_finset]; intro v hv
    by_cases huv : u ≠ v
    swap
    · exact Eventually.of_forall fun n hc => (huv hc).elim
    by_cases hgn : 1 / 10000 < netGain bn u v
    swap
    · exact Eventually.of_forall fun n _ hc => (hgn hc).elim
    filter_upwards [hω u v (List.mem_toFinset.1 hu) (List.mem_toFinset.1 hv) huv ((netGain bn u v - 1 / 10000) / 2) (by linarith)] with n hn _ _ rows hr
    obtain ⟨rows', k1, k2⟩ := hn
    rw [hr] at k1
    cases k1
    rw [abs_le] at k2
    have : (0 : ℝ) < (gain (natRows rows) u v : ℝ) := by linarith [k2.1]
    exact_mod_cast this
  have e2 : ∀ᶠ n : ℕ in atTop, ∀ u ∈ bn.V.toFinset, ∀ v ∈ bn.V.toFinset, ∀ u' ∈ bn.V.toFinset, ∀ v' ∈ bn.V.toFinset, u ≠ v → u' ≠ v' →
      netGain bn u' v' + 2 / 10000 < netGain bn u v →
      ∀ rows, randomSample tol h bn (garbage n) (fun i => U i ω) = .ok rows → gain (natRows rows) u' v' < gain (natRows rows) u v := by
    rw [Filter.eventually_all_finset]; intro u hu
    rw [Filter.eventually_all_finset]; intro v hv
    rw [Filter.eventually_all_finset]; intro u' hu'
    rw [Filter.eventually_all_finset]; intro v' hv'
    by_cases huv : u ≠ v ∧ u' ≠ v' ∧ netGain bn u' v' + 2 / 10000 < netGain bn u v
    swap
    · exact Eventually.of_forall fun n a b c => (huv ⟨a, b, c⟩).elim
    obtain ⟨h1, h2, h3⟩ := huv
    have hε : 0 < (netGain bn u v - netGain bn u' v' - 2 / 10000) / 4 := by linarith
    filter_upwards [hω u v (List.mem_toFinset.1 hu) (List.mem_toFinset.1 hv) h1 _ hε,
      hω u' v' (List.mem_toFinset.1 hu') (List.mem_toFinset.1 hv') h2 _ hε] with n hn hn' _ _ _ rows hr
    obtain ⟨rows', k1, k2⟩ := hn
    obtain ⟨rows'', k1', k2'⟩ := hn'
    rw [hr] at k1 k1'
    cases k1; cases k1'
    rw [abs_le] at k2 k2'
    have : (gain (natRows rows) u' v' : ℝ) < (gain (natRows rows) u v : ℝ) := by linarith [k2.1, k2'.2]
    exact_mod_cast this
  filter_upwards [e1, e2, hd] with n f1 f2 f3
  obtain ⟨rows, g1, _, g2, g3, _⟩ := f3
  refine ⟨rows, g1, g2, g3, fun u hu v hv huv hgn => f1 u (List.mem_toFinset.2 hu) v (List.mem_toFinset.2 hv) huv hgn rows g1,
    fun u hu v hv u' hu' v' hv' h1 h2 h3 => f2 u (List.mem_toFinset.2 hu) v (List.mem_toFinset.2 hv) u' (List.mem_toFinset.2 hu') v'
      (List.mem_toFinset.2 hv') h1 h2 h3 rows g1⟩

theorem dataArgs_onBinary (fc : Dict ℕ (List ℕ) → ℕ → Bool) {ncol : ℕ} {rows : List (List ℕ)} (hne : rows ≠ []) (hb : Binary ncol rows)
    (restriction : Option (List (ℕ × ℕ))) (debug : Bool) : OnBinary (dataArgs fc ncol rows restriction debug) rows := ⟨hne, hb, rfl, rfl⟩

theorem natRows_ne {rows : List (List ℤ)} (h : rows ≠ []) : natRows rows ≠ [] := by
  unfold natRows; simpa using h

/-- C215: a network of two-valued nodes in which no node determines another one (mutual information below the entropy by more than 0.0001).  Almost surely, on
every large sample of it `hc` returns a directed tree over all nodes: one node without parent, every other node with exactly one.  This is so whatever the arcs
of the network are, and even if all its nodes are independent. -/
theorem C215_tree_in_the_long_run (hU : Uniforms P U) (h : HashOrder ℕ) (bn : BayesNet ℕ A) (S : Sampleable bn) (h2 : ∀ v ∈ bn.V, bn.cardOf v = 2)
    (hne : bn.V ≠ []) (hgap : ∀ u ∈ bn.V, ∀ v ∈ bn.V, u ≠ v → pairMI (1 / 10 ^ 7) bn v u + 1 / 10000 < nodeH bn v) (tol : ℚ) (h0 : 0 ≤ tol) (ht : tol < 1)
    (garbage : ℕ → List (List ℤ)) (hgl : ∀ n, (garbage n).length = n) (hg : ∀ n, ∀ g ∈ garbage n, g.length = bn.V.length) :
    ∀ᵐ ω ∂P, ∀ᶠ n : ℕ in atTop, ∃ rows, randomSample tol h bn (garbage n) (fun i => U i ω) = .ok rows ∧
      ∀ (hE : HashOrder (ℕ × ℤ)) (hI : HashOrder ℤ) (h' : HashOrder ℕ) (fc : Dict ℕ (List ℕ) → ℕ → Bool) (_ : FindsCycles fc) (metric : String)
        (maxIter : ℤ) (_ : (bn.V.length : ℤ) < maxIter) (debug : Bool),
        ∃ out tr root, hcCall hE hI h' fc bn.V.length (natRows rows) metric maxIter debug none = .ok (out, tr) ∧ root ∈ bn.V ∧
          (∀ u, ¬ Arc out.E u root) ∧ ∀ v ∈ bn.V, v ≠ root → ∃! u, Arc out.E u v := by
  filter_upwards [gain_compare hU h S h0 ht garbage hgl hg] with ω hω
  filter_upwards [hω] with n hn
  obtain ⟨rows, g1, g2, g3, g4, _⟩ := hn
  refine ⟨rows, g1, fun hE hI h' fc hfc metric maxIter hmax debug => ?_⟩
  have hb := natRows_binary S h2 g2 g3
  have hne' := natRows_ne g2.ne
  have ob := dataArgs_onBinary fc hne' hb none debug
  obtain ⟨s, hs⟩ := scoreStart_ok hE hI h' bn.V.length (natRows rows) metric hne' (fun r hr => (hb r hr).1)
  obtain ⟨out, tr, root, k1, k2, k3, k4⟩ := C101_always_a_tree ℤ h' _ hfc _ ob rfl (show 0 < bn.V.length from List.length_pos_iff.2 hne) maxIter hmax
    (fun u v hu hv huv e i he hi => by
      have := g4 u (S.lt.2 hu) v (S.lt.2 hv) huv (by unfold netGain; linarith [hgap u (S.lt.2 hu) v (S.lt.2 hv) huv])
      unfold gain at this
      rw [he, hi] at this
      simpa using this)
  exact ⟨out, tr, root, by unfold hcCall; rw [hs]; exact k1, S.lt.2 k2, k3, fun v hv hvr => k4 v (S.lt.1 hv) hvr⟩

/-- C216, for a given array: 0/1 data in which the entropy of every column exceeds (rounded) its mutual information with every other column.  If choosing, again and
again, the allowed arc with the largest difference never meets a tie, `hc` returns exactly the arcs so chosen. -/
theorem C216_greedy_tree (hE : HashOrder (ℕ × ℤ)) (hI : HashOrder ℤ) (h : HashOrder ℕ) (fc : Dict ℕ (List ℕ) → ℕ → Bool) (hfc : FindsCycles fc) (ncol : ℕ)
    (rows : List (List ℕ)) (hne : rows ≠ []) (hb : Binary ncol rows) (metric : String) (maxIter : ℤ) (hmax : (ncol : ℤ) < maxIter) (debug : Bool)
    (hpos : ∀ u v, u < ncol → v < ncol → u ≠ v → 0 < gain rows u v) (T : List (ℕ × ℕ)) (hT : Greedy ncol (fun u v => (gain rows u v : ℝ)) 0 T)
    (hf : T.length + 1 = ncol) :
    ∃ out tr, hcCall hE hI h fc ncol rows metric maxIter debug none = .ok (out, tr) ∧ out.V.Perm (List.range ncol) ∧ ∀ u v, Arc out.E u v ↔ (u, v) ∈ T := by
  obtain ⟨s, hs⟩ := scoreStart_ok hE hI h ncol rows metric hne (fun r hr => (hb r hr).1)
  obtain ⟨out, tr, k1, k2, k3⟩ := hc_greedy ℤ h _ hfc rows (dataArgs_onBinary fc hne hb none debug) rfl maxIter hmax hpos T hT hf
  exact ⟨out, tr, by unfold hcCall; rw [hs]; exact k1, k2, k3⟩

/-- C216, in the long run: the tree is the one chosen greedily by (entropy of the child) - (mutual information of child and parent) of the sampled network. -/
theorem C216_greedy_in_the_long_run (hU : Uniforms P U) (h : HashOrder ℕ) (bn : BayesNet ℕ A) (S : Sampleable bn) (h2 : ∀ v ∈ bn.V, bn.cardOf v = 2)
    (hgap : ∀ u ∈ bn.V, ∀ v ∈ bn.V, u ≠ v → pairMI (1 / 10 ^ 7) bn v u + 1 / 10000 < nodeH bn v) (T : List (ℕ × ℕ))
    (hT : Greedy bn.V.length (netGain bn) (2 / 10000) T) (hf : T.length + 1 = bn.V.length) (tol : ℚ) (h0 : 0 ≤ tol) (ht : tol < 1)
    (garbage : ℕ → List (List ℤ)) (hgl : ∀ n, (garbage n).length = n) (hg : ∀ n, ∀ g ∈ garbage n, g.length = bn.V.length) :
    ∀ᵐ ω ∂P, ∀ᶠ n : ℕ in atTop, ∃ rows, randomSample tol h bn (garbage n) (fun i => U i ω) = .ok rows ∧
      ∀ (hE : HashOrder (ℕ × ℤ)) (hI : HashOrder ℤ) (h' : HashOrder ℕ) (fc : Dict ℕ (List ℕ) → ℕ → Bool) (_ : FindsCycles fc) (metric : String)
        (maxIter : ℤ) (_ : (bn.V.length : ℤ) < maxIter) (debug : Bool),
        ∃ out tr, hcCall hE hI h' fc bn.V.length (natRows rows) metric maxIter debug none = .ok (out, tr) ∧ ∀ u v, Arc out.E u v ↔ (u, v) ∈ T := by
  filter_upwards [gain_compare hU h S h0 ht garbage hgl hg] with ω hω
  filter_upwards [hω] with n hn
  obtain ⟨rows, g1, g2, g3, g4, g5⟩ := hn
  refine ⟨rows, g1, fun hE hI h' fc hfc metric maxIter hmax debug => ?_⟩
  have hT' : Greedy bn.V.length (fun u v => (gain (natRows rows) u v : ℝ)) 0 T := hT.mono fun u v u' v' hu hv huv hu' hv' huv' hw => by
    have := g5 u (S.lt.2 hu) v (S.lt.2 hv) u' (S.lt.2 hu') v' (S.lt.2 hv') huv huv' hw
    rw [add_zero]
    exact_mod_cast this
  obtain ⟨out, tr, k1, _, k3⟩ := C216_greedy_tree hE hI h' fc hfc bn.V.length (natRows rows) (natRows_ne g2.ne) (natRows_binary S h2 g2 g3) metric maxIter hmax debug
    (fun u v hu hv huv => g4 u (S.lt.2 hu) v (S.lt.2 hv) huv (by unfold netGain; linarith [hgap u (S.lt.2 hu) v (S.lt.2 hv) huv])) T hT' hf
  exact ⟨out, tr, k1, k3⟩

/-! ## Concrete networks -/

theorem pairMI_comm {bn : BayesNet ℕ A} (w : bn.WF) {u v : ℕ} (huv : u ≠ v) (e : ℝ) : pairMI e bn u v = pairMI e bn v u := by
  unfold pairMI
  rw [Finset.sum_comm]
  refine Finset.sum_congr rfl fun y _ => Finset.sum_congr rfl fun x _ => ?_
  rw [prob2_comm huv w, mul_comm (prob1 bn u x : ℝ)]

/-- A rational lower bound of `netGain`, from `log x ≤ x - 1`. -/
def gainBound (bn : BayesNet ℕ A) (u v : ℕ) : ℚ :=
  ∑ x ∈ Finset.range (bn.cardOf v), prob1 bn v x * (1 - prob1 bn v x) - ∑ x ∈ Finset.range (bn.cardOf v), ∑ y ∈ Finset.range (bn.cardOf u),
    (prob2 bn v u x y + 1 / 10 ^ 7) * ((prob2 bn v u x y + 1 / 10 ^ 7) / (prob1 bn v x * prob1 bn u y + 1 / 10 ^ 7) - 1)

theorem neg_mul_log_ge {p : ℝ} (hp : 0 ≤ p) : p * (1 - p) ≤ -(p * Real.log p) := by
  rcases hp.eq_or_lt with rfl | hp
  · simp
  · have := Real.log_le_sub_one_of_pos hp
    nlinarith

theorem netGain_ge {bn : BayesNet ℕ A} (S : Sampleable bn) {u v : ℕ} : (gainBound bn u v : ℝ) ≤ netGain bn u v := by
  have hp1 : ∀ w x, 0 ≤ prob1 bn w x := fun w x => margOf_nonneg S.nonneg _ _
  have hp2 : ∀ x y, 0 ≤ prob2 bn v u x y := fun x y => margOf_nonneg S.nonneg _ _
  unfold gainBound netGain nodeH pairMI
  push_cast
  refine sub_le_sub (Finset.sum_le_sum fun x _ => neg_mul_log_ge (by exact_mod_cast hp1 v x)) ?_
  refine Finset.sum_le_sum fun x _ => Finset.sum_le_sum fun y _ => ?_
  have h1 : (0 : ℝ) ≤ prob2 bn v u x y := by exact_mod_cast hp2 x y
  have h2 : (0 : ℝ) ≤ prob1 bn v x := by exact_mod_cast hp1 v x
  have h3 : (0 : ℝ) ≤ prob1 bn u y := by exact_mod_cast hp1 u y
  refine mul_le_mul_of_nonneg_left (Real.log_le_sub_one_of_pos ?_) (by positivity)
  positivity

theorem gap_of_bound {bn : BayesNet ℕ A} (S : Sampleable bn) {u v : ℕ} (hb : (1 : ℚ) / 10000 < gainBound bn u v) :
    pairMI (1 / 10 ^ 7) bn v u + 1 / 10000 < nodeH bn v := by
  have h1 := netGain_ge S (u := u) (v := v)
  have h3 : (1 : ℝ) / 10000 < (gainBound bn u v : ℝ) := by
    have := (Rat.cast_lt (K := ℝ)).2 hb
    push_cast at this
    exact this
  unfold netGain at h1
  linarith

/-- Witness for C215: the fork of three nodes. -/
theorem C215_nonvacuous : Sampleable exFork ∧ (∀ v ∈ exFork.V, exFork.cardOf v = 2) ∧ exFork.V ≠ [] ∧
    ∀ u ∈ exFork.V, ∀ v ∈ exFork.V, u ≠ v → pairMI (1 / 10 ^ 7) exFork v u + 1 / 10000 < nodeH exFork v := by
  refine ⟨exFork_sampleable, by decide, by decide, fun u hu v hv huv => ?_⟩
  have h2 : ∀ u ∈ exFork.V, ∀ v ∈ exFork.V, u ≠ v → (1 : ℚ) / 10000 < gainBound exFork u v := by decide +kernel
  exact gap_of_bound exFork_sampleable (h2 u hu v hv huv)

/-- With two nodes the greedy tree is the arc towards the node with the larger entropy. -/
theorem greedy_two {bn : BayesNet ℕ A} (w : bn.WF) {lo hi : ℕ} (hl : lo < 2) (hh : hi < 2) (hne : lo ≠ hi) {gap : ℝ} (hH : nodeH bn lo + gap < nodeH bn hi) :
    Greedy 2 (netGain bn) gap [(lo, hi)] := by
  refine .snoc [] lo hi .nil ⟨hl, hh, by simp, ?_⟩ fun u' v' ha' hne' => ?_
  · intro x hx
    have : ∀ y z, Relation.TransGen (fun a b => (a, b) ∈ ([] : List (ℕ × ℕ)) ∨ a = lo ∧ b = hi) y z → y = lo ∧ z = hi := by
      intro y z hyz
      induction hyz with
      | single h => rcases h with h | h; · cases h
                    · exact h
      | tail _ h ih => rcases h with h | h; · cases h
                       · exact ⟨ih.1, h.2⟩
    obtain ⟨h1, h2⟩ := this x x hx
    exact hne (h1.symm.trans h2)
  · have h1 := ha'.src
    have h2 := ha'.tgt
    have h3 := ha'.ne
    have h4 : u' = hi ∧ v' = lo := by
      by_cases h5 : v' = hi
      · exact absurd (show (u', v') = (lo, hi) by rw [h5]; congr 1; omega) hne'
      · omega
    obtain ⟨rfl, rfl⟩ := h4
    unfold netGain
    rw [pairMI_comm w hne]
    linarith

/-- C216, two nodes: whatever the dependence between two two-valued nodes (that do not determine each other) and whatever arc the network has, on all large samples
`hc` returns the one arc that points to the node with the larger entropy. -/
theorem C216_two_nodes (hU : Uniforms P U) (h : HashOrder ℕ) (bn : BayesNet ℕ A) (S : Sampleable bn) (hV : bn.V = [0, 1]) (h2 : ∀ v ∈ bn.V, bn.cardOf v = 2)
    (hgap : ∀ u ∈ bn.V, ∀ v ∈ bn.V, u ≠ v → pairMI (1 / 10 ^ 7) bn v u + 1 / 10000 < nodeH bn v) (lo hi : ℕ) (hl : lo ∈ bn.V) (hh : hi ∈ bn.V)
    (hH : nodeH bn lo + 2 / 10000 < nodeH bn hi) (tol : ℚ) (h0 : 0 ≤ tol) (ht : tol < 1)
    (garbage : ℕ → List (List ℤ)) (hgl : ∀ n, (garbage n).length = n) (hg : ∀ n, ∀ g ∈ garbage n, g.length = 2) :
    ∀ᵐ ω ∂P, ∀ᶠ n : ℕ in atTop, ∃ rows, randomSample tol h bn (garbage n) (fun i => U i ω) = .ok rows ∧
      ∀ (hE : HashOrder (ℕ × ℤ)) (hI : HashOrder ℤ) (h' : HashOrder ℕ) (fc : Dict ℕ (List ℕ) → ℕ → Bool) (_ : FindsCycles fc) (metric : String)
        (maxIter : ℤ) (_ : 2 < maxIter) (debug : Bool),
        ∃ out tr, hcCall hE hI h' fc 2 (natRows rows) metric maxIter debug none = .ok (out, tr) ∧ ∀ u v, Arc out.E u v ↔ u = lo ∧ v = hi := by
  have hlen : bn.V.length = 2 := by rw [hV]; rfl
  have hne : lo ≠ hi := by rintro rfl; linarith
  have hT : Greedy bn.V.length (netGain bn) (2 / 10000) [(lo, hi)] := by
    rw [hlen]
    exact greedy_two S.wf (hlen ▸ S.lt.1 hl) (hlen ▸ S.lt.1 hh) hne hH
  filter_upwards [C216_greedy_in_the_long_run hU h bn S h2 hgap [(lo, hi)] hT (by rw [hlen]; rfl) tol h0 ht garbage hgl (by rw [hlen]; exact hg)] with ω hω
  filter_upwards [hω] with n hn
  obtain ⟨rows, e1, e2⟩ := hn
  refine ⟨rows, e1, fun hE hI h' fc hfc metric maxIter hmax debug => ?_⟩
  obtain ⟨out, tr, k1, k2⟩ := e2 hE hI h' fc hfc metric maxIter (by rw [hlen]; exact hmax) debug
  rw [hlen] at k1
  exact ⟨out, tr, k1, fun u v => by rw [k2]; simp⟩

/-- Two dependent nodes, `0 -> 1`; node 1 has the larger entropy. -/
def skewArc : BayesNet ℕ ℕ := ⟨[0, 1], [(0, [1]), (1, [])], [(0, ⟨[], [0, 1], [1 / 8, 7 / 8]⟩), (1, ⟨[0], [0, 1], [1 / 2, 1 / 2, 2 / 5, 3 / 5]⟩)]⟩

theorem sampleable_two {bn : BayesNet ℕ ℕ} (hV : bn.V = [0, 1]) (hw : bn.WF) (hn : bn.Nonneg) (hp : bn.parentsOf 0 = [])
    (hq : ∀ u ∈ bn.parentsOf 1, u = 0) (hc : bn.cardOf 0 = 2) (hs0 : ∑ x ∈ Finset.range (bn.cardOf 0), bn.prob 0 (fun _ => x) = 1)
    (hs1 : ∀ y < bn.cardOf 0, ∑ x ∈ Finset.range (bn.cardOf 1), bn.prob 1 (pairAsg 1 x y) = 1) (hm : ∀ v ∈ bn.V, ∀ x < bn.cardOf v, 0 < margOf bn [v] fun _ => x) : Sampleable bn where
  columns := by rw [hV]; rfl
  wf := hw
  nonneg := hn
  normalised := by
    intro v hv a ha
    rw [hV] at hv
    simp only [List.mem_cons, List.not_mem_nil, or_false] at hv
    rcases hv with rfl | rfl
    · rw [← hs0]
      refine Finset.sum_congr rfl fun x _ => prob_congr fun u hu => ?_
      unfold fam at hu
      rw [hp, List.mem_singleton] at hu
      subst hu
      simp [Asg.upd]
    · by_cases h0 : 0 ∈ bn.parentsOf 1
      · rw [← hs1 (a 0) (ha 0 h0)]
        refine Finset.sum_congr rfl fun x _ => prob_congr fun u hu => ?_
        rcases List.mem_cons.1 hu with rfl | hu
        · simp [Asg.upd, pairAsg]
        · rw [hq u hu]; simp [Asg.upd, pairAsg]
      · rw [← hs1 0 (by omega)]
        refine Finset.sum_congr rfl fun x _ => prob_congr fun u hu => ?_
        rcases List.mem_cons.1 hu with rfl | hu
        · simp [Asg.upd, pairAsg]
        · exact absurd (hq u hu ▸ hu) h0
  parentsFirst := by
    intro o1 v o2 h
    rw [hV] at h
    rcases o1 with _ | ⟨x, _ | ⟨y, o1⟩⟩ <;> simp at h
    · obtain ⟨rfl, rfl⟩ := h; rw [hp]; simp
    · obtain ⟨rfl, rfl, rfl⟩ := h
      intro u hu
      rw [hq u hu]; simp
  possible := hm

theorem skewArc_wf : skewArc.WF := .of_dec _ (by decide) (by decide)

theorem skewArc_sampleable : Sampleable skewArc :=
  sampleable_two rfl skewArc_wf (by unfold Nonneg; decide +kernel) (by decide) (by decide) (by decide) (by decide +kernel) (by decide +kernel) (by decide +kernel)

theorem coins_sampleable : Sampleable coins :=
  sampleable_two rfl coins_wf coins_nonneg (by decide) (by decide) (by decide) (by decide +kernel) (by decide +kernel) (by decide +kernel)

theorem nodeH_two {bn : BayesNet ℕ ℕ} {v : ℕ} (hc : bn.cardOf v = 2) :
    nodeH bn v = -((prob1 bn v 0 : ℝ) * Real.log (prob1 bn v 0)) + -((prob1 bn v 1 : ℝ) * Real.log (prob1 bn v 1)) := by
  unfold nodeH
  rw [hc, Finset.sum_range_succ, Finset.sum_range_one]

theorem coins_entropy : nodeH coins 1 + 2 / 10000 < nodeH coins 0 := by
  rw [nodeH_two (by decide), nodeH_two (by decide), show prob1 coins 0 0 = 1 / 2 by decide +kernel, show prob1 coins 0 1 = 1 / 2 by decide +kernel,
    show prob1 coins 1 0 = 1 / 3 by decide +kernel, show prob1 coins 1 1 = 2 / 3 by decide +kernel]
  push_cast
  have h2 : Real.log (2 / 3) = Real.log 2 - Real.log 3 := Real.log_div (by norm_num) (by norm_num)
  have h3 : Real.log (1 / 3) = -Real.log 3 := by rw [one_div, Real.log_inv]
  have h4 : Real.log (1 / 2) = -Real.log 2 := by rw [one_div, Real.log_inv]
  have h5 : Real.log (32 / 27) = 5 * Real.log 2 - 3 * Real.log 3 := by
    rw [Real.log_div (by norm_num) (by norm_num), show (32 : ℝ) = 2 ^ 5 by norm_num, show (27 : ℝ) = 3 ^ 3 by norm_num, Real.log_pow, Real.log_pow]
    norm_num
  have h6 := Real.one_sub_inv_le_log_of_pos (show (0 : ℝ) < 32 / 27 by norm_num)
  rw [h2, h3, h4]
  rw [h5] at h6
  norm_num at h6
  linarith

theorem skewArc_entropy : nodeH skewArc 0 + 2 / 10000 < nodeH skewArc 1 := by
  rw [nodeH_two (by decide), nodeH_two (by decide), show prob1 skewArc 0 0 = 1 / 8 by decide +kernel, show prob1 skewArc 0 1 = 7 / 8 by decide +kernel,
    show prob1 skewArc 1 0 = 33 / 80 by decide +kernel, show prob1 skewArc 1 1 = 47 / 80 by decide +kernel]
  push_cast
  have h1 := neg_mul_log_ge (show (0 : ℝ) ≤ 33 / 80 by norm_num)
  have h2 := neg_mul_log_ge (show (0 : ℝ) ≤ 47 / 80 by norm_num)
  have h3 : Real.log (1 / 8) = -(3 * Real.log 2) := by
    rw [one_div, Real.log_inv, show (8 : ℝ) = 2 ^ 3 by norm_num, Real.log_pow]; norm_num
  have h4 := Real.one_sub_inv_le_log_of_pos (show (0 : ℝ) < 7 / 8 by norm_num)
  have h5 := Real.log_two_lt_d9
  rw [h3]
  norm_num at h1 h2 h4 ⊢
  linarith

theorem skewArc_gap : ∀ u ∈ skewArc.V, ∀ v ∈ skewArc.V, u ≠ v → pairMI (1 / 10 ^ 7) skewArc v u + 1 / 10000 < nodeH skewArc v := by
  have h2 : ∀ u ∈ skewArc.V, ∀ v ∈ skewArc.V, u ≠ v → (1 : ℚ) / 10000 < gainBound skewArc u v := by decide +kernel
  exact fun u hu v hv huv => gap_of_bound skewArc_sampleable (h2 u hu v hv huv)

theorem coins_gap : ∀ u ∈ coins.V, ∀ v ∈ coins.V, u ≠ v → pairMI (1 / 10 ^ 7) coins v u + 1 / 10000 < nodeH coins v := by
  have h2 : ∀ u ∈ coins.V, ∀ v ∈ coins.V, u ≠ v → (1 : ℚ) / 10000 < gainBound coins u v := by decide +kernel
  exact fun u hu v hv huv => gap_of_bound coins_sampleable (h2 u hu v hv huv)

/-- Witness for C216: a network with an arc between dependent nodes. -/
theorem C216_nonvacuous : Sampleable skewArc ∧ skewArc.V = [0, 1] ∧ (∀ v ∈ skewArc.V, skewArc.cardOf v = 2) ∧
    (∀ u ∈ skewArc.V, ∀ v ∈ skewArc.V, u ≠ v → pairMI (1 / 10 ^ 7) skewArc v u + 1 / 10000 < nodeH skewArc v) ∧
    nodeH skewArc 0 + 2 / 10000 < nodeH skewArc 1 ∧ ¬ NodesIndep skewArc 0 1 ∧ Greedy 2 (netGain skewArc) (2 / 10000) [(0, 1)] :=
  ⟨skewArc_sampleable, rfl, by decide, skewArc_gap, skewArc_entropy, by unfold NodesIndep; decide +kernel,
    greedy_two skewArc_wf (by omega) (by omega) (by omega) skewArc_entropy⟩

/-- Data of a fair and a biased coin, every combination as often as it should occur. -/
def exSix : List (List ℕ) := [[0, 0], [0, 1], [0, 1], [1, 0], [1, 1], [1, 1]]

theorem exSix_score (v u : ℕ) (hv : v < 2) (hu : u < 2) (huv : u ≠ v) : ∃ e, dataScore exSix [v] = some e ∧ |(e : ℝ) - empH (select [v] exSix)| ≤ 1 / 20000 ∧
    gain exSix u v = e := by
  have hcod : ∀ w < 2, Coded exSix w := by intro w hw; unfold Coded; interval_cases w <;> decide
  obtain ⟨e, i, g1, g2, g3, -, -, g4⟩ := C99_first_parent_score exSix (by decide) v u (hcod v hv)
  have e1 : dataScore exSix [v] = some e := by
    unfold dataScore
    show (match mutualInformation 1 (select [v] exSix) false with | .ok q => q | .error _ => none) = _
    rw [g1]
  have e2 : dataScore exSix [v, u] = some i := by
    unfold dataScore
    show (match mutualInformation 2 (select [v, u] exSix) false with | .ok q => q | .error _ => none) = _
    rw [g2]
  have hi : EmpIndep (select [v, u] exSix) := by
    have hcases : (v = 0 ∧ u = 1) ∨ (v = 1 ∧ u = 0) := by omega
    intro x y
    unfold freq
    rcases hcases with ⟨rfl, rfl⟩ | ⟨rfl, rfl⟩ <;>
    · rcases x with _ | _ | x <;> rcases y with _ | _ | y <;> simp [exSix, select, entry] <;> norm_num
  refine ⟨e, e1, g3, ?_⟩
  unfold gain
  rw [e1, e2, g4 (hcod u hu) hi]
  simp

theorem exSix_empH : empH (select [0] exSix) = Real.log 2 ∧ empH (select [1] exSix) = Real.log 3 - 2 / 3 * Real.log 2 := by
  have hval : ∀ v < 2, valuesOf (select [v] exSix) 0 = {0, 1} := by intro v hv; interval_cases v <;> decide
  have h2 : Real.log (2 / 3) = Real.log 2 - Real.log 3 := Real.log_div (by norm_num) (by norm_num)
  constructor
  · unfold empH
    rw [hval 0 (by omega), Finset.sum_pair (by decide)]
    have : freq (select [0] exSix) (fun r => entry 0 r = 0) = 1 / 2 := by simp [freq, exSix, select, entry]; norm_num
    have h' : freq (select [0] exSix) (fun r => entry 0 r = 1) = 1 / 2 := by simp [freq, exSix, select, entry]; norm_num
    rw [this, h', one_div, Real.log_inv]
    ring
  · unfold empH
    rw [hval 1 (by omega), Finset.sum_pair (by decide)]
    have : freq (select [1] exSix) (fun r => entry 0 r = 0) = 1 / 3 := by simp [freq, exSix, select, entry]; norm_num
    have h' : freq (select [1] exSix) (fun r => entry 0 r = 1) = 2 / 3 := by simp [freq, exSix, select, entry]; norm_num
    rw [this, h', h2, one_div, Real.log_inv]
    ring

/-- Witness for C216 on a given array. -/
theorem C216_data_nonvacuous : Binary 2 exSix ∧ (∀ u v, u < 2 → v < 2 → u ≠ v → 0 < gain exSix u v) ∧
    Greedy 2 (fun u v => (gain exSix u v : ℝ)) 0 [(1, 0)] := by
  obtain ⟨e0, a0, b0, c0⟩ := exSix_score 0 1 (by omega) (by omega) (by omega)
  obtain ⟨e1, a1, b1, c1⟩ := exSix_score 1 0 (by omega) (by omega) (by omega)
  rw [exSix_empH.1, abs_le] at b0
  rw [exSix_empH.2, abs_le] at b1
  have l2 := Real.log_two_gt_d9
  have l2' := Real.log_two_lt_d9
  have h5 : Real.log (32 / 27) = 5 * Real.log 2 - 3 * Real.log 3 := by
    rw [Real.log_div (by norm_num) (by norm_num), show (32 : ℝ) = 2 ^ 5 by norm_num, show (27 : ℝ) = 3 ^ 3 by norm_num, Real.log_pow, Real.log_pow]
    norm_num
  have h6 := Real.one_sub_inv_le_log_of_pos (show (0 : ℝ) < 32 / 27 by norm_num)
  rw [h5] at h6
  norm_num at h6
  have l3 : Real.log 2 < Real.log 3 := Real.log_lt_log (by norm_num) (by norm_num)
  have p0 : 0 < e0 := by
    have : (0 : ℝ) < e0 := by linarith [b0.1]
    exact_mod_cast this
  have p1 : 0 < e1 := by
    have : (0 : ℝ) < e1 := by linarith [b1.1]
    exact_mod_cast this
  refine ⟨by unfold Binary; decide, fun u v hu hv huv => ?_, ?_⟩
  · have hcases : (v = 0 ∧ u = 1) ∨ (v = 1 ∧ u = 0) := by omega
    rcases hcases with ⟨rfl, rfl⟩ | ⟨rfl, rfl⟩
    · rw [c0]; exact p0
    · rw [c1]; exact p1
  · refine .snoc [] 1 0 .nil ⟨by omega, by omega, by simp, ?_⟩ fun u' v' ha' hne' => ?_
    · intro x hx
      have : ∀ y z, Relation.TransGen (fun a b => (a, b) ∈ ([] : List (ℕ × ℕ)) ∨ a = 1 ∧ b = 0) y z → y = 1 ∧ z = 0 := by
        intro y z hyz
        induction hyz with
        | single h => simpa using h
        | tail _ h ih => exact ⟨ih.1, (by simpa using h : _ ∧ _).2⟩
      obtain ⟨h1, h2⟩ := this x x hx
      omega
    · have h1 := ha'.src
      have h2 := ha'.tgt
      have h3 := ha'.ne
      have h4 : u' = 0 ∧ v' = 1 := by
        by_cases h5 : v' = 0
        · exact absurd (show (u', v') = (1, 0) by rw [h5]; congr 1; omega) hne'
        · omega
      obtain ⟨rfl, rfl⟩ := h4
      show (gain exSix 0 1 : ℝ) + 0 < (gain exSix 1 0 : ℝ)
      rw [c0, c1]
      linarith [b0.1, b1.2]

/-! ## C214: does `hc` recover the structure in the long run? -/

/-- C214 is false: two independent coins, no arc; on all large samples `hc` returns the arc from 1 to 0. -/
theorem C214_false (hU : Uniforms P U) (h : HashOrder ℕ) (garbage : ℕ → List (List ℤ)) (hgl : ∀ n, (garbage n).length = n)
    (hg : ∀ n, ∀ g ∈ garbage n, g.length = 2) :
    (∀ u v, ¬ Arc coins.E u v) ∧ NodesIndep coins 0 1 ∧
    ∀ᵐ ω ∂P, ∀ᶠ n : ℕ in atTop, ∃ rows, randomSample (1 / 10 ^ 8) h coins (garbage n) (fun i => U i ω) = .ok rows ∧
      ∀ (hE : HashOrder (ℕ × ℤ)) (hI : HashOrder ℤ) (h' : HashOrder ℕ) (fc : Dict ℕ (List ℕ) → ℕ → Bool) (_ : FindsCycles fc) (metric : String)
        (maxIter : ℤ) (_ : 2 < maxIter) (debug : Bool),
        ∃ out tr, hcCall hE hI h' fc 2 (natRows rows) metric maxIter debug none = .ok (out, tr) ∧ Arc out.E 1 0 := by
  refine ⟨fun u v => ?_, by unfold NodesIndep; decide +kernel, ?_⟩
  · rintro ⟨l, hl, hv⟩
    rcases Nat.lt_or_ge u 2 with hu | hu
    · interval_cases u <;> simp [coins, Dict.get?] at hl <;> subst hl <;> cases hv
    · have : coins.E.get? u = none := by
        simp [coins, Dict.get?, show ¬ (0 = u) by omega, show ¬ (1 = u) by omega]
      rw [this] at hl; cases hl
  · filter_upwards [C216_two_nodes hU h coins coins_sampleable rfl (by decide) coins_gap 1 0 (by decide) (by decide) coins_entropy (1 / 10 ^ 8) (by norm_num)
      (by norm_num) garbage hgl hg] with ω hω
    filter_upwards [hω] with n hn
    obtain ⟨rows, e1, e2⟩ := hn
    refine ⟨rows, e1, fun hE hI h' fc hfc metric maxIter hmax debug => ?_⟩
    obtain ⟨out, tr, k1, k2⟩ := e2 hE hI h' fc hfc metric maxIter hmax debug
    exact ⟨out, tr, k1, (k2 1 0).2 ⟨rfl, rfl⟩⟩

/-- C214, where it holds: when the arcs of the network are the ones chosen greedily.  Missing: all other networks, for which it is false. -/
theorem C214_greedy_partial (hU : Uniforms P U) (h : HashOrder ℕ) (bn : BayesNet ℕ A) (S : Sampleable bn) (h2 : ∀ v ∈ bn.V, bn.cardOf v = 2)
    (hgap : ∀ u ∈ bn.V, ∀ v ∈ bn.V, u ≠ v → pairMI (1 / 10 ^ 7) bn v u + 1 / 10000 < nodeH bn v) (T : List (ℕ × ℕ))
    (hT : Greedy bn.V.length (netGain bn) (2 / 10000) T) (hf : T.length + 1 = bn.V.length) (harcs : ∀ u v, Arc bn.E u v ↔ (u, v) ∈ T)
    (tol : ℚ) (h0 : 0 ≤ tol) (ht : tol < 1) (garbage : ℕ → List (List ℤ)) (hgl : ∀ n, (garbage n).length = n)
    (hg : ∀ n, ∀ g ∈ garbage n, g.length = bn.V.length) :
    ∀ᵐ ω ∂P, ∀ᶠ n : ℕ in atTop, ∃ rows, randomSample tol h bn (garbage n) (fun i => U i ω) = .ok rows ∧
      ∀ (hE : HashOrder (ℕ × ℤ)) (hI : HashOrder ℤ) (h' : HashOrder ℕ) (fc : Dict ℕ (List ℕ) → ℕ → Bool) (_ : FindsCycles fc) (metric : String)
        (maxIter : ℤ) (_ : (bn.V.length : ℤ) < maxIter) (debug : Bool),
        ∃ out tr, hcCall hE hI h' fc bn.V.length (natRows rows) metric maxIter debug none = .ok (out, tr) ∧ ∀ u v, Arc out.E u v ↔ Arc bn.E u v := by
  filter_upwards [C216_greedy_in_the_long_run hU h bn S h2 hgap T hT hf tol h0 ht garbage hgl hg] with ω hω
  filter_upwards [hω] with n hn
  obtain ⟨rows, e1, e2⟩ := hn
  refine ⟨rows, e1, fun hE hI h' fc hfc metric maxIter hmax debug => ?_⟩
  obtain ⟨out, tr, k1, k2⟩ := e2 hE hI h' fc hfc metric maxIter hmax debug
  exact ⟨out, tr, k1, fun u v => by rw [k2, harcs]⟩

/-- Witness for C214: the arcs of `skewArc` are the greedy ones. -/
theorem C214_nonvacuous : ∀ u v, Arc skewArc.E u v ↔ (u, v) ∈ [(0, 1)] := by
  intro u v
  constructor
  · rintro ⟨l, hl, hv⟩
    rcases u with _ | _ | u
    · simp [skewArc, Dict.get?] at hl; subst hl; simpa using hv
    · simp [skewArc, Dict.get?] at hl; subst hl; cases hv
    · have : skewArc.E.get? (u + 2) = none := by simp [skewArc, Dict.get?]
      rw [this] at hl; cases hl
  · intro hm
    simp only [List.mem_singleton, Prod.mk.injEq] at hm
    obtain ⟨rfl, rfl⟩ := hm
    exact ⟨[1], by simp [skewArc, Dict.get?], by simp⟩

end PyBN
