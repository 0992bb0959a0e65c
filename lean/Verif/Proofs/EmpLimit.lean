import Verif.Proofs.SmoothCMI
import Verif.Proofs.Indep6
import Mathlib.Topology.Algebra.Monoid
import Mathlib.Analysis.SpecialFunctions.Log.Basic

/-!
# The statistic of `mi_test` on data whose row frequencies converge
-/

set_option linter.unusedSectionVars false

namespace PyBN
namespace Indep
open Finset Filter Topology

theorem colLo_congr_mem {l l' : List ℕ} (h : ∀ x, x ∈ l ↔ x ∈ l') : colLo l = colLo l' := by
  by_cases hl : l = []
  · have : l' = [] := List.eq_nil_iff_forall_not_mem.2 fun x hx => by have := (h x).2 hx; rw [hl] at this; simp at this
    rw [hl, this]
  · exact (colLo_eq ((h _).1 (colLo_mem hl)) fun x hx => colLo_le ((h x).2 hx)).symm

theorem colHi_congr_mem {l l' : List ℕ} (h : ∀ x, x ∈ l ↔ x ∈ l') : colHi l = colHi l' := by
  by_cases hl : l = []
  · have : l' = [] := List.eq_nil_iff_forall_not_mem.2 fun x hx => by have := (h x).2 hx; rw [hl] at this; simp at this
    rw [hl, this]
  · exact (colHi_eq ((h _).1 (colHi_mem hl)) fun x hx => le_colHi ((h x).2 hx)).symm

theorem column_congr_mem {d d' : List (List ℕ)} (h : ∀ r, r ∈ d ↔ r ∈ d') (j x : ℕ) : x ∈ column d j ↔ x ∈ column d' j := by
  unfold column
  simp only [List.mem_map, h]

theorem nbins_congr_mem {d d' : List (List ℕ)} (h : ∀ r, r ∈ d ↔ r ∈ d') (j : ℕ) : nbins d j = nbins d' j := by
  rw [nbins_card, nbins_card]
  congr 1
  ext x
  unfold valuesOf
  simp only [List.mem_toFinset, List.mem_map, h]

theorem histBin_congr_mem {d d' : List (List ℕ)} (h : ∀ r, r ∈ d ↔ r ∈ d') (j k x : ℕ) : histBin (column d j) k x = histBin (column d' j) k x := by
  unfold histBin
  rw [colLo_congr_mem (column_congr_mem h j), colHi_congr_mem (column_congr_mem h j)]

theorem countP_box {α : Type} [DecidableEq α] {B : Finset α} {d : List α} (h : ∀ r ∈ d, r ∈ B) (p : α → Prop) [DecidablePred p] :
    d.countP (fun r => decide (p r)) = ∑ r ∈ B.filter p, d.count r := by
  induction d with
  | nil => simp
  | cons a d ih =>
    rw [List.countP_cons, ih fun r hr => h r (List.mem_cons_of_mem _ hr)]
    simp only [List.count_cons, sum_add_distrib]
    congr 1
    have ha := h a List.mem_cons_self
    by_cases hp : p a
    · rw [if_pos (by simpa using hp), sum_eq_single a]
      · simp
      · intro b _ hb; simp [hb.symm]
      · intro hn; exact absurd (mem_filter.2 ⟨ha, hp⟩) hn
    · rw [if_neg (by simpa using hp), sum_eq_zero]
      intro b hb
      have : a ≠ b := fun e => hp (e ▸ (mem_filter.1 hb).2)
      simp [this]

/-- The rows whose image under `f` is in bin `(i, j, k)`, the bins being those of the data set `X`. -/
def cellRows (B : Finset (List ℕ)) (f : List ℕ → List ℕ) (X : List (List ℕ)) (i j k : ℕ) : Finset (List ℕ) :=
  B.filter fun r => histBin (column X 0) (nbins X 0) ((f r).getD 0 0) = i ∧ histBin (column X 1) (nbins X 1) ((f r).getD 1 0) = j ∧
    histBin (column X 2) (nbins X 2) ((f r).getD 2 0) = k

/-- The statistic with one (joined) conditioning column, for weights `m` of the possible rows. -/
noncomputable def boxStat (B : Finset (List ℕ)) (f : List ℕ → List ℕ) (m : List ℕ → ℝ) : ℝ :=
  let X := B.toList.map f
  mi3 (nbins X 0) (nbins X 1) (nbins X 2) fun i j k => ∑ r ∈ cellRows B f X i j k, m r

theorem stat_box {B : Finset (List ℕ)} {f : List ℕ → List ℕ} {d : List (List ℕ)} (h : ∀ r, r ∈ d ↔ r ∈ B) :
    (mi3 (nbins (d.map f) 0) (nbins (d.map f) 1) (nbins (d.map f) 2) fun i j k =>
      (hist3 (d.map f) (nbins (d.map f) 0) (nbins (d.map f) 1) (nbins (d.map f) 2) i j k : ℝ) / d.length) =
    boxStat B f fun r => (d.count r : ℝ) / d.length := by
  have hX : ∀ r, r ∈ d.map f ↔ r ∈ B.toList.map f := by
    intro r
    simp only [List.mem_map, h, mem_toList]
  unfold boxStat
  simp only [nbins_congr_mem hX]
  congr 1
  funext i j k
  unfold hist3
  rw [List.countP_map]
  simp only [histBin_congr_mem hX, Function.comp_def]
  rw [countP_box (B := B) (fun r hr => (h r).1 hr) (fun r => histBin (column (B.toList.map f) 0) (nbins (B.toList.map f) 0) ((f r).getD 0 0) = i ∧
    histBin (column (B.toList.map f) 1) (nbins (B.toList.map f) 1) ((f r).getD 1 0) = j ∧
    histBin (column (B.toList.map f) 2) (nbins (B.toList.map f) 2) ((f r).getD 2 0) = k)]
  unfold cellRows
  push_cast
  rw [sum_div]
  congr!

theorem eps_pos' : (0 : ℝ) < eps := eps_pos

theorem mi3_tendsto {k0 k1 k2 : ℕ} {Q : ℕ → ℕ → ℕ → ℕ → ℝ} {R : ℕ → ℕ → ℕ → ℝ} (h : ∀ i j k, Tendsto (fun n => Q n i j k) atTop (𝓝 (R i j k)))
    (hR : ∀ i j k, 0 ≤ R i j k) : Tendsto (fun n => mi3 k0 k1 k2 (Q n)) atTop (𝓝 (mi3 k0 k1 k2 R)) := by
  have he := eps_pos
  unfold mi3
  refine tendsto_finsetSum _ fun i _ => tendsto_finsetSum _ fun j _ => tendsto_finsetSum _ fun k _ => ?_
  have tz : Tendsto (fun n => (∑ i' ∈ range k0, ∑ j' ∈ range k1, Q n i' j' k) + eps) atTop (𝓝 ((∑ i' ∈ range k0, ∑ j' ∈ range k1, R i' j' k) + eps)) :=
    (tendsto_finsetSum _ fun i' _ => tendsto_finsetSum _ fun j' _ => h i' j' k).add_const _
  have nz : 0 ≤ ∑ i' ∈ range k0, ∑ j' ∈ range k1, R i' j' k := sum_nonneg fun _ _ => sum_nonneg fun _ _ => hR _ _ _
  have ta : Tendsto (fun n => ∑ j' ∈ range k1, Q n i j' k) atTop (𝓝 (∑ j' ∈ range k1, R i j' k)) := tendsto_finsetSum _ fun j' _ => h i j' k
  have na : 0 ≤ ∑ j' ∈ range k1, R i j' k := sum_nonneg fun _ _ => hR _ _ _
  have tb : Tendsto (fun n => ∑ i' ∈ range k0, Q n i' j k) atTop (𝓝 (∑ i' ∈ range k0, R i' j k)) := tendsto_finsetSum _ fun i' _ => h i' j k
  have nb : 0 ≤ ∑ i' ∈ range k0, R i' j k := sum_nonneg fun _ _ => hR _ _ _
  have nr := hR i j k
  have d := ((h i j k).div tz (by positivity)).add_const eps
  have d' := ((ta.div tz (by positivity)).mul (tb.div tz (by positivity))).add_const eps
  exact ((h i j k).add_const eps).mul ((d.div d' (by positivity)).log (by positivity))

/-- The statistic is positive when every occurring value of the third index comes with all combinations of the other two, none rarer than `q`. -/
theorem mi3_pos {k0 k1 k2 : ℕ} {Q : ℕ → ℕ → ℕ → ℝ} {q : ℝ} (h0 : 0 < k0) (h1 : 0 < k1) (hq : 0 < q) (heq : eps < q ^ 3)
    (hQ : ∀ k < k2, (∀ i < k0, ∀ j < k1, q ≤ Q i j k) ∨ (∀ i < k0, ∀ j < k1, Q i j k = 0))
    (hz : ∀ k < k2, (∑ i ∈ range k0, ∑ j ∈ range k1, Q i j k) + eps ≤ 1) {k' : ℕ} (hk' : k' < k2) (hk : ∀ i < k0, ∀ j < k1, q ≤ Q i j k') :
    0 < mi3 k0 k1 k2 Q := by
  unfold mi3
  rw [sum_congr rfl fun x _ => sum_comm, sum_comm]
  have hblock := fun (k : ℕ) (hk : k < k2) (hc : ∀ i < k0, ∀ j < k1, q ≤ Q i j k) =>
    block_pos (p := fun i j => Q i j k) h0 h1 eps_pos hq heq hc (hz k hk)
  refine sum_pos' (fun k hkr => ?_) ⟨k', mem_range.2 hk', hblock k' hk' hk⟩
  rw [mem_range] at hkr
  rcases hQ k hkr with hc | hc
  · exact (hblock k hkr hc).le
  · refine sum_nonneg fun i hi => sum_nonneg fun j hj => le_of_eq ?_
    rw [mem_range] at hi hj
    have a0 : ∑ j' ∈ range k1, Q i j' k = 0 := sum_eq_zero fun j' hj' => hc i hi j' (mem_range.1 hj')
    rw [hc i hi j hj, a0]
    simp [eps_pos.ne']

end Indep
end PyBN
