import Verif.Props.SubsetGood

/-!
# C271: `mle_estimator` for an ancestrally closed list of nodes
-/

set_option linter.unusedSectionVars false

namespace PyBN
open BayesNet

theorem only_shape {bn : BayesNet ℕ ℤ} (s : bn.Shape) {nodes : List ℕ} (hnd : nodes.Nodup) (hsub : ∀ v ∈ nodes, v ∈ bn.V)
    (hclosed : ∀ v ∈ nodes, ∀ p ∈ bn.parentsOf v, p ∈ nodes) :
    (⟨nodes, bn.E, onlyOn nodes bn.F⟩ : BayesNet ℕ ℤ).Shape ∧ ClosedOn nodes (onlyOn nodes bn.F) ∧ AgreeOn nodes bn.F (onlyOn nodes bn.F) ∧
      ∀ v ∈ nodes, (⟨nodes, bn.E, onlyOn nodes bn.F⟩ : BayesNet ℕ ℤ).parentsOf v = bn.parentsOf v := by
  have hget : ∀ v ∈ nodes, bn.F.get? v = (onlyOn nodes bn.F).get? v := fun v hv => by rw [onlyOn_get?, if_pos hv]
  have hpar : ∀ v ∈ nodes, (⟨nodes, bn.E, onlyOn nodes bn.F⟩ : BayesNet ℕ ℤ).parentsOf v = bn.parentsOf v := fun v hv => by unfold parentsOf; rw [hget v hv]
  refine ⟨⟨hnd, fun v => ?_, fun v hv => ?_, fun v hv p hp => ?_⟩, fun v hv d hd p hp => ?_, hget, hpar⟩
  · show ((onlyOn nodes bn.F).get? v).isSome ↔ v ∈ nodes
    rw [onlyOn_get?]
    split
    · rename_i hv; exact ⟨fun _ => hv, fun _ => (s.dom v).2 (hsub v hv)⟩
    · rename_i hv; simp [hv]
  · rw [hpar v hv]; exact s.fam_nodup v (hsub v hv)
  · rw [hpar v hv] at hp; exact hclosed v hv p hp
  · refine hclosed v hv p ?_
    rw [← hpar v hv]
    unfold parentsOf
    dsimp only
    rw [hd]; exact hp

/-- **C271** (counts): asked for a list of nodes that contains the parents of its nodes, each at the position of a column with the entries of its own, `mle_estimator(counts=True)` counts
the rows showing each configuration of each listed node and its parents. -/
theorem C271_counts (hE : HashOrder (ℕ × ℤ)) (hI : HashOrder ℤ) (bn : BayesNet ℕ ℤ) (s : bn.Shape) (data : Data) (nodes : List ℕ) (hnd : nodes.Nodup)
    (hsub : ∀ v ∈ nodes, v ∈ bn.V) (hclosed : ∀ v ∈ nodes, ∀ p ∈ bn.parentsOf v, p ∈ nodes) (hf : data.Fits nodes)
    (hcol : ∀ v ∈ nodes, data.SameValues (nodes.idxOf v) v) :
    ∃ cnt vals, mleCounts hE hI bn data (some nodes) = .ok cnt ∧
      ∀ v ∈ nodes, data.IsValues v (vals v) ∧
        ∃ l, cnt.get? v = some (vals v, l) ∧ l.length = ((v :: bn.parentsOf v).map fun u => (vals u).length).prod ∧
          ∀ a, InRange (fun u => (vals u).length) (v :: bn.parentsOf v) a →
            l[enc (fun u => (vals u).length) (v :: bn.parentsOf v) a]? = some (data.count vals (v :: bn.parentsOf v) a : ℚ) := by
  obtain ⟨sc, hcl, hag, hpar⟩ := only_shape s hnd hsub hclosed
  obtain ⟨cnt, vals, h1, h2⟩ := C35_counts_partial hE hI _ sc data hf (some nodes) (List.Perm.refl _) hcol
  refine ⟨cnt, vals, mleCounts_agree hE hI (b := bn) hag hcl data h1, fun v hv => ?_⟩
  have := h2 v hv
  rw [hpar v hv] at this
  exact this

/-- **C271** (tables): for such a list, in an order that keeps each parent list's, `mle_estimator` gives every listed node `P(v = x | pa) = count(v = x, pa) / (count(pa) + 1e-7)`. -/
theorem C271_tables (hE : HashOrder (ℕ × ℤ)) (hI : HashOrder ℤ) (bn : BayesNet ℕ ℤ) (s : bn.Shape) (data : Data) (nodes : List ℕ) (hnd : nodes.Nodup)
    (hsub : ∀ v ∈ nodes, v ∈ bn.V) (hclosed : ∀ v ∈ nodes, ∀ p ∈ bn.parentsOf v, p ∈ nodes) (hf : data.Fits nodes)
    (hcol : ∀ v ∈ nodes, data.SameValues (nodes.idxOf v) v) (hEk : ∀ v ∈ nodes, v ∈ bn.E.keys)
    (hpar : ∀ v ∈ nodes, (bn.parentsOf v).Sublist nodes ∧ ∀ u ∈ nodes, u ∈ bn.parentsOf v ↔ v ∈ bn.childrenOf u) :
    ∃ bn', mleEstimator hE hI bn data (some nodes) = .ok bn' ∧ bn'.V = bn.V ∧ bn'.E = bn.E ∧
      ∀ v ∈ nodes, bn'.parentsOf v = bn.parentsOf v ∧ data.IsValues v (bn'.valuesOf v) ∧
        ∀ a, InRange bn'.cardOf (v :: bn'.parentsOf v) a →
          bn'.prob v a = roundAway 5 (data.count bn'.valuesOf (v :: bn'.parentsOf v) a /
            (data.count bn'.valuesOf (bn'.parentsOf v) a + 1 / 10000000)) := by
  obtain ⟨sc, hcl, hag, hpc⟩ := only_shape s hnd hsub hclosed
  obtain ⟨c', h1, _, _, _, h5⟩ := C66_mle_probabilities hE hI _ sc data hf (some nodes) (List.Perm.refl _) hcol hEk fun v hv => by
    rw [hpc v hv]
    refine ⟨(hpar v hv).1, fun u => ⟨fun hu => ?_, fun hu => ?_⟩⟩
    · have hun := hclosed v hv u hu
      exact ⟨hun, ((hpar v hv).2 u hun).1 hu⟩
    · exact ((hpar v hv).2 u hu.1).2 hu.2
  refine ⟨{ bn with F := c'.F }, mle_agree hE hI (b := bn) (c := ⟨nodes, bn.E, onlyOn nodes bn.F⟩) hag hcl rfl data h1, rfl, rfl, fun v hv => ?_⟩
  have := h5 v hv
  rw [hpc v hv] at this
  exact this

/-- Node 0 of `pairNet`, from data without a column for node 1: the hypotheses hold, and this is its table. -/
theorem C271_example : pairNet.Shape ∧ (∀ v ∈ [0], ∀ p ∈ pairNet.parentsOf v, p ∈ [0]) ∧ (∀ v ∈ [0], v ∈ pairNet.E.keys) ∧
    (∀ v ∈ [0], (pairNet.parentsOf v).Sublist [0] ∧ ∀ u ∈ [0], u ∈ pairNet.parentsOf v ↔ v ∈ pairNet.childrenOf u) ∧
    (mleEstimator .id .id pairNet ⟨1, [[0], [1], [1]]⟩ (some [0])).okAnd (fun b => decide (b.cptOf 0 = [33333/100000, 66667/100000])) = true :=
  ⟨pairNet_shape, by decide +kernel, by decide +kernel, by decide +kernel, by decide +kernel⟩

end PyBN
