import Verif.Proofs.Agree
import Verif.Props.Grid

/-!
# C270: learning an ancestrally closed list of nodes
-/

set_option linter.unusedSectionVars false

namespace PyBN
open BayesNet LearnState

/-- The entries of the listed nodes. -/
def onlyOn {V : Type} (ns : List ℕ) (F : Dict ℕ V) : Dict ℕ V := F.filter fun kv => decide (kv.1 ∈ ns)

theorem onlyOn_get? {V : Type} (ns : List ℕ) (v : ℕ) : ∀ F : Dict ℕ V, (onlyOn ns F).get? v = if v ∈ ns then F.get? v else none
  | [] => by simp [onlyOn, Dict.get?]
  | (k, x) :: F => by
    have ih := onlyOn_get? ns v F
    unfold onlyOn at ih ⊢
    rw [List.filter_cons]
    by_cases hk : k ∈ ns
    · simp only [hk, decide_true, if_true, Dict.get?]
      by_cases hkv : k = v
      · subst hkv; simp [hk]
      · simp only [hkv, if_false]; exact ih
    · simp only [hk, decide_false, Bool.false_eq_true, if_false, ih, Dict.get?]
      by_cases hkv : k = v
      · subst hkv; simp [hk]
      · simp only [hkv, if_false]

theorem encCard_congr {c c' : ℕ → ℕ} {a : Asg ℕ} : ∀ {o : List ℕ}, (∀ u ∈ o, c' u = c u) → enc c' o a = enc c o a
  | [], _ => rfl
  | v :: o, h => by simp only [enc]; rw [h v (by simp), encCard_congr fun u hu => h u (by simp [hu])]

/-- **C270**: asked for a list of nodes of the network which contains the parents of its nodes, each at the position of a column with the entries of its own, `bayes_estimator` gives every
listed node the probabilities `P(v = x | pa) = (E/K + count(v = x, pa)) / (card(v) E/K + count(pa))`, whatever the state of the other nodes' entries and
even if the data has no columns for them; the other nodes keep their entries. -/
theorem C270_closed_list (hE : HashOrder (ℕ × ℤ)) (hI : HashOrder ℤ) (bn : BayesNet ℕ ℤ) (s : bn.Shape) (hk : bn.F.keys.Nodup) (data : Data) (nodes : List ℕ) (hnd : nodes.Nodup)
    (hsub : ∀ v ∈ nodes, v ∈ bn.V) (hclosed : ∀ v ∈ nodes, ∀ p ∈ bn.parentsOf v, p ∈ nodes) (hf : data.Fits nodes)
    (hcol : ∀ v ∈ nodes, data.SameValues (nodes.idxOf v) v) (equiv : Option ℚ) (he : ∀ e ∈ equiv, 0 < e) :
    ∃ bn', bayesEstimator hE hI bn data equiv (some nodes) = .ok bn' ∧ bn'.V = bn.V ∧ bn'.E = bn.E ∧
      (∀ v, v ∉ nodes → bn'.F.get? v = bn.F.get? v) ∧
      ∀ v ∈ nodes, bn'.parentsOf v = bn.parentsOf v ∧ data.IsValues v (bn'.valuesOf v) ∧
        ∀ a, InRange bn'.cardOf (v :: bn'.parentsOf v) a →
          bn'.prob v a = roundAway 5 (
            (equiv.getD data.rows.length / (bn'.cptOf v).length + data.count bn'.valuesOf (v :: bn'.parentsOf v) a) /
            (bn'.cardOf v * (equiv.getD data.rows.length / (bn'.cptOf v).length) + data.count bn'.valuesOf (bn'.parentsOf v) a)) := by
  have hget : ∀ v ∈ nodes, bn.F.get? v = (onlyOn nodes bn.F).get? v := fun v hv => by rw [onlyOn_get?, if_pos hv]
  set c : BayesNet ℕ ℤ := ⟨nodes, bn.E, onlyOn nodes bn.F⟩ with hcdef
  have hpar : ∀ v ∈ nodes, c.parentsOf v = bn.parentsOf v := fun v hv => by unfold parentsOf; rw [hget v hv]
  have sc : c.Shape := by
    refine ⟨hnd, fun v => ?_, fun v hv => ?_, fun v hv p hp => ?_⟩
    · show ((onlyOn nodes bn.F).get? v).isSome ↔ v ∈ nodes
      rw [onlyOn_get?]
      split
      · rename_i hv; exact ⟨fun _ => hv, fun _ => (s.dom v).2 (hsub v hv)⟩
      · rename_i hv; simp [hv]
    · rw [hpar v hv]; exact s.fam_nodup v (hsub v hv)
    · rw [hpar v hv] at hp; exact hclosed v hv p hp
  have hcl : ClosedOn nodes c.F := by
    intro v hv d hd p hp
    refine hclosed v hv p ?_
    rw [← hpar v hv]
    unfold parentsOf
    rw [hd]; exact hp
  obtain ⟨c', k1, _, _, w, k5⟩ := C67_bayes_probabilities hE hI c sc data hf (some nodes) (List.Perm.refl _) hcol equiv he
  obtain ⟨b', e1, ag⟩ := bayes_agree hE hI (b := bn) (c := c) hget hcl data equiv k1
  have ho := bayesAfter_outcome hE hI bn hk data equiv (some nodes) hnd
  rw [e1] at ho
  have hb : (bayesAfter hE hI bn data equiv (some nodes)).1 = b' := by
    revert ho
    generalize bayesAfter hE hI bn data equiv (some nodes) = r
    rcases r with ⟨r, _ | e⟩
    · intro ho; cases ho; rfl
    · intro ho; cases ho
  have hkeep := fun v hv => (C268_others_kept_partial hE hI bn data nodes v hv).1 equiv
  have hKe := bayesAfter_keeps hE hI bn data equiv (some nodes)
  rw [hb] at hKe
  refine ⟨b', e1, hKe.1, hKe.2.1, fun v hv => by rw [← hb]; exact (hkeep v hv).1, fun v hv => ?_⟩
  obtain ⟨p1, p2, p3⟩ := k5 v hv
  have hP : ∀ u ∈ nodes, b'.parentsOf u = c'.parentsOf u := fun u hu => by unfold parentsOf; rw [ag u hu]
  have hVa : ∀ u ∈ nodes, b'.valuesOf u = c'.valuesOf u := fun u hu => by unfold valuesOf; rw [ag u hu]
  have hC : ∀ u ∈ nodes, b'.cardOf u = c'.cardOf u := fun u hu => by unfold cardOf; rw [ag u hu]
  have hT : ∀ u ∈ nodes, b'.cptOf u = c'.cptOf u := fun u hu => by unfold cptOf; rw [ag u hu]
  have hfam : ∀ u ∈ v :: c'.parentsOf v, u ∈ nodes := by
    intro u hu
    rcases List.mem_cons.1 hu with rfl | hu
    · exact hv
    · rw [p1, hpar v hv] at hu; exact hclosed v hv u hu
  have hfp : ∀ u ∈ c'.parentsOf v, u ∈ nodes := fun u hu => hfam u (List.mem_cons_of_mem _ hu)
  refine ⟨by rw [hP v hv, p1, hpar v hv], by rw [hVa v hv]; exact p2, fun a ha => ?_⟩
  rw [hP v hv] at ha ⊢
  have := p3 a fun u hu => by rw [← hC u (hfam u hu)]; exact ha u hu
  unfold Data.count at this ⊢
  rw [matches_congr (fun u hu => hVa u (hfam u hu)), matches_congr (fun u hu => hVa u (hfp u hu)), hT v hv, hC v hv, ← this]
  unfold prob
  rw [hT v hv, hP v hv, encCard_congr fun u hu => hC u (hfam u hu)]

/-- A node on its own, with a data set that has no column for the other node. -/
theorem C270_example : ∃ bn', bayesEstimator .id .id pairNet ⟨1, [[0], [1], [1]]⟩ (some 4) (some [0]) = .ok bn' ∧ bn'.cptOf 0 = [42857/100000, 57143/100000] ∧
    bn'.F.get? 1 = pairNet.F.get? 1 := by
  have h : (bayesEstimator .id .id pairNet ⟨1, [[0], [1], [1]]⟩ (some 4) (some [0])).okAnd
      (fun b => decide (b.cptOf 0 = [42857/100000, 57143/100000])) = true := by decide +kernel
  cases hm : bayesEstimator .id .id pairNet ⟨1, [[0], [1], [1]]⟩ (some 4) (some [0]) with
  | error e => rw [hm] at h; cases h
  | ok b =>
    rw [hm] at h
    refine ⟨b, rfl, by simpa [Py.okAnd] using h, ?_⟩
    have hk : pairNet.F.keys.Nodup := by decide +kernel
    have ho := bayesAfter_outcome .id .id pairNet hk ⟨1, [[0], [1], [1]]⟩ (some 4) (some [0]) (by decide)
    rw [hm] at ho
    have := ((C268_others_kept_partial .id .id pairNet ⟨1, [[0], [1], [1]]⟩ [0] 1 (by decide)).1 (some 4)).1
    revert ho this
    generalize bayesAfter .id .id pairNet ⟨1, [[0], [1], [1]]⟩ (some 4) (some [0]) = r
    rcases r with ⟨r, _ | e⟩
    · intro ho; cases ho; exact id
    · intro ho; cases ho

/-- The hypotheses of C270 hold of `pairNet`, its node 0 and data without a column for node 1. -/
example : pairNet.Shape ∧ pairNet.F.keys.Nodup ∧ (∀ v ∈ [0], ∀ p ∈ pairNet.parentsOf v, p ∈ [0]) ∧ (⟨1, [[0], [1], [1]]⟩ : Data).Fits [0] ∧
    (∀ v ∈ [0], (⟨1, [[0], [1], [1]]⟩ : Data).SameValues ([0].idxOf v) v) ∧ 1 ∈ pairNet.V ∧ 1 ∉ [0] :=
  ⟨pairNet_shape, by decide +kernel, by decide +kernel, ⟨by decide, by decide, by decide⟩, fun v hv => by
    have : v = 0 := by simpa using hv
    subst this; exact Data.SameValues.refl _ _, by decide, by decide⟩

end PyBN
