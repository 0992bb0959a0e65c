import Verif.Spec.Recode
import Verif.Props.Repeat

/-!
# C260: recoded data
-/

set_option linter.unusedSectionVars false

namespace PyBN
open BayesNet

variable {data : Data} {g : ℕ → ℤ → ℤ}

theorem recode_fits {V : List ℕ} (hf : data.Fits V) : (data.recode g).Fits V := by
  refine ⟨?_, ?_, hf.cols⟩
  · intro h; exact hf.ne (List.map_eq_nil_iff.1 h)
  · intro row hrow
    obtain ⟨r, hr, rfl⟩ := List.mem_map.1 hrow
    rw [List.length_mapIdx]; exact hf.rect r hr

theorem recode_value (i : ℕ) (x : ℤ) : (∃ row ∈ (data.recode g).rows, row[i]? = some x) ↔ ∃ y, (∃ row ∈ data.rows, row[i]? = some y) ∧ g i y = x := by
  constructor
  · rintro ⟨row, hrow, hx⟩
    obtain ⟨r, hr, rfl⟩ := List.mem_map.1 hrow
    rw [List.getElem?_mapIdx, Option.map_eq_some_iff] at hx
    obtain ⟨y, hy, rfl⟩ := hx
    exact ⟨y, ⟨r, hr, hy⟩, rfl⟩
  · rintro ⟨y, ⟨r, hr, hy⟩, rfl⟩
    exact ⟨_, List.mem_map.2 ⟨r, hr, rfl⟩, by rw [List.getElem?_mapIdx, hy]; rfl⟩

/-- The values learned from the recoded data are the codes, in a possibly different order. -/
theorem recode_values (hg : ∀ i, Function.Injective (g i)) {i : ℕ} {vs ws : List ℤ} (h1 : data.IsValues i vs) (h2 : (data.recode g).IsValues i ws) :
    ws.Perm (vs.map (g i)) := by
  have n1 : (vs.map (g i)).Nodup := List.Nodup.map (hg i) (h1.1.imp fun h => h.ne)
  have n2 : ws.Nodup := h2.1.imp fun h => h.ne
  rw [List.perm_ext_iff_of_nodup n2 n1]
  intro x
  rw [h2.2 x, recode_value, List.mem_map]
  constructor
  · rintro ⟨y, hy, rfl⟩; exact ⟨y, (h1.2 y).2 hy, rfl⟩
  · rintro ⟨y, hy, rfl⟩; exact ⟨y, (h1.2 y).1 hy, rfl⟩

theorem recode_values_mono (hg : ∀ i, StrictMono (g i)) {i : ℕ} {vs ws : List ℤ} (h1 : data.IsValues i vs) (h2 : (data.recode g).IsValues i ws) :
    ws = vs.map (g i) := by
  refine (recode_values (fun i => (hg i).injective) h1 h2).eq_of_pairwise (fun _ _ _ _ hab hba => absurd (hab.trans hba) (lt_irrefl _)) h2.1 ?_
  rw [List.pairwise_map]
  exact h1.1.imp fun h => hg i h

theorem recode_count (hg : ∀ i, Function.Injective (g i)) {b c : BayesNet ℕ ℤ} {fam : List ℕ} {a a' : Asg ℕ} (h : Recoded g b c fam a a') :
    (data.recode g).count c.valuesOf fam a' = data.count b.valuesOf fam a := by
  unfold Data.count Data.recode
  dsimp only
  rw [List.countP_map]
  refine List.countP_congr fun row _ => ?_
  rw [Function.comp_apply, decide_eq_true_eq, decide_eq_true_eq]
  unfold Matches
  refine forall_congr' fun u => forall_congr' fun hu => ?_
  rw [h u hu, List.getElem?_mapIdx, Option.isSome_map]
  refine and_congr_right fun _ => ?_
  exact (Option.map_injective (hg u)).eq_iff

section
variable (hE : HashOrder (ℕ × ℤ)) (hI : HashOrder ℤ) (bn : BayesNet ℕ ℤ) (s : bn.Shape) (hf : data.Fits bn.V) (nodes : Option (List ℕ))
  (hns : (nodes.getD bn.V).Perm bn.V) (hcol : ∀ v ∈ bn.V, data.SameValues ((nodes.getD bn.V).idxOf v) v)
  (hcol' : ∀ v ∈ bn.V, (data.recode g).SameValues ((nodes.getD bn.V).idxOf v) v) (hg : ∀ i, Function.Injective (g i))
include s hf hns hcol hcol' hg

theorem recode_range {b c : BayesNet ℕ ℤ} (b4 : b.WF) (c4 : c.WF) (b2 : b.V = bn.V)
    (c2 : c.V = bn.V) {fam : List ℕ} (hfam : ∀ u ∈ fam, u ∈ bn.V) {a a' : Asg ℕ} (ha : InRange b.cardOf fam a) (h : Recoded g b c fam a a') :
    InRange c.cardOf fam a' := by
  intro u hu
  have hl : a u < (b.valuesOf u).length := by rw [← b4.card_len (b2 ▸ hfam u hu)]; exact ha u hu
  have := h u hu
  rw [List.getElem?_eq_getElem hl] at this
  obtain ⟨h', _⟩ := List.getElem?_eq_some_iff.1 this
  rw [c4.card_len (c2 ▸ hfam u hu)]
  exact h'

/-- **C260** (1): `mle_estimator` on recoded data learns the same probabilities for the recoded values; if the codes are increasing
functions of the values, the same tables. -/
theorem C260_mle (hEk : ∀ v ∈ bn.V, v ∈ bn.E.keys)
    (hpar : ∀ v ∈ bn.V, (bn.parentsOf v).Sublist (nodes.getD bn.V) ∧ ∀ u, u ∈ bn.parentsOf v ↔ u ∈ bn.V ∧ v ∈ bn.childrenOf u) :
    ∃ b c, mleEstimator hE hI bn data nodes = .ok b ∧ mleEstimator hE hI bn (data.recode g) nodes = .ok c ∧
      ∀ v ∈ bn.V, c.parentsOf v = b.parentsOf v ∧ (c.valuesOf v).Perm ((b.valuesOf v).map (g v)) ∧
        (∀ a a', InRange b.cardOf (v :: b.parentsOf v) a → Recoded g b c (v :: b.parentsOf v) a a' → c.prob v a' = b.prob v a) ∧
        ((∀ i, StrictMono (g i)) → c.valuesOf v = (b.valuesOf v).map (g v) ∧
          ∀ a, InRange b.cardOf (v :: b.parentsOf v) a → c.prob v a = b.prob v a) := by
  obtain ⟨b, b1, b2, b3, b4, b5⟩ := C66_mle_probabilities hE hI bn s data hf nodes hns hcol hEk hpar
  obtain ⟨c, c1, c2, c3, c4, c5⟩ := C66_mle_probabilities hE hI bn s (data.recode g) (recode_fits hf) nodes hns hcol' hEk hpar
  have hp : ∀ v ∈ bn.V, c.parentsOf v = b.parentsOf v := fun v hv => (c5 v hv).1.trans (b5 v hv).1.symm
  have hval : ∀ v ∈ bn.V, (c.valuesOf v).Perm ((b.valuesOf v).map (g v)) := fun v hv => recode_values hg (b5 v hv).2.1 (c5 v hv).2.1
  have main : ∀ v ∈ bn.V, ∀ a a', InRange b.cardOf (v :: b.parentsOf v) a → Recoded g b c (v :: b.parentsOf v) a a' → c.prob v a' = b.prob v a := by
    intro v hv a a' ha h
    have hfam : ∀ u ∈ v :: b.parentsOf v, u ∈ bn.V := by
      intro u hu
      rcases List.mem_cons.1 hu with rfl | hu
      · exact hv
      · rw [(b5 v hv).1] at hu; exact s.parents_mem v hv u hu
    have ha' := recode_range bn s hf nodes hns hcol hcol' hg b4 c4 b2 c2 hfam ha h
    rw [← hp v hv] at ha'
    rw [(c5 v hv).2.2 a' ha', (b5 v hv).2.2 a ha, hp v hv, recode_count hg h, recode_count hg fun u hu => h u (by simp [hu])]
  refine ⟨b, c, b1, c1, fun v hv => ⟨hp v hv, hval v hv, main v hv, fun hmono => ?_⟩⟩
  have hvm : ∀ u ∈ bn.V, c.valuesOf u = (b.valuesOf u).map (g u) := fun u hu => recode_values_mono hmono (b5 u hu).2.1 (c5 u hu).2.1
  refine ⟨hvm v hv, fun a ha => main v hv a a ha fun u hu => ?_⟩
  have huV : u ∈ bn.V := by
    rcases List.mem_cons.1 hu with rfl | hu
    · exact hv
    · rw [(b5 v hv).1] at hu; exact s.parents_mem v hv u hu
  rw [hvm u huV, List.getElem?_map]

/-- **C260** (2): the same for `bayes_estimator`. -/
theorem C260_bayes (equiv : Option ℚ) (he : ∀ e ∈ equiv, 0 < e) :
    ∃ b c, bayesEstimator hE hI bn data equiv nodes = .ok b ∧ bayesEstimator hE hI bn (data.recode g) equiv nodes = .ok c ∧
      ∀ v ∈ bn.V, c.parentsOf v = b.parentsOf v ∧ (c.valuesOf v).Perm ((b.valuesOf v).map (g v)) ∧
        (∀ a a', InRange b.cardOf (v :: b.parentsOf v) a → Recoded g b c (v :: b.parentsOf v) a a' → c.prob v a' = b.prob v a) ∧
        ((∀ i, StrictMono (g i)) → c.valuesOf v = (b.valuesOf v).map (g v) ∧
          ∀ a, InRange b.cardOf (v :: b.parentsOf v) a → c.prob v a = b.prob v a) := by
  obtain ⟨b, b1, b2, b3, b4, b5⟩ := C67_bayes_probabilities hE hI bn s data hf nodes hns hcol equiv he
  obtain ⟨c, c1, c2, c3, c4, c5⟩ := C67_bayes_probabilities hE hI bn s (data.recode g) (recode_fits hf) nodes hns hcol' equiv he
  have hp : ∀ v ∈ bn.V, c.parentsOf v = b.parentsOf v := fun v hv => (c5 v hv).1.trans (b5 v hv).1.symm
  have hval : ∀ v ∈ bn.V, (c.valuesOf v).Perm ((b.valuesOf v).map (g v)) := fun v hv => recode_values hg (b5 v hv).2.1 (c5 v hv).2.1
  have hcard : ∀ u ∈ bn.V, c.cardOf u = b.cardOf u := fun u hu => by
    rw [c4.card_len (c2 ▸ hu), b4.card_len (b2 ▸ hu), (hval u hu).length_eq, List.length_map]
  have main : ∀ v ∈ bn.V, ∀ a a', InRange b.cardOf (v :: b.parentsOf v) a → Recoded g b c (v :: b.parentsOf v) a a' → c.prob v a' = b.prob v a := by
    intro v hv a a' ha h
    have hfam : ∀ u ∈ v :: b.parentsOf v, u ∈ bn.V := by
      intro u hu
      rcases List.mem_cons.1 hu with rfl | hu
      · exact hv
      · rw [(b5 v hv).1] at hu; exact s.parents_mem v hv u hu
    have ha' := recode_range bn s hf nodes hns hcol hcol' hg b4 c4 b2 c2 hfam ha h
    rw [← hp v hv] at ha'
    have hlen : (c.cptOf v).length = (b.cptOf v).length := by
      rw [c4.cpt_len v (c2 ▸ hv), b4.cpt_len v (b2 ▸ hv), hp v hv]
      congr 1
      exact List.map_congr_left fun u hu => hcard u (hfam u hu)
    have hrows : (data.recode g).rows.length = data.rows.length := List.length_map ..
    rw [(c5 v hv).2.2 a' ha', (b5 v hv).2.2 a ha, hp v hv, recode_count hg h, recode_count hg fun u hu => h u (by simp [hu]), hlen, hcard v hv, hrows]
  refine ⟨b, c, b1, c1, fun v hv => ⟨hp v hv, hval v hv, main v hv, fun hmono => ?_⟩⟩
  have hvm : ∀ u ∈ bn.V, c.valuesOf u = (b.valuesOf u).map (g u) := fun u hu => recode_values_mono hmono (b5 u hu).2.1 (c5 u hu).2.1
  refine ⟨hvm v hv, fun a ha => main v hv a a ha fun u hu => ?_⟩
  have huV : u ∈ bn.V := by
    rcases List.mem_cons.1 hu with rfl | hu
    · exact hv
    · rw [(b5 v hv).1] at hu; exact s.parents_mem v hv u hu
  rw [hvm u huV, List.getElem?_map]

end

/-- Witness: values 5 and 7 of the second column coded as 3 and 1 (so their order changes): the rows of the table of node 1 are swapped. -/
example : (exArc.mleEstimator .id .id ⟨2, [[0, 5], [1, 7], [0, 5], [1, 5]]⟩ none).okAnd (fun r => decide (r.valuesOf 1 = [5, 7] ∧ r.cptOf 1 = [1, 0, 1 / 2, 1 / 2])) = true ∧
    (exArc.mleEstimator .id .id ((⟨2, [[0, 5], [1, 7], [0, 5], [1, 5]]⟩ : Data).recode fun i x => if i = 1 then 8 - x else x) none).okAnd
      (fun r => decide (r.valuesOf 1 = [1, 3] ∧ r.cptOf 1 = [0, 1, 1 / 2, 1 / 2])) = true := by
  refine ⟨by decide +kernel, by decide +kernel⟩

end PyBN
