import Verif.Proofs.NaiveBayes

/-!
# C131 - C133: `naive_bayes`
-/

set_option linter.unusedSectionVars false

namespace PyBN
open BayesNet

/-- The two estimators together: the network, its structure, its values by position, its table sizes. -/
theorem nb_run (hE : HashOrder (ℕ × ℤ)) (hI : HashOrder ℤ) (h : HashOrder ℕ) (data : Data) (hne : data.rows ≠ [])
    (hr : ∀ row ∈ data.rows, row.length = data.ncol) (target : ℕ) (ht : target < data.ncol) (bayes : Bool) :
    ∃ bn, naiveBayes hE hI h data target bayes = .ok bn ∧ bn.V = target :: nbOthers h data.ncol target ∧
      (∀ v, bn.E.get? v = if v = target then some (nbOthers h data.ncol target) else if v < data.ncol then some [] else none) ∧
      bn.WF ∧ (∀ v < data.ncol, bn.parentsOf v = if v = target then [] else [target]) ∧
      (∀ v < data.ncol, data.IsValues (bn.V.idxOf v) (bn.valuesOf v)) ∧
      ∀ v < data.ncol, ∀ a, InRange bn.cardOf (v :: bn.parentsOf v) a → bn.prob v a =
        if bayes then
          roundAway 5 (((data.rows.length : ℚ) / (bn.cptOf v).length +
              (data.rows.countP fun row => decide (MatchesOrLast bn.valuesOf (v :: bn.parentsOf v) a row) : ℕ)) /
            (bn.cardOf v * ((data.rows.length : ℚ) / (bn.cptOf v).length) +
              (data.rows.countP fun row => decide (MatchesOrLast bn.valuesOf (bn.parentsOf v) a row) : ℕ)))
        else
          roundAway 5 (((data.rows.countP fun row => decide (MatchesOrLast bn.valuesOf (v :: bn.parentsOf v) a row) : ℕ) : ℚ) /
            ((data.rows.countP fun row => decide (MatchesOrLast bn.valuesOf (bn.parentsOf v) a row) : ℕ) + 1 / 10000000)) := by
  obtain ⟨vd, bn0, h1, h2, hV, s, hEk, hEg, hpt, hpo, hpar⟩ := nb_structure h hr ht
  have hmem : ∀ v, v ∈ bn0.V ↔ v < data.ncol := fun v => by
    rw [hV, List.mem_cons, mem_nbOthers]
    constructor
    · rintro (rfl | hv)
      · exact ht
      · exact hv.1
    · intro hv
      by_cases hvt : v = target
      · exact .inl hvt
      · exact .inr ⟨hv, hvt⟩
  have hf : data.Fits bn0.V := ⟨hne, hr, fun v hv => (hmem v).1 hv⟩
  have hpp : ∀ v < data.ncol, bn0.parentsOf v = if v = target then [] else [target] := by
    intro v hv
    split_ifs with hvt
    · rw [hvt, hpt]
    · exact hpo v hv hvt
  unfold naiveBayes
  rw [h1, Py.bind_ok, h2, Py.bind_ok]
  cases bayes with
  | true =>
    obtain ⟨bn, e1, eV, eE, w, hval, hp, htab⟩ := bayes_ok hE hI bn0 s data hf none (.refl _) none (by simp)
    refine ⟨bn, e1, eV.trans hV, fun v => by rw [eE]; exact hEg v, w, fun v hv => by rw [hp]; exact hpp v hv,
      fun v hv => ?_, fun v hv a ha => ?_⟩
    · rw [eV]; exact hval v ((hmem v).2 hv)
    · rw [hp] at ha ⊢
      unfold BayesNet.prob
      rw [hp, (htab v ((hmem v).2 hv)).2 a ha]
      rfl
  | false =>
    obtain ⟨bn, e1, eV, eE, hdom, hval, hp, htab⟩ := mle_ok hE hI bn0 s data hf none (.refl _) hEk
    have hpe : ∀ v ∈ bn0.V, bn.parentsOf v = bn0.parentsOf v := by
      intro v hv
      refine sublist_ext s.nodup (hp v hv).1 (hpar v hv).1 fun p => ?_
      rw [(hp v hv).2, (hpar v hv).2]
      apply and_congr_right
      intro _
      unfold childrenOf Arc
      cases hg : Dict.get? bn0.E p <;> simp
    have w : bn.WF := {
      nodup := by rw [eV]; exact s.nodup
      dom := fun v => by rw [hdom, eV]
      fam_nodup := fun v hv => by rw [eV] at hv; rw [hpe v hv]; exact s.fam_nodup v hv
      parents_mem := fun v hv => by rw [eV] at hv ⊢; rw [hpe v hv]; exact s.parents_mem v hv
      values_nodup := fun v hv => by rw [eV] at hv; exact (hval v hv).1.1.imp fun h => h.ne
      values_ne := fun v hv => by rw [eV] at hv; exact (hval v hv).2
      cpt_len := fun v hv => by rw [eV] at hv; rw [hpe v hv]; exact (htab v hv).1 }
    refine ⟨bn, e1, eV.trans hV, fun v => by rw [eE]; exact hEg v, w, fun v hv => by rw [hpe v ((hmem v).2 hv)]; exact hpp v hv,
      fun v hv => ?_, fun v hv a ha => ?_⟩
    · rw [eV]; exact (hval v ((hmem v).2 hv)).1
    · have hv' := (hmem v).2 hv
      rw [hpe v hv'] at ha ⊢
      unfold BayesNet.prob
      rw [hpe v hv', (htab v hv').2 a ha]
      rfl

/-- C131: for rectangular data with at least one row and a target column, `naive_bayes` (with either estimator) returns a well-formed
network over all columns in which the target is listed first and has no parent, and every other column has exactly the target as
parent and no children. -/
theorem C131_naive_structure (hE : HashOrder (ℕ × ℤ)) (hI : HashOrder ℤ) (h : HashOrder ℕ) (data : Data) (hne : data.rows ≠ [])
    (hr : ∀ row ∈ data.rows, row.length = data.ncol) (target : ℕ) (ht : target < data.ncol) (bayes : Bool) :
    ∃ bn, naiveBayes hE hI h data target bayes = .ok bn ∧ bn.WF ∧ bn.V.Perm (List.range data.ncol) ∧ bn.V.head? = some target ∧
      (∀ v < data.ncol, bn.parentsOf v = if v = target then [] else [target]) ∧
      (∀ u v, Arc bn.E u v ↔ u = target ∧ v < data.ncol ∧ v ≠ target) := by
  obtain ⟨bn, h1, hV, hEg, w, hp, _, _⟩ := nb_run hE hI h data hne hr target ht bayes
  refine ⟨bn, h1, w, ?_, by rw [hV]; rfl, hp, fun u v => ?_⟩
  · rw [List.perm_ext_iff_of_nodup w.nodup List.nodup_range]
    intro v
    rw [hV, List.mem_cons, mem_nbOthers, List.mem_range]
    constructor
    · rintro (rfl | hv)
      · exact ht
      · exact hv.1
    · intro hv
      by_cases hvt : v = target
      · exact .inl hvt
      · exact .inr ⟨hv, hvt⟩
  · unfold Arc
    rw [hEg]
    split_ifs with h1 h2 <;> simp [*, mem_nbOthers]

/-- C131: a target that is not a column gives `KeyError`. -/
theorem C131_bad_target (hE : HashOrder (ℕ × ℤ)) (hI : HashOrder ℤ) (h : HashOrder ℕ) (data : Data)
    (hr : ∀ row ∈ data.rows, row.length = data.ncol) (target : ℕ) (ht : data.ncol ≤ target) (bayes : Bool) :
    naiveBayes hE hI h data target bayes = .error .keyError := by
  obtain ⟨vd, h1, hk, _⟩ := nbValues_ok hr
  unfold naiveBayes
  rw [h1, Py.bind_ok]
  have hs : setStructure h (nbEdges h vd target) (some vd) = .error .keyError := by
    unfold setStructure
    rw [nb_topsort h hk, Py.bind_ok, pyMap]
    obtain ⟨l, hl, _⟩ := parentList_ok (V := target :: nbOthers h data.ncol target) (E := nbEdges h vd target) (fun v hv => by
      rw [nb_mem_keys h hk]
      rcases List.mem_cons.1 hv with hv | hv
      · exact .inl hv
      · exact .inr (mem_nbOthers.1 hv).1) target
    rw [hl]
    have : valueList (some vd) target = .error .keyError := by
      unfold valueList
      apply Dict.get_of_none
      rw [Dict.get?_eq_none_iff, hk, List.mem_range]
      omega
    rw [Py.bind_ok, this]; rfl
  rw [hs]; rfl

/-- C133: the tables of the network `naive_bayes` returns, whatever the target and the dictionary order: a node's values are the
distinct entries of the column at the node's *position* in the node list (the target stands at position 0), its observations come from
its own column, an observation that is not among the values counts as the last value, and the table holds the relative frequencies so
counted, rounded (with `1e-7` in the denominator for `mle`, smoothed with the equivalent sample size `nrow` for `bayes`). -/
theorem C133_naive_tables (hE : HashOrder (ℕ × ℤ)) (hI : HashOrder ℤ) (h : HashOrder ℕ) (data : Data) (hne : data.rows ≠ [])
    (hr : ∀ row ∈ data.rows, row.length = data.ncol) (target : ℕ) (ht : target < data.ncol) (bayes : Bool) :
    ∃ bn, naiveBayes hE hI h data target bayes = .ok bn ∧
      bn.V = target :: (h.iter (List.range data.ncol)).filter (fun v => decide (v ≠ target)) ∧
      (∀ v < data.ncol, data.IsValues (bn.V.idxOf v) (bn.valuesOf v)) ∧
      ∀ v < data.ncol, ∀ a, InRange bn.cardOf (v :: bn.parentsOf v) a →
        bn.prob v a =
        if bayes then
          roundAway 5 (((data.rows.length : ℚ) / (bn.cptOf v).length +
              (data.rows.countP fun row => decide (MatchesOrLast bn.valuesOf (v :: bn.parentsOf v) a row) : ℕ)) /
            (bn.cardOf v * ((data.rows.length : ℚ) / (bn.cptOf v).length) +
              (data.rows.countP fun row => decide (MatchesOrLast bn.valuesOf (bn.parentsOf v) a row) : ℕ)))
        else
          roundAway 5 (((data.rows.countP fun row => decide (MatchesOrLast bn.valuesOf (v :: bn.parentsOf v) a row) : ℕ) : ℚ) /
            ((data.rows.countP fun row => decide (MatchesOrLast bn.valuesOf (bn.parentsOf v) a row) : ℕ) + 1 / 10000000)) := by
  obtain ⟨bn, h1, hV, _, _, _, hv, hp⟩ := nb_run hE hI h data hne hr target ht bayes
  exact ⟨bn, h1, hV, hv, hp⟩

/-- C132, the part that holds: when every column has the same distinct entries as the column at its node's position (in particular when
all columns take the same values, or when the target is column 0 and dictionaries are iterated in increasing order), a node's values
are those of its own column, and its table holds `P(v = x | target)` as relative frequencies: `count(v = x, target) / (count(target) +
1e-7)`, or smoothed for `bayes`.  Missing: columns with different values, see `C132_false`. -/
theorem C132_naive_frequencies_partial (hE : HashOrder (ℕ × ℤ)) (hI : HashOrder ℤ) (h : HashOrder ℕ) (data : Data) (hne : data.rows ≠ [])
    (hr : ∀ row ∈ data.rows, row.length = data.ncol) (target : ℕ) (ht : target < data.ncol) (bayes : Bool)
    (hcol : ∀ v < data.ncol, data.SameValues ((target :: (h.iter (List.range data.ncol)).filter (fun v => decide (v ≠ target))).idxOf v) v) :
    ∃ bn, naiveBayes hE hI h data target bayes = .ok bn ∧ (∀ v < data.ncol, data.IsValues v (bn.valuesOf v)) ∧
      ∀ v < data.ncol, ∀ a, InRange bn.cardOf (v :: bn.parentsOf v) a →
        bn.prob v a =
        if bayes then
          roundAway 5 (((data.rows.length : ℚ) / (bn.cptOf v).length + data.count bn.valuesOf (v :: bn.parentsOf v) a) /
            (bn.cardOf v * ((data.rows.length : ℚ) / (bn.cptOf v).length) + data.count bn.valuesOf (bn.parentsOf v) a))
        else
          roundAway 5 (data.count bn.valuesOf (v :: bn.parentsOf v) a /
            (data.count bn.valuesOf (bn.parentsOf v) a + 1 / 10000000)) := by
  obtain ⟨bn, h1, hV, _, w, hp, hv, hpr⟩ := nb_run hE hI h data hne hr target ht bayes
  have hval : ∀ v < data.ncol, data.IsValues v (bn.valuesOf v) := fun v hlt => by
    have := hv v hlt
    rw [hV] at this
    exact this.same (hcol v hlt)
  have hV' : ∀ v, v ∈ List.range data.ncol → v < data.ncol := fun v => List.mem_range.1
  have hf : data.Fits (List.range data.ncol) := ⟨hne, hr, hV'⟩
  have hpm : ∀ v < data.ncol, ∀ u ∈ bn.parentsOf v, u < data.ncol := by
    intro v hlt u hu
    rw [hp v hlt] at hu
    split_ifs at hu
    · cases hu
    · rw [List.mem_singleton] at hu; rw [hu]; exact ht
  have hfm : ∀ v < data.ncol, ∀ u ∈ v :: bn.parentsOf v, u < data.ncol := by
    intro v hlt u hu
    rcases List.mem_cons.1 hu with rfl | hu
    · exact hlt
    · exact hpm v hlt u hu
  refine ⟨bn, h1, hval, fun v hlt a ha => ?_⟩
  rw [hpr v hlt a ha, count_eq hf (fun u hu => List.mem_range.2 (hfm v hlt u hu)) fun u hu => hval u (hfm v hlt u hu),
    count_eq hf (fun u hu => List.mem_range.2 (hpm v hlt u hu)) fun u hu => hval u (hpm v hlt u hu)]

/-- Binary data of three columns. -/
def nbBin : Data := ⟨3, [[0, 0, 1], [0, 1, 1], [1, 1, 0]]⟩

/-- Witness for C131 and `C132_naive_frequencies_partial`: binary data, target 2, and the resulting tables. -/
theorem nbBin_ok : nbBin.rows ≠ [] ∧ (∀ row ∈ nbBin.rows, row.length = nbBin.ncol) ∧ 2 < nbBin.ncol ∧
    (∀ v < nbBin.ncol, nbBin.SameValues ((2 :: (HashOrder.id.iter (List.range nbBin.ncol)).filter (fun v => decide (v ≠ 2))).idxOf v) v) ∧
    (naiveBayes HashOrder.id HashOrder.id HashOrder.id nbBin 2 false).okAnd (fun bn => decide (bn.V = [2, 0, 1] ∧ bn.parentsOf 0 = [2] ∧
      bn.cptOf 2 = [1/3, 2/3].map (roundAway 5) ∧ bn.cptOf 0 = [0, 1, 1, 0] ∧ bn.cptOf 1 = [0, 1, 1/2, 1/2])) = true := by
  refine ⟨by decide, by decide, by decide, ?_, by decide +kernel⟩
  have hb : ∀ i < 3, ∀ x : ℤ, (∃ row ∈ nbBin.rows, row[i]? = some x) ↔ x = 0 ∨ x = 1 := by
    intro i hi x
    have : i = 0 ∨ i = 1 ∨ i = 2 := by omega
    rcases this with rfl | rfl | rfl <;> simp [nbBin] <;> omega
  have hi : ∀ v < 3, [2, 0, 1].idxOf v < 3 := by decide
  intro v hv x
  exact (hb _ (hi v hv) x).trans (hb v hv x).symm

/-- C132 is false in general: with column 0 taking the values 0, 1, 2 and the target, column 1, the values 7 and 8, the network says the
target takes the values 0, 1, 2 and is 2 with probability one. -/
theorem C132_false : ∃ bn, naiveBayes HashOrder.id HashOrder.id HashOrder.id ⟨2, [[0, 7], [1, 8], [2, 7]]⟩ 1 false = .ok bn ∧
    bn.valuesOf 1 = [0, 1, 2] ∧ bn.cptOf 1 = [0, 0, 1] := by
  have h : (naiveBayes HashOrder.id HashOrder.id HashOrder.id ⟨2, [[0, 7], [1, 8], [2, 7]]⟩ 1 false).okAnd
      (fun bn => decide (bn.valuesOf 1 = [0, 1, 2] ∧ bn.cptOf 1 = [0, 0, 1])) = true := by decide +kernel
  obtain ⟨bn, h1, h2⟩ := Py.of_okAnd h
  exact ⟨bn, h1, of_decide_eq_true h2⟩

end PyBN
