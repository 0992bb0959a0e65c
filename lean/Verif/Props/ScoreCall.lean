import Verif.Model.ScoreCall
import Verif.Props.Learn
import Verif.Props.InfoScore
import Verif.Props.HcBinary
import Verif.Proofs.Distance

/-!
# C210: the score-based searches on whole data sets
-/

namespace PyBN
open BayesNet Indep
set_option linter.unusedSectionVars false

theorem arc_emptyDict {l : List ℕ} (u v : ℕ) : ¬ Arc (emptyDict l) u v := not_arc_empty l u v

theorem emptyDict_keys (l : List ℕ) : (emptyDict l).keys = l := by
  unfold emptyDict Dict.keys; rw [List.map_map]; exact List.map_id' l

/-- The network without arcs over the columns. -/
theorem start_net (h : HashOrder ℕ) (n : ℕ) : ∃ bn, setStructure (A := ℤ) h (emptyDict (List.range n)) none = .ok bn ∧ bn.V.Perm (List.range n) ∧
    bn.E = emptyDict (List.range n) ∧ bn.Shape ∧ (∀ v ∈ bn.V, bn.parentsOf v = []) ∧ ∀ v, bn.valuesOf v = [] := by
  obtain ⟨bn, h1, h2, h3, h4, h5, h6, h7⟩ := C23_set_structure (A := ℤ) h (emptyDict (List.range n)) none (by rw [emptyDict_keys]; exact List.nodup_range)
    (fun u v hv => (arc_emptyDict u v hv).elim) (fun w hw => by
      obtain ⟨z, hz, _⟩ := Relation.TransGen.head'_iff.1 hw
      exact arc_emptyDict _ _ hz) (by simp)
  rw [emptyDict_keys] at h2
  have hp : ∀ v ∈ bn.V, bn.parentsOf v = [] := fun v hv => List.eq_nil_iff_forall_not_mem.2 fun u hu => by
    have := (h5 v hv).2 u |>.1 hu
    have : Arc bn.E u v := by
      unfold childrenOf at this
      cases hg : bn.E.get? u with
      | none => rw [hg] at this; simp at this
      | some l => rw [hg] at this; exact ⟨l, hg, this⟩
    rw [h3] at this
    exact arc_emptyDict _ _ this
  refine ⟨bn, h1, h2, h3, ⟨h2.nodup_iff.2 List.nodup_range, h4, fun v hv => by rw [hp v hv]; simp, fun v hv p hpv => by rw [hp v hv] at hpv; cases hpv⟩, hp, h7 rfl⟩

theorem infoScore_ok {bn : BayesNet ℕ ℤ} (hV : ∀ v ∈ bn.V, (bn.F.get? v).isSome) (hE : ∀ v ∈ bn.V, v ∈ bn.E.keys) (n : ℕ) (metric : String) :
    ∃ s, bn.infoScore n metric = .ok s := by
  have hg : ∀ v ∈ bn.V, ∃ d, bn.F.get v = .ok d := fun v hv => by
    obtain ⟨d, hd⟩ := Option.isSome_iff_exists.1 (hV v hv)
    exact ⟨d, Dict.get_of_get? hd⟩
  have hf : ∃ l, bn.flatCpt = .ok l := by
    unfold flatCpt
    rw [pyMap_ok (g := bn.cptOf) fun u hu => by
      obtain ⟨d, hd⟩ := Option.isSome_iff_exists.1 (hV u hu)
      unfold cpt cptOf
      rw [Dict.get_of_get? hd, hd]; rfl]
    exact ⟨_, rfl⟩
  have hp : ∃ l, bn.numParams = .ok l := by
    unfold numParams
    rw [pyMap_ok (g := fun u => (bn.cptOf u).length) fun u hu => by
      obtain ⟨d, hd⟩ := Option.isSome_iff_exists.1 (hV u hu)
      unfold cptOf
      rw [Dict.get_of_get? hd, hd]; rfl]
    exact ⟨_, rfl⟩
  have he : ∃ l, bn.numEdges = .ok l := by
    unfold numEdges
    rw [pyMap_ok (g := fun u => (bn.childrenOf u).length) fun u hu => by
      obtain ⟨d, hd⟩ := Option.isSome_iff_exists.1 ((Dict.mem_keys_iff ..).1 (hE u hu))
      unfold childrenOf
      rw [Dict.get_of_get? hd, hd]; rfl]
    exact ⟨_, rfl⟩
  obtain ⟨l, hl⟩ := hf
  obtain ⟨p, hp⟩ := hp
  obtain ⟨e, he⟩ := he
  unfold infoScore bic aic logLikelihood
  simp only [hl, hp, he, Py.bind_ok, Py.pure_eq]
  split_ifs <;> exact ⟨_, rfl⟩

theorem arrayOf_fits {ncol : ℕ} {rows : List (List ℕ)} (hne : rows ≠ []) (hrect : ∀ r ∈ rows, r.length = ncol) {V : List ℕ} (hV : ∀ v ∈ V, v < ncol) :
    (arrayOf ncol rows).Fits V where
  ne := by simpa [arrayOf] using hne
  rect := by
    intro row hrow
    obtain ⟨r, hr, rfl⟩ := List.mem_map.1 hrow
    simpa [arrayOf] using hrect r hr
  cols := hV

/-- The statements before the loop do not raise on an array with a row. -/
theorem scoreStart_ok (hE : HashOrder (ℕ × ℤ)) (hI : HashOrder ℤ) (h : HashOrder ℕ) (ncol : ℕ) (rows : List (List ℕ)) (metric : String) (hne : rows ≠ [])
    (hrect : ∀ r ∈ rows, r.length = ncol) : ∃ s, scoreStart hE hI h ncol rows metric = .ok s := by
  obtain ⟨bn, h1, h2, h3, h4, h5, -⟩ := start_net h ncol
  have hVn : ∀ v ∈ bn.V, v < ncol := fun v hv => by simpa using h2.mem_iff.1 hv
  have hk : ∀ v ∈ bn.V, v ∈ bn.E.keys := fun v hv => by rw [h3, emptyDict_keys]; exact h2.mem_iff.1 hv
  obtain ⟨bn', g1, g2, g3, g4, -⟩ := mle_ok hE hI bn h4 (arrayOf ncol rows) (arrayOf_fits hne hrect hVn) none (List.Perm.refl _) hk
  obtain ⟨s, hs⟩ := infoScore_ok (bn := bn') (fun v hv => (g4 v).2 (by rw [← g2]; exact hv)) (fun v hv => by rw [g3]; exact hk v (by rw [← g2]; exact hv))
    rows.length metric
  exact ⟨s, by unfold scoreStart; simp only [h1, g1, Py.bind_ok, hs]⟩

/-- The score of a family is always computed (it may be `nan`). -/
theorem mutualInformation_ok {rows : List (List ℕ)} (hne : rows ≠ []) {cols : List ℕ} (hc : cols ≠ []) :
    ∃ q, mutualInformation cols.length (select cols rows) false = .ok q := by
  unfold mutualInformation
  rw [if_neg (by simp [select_ne hne, hc])]
  split_ifs <;> first | exact ⟨_, rfl⟩ | contradiction

/-- The estimators on an array without rows: every node gets no values and an empty table. -/
theorem learn_no_rows (hE : HashOrder (ℕ × ℤ)) (hI : HashOrder ℤ) {bn : BayesNet ℕ ℤ} (s : bn.Shape) {ncol : ℕ} (hV : ∀ v ∈ bn.V, v < ncol)
    {ns : List ℕ} (hns : ns.Perm bn.V) : ∃ F1, setValues ⟨ncol, []⟩ 0 ns bn.F = .ok F1 ∧ (∀ v ∈ bn.V, (Dict.get? F1 v).isSome) ∧
      (∀ v, ({ bn with F := F1 } : BayesNet ℕ ℤ).parentsOf v = bn.parentsOf v) ∧ ∀ v ∈ bn.V, ∃ d, Dict.get? F1 v = some d ∧ d.values = [] := by
  have hnd : ns.Nodup := hns.nodup_iff.2 s.nodup
  have hmem : ∀ v, v ∈ ns ↔ v ∈ bn.V := fun v => hns.mem_iff
  have hlen : ns.length ≤ ncol := by
    have : ns ⊆ List.range ncol := fun v hv => List.mem_range.2 (hV v ((hmem v).1 hv))
    simpa using (List.subperm_of_subset hnd this).length_le
  obtain ⟨F1, h1, h2⟩ := setValues_ok (data := ⟨ncol, []⟩) (cols := fun _ => []) ns 0 bn.F hnd
    (fun j hj => by unfold Data.col; rw [if_pos (by show 0 + j < ncol; omega)]; rfl) (fun n hn => (s.dom n).2 ((hmem n).1 hn))
  have hget : ∀ v ∈ bn.V, ∃ d, Dict.get? F1 v = some d ∧ d.values = [] := by
    intro v hv
    obtain ⟨d, hd, _⟩ := s.get hv
    exact ⟨_, by rw [h2, if_pos ((hmem v).2 hv), hd]; rfl, rfl⟩
  refine ⟨F1, h1, fun v hv => ?_, fun v => ?_, hget⟩
  · obtain ⟨d, hd, _⟩ := hget v hv; rw [hd]; rfl
  · unfold parentsOf
    rw [show ({ bn with F := F1 } : BayesNet ℕ ℤ).F.get? v = _ from h2 v]; split_ifs
    · cases bn.F.get? v <;> rfl
    · rfl

/-- C211: the estimators on an array without rows.  `mle_estimator` raises `ValueError` (`range` with step 0), with `counts=True` it returns empty tables; `bayes_estimator`
raises `ZeroDivisionError`, whatever the prior weight. -/
theorem C211_no_rows (hE : HashOrder (ℕ × ℤ)) (hI : HashOrder ℤ) (bn : BayesNet ℕ ℤ) (s : bn.Shape) (ncol : ℕ) (hV : ∀ v ∈ bn.V, v < ncol) (hne : bn.V ≠ [])
    (hEk : ∀ v ∈ bn.V, v ∈ bn.E.keys) (nodes : Option (List ℕ)) (hns : (nodes.getD bn.V).Perm bn.V) (equiv : Option ℚ) :
    mleEstimator hE hI bn ⟨ncol, []⟩ nodes = .error .valueError ∧
    (∃ cnt, mleCounts hE hI bn ⟨ncol, []⟩ nodes = .ok cnt ∧ ∀ v ∈ bn.V, cnt.get? v = some ([], [])) ∧
    bayesEstimator hE hI bn ⟨ncol, []⟩ equiv nodes = .error .zeroDivision := by
  set ns := nodes.getD bn.V with hnsd
  have hnd : ns.Nodup := hns.nodup_iff.2 s.nodup
  have hmem : ∀ v, v ∈ ns ↔ v ∈ bn.V := fun v => hns.mem_iff
  have hnsne : ns ≠ [] := fun h => hne (by rw [h] at hns; exact List.nil_perm.1 hns)
  obtain ⟨F1, h1, h2, h3, h4⟩ := learn_no_rows hE hI s hV hns
  set bn1 : BayesNet ℕ ℤ := { bn with F := F1 } with hb1
  have hc1 : ∀ v ∈ bn.V, bn1.cardOf v = 0 := by
    intro v hv
    obtain ⟨d, hd, hd'⟩ := h4 v hv
    unfold cardOf
    rw [show bn1.F.get? v = some d from hd]
    simp [hd']
  obtain ⟨F2, g1, g2⟩ := setTables_ok (fill := fun _ => .ok 0) (x := fun _ => 0) (V := bn.V) ns bn1 hnd (fun v hv => (hmem v).1 hv) h2
    (fun v hv p hp => s.parents_mem v hv p (by rw [h3] at hp; exact hp)) (fun v hv => rfl)
  set bn2 : BayesNet ℕ ℤ := { bn1 with F := F2 } with hb2
  have hg2 : ∀ v ∈ bn.V, ∃ d, bn2.F.get? v = some d ∧ d.values = [] ∧ d.cpt = [] := by
    intro v hv
    obtain ⟨d, hd, hd'⟩ := h4 v hv
    refine ⟨⟨d.parents, d.values, List.replicate (((bn1.parentsOf v).map bn1.cardOf).prod * bn1.cardOf v) 0⟩, ?_, hd', ?_⟩
    · rw [show bn2.F.get? v = _ from g2 v, if_pos ((hmem v).2 hv), show bn1.F.get? v = some d from hd]; rfl
    · show List.replicate (_ * bn1.cardOf v) (0 : ℚ) = []
      rw [hc1 v hv, Nat.mul_zero]; rfl
  have hcpt : pyMap (fun rv => do let c ← bn2.cpt rv; pure (rv, c)) ns = (.ok (ns.map fun v => (v, ([] : List ℚ))) : Py _) := pyMap_ok fun v hv => by
    obtain ⟨d, hd, _, hd'⟩ := hg2 v ((hmem v).1 hv)
    unfold cpt
    rw [Dict.get_of_get? hd]
    simp [Py.bind_ok, hd']
  have hlearn : learn hE hI (fun _ => .ok 0) bn ⟨ncol, []⟩ ns = .ok (bn2, Dict.ofPairs (ns.map fun v => (v, ([] : List ℚ)))) := by
    unfold learn
    simp only [h1, Py.bind_ok, show setTables (fun _ => .ok 0) ns { bn with F := F1 } = .ok bn2 from g1]
    rw [hcpt]
    rfl
  have hcnt : ∀ v ∈ bn.V, (Dict.ofPairs (ns.map fun v => (v, ([] : List ℚ)))).get v = .ok [] := fun v hv => Dict.get_of_get? (by
    rw [Dict.ofPairs, Dict.get?_update (by rw [Dict.keys_map_pair (f := fun _ => ([] : List ℚ))]; exact hnd), Dict.get?_map_pair (f := fun _ => ([] : List ℚ)),
      if_pos ((hmem v).2 hv)])
  have hvals : ∀ v ∈ bn.V, bn2.values v = .ok [] := fun v hv => by
    obtain ⟨d, hd, hd', _⟩ := hg2 v hv
    unfold values
    rw [Dict.get_of_get? hd]
    simp [Py.bind_ok, hd']
  have hcard : ∀ v ∈ bn.V, bn2.card v = .ok 0 := fun v hv => by
    obtain ⟨d, hd, hd', _⟩ := hg2 v hv
    unfold card
    rw [Dict.get_of_get? hd]
    simp [Py.bind_ok, hd']
  refine ⟨?_, ?_, ?_⟩
  · unfold mleEstimator
    simp only [← hnsd, hlearn, Py.bind_ok]
    rw [pyMap_error (e := .valueError)]
    · rfl
    · intro v hv
      left
      obtain ⟨l, hl, _⟩ := parentList_ok (V := ns) (E := bn.E) (fun u hu => hEk u ((hmem u).1 hu)) v
      rw [hl, hvals v ((hmem v).1 hv), hcnt v ((hmem v).1 hv), hcard v ((hmem v).1 hv)]
      simp only [Py.bind_ok]
      unfold normBlocks
      simp [Py.bind_error]
    · obtain ⟨v, hv⟩ := List.exists_mem_of_ne_nil _ hnsne
      refine ⟨v, hv, ?_⟩
      obtain ⟨l, hl, _⟩ := parentList_ok (V := ns) (E := bn.E) (fun u hu => hEk u ((hmem u).1 hu)) v
      rw [hl, hvals v ((hmem v).1 hv), hcnt v ((hmem v).1 hv), hcard v ((hmem v).1 hv)]
      simp only [Py.bind_ok]
      unfold normBlocks
      simp [Py.bind_error]
  · refine ⟨Dict.ofPairs (ns.map fun v => (v, (([] : List ℤ), ([] : List ℚ)))), ?_, fun v hv => ?_⟩
    · unfold mleCounts
      simp only [← hnsd, hlearn, Py.bind_ok]
      rw [pyMap_ok (g := fun v => (v, (([] : List ℤ), ([] : List ℚ)))) fun v hv => by
        rw [hvals v ((hmem v).1 hv), hcnt v ((hmem v).1 hv)]; rfl]
      rfl
    · rw [Dict.ofPairs, Dict.get?_update (by rw [Dict.keys_map_pair (f := fun _ => (([] : List ℤ), ([] : List ℚ)))]; exact hnd),
        Dict.get?_map_pair (f := fun _ => (([] : List ℤ), ([] : List ℚ))), if_pos ((hmem v).2 hv)]
  · unfold bayesEstimator
    have : learn hE hI (priorFill (equiv.getD (0 : ℕ))) bn ⟨ncol, []⟩ ns = .error .zeroDivision := by
      unfold learn
      simp only [h1, Py.bind_ok]
      obtain ⟨n, ns', hcons⟩ := List.exists_cons_of_ne_nil hnsne
      have hn : n ∈ bn.V := (hmem n).1 (by rw [hcons]; simp)
      obtain ⟨d, hd, hd'⟩ := h4 n hn
      have hp : bn1.parents n = .ok (bn1.parentsOf n) := by
        unfold parents parentsOf
        rw [show bn1.F.get n = _ from Dict.get_of_get? (show bn1.F.get? n = some d from hd), show bn1.F.get? n = some d from hd]; rfl
      have hcd : ∀ u ∈ bn.V, bn1.card u = .ok 0 := fun u hu => by
        obtain ⟨d, hd, hd'⟩ := h4 u hu
        unfold card
        rw [show bn1.F.get u = _ from Dict.get_of_get? (show bn1.F.get? u = some d from hd)]
        simp [Py.bind_ok, hd']
      rw [hcons]
      show (setTables _ (n :: ns') bn1 >>= _) = _
      rw [setTables, hp]
      simp only [Py.bind_ok]
      rw [pyMap_ok (g := fun _ => 0) fun u hu => hcd u (s.parents_mem n hn u (by rw [h3] at hu; exact hu)), hcd n hn]
      simp only [Py.bind_ok, Nat.mul_zero]
      rfl
    simp only [← hnsd]
    rw [show (equiv.getD ((⟨ncol, []⟩ : Data).rows.length : ℚ)) = equiv.getD ((0 : ℕ) : ℚ) from rfl, this]
    rfl

theorem scoreStart_no_rows (hE : HashOrder (ℕ × ℤ)) (hI : HashOrder ℤ) (h : HashOrder ℕ) (ncol : ℕ) (hn : 0 < ncol) (metric : String) :
    scoreStart hE hI h ncol [] metric = .error .valueError := by
  obtain ⟨bn, h1, h2, h3, h4, h5, -⟩ := start_net h ncol
  have hV : ∀ v ∈ bn.V, v < ncol := fun v hv => by simpa using h2.mem_iff.1 hv
  have hne : bn.V ≠ [] := fun h0 => by
    have := h2.length_eq
    rw [h0] at this; simp at this; omega
  have := (C211_no_rows hE hI bn h4 ncol hV hne (fun v hv => by rw [h3, emptyDict_keys]; exact h2.mem_iff.1 hv) none (List.Perm.refl _) none).1
  unfold scoreStart
  simp only [h1, Py.bind_ok]
  rw [show arrayOf ncol [] = ⟨ncol, []⟩ from rfl, this]
  rfl

theorem scoreStart_empty (hE : HashOrder (ℕ × ℤ)) (hI : HashOrder ℤ) (h : HashOrder ℕ) (metric : String) : ∃ s, scoreStart hE hI h 0 [] metric = .ok s := by
  obtain ⟨bn, h1, h2, h3, h4, h5, -⟩ := start_net h 0
  have hV : bn.V = [] := by simpa using h2
  have hm : mleEstimator hE hI bn (arrayOf 0 []) none = .ok { bn with F := [] } := by
    unfold mleEstimator learn
    simp only [Option.getD_none, hV]
    rfl
  obtain ⟨s, hs⟩ := infoScore_ok (bn := { bn with F := [] }) (fun v hv => by rw [show ({ bn with F := [] } : BayesNet ℕ ℤ).V = bn.V from rfl, hV] at hv; cases hv)
    (fun v hv => by rw [show ({ bn with F := [] } : BayesNet ℕ ℤ).V = bn.V from rfl, hV] at hv; cases hv) 0 metric
  exact ⟨s, by unfold scoreStart; simp only [h1, hm, Py.bind_ok]; exact hs⟩

/-- C210: on every rectangular array of natural numbers with at least one row, `hc` returns, whatever the arguments: a network over all columns without directed cycle whose
parent and child lists agree.  So does `tabu` with a list of at least five entries; `hc_rr` does after the statements before its loop what the model of its loop does; and no
score needed on the way raises. -/
theorem C210_searches_return (hE : HashOrder (ℕ × ℤ)) (hI : HashOrder ℤ) (h : HashOrder ℕ) (fc : Dict ℕ (List ℕ) → ℕ → Bool) (hfc : FindsCycles fc) (ncol : ℕ)
    (rows : List (List ℕ)) (hne : rows ≠ []) (hrect : ∀ r ∈ rows, r.length = ncol) (metric : String) (maxIter : ℤ) (debug : Bool)
    (restriction : Option (List (ℕ × ℕ))) :
    (∃ bn tr, hcCall hE hI h fc ncol rows metric maxIter debug restriction = .ok (bn, tr) ∧ bn.V.Perm (List.range ncol) ∧ NoCycle bn.E ∧
      (∀ u v, Arc bn.E u v → u < ncol ∧ v < ncol) ∧ ∀ v ∈ bn.V, ∀ u, u ∈ bn.parentsOf v ↔ v ∈ bn.childrenOf u) ∧
    (∀ k ≥ 5, ∃ bn tr, tabuCall hE hI h fc ncol rows k metric maxIter debug restriction = .ok (bn, tr) ∧ bn.V.Perm (List.range ncol) ∧ NoCycle bn.E) ∧
    hcCall hE hI h fc ncol rows metric maxIter debug restriction = hc ℤ h ⟨fc, dataScore rows, rows.length, ncol, restriction, debug⟩ maxIter ∧
    (∀ k, tabuCall hE hI h fc ncol rows k metric maxIter debug restriction = tabu ℤ h ⟨fc, dataScore rows, rows.length, ncol, restriction, debug⟩ k maxIter) ∧
    (∀ M R ops draws, hcRrCall hE hI h fc ncol rows M R metric maxIter debug restriction ops draws =
      hcRr ℤ h ⟨fc, dataScore rows, rows.length, ncol, restriction, debug⟩ M R maxIter ops draws) ∧
    ∀ cols : List ℕ, cols ≠ [] → ∃ q, mutualInformation cols.length (select cols rows) false = .ok q := by
  obtain ⟨s, hs⟩ := scoreStart_ok hE hI h ncol rows metric hne hrect
  refine ⟨?_, fun k hk => ?_, ?_, fun k => ?_, fun M R ops draws => ?_, fun cols hc => mutualInformation_ok hne hc⟩
  · obtain ⟨bn, tr, h1, h2⟩ := C30_hc_dag ℤ h (dataArgs fc ncol rows restriction debug) hfc maxIter
    exact ⟨bn, tr, by unfold hcCall; rw [hs]; exact h1, h2⟩
  · obtain ⟨bn, tr, h1, h2, h3, -⟩ := C33_no_undo_partial ℤ h (dataArgs fc ncol rows restriction debug) hfc k maxIter hk
    exact ⟨bn, tr, by unfold tabuCall; rw [hs]; exact h1, h3, h2⟩
  · unfold hcCall; rw [hs]; rfl
  · unfold tabuCall; rw [hs]; rfl
  · unfold hcRrCall; rw [hs]; rfl

/-- C210, without rows: all three searches raise `ValueError` on an array with columns but no rows. -/
theorem C210_no_rows (hE : HashOrder (ℕ × ℤ)) (hI : HashOrder ℤ) (h : HashOrder ℕ) (fc : Dict ℕ (List ℕ) → ℕ → Bool) (ncol : ℕ) (hn : 0 < ncol) (metric : String)
    (maxIter : ℤ) (debug : Bool) (restriction : Option (List (ℕ × ℕ))) :
    hcCall hE hI h fc ncol [] metric maxIter debug restriction = .error .valueError ∧
    (∀ k, tabuCall hE hI h fc ncol [] k metric maxIter debug restriction = .error .valueError) ∧
    ∀ M R ops draws, hcRrCall hE hI h fc ncol [] M R metric maxIter debug restriction ops draws = .error .valueError := by
  have := scoreStart_no_rows hE hI h ncol hn metric
  refine ⟨?_, fun k => ?_, fun M R ops draws => ?_⟩
  · unfold hcCall; rw [this]; rfl
  · unfold tabuCall; rw [this]; rfl
  · unfold hcRrCall; rw [this]; rfl

/-- C212: the argument `metric` has no influence on any of the searches, on any rectangular array (with or without rows). -/
theorem C212_metric_ignored (hE : HashOrder (ℕ × ℤ)) (hI : HashOrder ℤ) (h : HashOrder ℕ) (fc : Dict ℕ (List ℕ) → ℕ → Bool) (ncol : ℕ) (rows : List (List ℕ))
    (hrect : ∀ r ∈ rows, r.length = ncol) (metric metric' : String) (maxIter : ℤ) (debug : Bool) (restriction : Option (List (ℕ × ℕ))) :
    hcCall hE hI h fc ncol rows metric maxIter debug restriction = hcCall hE hI h fc ncol rows metric' maxIter debug restriction ∧
    (∀ k, tabuCall hE hI h fc ncol rows k metric maxIter debug restriction = tabuCall hE hI h fc ncol rows k metric' maxIter debug restriction) ∧
    ∀ M R ops draws, hcRrCall hE hI h fc ncol rows M R metric maxIter debug restriction ops draws =
      hcRrCall hE hI h fc ncol rows M R metric' maxIter debug restriction ops draws := by
  have key : (∃ s s', scoreStart hE hI h ncol rows metric = .ok s ∧ scoreStart hE hI h ncol rows metric' = .ok s') ∨
      scoreStart hE hI h ncol rows metric = .error .valueError ∧ scoreStart hE hI h ncol rows metric' = .error .valueError := by
    rcases rows with _ | ⟨r, rs⟩
    · rcases Nat.eq_zero_or_pos ncol with rfl | hn
      · obtain ⟨s, hs⟩ := scoreStart_empty hE hI h metric
        obtain ⟨s', hs'⟩ := scoreStart_empty hE hI h metric'
        exact .inl ⟨s, s', hs, hs'⟩
      · exact .inr ⟨scoreStart_no_rows hE hI h ncol hn metric, scoreStart_no_rows hE hI h ncol hn metric'⟩
    · obtain ⟨s, hs⟩ := scoreStart_ok hE hI h ncol (r :: rs) metric (by simp) hrect
      obtain ⟨s', hs'⟩ := scoreStart_ok hE hI h ncol (r :: rs) metric' (by simp) hrect
      exact .inl ⟨s, s', hs, hs'⟩
  unfold hcCall tabuCall hcRrCall
  rcases key with ⟨s, s', hs, hs'⟩ | ⟨hs, hs'⟩ <;> rw [hs, hs'] <;> exact ⟨rfl, fun _ => rfl, fun _ _ _ _ => rfl⟩

/-- C213: `mdbn` never returns; when both searches it starts with have returned, it raises `TypeError`. -/
theorem C213_mdbn (hE : HashOrder (ℕ × ℤ)) (hI : HashOrder ℤ) (h : HashOrder ℕ) (fc : Dict ℕ (List ℕ) → ℕ → Bool) (rows : List (List ℕ)) (fCols cCols : List ℕ)
    (ops ops' : List ℕ) (draws draws' : List (ℕ × ℕ)) :
    (∃ e, mdbn hE hI h fc rows fCols cCols ops ops' draws draws' = .error e) ∧
    ∀ f c, hcRrCall hE hI h fc fCols.length (select fCols rows) 5 3 "AIC" 100 false none ops draws = .ok f →
      hcRrCall hE hI h fc cCols.length (select cCols rows) 5 3 "AIC" 100 false none ops' draws' = .ok c →
      mdbn hE hI h fc rows fCols cCols ops ops' draws draws' = .error .typeError := by
  have hm : mdbn hE hI h fc rows fCols cCols ops ops' draws draws' =
      (hcRrCall hE hI h fc fCols.length (select fCols rows) 5 3 "AIC" 100 false none ops draws >>= fun f =>
        hcRrCall hE hI h fc cCols.length (select cCols rows) 5 3 "AIC" 100 false none ops' draws' >>= fun c => bridge c.1 f.1 rows) := rfl
  constructor
  · rw [hm]
    cases hcRrCall hE hI h fc fCols.length (select fCols rows) 5 3 "AIC" 100 false none ops draws with
    | error e => exact ⟨e, rfl⟩
    | ok f =>
      simp only [Py.bind_ok]
      cases hcRrCall hE hI h fc cCols.length (select cCols rows) 5 3 "AIC" 100 false none ops' draws' with
      | error e => exact ⟨e, rfl⟩
      | ok c => exact ⟨.typeError, rfl⟩
  · intro f c hf hc
    rw [hm, hf, hc]; rfl

/-- Witness for C210 and C212: the three coins of `exCoins`. -/
example : exCoins ≠ [] ∧ (∀ r ∈ exCoins, r.length = 3) ∧ FindsCycles (N := ℕ) findCycleRef := ⟨by decide, by decide, findCycleRef_spec⟩

/-- Witness for C211: the two-node network of the learning examples. -/
example : mleNet.Shape ∧ (∀ v ∈ mleNet.V, v < 2) ∧ mleNet.V ≠ [] ∧ (∀ v ∈ mleNet.V, v ∈ mleNet.E.keys) ∧
    mleEstimator .id .id mleNet ⟨2, []⟩ none = .error .valueError :=
  ⟨mleNet_shape, by decide, by decide, by decide,
    (C211_no_rows .id .id mleNet mleNet_shape 2 (by decide) (by decide) (by decide) none (List.Perm.refl _) none).1⟩

end PyBN
