import Verif.Props.LearnState3
import Verif.Props.Bif
import Verif.Proofs.RowOrder2
import Verif.Proofs.Sample3
import Verif.Model.Sample

/-!
# C268, C269: learning only some of the nodes
-/

set_option linter.unusedSectionVars false

namespace PyBN
open BayesNet LearnState

/-! ## Entries outside the list are not touched -/

theorem setValuesTo_frame (data : Data) {v : ℕ} : ∀ (ns : List ℕ) (i : ℕ) (F : Dict ℕ (NodeData ℕ ℤ)), v ∉ ns → (setValuesTo data i ns F).1.get? v = F.get? v
  | [], _, F, _ => rfl
  | n :: ns, i, F, h => by
    rw [List.mem_cons, not_or] at h
    rw [setValuesTo]
    split
    · rfl
    · split
      · rfl
      · rw [setValuesTo_frame data ns _ _ h.2, Dict.get?_set_ne _ _ (Ne.symm h.1)]

theorem setTablesTo_frame (fill : ℕ → Py ℚ) {v : ℕ} : ∀ (ns : List ℕ) (b : BayesNet ℕ ℤ), v ∉ ns → (setTablesTo fill ns b).1.F.get? v = b.F.get? v
  | [], b, _ => rfl
  | n :: ns, b, h => by
    rw [List.mem_cons, not_or] at h
    rw [setTablesTo]
    split
    · rfl
    · rw [setTablesTo_frame fill ns _ h.2]
      exact Dict.get?_set_ne _ _ (Ne.symm h.1)

theorem prepareTo_frame (fill : ℕ → Py ℚ) (b : BayesNet ℕ ℤ) (data : Data) {ns : List ℕ} {v : ℕ} (h : v ∉ ns) : (prepareTo fill b data ns).1.F.get? v = b.F.get? v := by
  unfold prepareTo
  have h1 := setValuesTo_frame data ns 0 b.F h
  split
  · rename_i h2; rw [h2] at h1; exact h1
  · rename_i h2; rw [h2] at h1; rw [setTablesTo_frame fill ns _ h]; exact h1

theorem countNodesTo_frame (hE : HashOrder (ℕ × ℤ)) (hI : HashOrder ℤ) (obs : Dict ℕ ℤ) {v : ℕ} : ∀ (ns : List ℕ) (b : BayesNet ℕ ℤ), v ∉ ns →
    (countNodesTo hE hI obs ns b).1.F.get? v = b.F.get? v
  | [], b, _ => rfl
  | n :: ns, b, h => by
    rw [List.mem_cons, not_or] at h
    rw [countNodesTo]
    split
    · rfl
    · rw [countNodesTo_frame hE hI obs ns _ h.2]
      exact Dict.get?_set_ne _ _ (Ne.symm h.1)

theorem countRowsTo_frame (hE : HashOrder (ℕ × ℤ)) (hI : HashOrder ℤ) {ns : List ℕ} {v : ℕ} (h : v ∉ ns) : ∀ (rows : List (List ℤ)) (b : BayesNet ℕ ℤ),
    (countRowsTo hE hI ns rows b).1.F.get? v = b.F.get? v
  | [], b => rfl
  | row :: rows, b => by
    rw [countRowsTo]
    split
    · rfl
    · rename_i obs _
      have h1 := countNodesTo_frame hE hI obs ns b h
      split
      · rename_i h2; rw [h2] at h1; exact h1
      · rename_i h2; rw [h2] at h1; rw [countRowsTo_frame hE hI h rows, h1]

theorem writeTo_frame {v : ℕ} : ∀ (ns : List ℕ) (b : BayesNet ℕ ℤ), v ∉ ns → (writeTo ns b).1.F.get? v = b.F.get? v
  | [], b, _ => rfl
  | n :: ns, b, h => by
    rw [List.mem_cons, not_or] at h
    rw [writeTo]
    split
    · rfl
    · split
      · exact Dict.get?_set_ne _ _ (Ne.symm h.1)
      · rw [writeTo_frame ns _ h.2]
        exact Dict.get?_set_ne _ _ (Ne.symm h.1)

/-- **C268** (the part that holds): however it ends, `bayes_estimator` leaves the nodes it was not asked for as they were, and so does `mle_estimator` when it raises or is asked for the counts; the structure is kept. -/
theorem C268_others_kept_partial (hE : HashOrder (ℕ × ℤ)) (hI : HashOrder ℤ) (bn : BayesNet ℕ ℤ) (data : Data) (nodes : List ℕ) (v : ℕ) (hv : v ∉ nodes) :
    (∀ equiv, (bayesAfter hE hI bn data equiv (some nodes)).1.F.get? v = bn.F.get? v ∧ (bayesAfter hE hI bn data equiv (some nodes)).1.V = bn.V ∧
      (bayesAfter hE hI bn data equiv (some nodes)).1.E = bn.E) ∧
    ∀ counts, counts = true ∨ (mleAfter hE hI bn data (some nodes) counts).2 ≠ none → (mleAfter hE hI bn data (some nodes) counts).1.F.get? v = bn.F.get? v := by
  refine ⟨fun equiv => ⟨?_, (bayesAfter_keeps hE hI bn data equiv (some nodes)).1, (bayesAfter_keeps hE hI bn data equiv (some nodes)).2.1⟩, fun counts hc => ?_⟩
  · unfold bayesAfter
    dsimp only [Option.getD_some]
    have h1 := prepareTo_frame (priorFill (equiv.getD data.rows.length)) bn data hv
    split
    · rename_i h; rw [h] at h1; exact h1
    · rename_i b2 h
      rw [h] at h1
      have h2 := countRowsTo_frame hE hI hv data.rows b2
      split
      · rename_i h'; rw [h'] at h2; exact h2.trans h1
      · rename_i h'; rw [h'] at h2; rw [writeTo_frame _ _ hv]; exact h2.trans h1
  · revert hc
    unfold mleAfter
    dsimp only [Option.getD_some]
    have h1 := prepareTo_frame (fun _ => .ok 0) bn data hv
    split
    · rename_i h; rw [h] at h1; exact fun _ => h1
    · rename_i b2 h
      rw [h] at h1
      split
      · exact fun _ => h1
      · split
        · exact fun _ => h1
        · split
          · exact fun _ => h1
          · rename_i hcnt _ _ _
            intro hc
            rcases hc with hc | hc
            · exact absurd hc (by assumption)
            · exact absurd rfl hc

/-! ## A finished `mle_estimator` drops them -/

theorem mleEstimator_keys {hE : HashOrder (ℕ × ℤ)} {hI : HashOrder ℤ} {bn b' : BayesNet ℕ ℤ} {data : Data} {nodes : Option (List ℕ)}
    (h : mleEstimator hE hI bn data nodes = .ok b') : b'.V = bn.V ∧ b'.E = bn.E ∧ ∀ v, (b'.F.get? v).isSome ↔ v ∈ nodes.getD bn.V := by
  unfold mleEstimator at h
  dsimp only at h
  rw [bind_ok_iff] at h
  obtain ⟨r, _, h⟩ := h
  rw [bind_ok_iff] at h
  obtain ⟨F, hF, h⟩ := h
  cases h
  refine ⟨rfl, rfl, fun v => ?_⟩
  have hk := Bif.pyMap_fst (fun x y hy => by
    simp only [bind_ok_iff] at hy
    obtain ⟨_, _, _, _, _, _, _, _, _, _, hy⟩ := hy
    cases hy; rfl) hF
  rw [← Dict.mem_keys_iff]
  dsimp only
  unfold Dict.ofPairs
  rw [Bif.ofPairs_keys, show F.map Prod.fst = nodes.getD bn.V from hk]
  simp [Dict.keys]

theorem pyMap_ok_mem {α β : Type _} {f : α → Py β} : ∀ {l : List α} {r : List β}, pyMap f l = .ok r → ∀ x ∈ l, ∃ y, f x = .ok y
  | [], _, _, x, hx => by cases hx
  | z :: l, r, h, x, hx => by
    obtain ⟨y, ys, h1, h2, _⟩ := pyMap_cons_iff.1 h
    rcases List.mem_cons.1 hx with rfl | hx
    · exact ⟨y, h1⟩
    · exact pyMap_ok_mem h2 x hx

section
variable {N A : Type} [DecidableEq N] [DecidableEq A]

/-- A network in which some node has no entry is of no use. -/
theorem initPhi_entry {bn : BayesNet N A} : ∀ {l : List N} {r}, Factorization.initPhi bn l = .ok r → ∀ v ∈ l, (bn.F.get? v).isSome
  | [], _, _, v, hv => by cases hv
  | z :: l, r, h, v, hv => by
    rw [Factorization.initPhi, bind_ok_iff] at h
    obtain ⟨f, h1, h⟩ := h
    rw [bind_ok_iff] at h
    obtain ⟨r', h2, _⟩ := h
    rcases List.mem_cons.1 hv with rfl | hv
    · unfold Factor.init at h1
      rw [bind_ok_iff] at h1
      obtain ⟨c, h3, _⟩ := h1
      unfold BayesNet.cpt at h3
      rw [bind_ok_iff] at h3
      obtain ⟨d, h4, _⟩ := h3
      unfold Dict.get at h4
      cases h5 : bn.F.get? v with
      | none => rw [h5] at h4; cases h4
      | some d => rfl
    · exact initPhi_entry h2 v hv

theorem no_entry_stuck {K : Type _} [Field K] [LinearOrder K] {bn : BayesNet N A} {v : N} (hv : v ∈ bn.V) (hn : bn.F.get? v = none) :
    (∀ (hO : HashOrder N) (hP : HashOrder (N × A)) target ev r, marginalVE hO hP bn target ev ≠ .ok r) ∧
    (∀ (hO : HashOrder N) (hP : HashOrder (N × A)) ev r, veMap hO hP bn ev ≠ .ok r) ∧
    ∀ (tol : ℚ) (hO : HashOrder N) (n : ℕ) (U : ℕ → K) (r : Dict N (Dict A ℚ)), Sampling.forwardSample tol hO bn n U ≠ .ok r := by
  have hi : ∀ p, Factorization.init bn ≠ .ok p := by
    intro p h
    unfold Factorization.init at h
    rw [bind_ok_iff] at h
    obtain ⟨phi, h, _⟩ := h
    have := initPhi_entry h v hv
    rw [hn] at this; cases this
  refine ⟨fun hO hP target ev r h => ?_, fun hO hP ev r h => ?_, fun tol hO n U r h => ?_⟩
  · unfold marginalVE at h
    rw [bind_ok_iff] at h
    obtain ⟨p, h, _⟩ := h
    exact hi p h
  · unfold veMap veMapCore at h
    rw [bind_ok_iff] at h
    obtain ⟨p, h, _⟩ := h
    rw [bind_ok_iff] at h
    obtain ⟨q, h, _⟩ := h
    exact hi q h
  · unfold Sampling.forwardSample Sampling.zeroCounts at h
    rw [bind_ok_iff] at h
    obtain ⟨d, h, _⟩ := h
    rw [bind_ok_iff] at h
    obtain ⟨l, h, _⟩ := h
    obtain ⟨y, hy⟩ := pyMap_ok_mem h v hv
    rw [bind_ok_iff] at hy
    obtain ⟨vs, hy, _⟩ := hy
    unfold BayesNet.values Dict.get at hy
    rw [hn] at hy
    cases hy
end

theorem setValues_entry {data : Data} : ∀ {ns : List ℕ} {i : ℕ} {F G : Dict ℕ (NodeData ℕ ℤ)}, setValues data i ns F = .ok G → ∀ v ∈ ns, (F.get? v).isSome
  | [], _, _, _, _, v, hv => by cases hv
  | n :: ns, i, F, G, h, v, hv => by
    rw [setValues, bind_ok_iff] at h
    obtain ⟨c, _, h⟩ := h
    rw [bind_ok_iff] at h
    obtain ⟨d, hd, h⟩ := h
    by_cases hnv : n = v
    · subst hnv
      unfold Dict.get at hd
      cases h5 : F.get? n with
      | none => rw [h5] at hd; cases hd
      | some d => rfl
    · rcases List.mem_cons.1 hv with rfl | hv
      · exact absurd rfl hnv
      · have := setValues_entry h v hv
        rw [Dict.get?_set_ne _ _ hnv] at this
        exact this

theorem learn_entry {hE : HashOrder (ℕ × ℤ)} {hI : HashOrder ℤ} {fill : ℕ → Py ℚ} {bn : BayesNet ℕ ℤ} {data : Data} {ns : List ℕ} {r} (h : learn hE hI fill bn data ns = .ok r) :
    ∀ v ∈ ns, (bn.F.get? v).isSome := by
  unfold learn at h
  rw [bind_ok_iff] at h
  obtain ⟨F, h, _⟩ := h
  exact setValues_entry h

/-- **C269** (1): when `mle_estimator` for a list of nodes returns, exactly the nodes of the list have values, parents and a table; a node outside the list has lost them. -/
theorem C269_dropped (hE : HashOrder (ℕ × ℤ)) (hI : HashOrder ℤ) (bn b' : BayesNet ℕ ℤ) (data : Data) (nodes : List ℕ)
    (h : mleEstimator hE hI bn data (some nodes) = .ok b') : b'.V = bn.V ∧ b'.E = bn.E ∧ (∀ v ∈ nodes, (bn.F.get? v).isSome ∧ (b'.F.get? v).isSome) ∧
      ∀ v, v ∉ nodes → b'.values v = .error .keyError ∧ b'.parents v = .error .keyError ∧ b'.cpt v = .error .keyError := by
  obtain ⟨h1, h2, h3⟩ := mleEstimator_keys h
  refine ⟨h1, h2, fun v hv => ⟨?_, (h3 v).2 hv⟩, fun v hv => ?_⟩
  · unfold mleEstimator at h
    dsimp only at h
    rw [bind_ok_iff] at h
    obtain ⟨r, hr, h⟩ := h
    exact learn_entry hr v hv
  · have : b'.F.get? v = none := by
      cases hg : b'.F.get? v with
      | none => rfl
      | some d => exact absurd ((h3 v).1 (by rw [hg]; rfl)) hv
    unfold BayesNet.values BayesNet.parents BayesNet.cpt Dict.get
    rw [this]
    exact ⟨rfl, rfl, rfl⟩

/-- **C269** (2): if a node of the network was left out, the network answers no query, cannot be sampled and cannot be learned again for all nodes. -/
theorem C269_useless {K : Type _} [Field K] [LinearOrder K] (hE : HashOrder (ℕ × ℤ)) (hI : HashOrder ℤ) (bn b' : BayesNet ℕ ℤ) (data : Data) (nodes : List ℕ)
    (h : mleEstimator hE hI bn data (some nodes) = .ok b') (v : ℕ) (hv : v ∈ bn.V) (hn : v ∉ nodes) :
    (∀ hO hP target ev r, marginalVE hO hP b' target ev ≠ .ok r) ∧ (∀ hO hP ev r, veMap hO hP b' ev ≠ .ok r) ∧
    (∀ (tol : ℚ) hO n (U : ℕ → K) r, Sampling.forwardSample tol hO b' n U ≠ .ok r) ∧
    (∀ gE gI data' r, mleEstimator gE gI b' data' none ≠ .ok r) ∧ ∀ gE gI data' equiv r, bayesEstimator gE gI b' data' equiv none ≠ .ok r := by
  obtain ⟨h1, h2, h3⟩ := mleEstimator_keys h
  have hg : b'.F.get? v = none := by
    cases hg : b'.F.get? v with
    | none => rfl
    | some d => exact absurd ((h3 v).1 (by rw [hg]; rfl)) hn
  obtain ⟨k1, k2, k3⟩ := no_entry_stuck (K := K) (bn := b') (h1 ▸ hv) hg
  refine ⟨k1, k2, k3, fun gE gI data' r hr => ?_, fun gE gI data' equiv r hr => ?_⟩
  · unfold mleEstimator at hr
    dsimp only at hr
    rw [bind_ok_iff] at hr
    obtain ⟨q, hq, _⟩ := hr
    have := learn_entry hq v (by rw [Option.getD_none, h1]; exact hv)
    rw [hg] at this; cases this
  · unfold bayesEstimator at hr
    dsimp only at hr
    rw [bind_ok_iff] at hr
    obtain ⟨q, hq, _⟩ := hr
    have := learn_entry hq v (by rw [Option.getD_none, h1]; exact hv)
    rw [hg] at this; cases this

/-- **C268** is false of the code: `mle_estimator` for node 0 alone loses the table of node 1 … -/
theorem C268_false : ∃ b', mleEstimator .id .id pairNet pairData (some [0]) = .ok b' ∧ pairNet.cpt 1 = .ok [1/4, 3/4, 1/3, 2/3] ∧ b'.cpt 1 = .error .keyError := by
  have h : (mleEstimator .id .id pairNet pairData (some [0])).okAnd (fun b => decide (b.cpt 1 = .error .keyError)) = true := by decide +kernel
  cases hm : mleEstimator .id .id pairNet pairData (some [0]) with
  | error e => rw [hm] at h; cases h
  | ok b => rw [hm] at h; exact ⟨b, rfl, by decide +kernel, by simpa [Py.okAnd] using h⟩

/-- … and for node 1 alone both estimators take its values from column 0 and count every row under the first value of its parent. -/
theorem C268_false_table :
    (bayesEstimator .id .id pairNet ⟨2, [[0, 5], [1, 7], [1, 7]]⟩ (some 4) (some [1])).okAnd
      (fun b => decide (b.valuesOf 1 = [0, 1] ∧ b.cptOf 1 = [1/5, 4/5, 1/2, 1/2] ∧ b.cptOf 0 = [1/2, 1/2])) = true ∧
    (bayesEstimator .id .id pairNet ⟨2, [[0, 5], [1, 7], [1, 7]]⟩ (some 4) none).okAnd
      (fun b => decide (b.valuesOf 1 = [5, 7] ∧ b.cptOf 1 = [66667/100000, 33333/100000, 1/4, 3/4])) = true := by
  refine ⟨by decide +kernel, by decide +kernel⟩

end PyBN
