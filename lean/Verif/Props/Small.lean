import Verif.Proofs.InfoScore
import Verif.Proofs.Indep
import Verif.Props.Sample
import Verif.Props.DataPrep
import Verif.Props.Constraint

/-!
# C162 - C165: the small queries of a network, `unique_bins`, entry points that always raise, calls on empty input
-/

set_option linter.unusedSectionVars false

namespace PyBN
open BayesNet Constraint Indep

section
variable {N A : Type _} [DecidableEq N] [DecidableEq A]

/-! ## C162: sizes and sums -/

/-- C162: `scope_size(rv)` is the number of variables in `scope(rv)`, i.e. one more than the number of parents, and the length of the
probability table is the product of the cardinalities over that scope; an unknown name raises `KeyError`. -/
theorem C162_scope_size (bn : BayesNet N A) (w : bn.WF) (v : N) :
    (v ∈ bn.V → ∃ s : List N, bn.scope v = .ok s ∧ bn.scopeSize v = .ok s.length ∧ s.length = (bn.parentsOf v).length + 1 ∧ s.Nodup ∧
      (∀ u, u ∈ s ↔ u = v ∨ u ∈ bn.parentsOf v) ∧ ∃ t, bn.cpt v = .ok t ∧ t.length = (s.map bn.cardOf).prod) ∧
    (v ∉ bn.V → bn.scopeSize v = .error .keyError) := by
  refine ⟨fun hv => ?_, fun hv => ?_⟩
  · refine ⟨v :: bn.parentsOf v, w.scope_ok hv, ?_, rfl, w.fam_nodup v hv, fun u => List.mem_cons, _, w.cpt_ok hv, w.cpt_len v hv⟩
    obtain ⟨d, hd, hp, _⟩ := w.get hv
    unfold scopeSize
    rw [Dict.get_of_get? hd, hp]; rfl
  · unfold scopeSize
    have hn : bn.F.get? v = none := by
      cases h : bn.F.get? v with
      | none => rfl
      | some d => exact absurd ((w.dom v).1 (by rw [h]; rfl)) hv
    rw [Dict.get_of_none hn]; rfl

/-- C162: `flat_cpt(by_var=True)` has one entry per node, in the order of the nodes; when every conditional distribution sums to 1 the entry of
a node is the number of configurations of its parents (1 for a node without parents). -/
theorem C162_by_var (bn : BayesNet N A) (w : bn.WF) :
    ∃ l : List ℚ, bn.flatCptByVar = .ok l ∧ l.length = bn.V.length ∧
      (∀ (i : ℕ) (v : N), bn.V[i]? = some v → l[i]? = some (bn.cptOf v).sum) ∧
      (bn.Normalised → ∀ (i : ℕ) (v : N), bn.V[i]? = some v → l[i]? = some ((((bn.parentsOf v).map bn.cardOf).prod : ℕ) : ℚ)) := by
  have h0 : ∀ (i : ℕ) (v : N), bn.V[i]? = some v → (bn.V.map fun v => (bn.cptOf v).sum)[i]? = some (bn.cptOf v).sum := by
    intro i v h
    rw [List.getElem?_map, h]; rfl
  refine ⟨bn.V.map fun v => (bn.cptOf v).sum, ?_, by simp, h0, fun hN i v h => ?_⟩
  · unfold flatCptByVar
    rw [pyMap_ok (g := fun v => (bn.cptOf v).sum) fun v hv => by rw [w.cpt_ok hv]; rfl]
  · rw [h0 i v h, cpt_sum w hN (List.mem_of_getElem? h)]

example : exNet.scopeSize 2 = .ok 3 ∧ exNet.flatCptByVar = .ok [1, 1, 6] ∧ exNet.Normalised :=
  ⟨by decide, by decide +kernel, exNet_normalised⟩

/-! ## C163: positions -/

/-- C163: `node_idx(rv)` is the position of the node in `nodes()`, and -1 exactly for a name that is not a node; distinct nodes have distinct
positions. -/
theorem C163_node_idx (bn : BayesNet N A) (w : bn.WF) :
    (∀ (i : ℕ) (v : N), bn.V[i]? = some v ↔ bn.nodeIdx v = i) ∧ (∀ v, bn.nodeIdx v = -1 ↔ v ∉ bn.V) ∧ ∀ v, bn.hasNode v = true ↔ 0 ≤ bn.nodeIdx v := by
  have key : ∀ v, (v ∈ bn.V ∧ ∃ n : ℕ, bn.nodeIdx v = n ∧ bn.V[n]? = some v) ∨ (v ∉ bn.V ∧ bn.nodeIdx v = -1) := by
    intro v
    by_cases hv : v ∈ bn.V
    · obtain ⟨n, h1, _, h2⟩ := pyIndex_of_mem hv
      exact .inl ⟨hv, n, by simp [nodeIdx, h1], h2⟩
    · refine .inr ⟨hv, ?_⟩
      cases h : pyIndex bn.V v with
      | ok n => exact absurd (List.mem_of_getElem? (pyIndex_ok.1 h).1) hv
      | error e => simp [nodeIdx, h]
  refine ⟨fun i v => ⟨fun h => ?_, fun h => ?_⟩, fun v => ?_, fun v => ?_⟩
  · rcases key v with ⟨_, n, h1, h2⟩ | ⟨h1, _⟩
    · rw [h1]
      have hn := (List.getElem?_eq_some_iff.1 h2).1
      have := (List.getElem?_inj hn w.nodup).1 (h2.trans h.symm)
      rw [this]
    · exact absurd (List.mem_of_getElem? h) h1
  · rcases key v with ⟨_, n, h1, h2⟩ | ⟨_, h1⟩
    · rw [h1] at h
      rw [← Int.ofNat.inj h]; exact h2
    · omega
  · rcases key v with ⟨h0, n, h1, _⟩ | ⟨h0, h1⟩
    · rw [h1]; exact ⟨fun h => by omega, fun h => absurd h0 h⟩
    · exact ⟨fun _ => h0, fun _ => h1⟩
  · unfold hasNode
    rcases key v with ⟨h0, n, h1, _⟩ | ⟨h0, h1⟩
    · rw [h1]; simp [h0]
    · rw [h1]; simp [h0]

/-- C163: `value_idx(rv, val)` of a node is the position of the value in `values(rv)`, and -1 exactly for a value it does not have. -/
theorem C163_value_idx (bn : BayesNet N A) (w : bn.WF) (v : N) (hv : v ∈ bn.V) :
    (∀ (i : ℕ) (x : A), (bn.valuesOf v)[i]? = some x ↔ bn.valueIdx v x = .ok (i : ℤ)) ∧
    (∀ x, bn.valueIdx v x = .ok (-1) ↔ x ∉ bn.valuesOf v) := by
  obtain ⟨d, hd, _, hvals, _⟩ := w.get hv
  have key : ∀ x, (x ∈ bn.valuesOf v ∧ ∃ n : ℕ, bn.valueIdx v x = .ok (n : ℤ) ∧ (bn.valuesOf v)[n]? = some x) ∨
      (x ∉ bn.valuesOf v ∧ bn.valueIdx v x = .ok (-1)) := by
    intro x
    by_cases hx : x ∈ bn.valuesOf v
    · obtain ⟨n, h1, _, h2⟩ := pyIndex_of_mem hx
      refine .inl ⟨hx, n, ?_, h2⟩
      rw [hvals] at h1
      simp [valueIdx, Dict.get_of_get? hd, h1]
    · refine .inr ⟨hx, ?_⟩
      cases h : pyIndex (bn.valuesOf v) x with
      | ok n => exact absurd (List.mem_of_getElem? (pyIndex_ok.1 h).1) hx
      | error e => rw [hvals] at h; simp [valueIdx, Dict.get_of_get? hd, h]
  refine ⟨fun i x => ⟨fun h => ?_, fun h => ?_⟩, fun x => ?_⟩
  · rcases key x with ⟨_, n, h1, h2⟩ | ⟨h1, _⟩
    · have hn := (List.getElem?_eq_some_iff.1 h2).1
      have := (List.getElem?_inj hn (w.values_nodup v hv)).1 (h2.trans h.symm)
      rw [h1, this]
    · exact absurd (List.mem_of_getElem? h) h1
  · rcases key x with ⟨_, n, h1, h2⟩ | ⟨_, h1⟩
    · rw [h1] at h
      rw [← Int.ofNat.inj (Except.ok.inj h)]; exact h2
    · rw [h1] at h
      have := Except.ok.inj h; omega
  · rcases key x with ⟨h0, n, h1, _⟩ | ⟨h0, h1⟩
    · rw [h1]
      exact ⟨fun h => by have := Except.ok.inj h; omega, fun h => absurd h0 h⟩
    · exact ⟨fun _ => h0, fun _ => h1⟩

example : exNet.nodeIdx 1 = 1 ∧ exNet.nodeIdx 7 = -1 ∧ exNet.valueIdx 1 22 = .ok 2 ∧ exNet.valueIdx 1 30 = .ok (-1) := by decide

end

/-! ## C164: `unique_bins` -/

/-- C164: `unique_bins` gives, column by column, the number of distinct values; the integer codes which `replace_strings` assigns to that column
are exactly `0, …, bins - 1`. -/
theorem C164_unique_bins {α : Type _} [LinearOrder α] (cols : List (List α)) :
    (uniqueBins cols).length = cols.length ∧
    ∀ (i : ℕ) (col : List α), cols[i]? = some col →
      ∃ b codes, (uniqueBins cols)[i]? = some b ∧ b = col.toFinset.card ∧ (replaceNums cols).1[i]? = some codes ∧ ∀ c, c ∈ codes ↔ c < b := by
  refine ⟨by simp [uniqueBins], fun i col h => ⟨(uniqueVals col).length, uniqueInv col, ?_, ?_, ?_, fun c => ⟨fun hc => ?_, fun hc => ?_⟩⟩⟩
  · simp [uniqueBins, h]
  · rw [← List.toFinset_card_of_nodup (uniqueVals_nodup col)]
    congr 1
    ext x; simp [mem_uniqueVals]
  · simp [replaceNums, h]
  · obtain ⟨x, hx, rfl⟩ := List.mem_map.1 hc
    exact List.idxOf_lt_length_iff.2 (mem_uniqueVals.2 hx)
  · exact (uniqueInv_isEncoding col).onto c hc

example : uniqueBins [[5, 3, 5], [1, 1, 1], [7, 8, 9]] = [2, 1, 3] := by decide

/-! ## C165: entry points that always raise, calls on empty input -/

/-- C165: asked for feature selection, `gs` never returns: it raises `TypeError` when the search for the blanket of the variable ends, and otherwise
runs forever. -/
theorem C165_gs_feature (lt : List ℕ → Bool) (n x : ℕ) :
    (∃ m, ∀ fuel ≥ m, gsFeatures lt n fuel x = .error .typeError) ∨ (∀ fuel, gsFeatures lt n fuel x = .error .diverges) := by
  obtain ⟨S, _, _, _, _, _, h1, h2⟩ := C78_gs_blanket lt n x
  by_cases hd : ∀ y ∈ S, lt (x :: y :: S.erase y) = true
  · refine .inl ⟨n + 1, fun fuel hf => ?_⟩
    unfold gsFeatures
    rw [h1 hd fuel hf]; rfl
  · push Not at hd
    obtain ⟨y, hy, he⟩ := hd
    refine .inr fun fuel => ?_
    unfold gsFeatures
    rw [h2 ⟨y, hy, by simpa using he⟩ fuel]; rfl

/-- C165: `chow_liu` never returns: `TypeError` for two columns or more, `IndexError` for fewer - the latter whatever the weights are, so also
with the call of the test repaired. -/
theorem C165_chow_liu (n : ℕ) : (2 ≤ n → chowLiu n = .error .typeError) ∧
    (n < 2 → chowLiu n = .error .indexError ∧ ∀ w, clTree w n = .error .indexError) := by
  unfold chowLiu
  refine ⟨fun h => if_pos h, fun h => ⟨if_neg (by omega), fun w => ?_⟩⟩
  have : n = 0 ∨ n = 1 := by omega
  rcases this with rfl | rfl <;> rfl

/-- C165: multiplying the factors of a factorisation together (`consolidate`) returns exactly when there is one factor, which it returns; with no
factor it raises `IndexError`, with two or more `NameError`. -/
theorem C165_consolidate {N A : Type _} [DecidableEq N] [DecidableEq A] (p : Factorization N A) :
    (p.phi.length = 0 → p.consolidate = .error .indexError) ∧ (p.phi.length = 1 → ∃ f ∈ p.phi, p.consolidate = .ok f) ∧
    (2 ≤ p.phi.length → p.consolidate = .error .nameError) := by
  unfold Factorization.consolidate
  rcases p.phi with _ | ⟨f, _ | ⟨g, l⟩⟩ <;> simp

/-- C165: the independence tests raise `ValueError` on data without rows or with fewer than two columns, and return otherwise. -/
theorem C165_mi_test (n : ℕ) (rows : List (List ℕ)) (alpha : ℝ) :
    ((rows = [] ∨ n < 2) → miTest n rows = .error .valueError ∧ miTestMI n rows = .error .valueError ∧ areIndependent n rows alpha = .error .valueError) ∧
    (rows ≠ [] → 2 ≤ n → (∃ p, miTest n rows = .ok p) ∧ (∃ q, miTestMI n rows = .ok q) ∧ ∃ b, areIndependent n rows alpha = .ok b) := by
  refine ⟨fun h => ?_, fun h1 h2 => ?_⟩
  · have h0 : miTest n rows = .error .valueError := by unfold miTest; rw [if_pos h]
    refine ⟨h0, by unfold miTestMI; rw [if_pos h], ?_⟩
    unfold areIndependent; rw [h0]; rfl
  · have hn : ¬ (rows = [] ∨ n < 2) := by push Not; exact ⟨h1, h2⟩
    have h0 : ∃ p, miTest n rows = .ok p := by unfold miTest; rw [if_neg hn]; exact ⟨_, rfl⟩
    refine ⟨h0, by unfold miTestMI; rw [if_neg hn]; exact ⟨_, rfl⟩, ?_⟩
    obtain ⟨p, hp⟩ := h0
    unfold areIndependent; rw [hp]; exact ⟨_, rfl⟩

theorem gibbsInit_error {N A : Type _} [DecidableEq N] [DecidableEq A] {K : Type _} [Field K] [LinearOrder K] [IsStrictOrderedRing K] [FloorRing K]
    (bn : BayesNet N A) (vals : N → List A) (U : ℕ → K) (hU : ∀ i, 0 ≤ U i ∧ U i < 1) :
    ∀ (l : List N) (k : ℕ) (s : Dict N A), (∀ v ∈ l, bn.values v = .ok (vals v)) → (∃ v ∈ l, vals v = []) →
      Sampling.gibbsInit bn U l k s = .error .valueError
  | [], _, _, _, ⟨v, hv, _⟩ => by cases hv
  | rv :: l, k, s, h, ⟨v, hv, hz⟩ => by
      rw [Sampling.gibbsInit, h rv (by simp), Py.bind_ok]
      unfold choiceUniform
      by_cases he : vals rv = []
      · rw [if_pos he]; rfl
      · rw [if_neg he]
        have hpos : (0 : K) < (vals rv).length := by
          have := List.length_pos_iff.2 he
          exact_mod_cast this
        have h0 : 0 ≤ ⌊U k * (vals rv).length⌋ := Int.floor_nonneg.2 (mul_nonneg (hU k).1 hpos.le)
        have h1 : ⌊U k * (vals rv).length⌋ < ((vals rv).length : ℤ) := by
          rw [Int.floor_lt]
          push_cast
          nlinarith [(hU k).2]
        obtain ⟨i, hi⟩ := Int.eq_ofNat_of_zero_le h0
        rw [hi] at h1
        have hil : i < (vals rv).length := by exact_mod_cast h1
        rw [hi, pyIdx_nat (List.getElem?_eq_getElem hil), Py.bind_ok]
        refine gibbsInit_error bn vals U hU l (k + 1) _ (fun u hu => h u (by simp [hu])) ⟨v, ?_, hz⟩
        rcases List.mem_cons.1 hv with rfl | h2
        · exact absurd hz he
        · exact h2

/-- C165: `gibbs_sample` on a network in which some node has an empty list of values raises `ValueError`, whatever is drawn. -/
theorem C165_gibbs_no_values {N A : Type _} [DecidableEq N] [DecidableEq A] {K : Type _} [Field K] [LinearOrder K] [IsStrictOrderedRing K]
    [FloorRing K] (tol : ℚ) (h : HashOrder N) (bn : BayesNet N A) (n : ℕ) (burn : ℤ) (U : ℕ → K) (hU : ∀ i, 0 ≤ U i ∧ U i < 1)
    (hF : ∀ v ∈ bn.V, ∃ d, bn.F.get? v = some d) (hz : ∃ v ∈ bn.V, ∃ d, bn.F.get? v = some d ∧ d.values = []) :
    Sampling.gibbsSample tol h bn n burn U = .error .valueError := by
  have hv : ∀ v ∈ bn.V, bn.values v = .ok (bn.valuesOf v) := by
    intro v hv
    obtain ⟨d, hd⟩ := hF v hv
    simp [BayesNet.values, BayesNet.valuesOf, Dict.get_of_get? hd, hd]
  have hz' : ∃ v ∈ bn.V, bn.valuesOf v = [] := by
    obtain ⟨v, hv, d, hd, he⟩ := hz
    exact ⟨v, hv, by simp [BayesNet.valuesOf, hd, he]⟩
  unfold Sampling.gibbsSample
  rw [gibbsInit_error bn bn.valuesOf U hU bn.V 0 [] hv hz']
  cases hc : Sampling.zeroCounts bn with
  | ok d => rfl
  | error e =>
    exfalso
    unfold Sampling.zeroCounts at hc
    rw [pyMap_ok (g := fun v => (v, Dict.ofPairs ((bn.valuesOf v).map fun x => (x, (0 : ℚ))))) fun v h0 => by rw [hv v h0]; rfl] at hc
    cases hc

/-- A node added with `add_node` has no values until they are set. -/
example : (∀ v ∈ ([0, 1] : List ℕ), ∃ d, (Dict.get? [(0, ⟨[], [5, 6], [1 / 2, 1 / 2]⟩), (1, ⟨[], [], []⟩)] v : Option (NodeData ℕ ℕ)) = some d) ∧
    ∃ v ∈ ([0, 1] : List ℕ), ∃ d, (Dict.get? [(0, ⟨[], [5, 6], [1 / 2, 1 / 2]⟩), (1, ⟨[], [], []⟩)] v : Option (NodeData ℕ ℕ)) = some d ∧ d.values = [] := by
  refine ⟨fun v hv => ?_, 1, by simp, _, rfl, rfl⟩
  rcases List.mem_cons.1 hv with rfl | h
  · exact ⟨_, rfl⟩
  · rw [List.mem_singleton.1 h]; exact ⟨_, rfl⟩

end PyBN
