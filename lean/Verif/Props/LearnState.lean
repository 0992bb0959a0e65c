import Verif.Proofs.LearnState
import Verif.Props.Learn
import Verif.Props.Inference
import Verif.Props.Stale
import Verif.Props.Perturb
import Verif.Proofs.Distance

/-!
# C249, C250: what `mle_estimator` leaves behind
-/

set_option linter.unusedSectionVars false

namespace PyBN
open BayesNet

/-- `bn1` is `bn` after the tables of the nodes `ns` were emptied: structure and other nodes as before, the values of the nodes `ns` read from the columns at their positions in
`ns`, and nothing but zeros in their tables. -/
structure Wiped (data : Data) (ns : List ℕ) (bn bn1 : BayesNet ℕ ℤ) : Prop where
  V : bn1.V = bn.V
  E : bn1.E = bn.E
  parents : ∀ v, bn1.parentsOf v = bn.parentsOf v
  values : ∀ v ∈ ns, data.IsValues (ns.idxOf v) (bn1.valuesOf v)
  cpt : ∀ v ∈ ns, bn1.cptOf v = List.replicate (bn1.tableSize v) 0
  rest : ∀ v, v ∉ ns → bn1.F.get? v = bn.F.get? v

theorem prepare_ok {bn : BayesNet ℕ ℤ} (s : bn.Shape) {data : Data} (hr : ∀ row ∈ data.rows, row.length = data.ncol) {ns : List ℕ} (hnd : ns.Nodup) (hsub : ∀ v ∈ ns, v ∈ bn.V)
    (hlen : ns.length ≤ data.ncol) : ∃ bn1, prepareTo (fun _ => .ok 0) bn data ns = (bn1, none) ∧ Wiped data ns bn bn1 := by
  obtain ⟨F1, h1, h2⟩ := setValues_ok (data := data) (cols := data.entries) ns 0 bn.F hnd
    (fun j hj => by rw [Nat.zero_add]; exact Data.col_ok hr (by omega)) (fun n hn => (s.dom n).2 (hsub n hn))
  simp only [Nat.zero_add] at h2
  set b1 : BayesNet ℕ ℤ := { bn with F := F1 } with hb1
  have hF1 : ∀ k, b1.F.get? k = if k ∈ ns then (bn.F.get? k).map (fun d => { d with values := npUnique (data.entries (ns.idxOf k)) }) else bn.F.get? k := h2
  have hp1 : ∀ v, b1.parentsOf v = bn.parentsOf v := by
    intro v; unfold parentsOf; rw [hF1]; split_ifs with h
    · cases bn.F.get? v <;> rfl
    · rfl
  have hd1 : ∀ v ∈ bn.V, (b1.F.get? v).isSome := by
    intro v hv; have := (s.dom v).2 hv; rw [hF1]; split_ifs
    · simpa using this
    · exact this
  obtain ⟨F2, h3, h4⟩ := setTables_ok (fill := fun _ => .ok 0) (x := fun _ => 0) (V := bn.V) ns b1 hnd hsub hd1
    (fun v hv p hp => s.parents_mem v hv p (by rwa [hp1] at hp)) (fun v hv => rfl)
  refine ⟨{ b1 with F := F2 }, ?_, ?_⟩
  · have e1 := setValuesTo_outcome data 0 ns bn.F
    rw [h1] at e1
    have e2 := setTablesTo_outcome (fun _ => .ok 0) ns b1
    rw [h3] at e2
    unfold prepareTo
    generalize setValuesTo data 0 ns bn.F = r at e1
    rcases r with ⟨F, _ | e⟩
    · cases e1
      dsimp only
      generalize setTablesTo (fun _ => .ok 0) ns b1 = r at e2
      rcases r with ⟨b, _ | e⟩
      · cases e2; rfl
      · cases e2
    · cases e1
  · set b2 : BayesNet ℕ ℤ := { b1 with F := F2 } with hb2
    have hF2 : ∀ k, b2.F.get? k = if k ∈ ns then (b1.F.get? k).map (fun d => ⟨d.parents, d.values, List.replicate (((b1.parentsOf k).map b1.cardOf).prod * b1.cardOf k) 0⟩) else b1.F.get? k := h4
    have hp2 : ∀ v, b2.parentsOf v = b1.parentsOf v := by
      intro v; unfold parentsOf; rw [hF2]; split_ifs with h
      · cases b1.F.get? v <;> rfl
      · rfl
    have hc2 : b2.cardOf = b1.cardOf := by
      funext v; unfold cardOf; rw [hF2]; split_ifs with h
      · cases b1.F.get? v <;> rfl
      · rfl
    refine ⟨rfl, rfl, fun v => (hp2 v).trans (hp1 v), fun v hv => ?_, fun v hv => ?_, fun v hv => ?_⟩
    · have : b2.valuesOf v = npUnique (data.entries (ns.idxOf v)) := by
        obtain ⟨d, hd⟩ := Option.isSome_iff_exists.1 ((s.dom v).2 (hsub v hv))
        unfold valuesOf
        rw [hF2, if_pos hv, hF1, if_pos hv, hd]; rfl
      rw [this]
      exact Data.isValues_unique hr (by have := List.idxOf_lt_length_of_mem hv; omega)
    · unfold BayesNet.tableSize
      rw [hp2, hc2, List.map_cons, List.prod_cons, mul_comm]
      obtain ⟨d, hd⟩ := Option.isSome_iff_exists.1 (hd1 v (hsub v hv))
      unfold cptOf
      rw [hF2, if_pos hv, hd]; rfl
    · rw [hF2, if_neg hv, hF1, if_neg hv]

/-- **C249** (1): `mle_estimator(counts=True)`, and `mle_estimator` when it raises, leave the network with tables of zeros. -/
theorem C249_wiped (hE : HashOrder (ℕ × ℤ)) (hI : HashOrder ℤ) (bn : BayesNet ℕ ℤ) (s : bn.Shape) (data : Data) (hr : ∀ row ∈ data.rows, row.length = data.ncol)
    (nodes : Option (List ℕ)) (hnd : (nodes.getD bn.V).Nodup) (hsub : ∀ v ∈ nodes.getD bn.V, v ∈ bn.V) (hlen : (nodes.getD bn.V).length ≤ data.ncol) :
    Wiped data (nodes.getD bn.V) bn (mleAfter hE hI bn data nodes true).1 ∧
    (∀ e, mleEstimator hE hI bn data nodes = .error e → (mleAfter hE hI bn data nodes false).2 = some e ∧ Wiped data (nodes.getD bn.V) bn (mleAfter hE hI bn data nodes false).1) := by
  obtain ⟨bn1, h1, w⟩ := prepare_ok s hr hnd hsub hlen
  constructor
  · unfold mleAfter
    dsimp only
    rw [h1]
    dsimp only
    split
    · exact w
    · exact w
  · intro e he
    rw [← mleAfter_false] at he
    have key : (mleAfter hE hI bn data nodes false).2 ≠ none → (mleAfter hE hI bn data nodes false).1 = bn1 := by
      unfold mleAfter
      dsimp only
      rw [h1]
      dsimp only
      split
      · exact fun _ => rfl
      · rw [if_neg (by decide)]
        split
        · exact fun _ => rfl
        · exact fun h => absurd rfl h
    unfold outcome at he
    split at he
    · cases he
    · rename_i e' he'
      cases he
      exact ⟨he', (key (by rw [he']; exact Option.some_ne_none _)) ▸ w⟩

theorem Wiped.dom_iff {data : Data} (hr : ∀ row ∈ data.rows, row.length = data.ncol) (hne : data.rows ≠ []) {ns : List ℕ} {bn bn1 : BayesNet ℕ ℤ} (s : bn.Shape)
    (hlen : ns.length ≤ data.ncol) (hsub : ∀ v ∈ ns, v ∈ bn.V) (w : Wiped data ns bn bn1) : ∀ v, (bn1.F.get? v).isSome ↔ v ∈ bn.V := by
  intro v
  by_cases hv : v ∈ ns
  · refine iff_of_true ?_ (hsub v hv)
    obtain ⟨x, hx⟩ : ∃ x, x ∈ bn1.valuesOf v := by
      obtain ⟨row, hrow⟩ := List.exists_mem_of_ne_nil _ hne
      have hlt : ns.idxOf v < row.length := by have := List.idxOf_lt_length_of_mem hv; rw [hr row hrow]; omega
      exact ⟨row[ns.idxOf v], ((w.values v hv).2 _).2 ⟨row, hrow, List.getElem?_eq_getElem hlt⟩⟩
    unfold valuesOf at hx
    cases e : bn1.F.get? v with
    | none => rw [e] at hx; cases hx
    | some d => rfl
  · rw [w.rest v hv]; exact s.dom v

/-- **C249** (3): one way to make `mle_estimator` raise after it emptied the tables is a node whose name is not a column number. -/
theorem C249_not_a_column (hE : HashOrder (ℕ × ℤ)) (hI : HashOrder ℤ) (bn : BayesNet ℕ ℤ) (s : bn.Shape) (data : Data) (hr : ∀ row ∈ data.rows, row.length = data.ncol)
    (hne : data.rows ≠ []) (nodes : Option (List ℕ)) (hnd : (nodes.getD bn.V).Nodup) (hsub : ∀ v ∈ nodes.getD bn.V, v ∈ bn.V) (hlen : (nodes.getD bn.V).length ≤ data.ncol)
    (hv : ∃ v ∈ nodes.getD bn.V, data.ncol ≤ v) :
    mleEstimator hE hI bn data nodes = .error .indexError ∧ mleCounts hE hI bn data nodes = .error .indexError ∧
    ∀ counts, (mleAfter hE hI bn data nodes counts).2 = some .indexError ∧ Wiped data (nodes.getD bn.V) bn (mleAfter hE hI bn data nodes counts).1 := by
  obtain ⟨bn1, h1, w⟩ := prepare_ok s hr hnd hsub hlen
  have hdom := w.dom_iff hr hne s hlen hsub
  have hinit : pyMap (fun rv => do let c ← bn1.cpt rv; pure (rv, c)) (nodes.getD bn.V) = .ok ((nodes.getD bn.V).map fun rv => (rv, bn1.cptOf rv)) := by
    refine pyMap_ok fun v hv => ?_
    obtain ⟨d, hd⟩ := Option.isSome_iff_exists.1 ((hdom v).2 (hsub v hv))
    simp [BayesNet.cpt, Dict.get, cptOf, hd]
  have hobs : ∀ row, row.length = data.ncol → observe (nodes.getD bn.V) row = .error .indexError := by
    intro row hrow
    unfold observe
    rw [pyMap_error (e := .indexError)]
    · rfl
    · intro v hv
      by_cases h : v < row.length
      · exact .inr ⟨(v, row[v]), by rw [pyIdx_nat (List.getElem?_eq_getElem h)]; rfl⟩
      · left
        simp [pyIdx, List.getElem?_eq_none (Nat.le_of_not_lt h)]
    · obtain ⟨v, hv, hle⟩ := hv
      refine ⟨v, hv, ?_⟩
      simp [pyIdx, List.getElem?_eq_none (show row.length ≤ v by omega)]
  have hcnt : (do
        let init ← pyMap (fun rv => do let c ← bn1.cpt rv; pure (rv, c)) (nodes.getD bn.V)
        countRows hE hI bn1 (nodes.getD bn.V) data.rows (Dict.ofPairs init) : Py (Dict ℕ (List ℚ))) = .error .indexError := by
    rw [hinit, Py.bind_ok]
    obtain ⟨row, rows, e⟩ := List.exists_cons_of_ne_nil hne
    rw [e, countRows, hobs row (hr row (by rw [e]; exact List.mem_cons_self))]
    rfl
  have hlearn : learn hE hI (fun _ => .ok 0) bn data (nodes.getD bn.V) = .error .indexError := by
    rw [learn_eq, h1]
    simp only [show outcome (bn1, (none : Option PyErr)) = .ok bn1 from rfl, Py.bind_ok]
    rw [hcnt]; rfl
  refine ⟨?_, ?_, fun counts => ?_⟩
  · unfold mleEstimator; dsimp only; rw [hlearn]; rfl
  · unfold mleCounts; dsimp only; rw [hlearn]; rfl
  · unfold mleAfter
    dsimp only
    rw [h1]
    dsimp only
    rw [hcnt]
    exact ⟨rfl, w⟩

/-- **C249** (2): such a network gives every complete assignment probability 0, and every answer of `marginal_ve_e` about it consists of zeros. -/
theorem C249_useless {data : Data} (hr : ∀ row ∈ data.rows, row.length = data.ncol) (hne : data.rows ≠ []) {ns : List ℕ} {bn bn1 : BayesNet ℕ ℤ} (s : bn.Shape) (hns : ns.Perm bn.V)
    (hlen : ns.length ≤ data.ncol) (w : Wiped data ns bn bn1) : (bn.V ≠ [] → ∀ a, bn1.joint a = 0) ∧
    ∀ (h : HashOrder ℕ) (hE : HashOrder (ℕ × ℤ)) target (ev : Dict ℕ ℤ), ev.keys.Nodup → ∀ l, marginalVE h hE bn1 target ev = .ok l → ∀ x ∈ l, x = 0 := by
  have hj : bn.V ≠ [] → ∀ a, bn1.joint a = 0 := by
    intro hV a
    obtain ⟨v, hv⟩ := List.exists_mem_of_ne_nil _ hV
    unfold joint
    refine List.prod_eq_zero (List.mem_map.2 ⟨v, by rw [w.V]; exact hv, ?_⟩)
    unfold BayesNet.prob
    rw [w.cpt v (hns.mem_iff.2 hv), List.getElem?_replicate]
    split_ifs <;> rfl
  refine ⟨hj, fun h hE target ev hk l hl x hx => ?_⟩
  have hdom := w.dom_iff hr hne s hlen (fun v hv => hns.mem_iff.1 hv)
  have wf : bn1.WF := {
    nodup := by rw [w.V]; exact s.nodup
    dom := fun v => by rw [hdom, w.V]
    fam_nodup := fun v hv => by rw [w.V] at hv; rw [w.parents]; exact s.fam_nodup v hv
    parents_mem := fun v hv p hp => by rw [w.V] at hv ⊢; rw [w.parents] at hp; exact s.parents_mem v hv p hp
    values_nodup := fun v hv => by rw [w.V] at hv; exact (w.values v (hns.mem_iff.2 hv)).1.imp fun h => h.ne
    values_ne := fun v hv h0 => by
      rw [w.V] at hv
      have hv' := hns.mem_iff.2 hv
      obtain ⟨row, hrow⟩ := List.exists_mem_of_ne_nil _ hne
      have hlt : ns.idxOf v < row.length := by have := List.idxOf_lt_length_of_mem hv'; rw [hr row hrow]; omega
      have := ((w.values v hv').2 _).2 ⟨row, hrow, List.getElem?_eq_getElem hlt⟩
      rw [h0] at this; cases this
    cpt_len := fun v hv => by rw [w.V] at hv; rw [w.cpt v (hns.mem_iff.2 hv), List.length_replicate]; rfl }
  obtain ⟨ht, hte, hle, hll, hval⟩ := C13_marginal_exact h hE bn1 wf target ev hk l hl
  obtain ⟨i, hi, rfl⟩ := List.getElem_of_mem hx
  have hV : bn.V ≠ [] := by rw [w.V] at ht; exact List.ne_nil_of_mem ht
  obtain ⟨a, hat, ha⟩ := exists_agrees hte hle i
  have := hval a (by rw [hat, ← hll]; exact hi) ha
  rw [hat, List.getElem?_eq_getElem hi] at this
  rw [Option.some.inj this]
  have hm : bn1.marginal target ev a = 0 := by
    unfold BayesNet.marginal
    rw [show bn1.joint = fun _ => 0 from funext (hj hV)]
    generalize bn1.V.filter _ = vs
    clear this ha hat
    induction vs generalizing a with
    | nil => rfl
    | cons v vs ih => simp only [sumAll, ih, Finset.sum_const_zero]
  rw [hm]
  decide +kernel

/-- `bn1` is `bn` after only the values of the nodes `ms` were replaced, by the distinct entries of the columns at their positions in `ms`. -/
structure ValuesOnly (data : Data) (ms : List ℕ) (bn bn1 : BayesNet ℕ ℤ) : Prop where
  V : bn1.V = bn.V
  E : bn1.E = bn.E
  parents : ∀ v, bn1.parentsOf v = bn.parentsOf v
  cpt : ∀ v, bn1.cptOf v = bn.cptOf v
  values : ∀ v ∈ ms, data.IsValues (ms.idxOf v) (bn1.valuesOf v)
  rest : ∀ v, v ∉ ms → bn1.F.get? v = bn.F.get? v
  dom : ∀ v, (bn1.F.get? v).isSome ↔ (bn.F.get? v).isSome

theorem setValuesTo_append (data : Data) : ∀ (l m : List ℕ) (i : ℕ) (F G : Dict ℕ (NodeData ℕ ℤ)), setValues data i l F = .ok G →
    setValuesTo data i (l ++ m) F = setValuesTo data (i + l.length) m G
  | [], m, i, F, G, h => by cases h; rfl
  | n :: l, m, i, F, G, h => by
    rw [List.cons_append, setValuesTo]
    rw [setValues] at h
    cases e1 : data.col i with
    | error e => rw [e1] at h; cases h
    | ok c =>
      rw [e1] at h
      cases e2 : F.get n with
      | error e => simp only [Py.bind_ok, e2] at h; cases h
      | ok d =>
        simp only [Py.bind_ok, e2] at h
        dsimp only
        rw [setValuesTo_append data l m (i + 1) _ G h, List.length_cons]
        congr 1
        omega

theorem prepare_short {bn : BayesNet ℕ ℤ} (s : bn.Shape) {data : Data} (hr : ∀ row ∈ data.rows, row.length = data.ncol) {ns : List ℕ} (hnd : ns.Nodup) (hsub : ∀ v ∈ ns, v ∈ bn.V)
    (hlen : data.ncol < ns.length) (fill : ℕ → Py ℚ) :
    ∃ bn1, prepareTo fill bn data ns = (bn1, some .indexError) ∧ ValuesOnly data (ns.take data.ncol) bn bn1 := by
  have hnd' : (ns.take data.ncol).Nodup := hnd.sublist (List.take_sublist _ _)
  have hl : (ns.take data.ncol).length = data.ncol := by rw [List.length_take]; omega
  obtain ⟨F1, h1, h2⟩ := setValues_ok (data := data) (cols := data.entries) (ns.take data.ncol) 0 bn.F hnd'
    (fun j hj => by rw [Nat.zero_add]; exact Data.col_ok hr (by omega)) (fun n hn => (s.dom n).2 (hsub n (List.mem_of_mem_take hn)))
  simp only [Nat.zero_add] at h2
  set b1 : BayesNet ℕ ℤ := { bn with F := F1 } with hb1
  have hF1 : ∀ k, b1.F.get? k = if k ∈ ns.take data.ncol then (bn.F.get? k).map (fun d => { d with values := npUnique (data.entries ((ns.take data.ncol).idxOf k)) })
      else bn.F.get? k := h2
  refine ⟨b1, ?_, rfl, rfl, fun v => ?_, fun v => ?_, fun v hv => ?_, fun v hv => ?_, fun v => ?_⟩
  · have e : setValuesTo data 0 ns bn.F = (F1, some .indexError) := by
      conv_lhs => rw [← List.take_append_drop data.ncol ns]
      rw [setValuesTo_append data _ _ 0 _ _ h1, hl, Nat.zero_add, List.drop_eq_getElem_cons hlen, setValuesTo]
      simp [Data.col]
    unfold prepareTo
    rw [e]
  · unfold parentsOf; rw [hF1]; split_ifs with h
    · cases bn.F.get? v <;> rfl
    · rfl
  · unfold cptOf; rw [hF1]; split_ifs with h
    · cases bn.F.get? v <;> rfl
    · rfl
  · have : b1.valuesOf v = npUnique (data.entries ((ns.take data.ncol).idxOf v)) := by
      obtain ⟨d, hd⟩ := Option.isSome_iff_exists.1 ((s.dom v).2 (hsub v (List.mem_of_mem_take hv)))
      unfold valuesOf
      rw [hF1, if_pos hv, hd]; rfl
    rw [this]
    exact Data.isValues_unique hr (by have := List.idxOf_lt_length_of_mem hv; omega)
  · rw [hF1, if_neg hv]
  · rw [hF1]; split_ifs
    · cases bn.F.get? v <;> simp
    · rfl

/-- **C250** (1): with fewer columns than nodes both estimators raise `IndexError`, and leave the network with new values for the first nodes and all its old tables. -/
theorem C250_too_few_columns (hE : HashOrder (ℕ × ℤ)) (hI : HashOrder ℤ) (bn : BayesNet ℕ ℤ) (s : bn.Shape) (data : Data) (hr : ∀ row ∈ data.rows, row.length = data.ncol)
    (nodes : Option (List ℕ)) (hnd : (nodes.getD bn.V).Nodup) (hsub : ∀ v ∈ nodes.getD bn.V, v ∈ bn.V) (hlen : data.ncol < (nodes.getD bn.V).length) :
    mleEstimator hE hI bn data nodes = .error .indexError ∧ mleCounts hE hI bn data nodes = .error .indexError ∧
    (∀ equiv, bayesEstimator hE hI bn data equiv nodes = .error .indexError) ∧
    (∀ counts, (mleAfter hE hI bn data nodes counts).2 = some .indexError ∧
      ValuesOnly data ((nodes.getD bn.V).take data.ncol) bn (mleAfter hE hI bn data nodes counts).1) ∧
    ∀ fill, (prepareTo fill bn data (nodes.getD bn.V)).2 = some .indexError ∧
      ValuesOnly data ((nodes.getD bn.V).take data.ncol) bn (prepareTo fill bn data (nodes.getD bn.V)).1 := by
  have hall := fun fill => prepare_short s hr hnd hsub hlen fill
  have hlearn : ∀ fill, learn hE hI fill bn data (nodes.getD bn.V) = .error .indexError := by
    intro fill
    obtain ⟨bn1, h1, w⟩ := hall fill
    rw [learn_eq, h1]; rfl
  have haft : ∀ counts, (mleAfter hE hI bn data nodes counts).2 = some .indexError ∧
      ValuesOnly data ((nodes.getD bn.V).take data.ncol) bn (mleAfter hE hI bn data nodes counts).1 := by
    intro counts
    obtain ⟨bn1, h1, w⟩ := hall fun _ => .ok 0
    unfold mleAfter
    dsimp only
    rw [h1]
    exact ⟨rfl, w⟩
  refine ⟨?_, ?_, fun equiv => ?_, haft, fun fill => ?_⟩
  · unfold mleEstimator; dsimp only; rw [hlearn]; rfl
  · unfold mleCounts; dsimp only; rw [hlearn]; rfl
  · unfold bayesEstimator; dsimp only; rw [hlearn]; rfl
  · obtain ⟨bn1, h1, w⟩ := hall fill
    rw [h1]; exact ⟨rfl, w⟩

/-- **C250** (2): when the new values make the table of some node too short, no call of `marginal_ve_e` on what is left of the network returns. -/
theorem C250_then_stuck {data : Data} (hr : ∀ row ∈ data.rows, row.length = data.ncol) (hne : data.rows ≠ []) {ms : List ℕ} (hms : ms.length ≤ data.ncol) {bn bn1 : BayesNet ℕ ℤ} (wb : bn.WF)
    (w : ValuesOnly data ms bn bn1) (h2 : 2 ≤ bn.V.length) (v : ℕ) (hv : v ∈ bn.V) (hs : bn.tableSize v < bn1.tableSize v)
    (h : HashOrder ℕ) (hE : HashOrder (ℕ × ℤ)) (target : ℕ) (ev : Dict ℕ ℤ) (l : List ℚ) : marginalVE h hE bn1 target ev ≠ .ok l := by
  have hvals : ∀ v, v ∉ ms → bn1.valuesOf v = bn.valuesOf v := fun v hv => by unfold valuesOf; rw [w.rest v hv]
  refine C240_too_short h hE bn1 ?_ (by rw [w.V]; exact h2) v (by rw [w.V]; exact hv) ?_ target ev l
  · exact {
      nodup := by rw [w.V]; exact wb.nodup
      dom := fun v => by rw [w.dom, w.V]; exact wb.dom v
      fam_nodup := fun v hv => by rw [w.V] at hv; rw [w.parents]; exact wb.fam_nodup v hv
      parents_mem := fun v hv p hp => by rw [w.V] at hv ⊢; rw [w.parents] at hp; exact wb.parents_mem v hv p hp
      values_nodup := fun v hv => by
        rw [w.V] at hv
        by_cases hm : v ∈ ms
        · exact (w.values v hm).1.imp fun h => h.ne
        · rw [hvals v hm]; exact wb.values_nodup v hv
      values_ne := fun v hv => by
        rw [w.V] at hv
        by_cases hm : v ∈ ms
        · intro h0
          obtain ⟨row, hrow⟩ := List.exists_mem_of_ne_nil _ hne
          have hlt : ms.idxOf v < row.length := by have := List.idxOf_lt_length_of_mem hm; rw [hr row hrow]; omega
          have := ((w.values v hm).2 _).2 ⟨row, hrow, List.getElem?_eq_getElem hlt⟩
          rw [h0] at this; cases this
        · rw [hvals v hm]; exact wb.values_ne v hv }
  · rw [w.cpt, wb.cpt_len v hv]; exact hs

/-! ## Concrete cases -/

/-- `0 -> 1`, both with two values. -/
def pairNet : BayesNet ℕ ℤ := ⟨[0, 1], [(0, [1]), (1, [])], [(0, ⟨[], [0, 1], [1/2, 1/2]⟩), (1, ⟨[0], [0, 1], [1/4, 3/4, 1/3, 2/3]⟩)]⟩
/-- Two columns. -/
def pairData : Data := ⟨2, [[0, 1], [1, 1], [0, 0]]⟩
/-- One column with three values: not enough for both nodes. -/
def thinData : Data := ⟨1, [[0], [1], [2]]⟩

theorem pairNet_shape : pairNet.Shape where
  nodup := by decide
  dom := fun v => by
    by_cases h0 : v = 0
    · subst h0; decide
    · by_cases h1 : v = 1
      · subst h1; decide
      · simp [pairNet, Dict.get?, h0, h1, Ne.symm h0, Ne.symm h1]
  fam_nodup := by decide
  parents_mem := by decide

/-- Asking for counts empties the tables. -/
example : pairNet.Shape ∧ (∀ row ∈ pairData.rows, row.length = pairData.ncol) ∧
    (mleAfter .id .id pairNet pairData none true).1.cptOf 1 = [0, 0, 0, 0] ∧ (mleAfter .id .id pairNet pairData none true).2 = none :=
  ⟨pairNet_shape, by decide, by decide +kernel, by decide +kernel⟩

/-- Nodes `0` and `5`, two columns: an `IndexError`, and only zeros are left. -/
example : (mleAfter .id .id ⟨[0, 5], [(0, [5]), (5, [])], [(0, ⟨[], [0, 1], [1/2, 1/2]⟩), (5, ⟨[0], [0, 1], [1/4, 3/4, 1/3, 2/3]⟩)]⟩ pairData none false).2 = some .indexError ∧
    (mleAfter .id .id ⟨[0, 5], [(0, [5]), (5, [])], [(0, ⟨[], [0, 1], [1/2, 1/2]⟩), (5, ⟨[0], [0, 1], [1/4, 3/4, 1/3, 2/3]⟩)]⟩ pairData none false).1.cptOf 5 = [0, 0, 0, 0] :=
  ⟨by decide +kernel, by decide +kernel⟩

/-- Too few columns: three values, two table entries. -/
example : (∀ row ∈ thinData.rows, row.length = thinData.ncol) ∧ thinData.ncol < pairNet.V.length ∧
    (mleAfter .id .id pairNet thinData none false).1.valuesOf 0 = [0, 1, 2] ∧ (mleAfter .id .id pairNet thinData none false).1.cptOf 0 = [1/2, 1/2] ∧
    pairNet.tableSize 0 < (mleAfter .id .id pairNet thinData none false).1.tableSize 0 :=
  ⟨by decide, by decide, by decide +kernel, by decide +kernel, by decide +kernel⟩

end PyBN
