import Verif.Proofs.Learn2
import Mathlib.Algebra.BigOperators.Field

/-!
# C35, C36, C65 - C68: parameter learning
-/

set_option linter.unusedSectionVars false

namespace PyBN
open BayesNet

/-! ## Counting: C65, C35 -/

/-- C65: what `mle_estimator(counts=True)` counts, for any order of the nodes: the values of a node are read from the column at
the node's *position* in the node list, its observations from the column named by the node, and an observation that is not among
the values is counted as the last value. -/
theorem C65_counts_by_position (hE : HashOrder (ℕ × ℤ)) (hI : HashOrder ℤ) (bn : BayesNet ℕ ℤ) (s : bn.Shape) (data : Data)
    (hf : data.Fits bn.V) (nodes : Option (List ℕ)) (hns : (nodes.getD bn.V).Perm bn.V) :
    ∃ cnt vals, mleCounts hE hI bn data nodes = .ok cnt ∧
      ∀ v ∈ bn.V, data.IsValues ((nodes.getD bn.V).idxOf v) (vals v) ∧
        ∃ l, cnt.get? v = some (vals v, l) ∧ l.length = ((v :: bn.parentsOf v).map fun u => (vals u).length).prod ∧
          ∀ a, InRange (fun u => (vals u).length) (v :: bn.parentsOf v) a →
            l[enc (fun u => (vals u).length) (v :: bn.parentsOf v) a]? =
              some ((data.rows.countP fun row => decide (MatchesOrLast vals (v :: bn.parentsOf v) a row) : ℕ) : ℚ) := by
  obtain ⟨bn2, cnt, h1, hV, hE', w2, hp, hval, htab⟩ := learn_ok hE hI (fill := fun _ => .ok 0) (x := fun _ => 0) (fun _ _ => rfl) s hns hf
  have hc : bn2.cardOf = fun u => (bn2.valuesOf u).length := by
    funext u; unfold cardOf valuesOf; cases bn2.F.get? u <;> rfl
  have hnd : (nodes.getD bn.V).Nodup := hns.nodup_iff.2 s.nodup
  have hmap : pyMap (fun rv => do let vs ← bn2.values rv; let l ← cnt.get rv; pure (rv, (vs, l))) (nodes.getD bn.V) =
      (.ok ((nodes.getD bn.V).map fun rv => (rv, (bn2.valuesOf rv, (cnt.get? rv).getD []))) : Py _) :=
    pyMap_ok fun v hv => by
      have hvV := hns.mem_iff.1 hv
      obtain ⟨l, hl, _⟩ := htab v hvV
      rw [w2.values_ok (by rw [hV]; exact hvV), Dict.get_of_get? hl, hl]; rfl
  refine ⟨Dict.ofPairs ((nodes.getD bn.V).map fun rv => (rv, (bn2.valuesOf rv, (cnt.get? rv).getD []))), bn2.valuesOf, ?_,
    fun v hv => ⟨hval v hv, ?_⟩⟩
  · unfold mleCounts
    simp only [h1, Py.bind_ok]
    rw [hmap]
    rfl
  · obtain ⟨l, e1, e2, e3⟩ := htab v hv
    refine ⟨l, ?_, by rw [e2, hc], fun a ha => ?_⟩
    · rw [Dict.ofPairs, Dict.get?_update (by rw [Dict.keys_map_pair]; exact hnd),
        Dict.get?_map_pair (f := fun rv => (bn2.valuesOf rv, (cnt.get? rv).getD [])), if_pos (hns.mem_iff.2 hv), e1]; rfl
    · rw [← hc] at ha ⊢
      rw [e3 a ha, zero_add]

theorem Data.SameValues.refl (d : Data) (i : ℕ) : d.SameValues i i := fun _ => Iff.rfl

theorem Data.SameValues.of_eq {d : Data} {i j : ℕ} (h : i = j) : d.SameValues i j := h ▸ .refl d i

theorem Data.IsValues.same {d : Data} {i j : ℕ} {vs : List ℤ} (h : d.IsValues i vs) (hs : d.SameValues i j) : d.IsValues j vs :=
  ⟨h.1, fun x => (h.2 x).trans (hs x)⟩

/-- When the values of every variable are those of its own column, "matches or last" is "matches". -/
theorem matches_iff {data : Data} {fam : List ℕ} {vals : ℕ → List ℤ} (hval : ∀ u ∈ fam, data.IsValues u (vals u))
    (hlt : ∀ u ∈ fam, ∀ row ∈ data.rows, u < row.length) {a : Asg ℕ} {row : List ℤ} (hrow : row ∈ data.rows)
    : MatchesOrLast vals fam a row ↔ Matches vals fam a row := by
  unfold MatchesOrLast Matches
  apply forall₂_congr
  intro u hu
  have hl := List.getElem?_eq_getElem (hlt u hu row hrow)
  have hm : row[u]'(hlt u hu row hrow) ∈ vals u := ((hval u hu).2 _).2 ⟨row, hrow, hl⟩
  have hnd : (vals u).Nodup := (hval u hu).1.imp fun h => h.ne
  rw [hl]
  constructor
  · rintro ⟨x, hx, hax⟩
    rw [Option.mem_some_iff] at hx
    subst hx
    rw [hax, seenAs, if_pos hm, List.getElem?_idxOf hm]
    exact ⟨rfl, rfl⟩
  · rintro ⟨_, h2⟩
    refine ⟨_, rfl, ?_⟩
    rw [seenAs, if_pos hm]
    have hlt' : a u < (vals u).length := by
      rw [eq_comm, List.getElem?_eq_some_iff] at h2
      exact h2.1
    exact (List.getElem?_inj hlt' hnd).1 (h2.symm.trans (List.getElem?_idxOf hm).symm)

theorem count_eq {data : Data} {fam V : List ℕ} {vals : ℕ → List ℤ} (hf : data.Fits V) (hfam : ∀ u ∈ fam, u ∈ V)
    (hval : ∀ u ∈ fam, data.IsValues u (vals u)) (a : Asg ℕ) :
    (data.rows.countP fun row => decide (MatchesOrLast vals fam a row)) = data.count vals fam a := by
  apply List.countP_congr
  intro row hrow
  rw [decide_eq_true_eq, decide_eq_true_eq, matches_iff hval (fun u hu row hrow => by
    rw [hf.rect row hrow]; exact hf.cols u (hfam u hu)) hrow]

/-- C35, the part that holds: when the column at every node's position in the node list has the same distinct entries as the node's own
column (as for nodes `0, 1, 2, ...` listed in order, or for columns that all take the same values), the counts are the numbers of rows showing each configuration.  Missing: other node orders, see `C35_false`. -/
theorem C35_counts_partial (hE : HashOrder (ℕ × ℤ)) (hI : HashOrder ℤ) (bn : BayesNet ℕ ℤ) (s : bn.Shape) (data : Data)
    (hf : data.Fits bn.V) (nodes : Option (List ℕ)) (hns : (nodes.getD bn.V).Perm bn.V)
    (hcol : ∀ v ∈ bn.V, data.SameValues ((nodes.getD bn.V).idxOf v) v) :
    ∃ cnt vals, mleCounts hE hI bn data nodes = .ok cnt ∧
      ∀ v ∈ bn.V, data.IsValues v (vals v) ∧
        ∃ l, cnt.get? v = some (vals v, l) ∧ l.length = ((v :: bn.parentsOf v).map fun u => (vals u).length).prod ∧
          ∀ a, InRange (fun u => (vals u).length) (v :: bn.parentsOf v) a →
            l[enc (fun u => (vals u).length) (v :: bn.parentsOf v) a]? = some (data.count vals (v :: bn.parentsOf v) a : ℚ) := by
  obtain ⟨cnt, vals, h1, h2⟩ := C65_counts_by_position hE hI bn s data hf nodes hns
  have hfam : ∀ v ∈ bn.V, ∀ u ∈ v :: bn.parentsOf v, u ∈ bn.V := by
    intro v hv u hu
    rcases List.mem_cons.1 hu with rfl | hu
    · exact hv
    · exact s.parents_mem v hv u hu
  have hval : ∀ v ∈ bn.V, data.IsValues v (vals v) := fun v hv => by
    exact ((h2 v hv).1).same (hcol v hv)
  refine ⟨cnt, vals, h1, fun v hv => ⟨hval v hv, ?_⟩⟩
  obtain ⟨l, e1, e2, e3⟩ := (h2 v hv).2
  refine ⟨l, e1, e2, fun a ha => ?_⟩
  rw [e3 a ha, count_eq hf (hfam v hv) fun u hu => hval u (hfam v hv u hu)]

/-- A network over columns 0 and 1 with the arc 1 → 0: `set_structure` lists its nodes as `[1, 0]`. -/
def mleNet : BayesNet ℕ ℤ := ⟨[1, 0], [(1, [0]), (0, [])], [(1, ⟨[], [], []⟩), (0, ⟨[1], [], []⟩)]⟩

/-- Three rows; column 0 takes the values 0 and 1, column 1 the values 7 and 8. -/
def mleData : Data := ⟨2, [[0, 7], [1, 7], [0, 8]]⟩

theorem mleNet_shape : mleNet.Shape where
  nodup := by decide
  dom := fun v => by rw [← Dict.mem_keys_iff]; simp [mleNet, Dict.keys]
  fam_nodup := by decide
  parents_mem := by decide

theorem mleData_fits : mleData.Fits mleNet.V := ⟨by decide, by decide, by decide⟩

/-- C35 is false in general: the network built from the arc 1 → 0 gets for node 1 the values of column 0, and the table says three
rows have the value 1 in column 1, although no row has. -/
theorem C35_false : mleNet.Shape ∧ mleData.Fits mleNet.V ∧
    (∃ cnt, mleCounts HashOrder.id HashOrder.id mleNet mleData none = .ok cnt ∧ cnt.get? 1 = some ([0, 1], [0, 3])) ∧
    mleData.rows.countP (fun row => decide (row[1]? = some 1)) = 0 := by
  refine ⟨mleNet_shape, mleData_fits, ?_, by decide⟩
  have h : (mleCounts HashOrder.id HashOrder.id mleNet mleData none).okAnd (fun c => decide (c.get? 1 = some ([0, 1], [0, 3]))) = true := by
    decide +kernel
  obtain ⟨c, h1, h2⟩ := Py.of_okAnd h
  exact ⟨c, h1, by simpa using h2⟩

/-- Witness for `C35_counts_partial`: the same network and data with `nodes=[0, 1]`. -/
example : mleNet.Shape ∧ mleData.Fits mleNet.V ∧ ((some [0, 1] : Option (List ℕ)).getD mleNet.V).Perm mleNet.V ∧
    (∀ v ∈ mleNet.V, mleData.SameValues (((some [0, 1] : Option (List ℕ)).getD mleNet.V).idxOf v) v) ∧
    (mleCounts HashOrder.id HashOrder.id mleNet mleData (some [0, 1])).okAnd (fun c =>
      decide (c.get? 1 = some ([7, 8], [2, 1]) ∧ c.get? 0 = some ([0, 1], [1, 1, 1, 0]))) = true :=
  ⟨mleNet_shape, mleData_fits, by decide, fun v hv => .of_eq ((by decide : ∀ v ∈ mleNet.V, [0, 1].idxOf v = v) v hv), by decide +kernel⟩

/-! ## The estimated tables -/

/-- Everything about the network after `mle_estimator`. -/
theorem mle_ok (hE : HashOrder (ℕ × ℤ)) (hI : HashOrder ℤ) (bn : BayesNet ℕ ℤ) (s : bn.Shape) (data : Data) (hf : data.Fits bn.V)
    (nodes : Option (List ℕ)) (hns : (nodes.getD bn.V).Perm bn.V) (hEk : ∀ v ∈ bn.V, v ∈ bn.E.keys) :
    ∃ bn', mleEstimator hE hI bn data nodes = .ok bn' ∧ bn'.V = bn.V ∧ bn'.E = bn.E ∧
      (∀ v, (bn'.F.get? v).isSome ↔ v ∈ bn.V) ∧
      (∀ v ∈ bn.V, data.IsValues ((nodes.getD bn.V).idxOf v) (bn'.valuesOf v) ∧ bn'.valuesOf v ≠ []) ∧
      (∀ v ∈ bn.V, (bn'.parentsOf v).Sublist (nodes.getD bn.V) ∧ ∀ p, p ∈ bn'.parentsOf v ↔ p ∈ bn.V ∧ Arc bn.E p v) ∧
      ∀ v ∈ bn.V, (bn'.cptOf v).length = ((v :: bn.parentsOf v).map bn'.cardOf).prod ∧
        ∀ a, InRange bn'.cardOf (v :: bn.parentsOf v) a → (bn'.cptOf v)[enc bn'.cardOf (v :: bn.parentsOf v) a]? =
          some (roundAway 5 (((data.rows.countP fun row => decide (MatchesOrLast bn'.valuesOf (v :: bn.parentsOf v) a row) : ℕ) : ℚ) /
            ((data.rows.countP fun row => decide (MatchesOrLast bn'.valuesOf (bn.parentsOf v) a row) : ℕ) + 1 / 10000000))) := by
  obtain ⟨bn2, cnt, h1, hV, hE', w2, hp, hval, htab⟩ := learn_ok hE hI (fill := fun _ => .ok 0) (x := fun _ => 0) (fun _ _ => rfl) s hns hf
  set ns := nodes.getD bn.V with hnsdef
  have hnd : ns.Nodup := hns.nodup_iff.2 s.nodup
  have hmem : ∀ v, v ∈ ns ↔ v ∈ bn.V := fun v => hns.mem_iff
  have hpl : ∀ v, ∃ l, parentList ns bn.E v = .ok l ∧ List.Sublist l ns ∧ ∀ p, p ∈ l ↔ p ∈ ns ∧ Arc bn.E p v :=
    fun v => parentList_ok (fun u hu => hEk u ((hmem u).1 hu)) v
  choose PL hPL using hpl
  have hnorm : ∀ v, ∃ r, v ∈ bn.V → normBlocks (1 / 10000000) (bn2.cardOf v) (((cnt.get? v).getD []).length + 1) ((cnt.get? v).getD []) = .ok r ∧
      r.length = ((v :: bn.parentsOf v).map bn2.cardOf).prod ∧
      ∀ a, InRange bn2.cardOf (v :: bn.parentsOf v) a → r[enc bn2.cardOf (v :: bn.parentsOf v) a]? =
        some (roundAway 5 (((data.rows.countP fun row => decide (MatchesOrLast bn2.valuesOf (v :: bn.parentsOf v) a row) : ℕ) : ℚ) /
          ((data.rows.countP fun row => decide (MatchesOrLast bn2.valuesOf (bn.parentsOf v) a row) : ℕ) + 1 / 10000000))) := by
    intro v
    by_cases hv : v ∈ bn.V
    · obtain ⟨l, e1, e2, e3⟩ := htab v hv
      obtain ⟨r, g1, g2, g3⟩ := norm_ok w2 (v := v) (by rw [hV]; exact hv) (rows := data.rows)
        (fun row hrow => by rw [hf.rect row hrow]; exact hf.cols v hv) (l := l) (x0 := 0) (eps := 1 / 10000000)
        (by rw [e2, hp]) (by rw [hp]; exact e3) (by rw [mul_zero, zero_add]; positivity)
      refine ⟨r, fun _ => ⟨by rw [e1]; exact g1, by rw [g2, e2], fun a ha => ?_⟩⟩
      rw [hp] at g3
      rw [g3 a ha, mul_zero, zero_add, zero_add]
    · exact ⟨[], fun h => absurd h hv⟩
  choose R hR using hnorm
  have hmap : pyMap (fun rv => do
      let ps ← parentList ns bn.E rv
      let vs ← bn2.values rv
      let l ← cnt.get rv
      let c ← bn2.card rv
      let l' ← normBlocks (1 / 10000000) c (l.length + 1) l
      pure (rv, (⟨ps, vs, l'⟩ : NodeData ℕ ℤ))) ns =
      (.ok (ns.map fun rv => (rv, (⟨PL rv, bn2.valuesOf rv, R rv⟩ : NodeData ℕ ℤ))) : Py _) :=
    pyMap_ok fun v hv => by
      have hvV := (hmem v).1 hv
      have hv2 : v ∈ bn2.V := by rw [hV]; exact hvV
      obtain ⟨l, e1, _⟩ := htab v hvV
      have hr := (hR v hvV).1
      rw [e1, Option.getD_some] at hr
      rw [(hPL v).1, w2.values_ok hv2, Dict.get_of_get? e1, w2.card_ok hv2]
      simp only [Py.bind_ok]
      rw [hr]; rfl
  set bn' : BayesNet ℕ ℤ := { bn with F := Dict.ofPairs (ns.map fun rv => (rv, (⟨PL rv, bn2.valuesOf rv, R rv⟩ : NodeData ℕ ℤ))) } with hbn'
  have hget : ∀ v, bn'.F.get? v = if v ∈ ns then some ⟨PL v, bn2.valuesOf v, R v⟩ else none := by
    intro v
    simp only [hbn']
    rw [Dict.ofPairs, Dict.get?_update (by rw [Dict.keys_map_pair]; exact hnd),
      Dict.get?_map_pair (f := fun rv => (⟨PL rv, bn2.valuesOf rv, R rv⟩ : NodeData ℕ ℤ))]
    split_ifs <;> rfl
  have hvals : bn'.valuesOf = fun v => if v ∈ bn.V then bn2.valuesOf v else [] := by
    funext v; unfold valuesOf; rw [hget]; simp only [hmem]; split_ifs <;> rfl
  have hvals' : ∀ v ∈ bn.V, bn'.valuesOf v = bn2.valuesOf v := fun v hv => by rw [hvals]; exact if_pos hv
  have hvals2 : bn'.valuesOf = bn2.valuesOf := by
    funext v; rw [hvals]; simp only; split_ifs with h
    · rfl
    · unfold valuesOf
      cases hg : bn2.F.get? v with
      | none => rfl
      | some d => exact absurd ((hV ▸ (w2.dom v).1 (by rw [hg]; rfl) : v ∈ bn.V)) h
  have hcard : bn'.cardOf = bn2.cardOf := by
    have h' : ∀ b : BayesNet ℕ ℤ, b.cardOf = fun v => (b.valuesOf v).length := by
      intro b; funext v; unfold cardOf valuesOf; cases b.F.get? v <;> rfl
    rw [h', h' bn2, hvals2]
  refine ⟨bn', ?_, rfl, rfl, fun v => ?_, fun v hv => ⟨?_, ?_⟩, fun v hv => ?_, fun v hv => ?_⟩
  · unfold mleEstimator
    simp only [← hnsdef, h1, Py.bind_ok]
    rw [hmap]; rfl
  · rw [hget, ← hmem]; split_ifs with h <;> simp [h]
  · rw [hvals' v hv]; exact hval v hv
  · rw [hvals' v hv]; exact w2.values_ne v (by rw [hV]; exact hv)
  · have : bn'.parentsOf v = PL v := by unfold parentsOf; rw [hget, if_pos ((hmem v).2 hv)]
    rw [this]
    exact ⟨(hPL v).2.1, fun p => by rw [(hPL v).2.2, hmem]⟩
  · have : bn'.cptOf v = R v := by unfold cptOf; rw [hget, if_pos ((hmem v).2 hv)]
    rw [this, hcard, hvals2]
    exact (hR v hv).2

/-- Two sublists of a duplicate-free list with the same members are equal. -/
theorem sublist_ext {α : Type _} {L : List α} (hn : L.Nodup) : ∀ {l m : List α}, l.Sublist L → m.Sublist L → (∀ x, x ∈ l ↔ x ∈ m) → l = m := by
  intro l m h1
  induction h1 generalizing m with
  | slnil => intro _ h; symm; rw [List.eq_nil_iff_forall_not_mem]; intro x hx; simpa using (h x).2 hx
  | @cons l L y h1 ih =>
    intro h2 h
    rw [List.nodup_cons] at hn
    cases h2 with
    | cons _ h2 => exact ih hn.2 h2 h
    | cons_cons _ h2 => exact absurd (h1.subset ((h y).2 (by simp))) hn.1
  | @cons_cons l L y h1 ih =>
    intro h2 h
    rw [List.nodup_cons] at hn
    cases h2 with
    | cons _ h2 => exact absurd (h2.subset ((h y).1 (by simp))) hn.1
    | @cons_cons m _ _ h2 =>
      rw [ih hn.2 h2]
      intro x
      have := h x
      simp only [List.mem_cons] at this
      constructor
      · intro hx
        rcases this.1 (.inr hx) with rfl | h'
        · exact absurd (h1.subset hx) hn.1
        · exact h'
      · intro hx
        rcases this.2 (.inr hx) with rfl | h'
        · exact absurd (h2.subset hx) hn.1
        · exact h'

/-- C66: after `mle_estimator`, for a network whose parent lists are in node order (as `set_structure` leaves them) and whose nodes
stand at the positions of columns with the same distinct entries as their own: the structure is unchanged, the values are those of the columns, and
`P(v = x | parents = pa)` is `count(v = x, pa) / (count(pa) + 1e-7)` rounded to five decimals. -/
theorem C66_mle_probabilities (hE : HashOrder (ℕ × ℤ)) (hI : HashOrder ℤ) (bn : BayesNet ℕ ℤ) (s : bn.Shape) (data : Data)
    (hf : data.Fits bn.V) (nodes : Option (List ℕ)) (hns : (nodes.getD bn.V).Perm bn.V)
    (hcol : ∀ v ∈ bn.V, data.SameValues ((nodes.getD bn.V).idxOf v) v) (hEk : ∀ v ∈ bn.V, v ∈ bn.E.keys)
    (hpar : ∀ v ∈ bn.V, (bn.parentsOf v).Sublist (nodes.getD bn.V) ∧ ∀ u, u ∈ bn.parentsOf v ↔ u ∈ bn.V ∧ v ∈ bn.childrenOf u) :
    ∃ bn', mleEstimator hE hI bn data nodes = .ok bn' ∧ bn'.V = bn.V ∧ bn'.E = bn.E ∧ bn'.WF ∧
      ∀ v ∈ bn.V, bn'.parentsOf v = bn.parentsOf v ∧ data.IsValues v (bn'.valuesOf v) ∧
        ∀ a, InRange bn'.cardOf (v :: bn'.parentsOf v) a →
          bn'.prob v a = roundAway 5 (data.count bn'.valuesOf (v :: bn'.parentsOf v) a /
            (data.count bn'.valuesOf (bn'.parentsOf v) a + 1 / 10000000)) := by
  obtain ⟨bn', h1, hV, hE', hdom, hval, hp, htab⟩ := mle_ok hE hI bn s data hf nodes hns hEk
  have hnd : (nodes.getD bn.V).Nodup := hns.nodup_iff.2 s.nodup
  have hpe : ∀ v ∈ bn.V, bn'.parentsOf v = bn.parentsOf v := by
    intro v hv
    obtain ⟨s1, m1⟩ := hp v hv
    obtain ⟨s2, m2⟩ := hpar v hv
    have hiff : ∀ p, p ∈ bn'.parentsOf v ↔ p ∈ bn.parentsOf v := by
      intro p
      rw [m1, m2]
      apply and_congr_right
      intro _
      unfold childrenOf Arc
      constructor
      · rintro ⟨l, hl, hvl⟩; rw [hl]; exact hvl
      · intro h
        cases hg : Dict.get? bn.E p with
        | none => rw [hg] at h; cases h
        | some l => rw [hg] at h; exact ⟨l, rfl, h⟩
    exact sublist_ext hnd s1 s2 hiff
  have hvv : ∀ v ∈ bn.V, data.IsValues v (bn'.valuesOf v) := fun v hv => by
    exact ((hval v hv).1).same (hcol v hv)
  have hfam : ∀ v ∈ bn.V, ∀ u ∈ v :: bn.parentsOf v, u ∈ bn.V := by
    intro v hv u hu
    rcases List.mem_cons.1 hu with rfl | hu
    · exact hv
    · exact s.parents_mem v hv u hu
  refine ⟨bn', h1, hV, hE', ?_, fun v hv => ⟨hpe v hv, hvv v hv, fun a ha => ?_⟩⟩
  · exact {
      nodup := by rw [hV]; exact s.nodup
      dom := fun v => by rw [hdom, hV]
      fam_nodup := fun v hv => by rw [hV] at hv; rw [hpe v hv]; exact s.fam_nodup v hv
      parents_mem := fun v hv => by rw [hV] at hv ⊢; rw [hpe v hv]; exact s.parents_mem v hv
      values_nodup := fun v hv => by rw [hV] at hv; exact (hvv v hv).1.imp fun h => h.ne
      values_ne := fun v hv => by rw [hV] at hv; exact (hval v hv).2
      cpt_len := fun v hv => by rw [hV] at hv; rw [hpe v hv]; exact (htab v hv).1 }
  · unfold BayesNet.prob
    rw [hpe v hv] at ha ⊢
    rw [(htab v hv).2 a ha, Option.getD_some, count_eq hf (hfam v hv) fun u hu => hvv u (hfam v hv u hu),
      count_eq hf (s.parents_mem v hv) fun u hu => hvv u (s.parents_mem v hv u hu)]

/-- Block sums and signs from the formula of a normalised table. -/
theorem block_close {c : ℕ → ℕ} {v : ℕ} {ps : List ℕ} (hv : v ∉ ps) {l : List ℚ} {num : Asg ℕ → ℚ} {den : Asg ℕ → ℚ} {a : Asg ℕ}
    (ha : InRange c ps a)
    (h : ∀ a, InRange c (v :: ps) a → l[enc c (v :: ps) a]? = some (roundAway 5 (num a / den a)))
    (hden : ∀ x, den (a.upd v x) = den a) :
    |blockSum (c v) l (enc c ps a) - (∑ x ∈ Finset.range (c v), num (a.upd v x)) / den a| ≤ c v * (1 / 2 / 10 ^ 5) := by
  rw [blockSum_eq (g := fun x => roundAway 5 (num (a.upd v x) / den a)) fun j hj => by
    have := h (a.upd v j) (by
        intro u hu
        by_cases h : u = v
        · subst h; rw [Asg.upd_self]; exact hj
        · rw [Asg.upd_ne _ _ h]; exact ha u ((List.mem_cons.1 hu).resolve_left h))
    rw [hden] at this
    rw [← this]
    congr 1
    rw [enc, Asg.upd_self, enc_upd_notMem hv]; omega]
  rw [Finset.sum_div]
  exact sum_round_close (c v) 5 _

theorem countP_upd {v : ℕ} {ps : List ℕ} (hv : v ∉ ps) (vals : ℕ → List ℤ) (rows : List (List ℤ)) (a : Asg ℕ) (x : ℕ) :
    (rows.countP fun row => decide (MatchesOrLast vals ps (a.upd v x) row)) =
      rows.countP fun row => decide (MatchesOrLast vals ps a row) := by
  apply List.countP_congr
  intro row _
  rw [decide_eq_true_eq, decide_eq_true_eq]
  unfold MatchesOrLast
  constructor <;> intro h u hu <;> have := h u hu
  · rwa [Asg.upd_ne _ _ (by rintro rfl; exact hv hu)] at this
  · rwa [Asg.upd_ne _ _ (by rintro rfl; exact hv hu)]

theorem card_eq_len (b : BayesNet ℕ ℤ) : b.cardOf = fun v => (b.valuesOf v).length := by
  funext v; unfold cardOf valuesOf; cases b.F.get? v <;> rfl

/-- `count_split` for a network given by its values only. -/
theorem count_split' {vals : ℕ → List ℤ} {v : ℕ} {ps : List ℕ} (hv : v ∉ ps) (hne : vals v ≠ []) (rows : List (List ℤ)) (a : Asg ℕ)
    (hr : ∀ row ∈ rows, v < row.length) :
    ∑ x ∈ Finset.range (vals v).length, ((rows.countP fun row =>
      decide (MatchesOrLast vals (v :: ps) (a.upd v x) row) : ℕ) : ℚ) =
      (rows.countP fun row => decide (MatchesOrLast vals ps a row) : ℕ) := by
  rw [← countP_fiber rows (vals v).length (fun row => seenAs (vals v) ((row[v]?).getD 0))
    (fun row => MatchesOrLast vals ps a row) fun row _ => seenAs_lt hne _]
  apply Finset.sum_congr rfl
  intro x _
  congr 1
  apply List.countP_congr
  intro row hrow
  have hl := List.getElem?_eq_getElem (hr row hrow)
  simp only [decide_eq_true_eq]
  unfold MatchesOrLast
  rw [List.forall_mem_cons, Asg.upd_self]
  have hps : (∀ u ∈ ps, ∃ y ∈ row[u]?, a.upd v x u = seenAs (vals u) y) ↔
      ∀ u ∈ ps, ∃ y ∈ row[u]?, a u = seenAs (vals u) y := by
    constructor <;> intro h u hu <;> have := h u hu
    · rwa [Asg.upd_ne _ _ (by rintro rfl; exact hv hu)] at this
    · rwa [Asg.upd_ne _ _ (by rintro rfl; exact hv hu)]
  rw [hps, hl]
  simp

theorem nonneg_of_entries {c : ℕ → ℕ} {o : List ℕ} (hn : o.Nodup) {l : List ℚ} (hl : l.length = (o.map c).prod)
    {g : Asg ℕ → ℚ} (h : ∀ a, InRange c o a → l[enc c o a]? = some (g a)) (hg : ∀ a, 0 ≤ g a) : ∀ x ∈ l, 0 ≤ x := by
  intro x hx
  obtain ⟨i, hi, rfl⟩ := List.getElem_of_mem hx
  obtain ⟨a, ha, rfl⟩ := enc_surj hn (by rw [← hl]; exact hi)
  have := h a ha
  rw [List.getElem?_eq_getElem hi] at this
  rw [Option.some.inj this]; exact hg a

/-- C36, `mle_estimator`: in every table all entries are non-negative, and every block of consecutive entries (one per value of
the node) sums to one within `card * 5e-6 + 1e-7`, or is entirely zero.  Missing: the zero blocks, see `C36_false`. -/
theorem C36_mle_partial (hE : HashOrder (ℕ × ℤ)) (hI : HashOrder ℤ) (bn : BayesNet ℕ ℤ) (s : bn.Shape) (data : Data)
    (hf : data.Fits bn.V) (nodes : Option (List ℕ)) (hns : (nodes.getD bn.V).Perm bn.V) (hEk : ∀ v ∈ bn.V, v ∈ bn.E.keys) :
    ∃ bn', mleEstimator hE hI bn data nodes = .ok bn' ∧ ∀ v ∈ bn.V,
      (∀ x ∈ bn'.cptOf v, 0 ≤ x) ∧
      ∃ m, (bn'.cptOf v).length = bn'.cardOf v * m ∧ 0 < bn'.cardOf v ∧ ∀ k < m,
        |(pySlice (bn'.cptOf v) (bn'.cardOf v * k) (bn'.cardOf v * k + bn'.cardOf v)).sum - 1| ≤
          bn'.cardOf v * (1 / 2 / 10 ^ 5) + 1 / 10000000 ∨
        ∀ x ∈ pySlice (bn'.cptOf v) (bn'.cardOf v * k) (bn'.cardOf v * k + bn'.cardOf v), x = 0 := by
  obtain ⟨bn', h1, hV, hE', hdom, hval, hp, htab⟩ := mle_ok hE hI bn s data hf nodes hns hEk
  refine ⟨bn', h1, fun v hv => ?_⟩
  obtain ⟨hlen, hent⟩ := htab v hv
  have hnd := List.nodup_cons.1 (s.fam_nodup v hv)
  have hcp : 0 < bn'.cardOf v := by rw [card_eq_len]; exact List.length_pos_of_ne_nil (hval v hv).2
  have hnn : ∀ x ∈ bn'.cptOf v, 0 ≤ x := nonneg_of_entries (s.fam_nodup v hv) hlen hent fun a => roundAway_nonneg (by positivity)
  refine ⟨hnn, ((bn.parentsOf v).map bn'.cardOf).prod, by rw [hlen, List.map_cons, List.prod_cons], hcp, fun k hk => ?_⟩
  obtain ⟨a, ha, rfl⟩ := enc_surj hnd.2 hk
  set S : ℕ := data.rows.countP fun row => decide (MatchesOrLast bn'.valuesOf (bn.parentsOf v) a row) with hS
  have hb := block_close (c := bn'.cardOf) hnd.1 ha hent fun x => by rw [countP_upd hnd.1]
  rw [← hS] at hb
  have hsum := count_split' (vals := bn'.valuesOf) hnd.1 (hval v hv).2 data.rows a
    (fun row hrow => by rw [hf.rect row hrow]; exact hf.cols v hv)
  rw [← hS, show (bn'.valuesOf v).length = bn'.cardOf v by rw [card_eq_len]] at hsum
  rw [hsum] at hb
  by_cases hS0 : S = 0
  · right
    intro x hx
    obtain ⟨j, hj, rfl⟩ := List.getElem_of_mem hx
    have hj' : j < bn'.cardOf v := by
      simp only [pySlice, List.length_take, Nat.add_sub_cancel_left] at hj; omega
    have hin : InRange bn'.cardOf (v :: bn.parentsOf v) (a.upd v j) := by
      intro u hu
      by_cases h : u = v
      · subst h; rw [Asg.upd_self]; exact hj'
      · rw [Asg.upd_ne _ _ h]; exact ha u ((List.mem_cons.1 hu).resolve_left h)
    have he := hent _ hin
    have hz : (data.rows.countP fun row => decide (MatchesOrLast bn'.valuesOf (v :: bn.parentsOf v) (a.upd v j) row)) = 0 := by
      rw [List.countP_eq_zero] at hS0 ⊢
      intro row hrow hh
      apply hS0 row hrow
      rw [decide_eq_true_eq] at hh ⊢
      intro u hu
      have := hh u (by simp [hu])
      rwa [Asg.upd_ne _ _ (by rintro rfl; exact hnd.1 hu)] at this
    rw [hz] at he
    have hq : (pySlice (bn'.cptOf v) (bn'.cardOf v * enc bn'.cardOf (bn.parentsOf v) a)
        (bn'.cardOf v * enc bn'.cardOf (bn.parentsOf v) a + bn'.cardOf v))[j]? = some 0 := by
      unfold pySlice
      rw [Nat.add_sub_cancel_left, List.getElem?_take_of_lt hj', List.getElem?_drop]
      have e : enc bn'.cardOf (v :: bn.parentsOf v) (a.upd v j) = bn'.cardOf v * enc bn'.cardOf (bn.parentsOf v) a + j := by
        rw [enc, Asg.upd_self, enc_upd_notMem hnd.1]; omega
      rw [← e, he]
      simp [roundAway, rintAway]
      decide +kernel
    rw [List.getElem?_eq_getElem hj] at hq
    exact Option.some.inj hq
  · left
    have hS1 : (1 : ℚ) ≤ S := by exact_mod_cast Nat.one_le_iff_ne_zero.2 hS0
    have h2 : |(S : ℚ) / (S + 1 / 10000000) - 1| ≤ 1 / 10000000 := by
      have : (S : ℚ) / (S + 1 / 10000000) - 1 = -((1 / 10000000) / (S + 1 / 10000000)) := by field_simp; ring
      rw [this, abs_neg, abs_of_nonneg (by positivity)]
      exact div_le_self (by positivity) (by linarith)
    have h3 := abs_add_le (blockSum (bn'.cardOf v) (bn'.cptOf v) (enc bn'.cardOf (bn.parentsOf v) a) - (S : ℚ) / (S + 1 / 10000000))
      ((S : ℚ) / (S + 1 / 10000000) - 1)
    rw [sub_add_sub_cancel] at h3
    exact h3.trans (add_le_add hb h2)

/-- The network 0 → 2 ← 1 before any parameters are learned. -/
def vNet : BayesNet ℕ ℤ := ⟨[0, 1, 2], [(0, [2]), (1, [2]), (2, [])], [(0, ⟨[], [], []⟩), (1, ⟨[], [], []⟩), (2, ⟨[0, 1], [], []⟩)]⟩

theorem vNet_shape : vNet.Shape where
  nodup := by decide
  dom := fun v => by rw [← Dict.mem_keys_iff]; simp [vNet, Dict.keys]
  fam_nodup := by decide
  parents_mem := by decide

/-- Columns 0 and 1 are never different; column 2 equals both. -/
def vData : Data := ⟨3, [[0, 0, 0], [1, 1, 1]]⟩

theorem vData_fits : vData.Fits vNet.V := ⟨by decide, by decide, by decide⟩

/-- C36 is false for `mle_estimator`: the two parent configurations that never occur in the data get all-zero rows. -/
theorem C36_false : vNet.Shape ∧ vData.Fits vNet.V ∧
    ∃ bn', mleEstimator HashOrder.id HashOrder.id vNet vData none = .ok bn' ∧ bn'.parentsOf 2 = [0, 1] ∧
      bn'.cptOf 2 = [1, 0, 0, 0, 0, 0, 0, 1] := by
  have h : (mleEstimator HashOrder.id HashOrder.id vNet vData none).okAnd
      (fun b => decide (b.parentsOf 2 = [0, 1] ∧ b.cptOf 2 = [1, 0, 0, 0, 0, 0, 0, 1])) = true := by decide +kernel
  obtain ⟨b, h1, h2⟩ := Py.of_okAnd h
  exact ⟨vNet_shape, vData_fits, b, h1, by simpa using h2⟩

/-- Witness for `C66_mle_probabilities` and `C36_mle_partial`. -/
example : vNet.Shape ∧ vData.Fits vNet.V ∧ ((none : Option (List ℕ)).getD vNet.V).Perm vNet.V ∧
    (∀ v ∈ vNet.V, vData.SameValues (((none : Option (List ℕ)).getD vNet.V).idxOf v) v) ∧ (∀ v ∈ vNet.V, v ∈ vNet.E.keys) ∧
    (∀ v ∈ vNet.V, (vNet.parentsOf v).Sublist ((none : Option (List ℕ)).getD vNet.V) ∧
      ∀ u, u ∈ vNet.parentsOf v ↔ u ∈ vNet.V ∧ v ∈ vNet.childrenOf u) := by
  refine ⟨vNet_shape, vData_fits, by decide, fun v hv => .of_eq ((by decide : ∀ v ∈ vNet.V, vNet.V.idxOf v = v) v hv), by decide, ?_⟩
  intro v hv
  simp only [vNet, List.mem_cons, List.not_mem_nil, or_false] at hv
  have hd : ∀ v ∈ [0, 1, 2], (vNet.parentsOf v).Sublist [0, 1, 2] ∧ (∀ u ∈ vNet.parentsOf v, u ∈ vNet.V ∧ v ∈ vNet.childrenOf u) ∧
    ∀ u ∈ vNet.V, v ∈ vNet.childrenOf u → u ∈ vNet.parentsOf v := by decide
  have := hd v (by simpa using hv)
  exact ⟨this.1, fun u => ⟨this.2.1 u, fun h => this.2.2 u h.1 h.2⟩⟩

/-- `vNet` with the parents of node 2 recorded in the other order (as repeated `add_edge` can leave them). -/
def vNet' : BayesNet ℕ ℤ := ⟨[0, 1, 2], [(0, [2]), (1, [2]), (2, [])], [(0, ⟨[], [], []⟩), (1, ⟨[], [], []⟩), (2, ⟨[1, 0], [], []⟩)]⟩

/-- The order hypothesis of C66 is needed: otherwise the stored parent list is reordered but the table is not, and the network says
`P(2 = 1 | 0 = 1, 1 = 0) = 1` although the only rows with `0 = 1, 1 = 0` have `2 = 0`. -/
theorem C66_parent_order_needed : (mleEstimator HashOrder.id HashOrder.id vNet' ⟨3, [[0, 1, 1], [1, 0, 0], [1, 0, 0], [0, 0, 0], [1, 1, 0]]⟩ none).okAnd
    (fun b => decide (b.parentsOf 2 = [0, 1] ∧ b.prob 2 (fun u => if u = 1 then 0 else 1) = 1)) = true := by
  decide +kernel

/-! ## bayes_estimator: C36, C67 -/

theorem writeBack_ok {bn : BayesNet ℕ ℤ} {cnt : Dict ℕ (List ℚ)} {R : ℕ → List ℚ} : ∀ (rvs : List ℕ) (F : Dict ℕ (NodeData ℕ ℤ)), rvs.Nodup →
    (∀ v ∈ rvs, ∃ l c, cnt.get? v = some l ∧ bn.card v = .ok c ∧ normBlocks 0 c (l.length + 1) l = .ok (R v)) →
    (∀ v ∈ rvs, (F.get? v).isSome) →
    ∃ F', writeBack bn cnt rvs F = .ok F' ∧ ∀ k, F'.get? k =
      if k ∈ rvs then (F.get? k).map (fun d => ⟨d.parents, d.values, R k⟩) else F.get? k := by
  intro rvs
  induction rvs with
  | nil => intro F _ _ _; exact ⟨F, rfl, by simp⟩
  | cons n ns ih =>
    intro F hn hR hF
    obtain ⟨d, hd⟩ := Option.isSome_iff_exists.1 (hF n (by simp))
    obtain ⟨l, c, e1, e2, e3⟩ := hR n (by simp)
    rw [List.nodup_cons] at hn
    obtain ⟨F', h1, h2⟩ := ih (F.set n { d with cpt := R n }) hn.2 (fun v hv => hR v (by simp [hv]))
      (fun v hv => by rw [Dict.get?_set_ne _ _ (by rintro rfl; exact hn.1 hv)]; exact hF v (by simp [hv]))
    refine ⟨F', ?_, fun k => ?_⟩
    · rw [writeBack, Dict.get_of_get? e1]
      simp only [Py.bind_ok, e2]
      rw [e3]
      simp only [Py.bind_ok, Dict.get_of_get? hd, h1]
    · rw [h2]
      by_cases hk : k = n
      · subst hk
        rw [if_neg hn.1, if_pos (by simp), Dict.get?_set_self, hd]; rfl
      · rw [Dict.get?_set_ne _ _ (Ne.symm hk)]
        by_cases hkn : k ∈ ns
        · rw [if_pos hkn, if_pos (by simp [hkn])]
        · rw [if_neg hkn, if_neg (by simp [hk, hkn])]

/-- Everything about the network after `bayes_estimator` with a positive equivalent sample size. -/
theorem bayes_ok (hE : HashOrder (ℕ × ℤ)) (hI : HashOrder ℤ) (bn : BayesNet ℕ ℤ) (s : bn.Shape) (data : Data) (hf : data.Fits bn.V)
    (nodes : Option (List ℕ)) (hns : (nodes.getD bn.V).Perm bn.V) (equiv : Option ℚ) (he : ∀ e ∈ equiv, 0 < e) :
    ∃ bn', bayesEstimator hE hI bn data equiv nodes = .ok bn' ∧ bn'.V = bn.V ∧ bn'.E = bn.E ∧ bn'.WF ∧
      (∀ v ∈ bn.V, data.IsValues ((nodes.getD bn.V).idxOf v) (bn'.valuesOf v)) ∧
      (∀ v, bn'.parentsOf v = bn.parentsOf v) ∧
      ∀ v ∈ bn.V, (bn'.cptOf v).length = ((v :: bn.parentsOf v).map bn'.cardOf).prod ∧
        ∀ a, InRange bn'.cardOf (v :: bn.parentsOf v) a → (bn'.cptOf v)[enc bn'.cardOf (v :: bn.parentsOf v) a]? =
          some (roundAway 5 ((equiv.getD data.rows.length / (bn'.cptOf v).length +
              (data.rows.countP fun row => decide (MatchesOrLast bn'.valuesOf (v :: bn.parentsOf v) a row) : ℕ)) /
            (bn'.cardOf v * (equiv.getD data.rows.length / (bn'.cptOf v).length) +
              (data.rows.countP fun row => decide (MatchesOrLast bn'.valuesOf (bn.parentsOf v) a row) : ℕ)))) := by
  set e : ℚ := equiv.getD data.rows.length with hedef
  have hepos : 0 < e := by
    rw [hedef]
    cases equiv with
    | none => simp only [Option.getD_none]; exact_mod_cast List.length_pos_of_ne_nil hf.ne
    | some x => exact he x rfl
  obtain ⟨bn2, cnt, h1, hV, hE', w2, hp, hval, htab⟩ := learn_ok hE hI (fill := priorFill e) (x := fun n => e / n)
    (fun n hn => by unfold priorFill; rw [if_neg (by omega)]) s hns hf
  set ns := nodes.getD bn.V with hnsdef
  have hnd : ns.Nodup := hns.nodup_iff.2 s.nodup
  have hmem : ∀ v, v ∈ ns ↔ v ∈ bn.V := fun v => hns.mem_iff
  have hnorm : ∀ v, ∃ r, v ∈ bn.V → normBlocks 0 (bn2.cardOf v) (((cnt.get? v).getD []).length + 1) ((cnt.get? v).getD []) = .ok r ∧
      r.length = ((v :: bn.parentsOf v).map bn2.cardOf).prod ∧
      ∀ a, InRange bn2.cardOf (v :: bn.parentsOf v) a → r[enc bn2.cardOf (v :: bn.parentsOf v) a]? =
        some (roundAway 5 ((e / r.length + (data.rows.countP fun row => decide (MatchesOrLast bn2.valuesOf (v :: bn.parentsOf v) a row) : ℕ)) /
          (bn2.cardOf v * (e / r.length) + (data.rows.countP fun row => decide (MatchesOrLast bn2.valuesOf (bn.parentsOf v) a row) : ℕ)))) := by
    intro v
    by_cases hv : v ∈ bn.V
    · have hv2 : v ∈ bn2.V := by rw [hV]; exact hv
      obtain ⟨l, e1, e2, e3⟩ := htab v hv
      have hcp : (0 : ℚ) < bn2.cardOf v := by exact_mod_cast w2.card_pos hv2
      have hlp : (0 : ℚ) < l.length := by
        have : 0 < l.length := by
          rw [e2]
          apply List.prod_pos
          intro c hc
          obtain ⟨p, hp', rfl⟩ := List.mem_map.1 hc
          exact w2.card_pos (w2.fam_mem hv2 p (by rw [hp]; exact hp'))
        exact_mod_cast this
      obtain ⟨r, g1, g2, g3⟩ := norm_ok w2 hv2 (rows := data.rows)
        (fun row hrow => by rw [hf.rect row hrow]; exact hf.cols v hv) (l := l) (x0 := e / l.length) (eps := 0)
        (by rw [e2, hp]) (by rw [hp]; exact e3) (by rw [add_zero]; positivity)
      refine ⟨r, fun _ => ⟨by rw [e1]; exact g1, by rw [g2, e2], fun a ha => ?_⟩⟩
      rw [hp] at g3
      rw [g3 a ha, add_zero, g2]
    · exact ⟨[], fun h => absurd h hv⟩
  choose R hR using hnorm
  obtain ⟨F', g1, g2⟩ := writeBack_ok (bn := bn2) (cnt := cnt) (R := R) ns bn2.F hnd
    (fun v hv => by
      have hvV := (hmem v).1 hv
      obtain ⟨l, e1, _⟩ := htab v hvV
      have hr := (hR v hvV).1
      rw [e1, Option.getD_some] at hr
      exact ⟨l, _, e1, w2.card_ok (by rw [hV]; exact hvV), hr⟩)
    (fun v hv => (w2.dom v).2 (by rw [hV]; exact (hmem v).1 hv))
  set bn' : BayesNet ℕ ℤ := { bn2 with F := F' } with hbn'
  have hget : ∀ k, bn'.F.get? k = if k ∈ ns then (bn2.F.get? k).map (fun d => ⟨d.parents, d.values, R k⟩) else bn2.F.get? k := g2
  have hpar : ∀ v, bn'.parentsOf v = bn.parentsOf v := by
    intro v; rw [← hp]; unfold parentsOf; rw [hget]; split_ifs
    · cases bn2.F.get? v <;> rfl
    · rfl
  have hvals : bn'.valuesOf = bn2.valuesOf := by
    funext v; unfold valuesOf; rw [hget]; split_ifs
    · cases bn2.F.get? v <;> rfl
    · rfl
  have hcard : bn'.cardOf = bn2.cardOf := by rw [card_eq_len, card_eq_len bn2, hvals]
  have hcpt : ∀ v ∈ bn.V, bn'.cptOf v = R v := by
    intro v hv
    obtain ⟨d, hd⟩ := Option.isSome_iff_exists.1 ((w2.dom v).2 (by rw [hV]; exact hv))
    unfold cptOf; rw [hget, if_pos ((hmem v).2 hv), hd]; rfl
  refine ⟨bn', ?_, hV, hE', ?_, fun v hv => by rw [hvals]; exact hval v hv, hpar, fun v hv => ?_⟩
  · unfold bayesEstimator
    simp only [← hnsdef, ← hedef, h1, Py.bind_ok]
    rw [g1]; rfl
  · exact {
      nodup := w2.nodup
      dom := fun v => by
        rw [hget]; split_ifs
        · rw [show bn'.V = bn2.V from rfl, ← w2.dom]; cases bn2.F.get? v <;> simp
        · rw [w2.dom]
      fam_nodup := fun v hv => by rw [hpar, ← hp]; exact w2.fam_nodup v hv
      parents_mem := fun v hv => by rw [hpar, ← hp]; exact w2.parents_mem v hv
      values_nodup := fun v hv => by rw [hvals]; exact w2.values_nodup v hv
      values_ne := fun v hv => by rw [hvals]; exact w2.values_ne v hv
      cpt_len := fun v hv => by
        have hv' : v ∈ bn.V := hV ▸ hv
        rw [hcpt v hv', hpar, hcard]; exact (hR v hv').2.1 }
  · rw [hcpt v hv, hcard, hvals]
    exact (hR v hv).2

/-- C36, `bayes_estimator` with a positive equivalent sample size (or the default one): every table is non-negative and every
block of consecutive entries (one per value of the node) sums to one within `card * 5e-6`, observed or not. -/
theorem C36_bayes_partial (hE : HashOrder (ℕ × ℤ)) (hI : HashOrder ℤ) (bn : BayesNet ℕ ℤ) (s : bn.Shape) (data : Data)
    (hf : data.Fits bn.V) (nodes : Option (List ℕ)) (hns : (nodes.getD bn.V).Perm bn.V) (equiv : Option ℚ) (he : ∀ e ∈ equiv, 0 < e) :
    ∃ bn', bayesEstimator hE hI bn data equiv nodes = .ok bn' ∧ bn'.WF ∧ ∀ v ∈ bn.V,
      (∀ x ∈ bn'.cptOf v, 0 ≤ x) ∧
      ∃ m, (bn'.cptOf v).length = bn'.cardOf v * m ∧ 0 < bn'.cardOf v ∧ ∀ k < m,
        |(pySlice (bn'.cptOf v) (bn'.cardOf v * k) (bn'.cardOf v * k + bn'.cardOf v)).sum - 1| ≤
          bn'.cardOf v * (1 / 2 / 10 ^ 5) := by
  obtain ⟨bn', h1, hV, hE', w', hval, hp, htab⟩ := bayes_ok hE hI bn s data hf nodes hns equiv he
  refine ⟨bn', h1, w', fun v hv => ?_⟩
  obtain ⟨hlen, hent⟩ := htab v hv
  have hv' : v ∈ bn'.V := by rw [hV]; exact hv
  have hnd := List.nodup_cons.1 (s.fam_nodup v hv)
  have hcp := w'.card_pos hv'
  have hepos : 0 < equiv.getD (data.rows.length : ℚ) := by
    cases equiv with
    | none => simp only [Option.getD_none]; exact_mod_cast List.length_pos_of_ne_nil hf.ne
    | some x => exact he x rfl
  have hlp : (0 : ℚ) < (bn'.cptOf v).length := by
    have : 0 < (bn'.cptOf v).length := by
      rw [hlen]
      apply List.prod_pos
      intro c hc
      obtain ⟨p, hp', rfl⟩ := List.mem_map.1 hc
      exact w'.card_pos (w'.fam_mem hv' p (by rw [hp]; exact hp'))
    exact_mod_cast this
  refine ⟨nonneg_of_entries (s.fam_nodup v hv) hlen hent fun a => roundAway_nonneg (by positivity),
    ((bn.parentsOf v).map bn'.cardOf).prod, by rw [hlen, List.map_cons, List.prod_cons], hcp, fun k hk => ?_⟩
  obtain ⟨a, ha, rfl⟩ := enc_surj hnd.2 hk
  have hb := block_close (c := bn'.cardOf) hnd.1 ha hent fun x => by rw [countP_upd hnd.1]
  have hsum := count_split' (vals := bn'.valuesOf) hnd.1 (w'.values_ne v hv') data.rows a
    (fun row hrow => by rw [hf.rect row hrow]; exact hf.cols v hv)
  rw [show (bn'.valuesOf v).length = bn'.cardOf v by rw [card_eq_len]] at hsum
  rw [Finset.sum_add_distrib, hsum, Finset.sum_const, Finset.card_range, nsmul_eq_mul] at hb
  have hcq : (0 : ℚ) < bn'.cardOf v := by exact_mod_cast hcp
  rw [div_self (by positivity)] at hb
  exact hb

/-- C67: the probabilities after `bayes_estimator`, nodes at the positions of columns with the same distinct entries as their own: with `K` table entries and prior weight
`E`, `P(v = x | pa) = (E/K + count(v = x, pa)) / (card(v) E/K + count(pa))`, rounded to five decimals; the structure is unchanged. -/
theorem C67_bayes_probabilities (hE : HashOrder (ℕ × ℤ)) (hI : HashOrder ℤ) (bn : BayesNet ℕ ℤ) (s : bn.Shape) (data : Data)
    (hf : data.Fits bn.V) (nodes : Option (List ℕ)) (hns : (nodes.getD bn.V).Perm bn.V)
    (hcol : ∀ v ∈ bn.V, data.SameValues ((nodes.getD bn.V).idxOf v) v) (equiv : Option ℚ) (he : ∀ e ∈ equiv, 0 < e) :
    ∃ bn', bayesEstimator hE hI bn data equiv nodes = .ok bn' ∧ bn'.V = bn.V ∧ bn'.E = bn.E ∧ bn'.WF ∧
      ∀ v ∈ bn.V, bn'.parentsOf v = bn.parentsOf v ∧ data.IsValues v (bn'.valuesOf v) ∧
        ∀ a, InRange bn'.cardOf (v :: bn'.parentsOf v) a →
          bn'.prob v a = roundAway 5 (
            (equiv.getD data.rows.length / (bn'.cptOf v).length + data.count bn'.valuesOf (v :: bn'.parentsOf v) a) /
            (bn'.cardOf v * (equiv.getD data.rows.length / (bn'.cptOf v).length) + data.count bn'.valuesOf (bn'.parentsOf v) a)) := by
  obtain ⟨bn', h1, hV, hE', w', hval, hp, htab⟩ := bayes_ok hE hI bn s data hf nodes hns equiv he
  have hvv : ∀ v ∈ bn.V, data.IsValues v (bn'.valuesOf v) := fun v hv => by
    exact (hval v hv).same (hcol v hv)
  have hfam : ∀ v ∈ bn.V, ∀ u ∈ v :: bn.parentsOf v, u ∈ bn.V := by
    intro v hv u hu
    rcases List.mem_cons.1 hu with rfl | hu
    · exact hv
    · exact s.parents_mem v hv u hu
  refine ⟨bn', h1, hV, hE', w', fun v hv => ⟨hp v, hvv v hv, fun a ha => ?_⟩⟩
  unfold BayesNet.prob
  rw [hp] at ha ⊢
  rw [(htab v hv).2 a ha, Option.getD_some, count_eq hf (hfam v hv) fun u hu => hvv u (hfam v hv u hu),
    count_eq hf (s.parents_mem v hv) fun u hu => hvv u (s.parents_mem v hv u hu)]

/-- Witness for the `bayes_estimator` theorems: hypotheses as in the witness above; the unobserved rows become uniform. -/
example : (bayesEstimator HashOrder.id HashOrder.id vNet vData (some 8) none).okAnd
    (fun b => decide (b.cptOf 2 = [2/3, 1/3, 1/2, 1/2, 1/2, 1/2, 1/3, 2/3].map (roundAway 5))) = true ∧
    (∀ e ∈ (some 8 : Option ℚ), 0 < e) := by
  refine ⟨by decide +kernel, ?_⟩
  intro e he
  rw [Option.mem_some_iff] at he
  rw [← he]; decide

end PyBN
