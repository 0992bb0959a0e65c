import Verif.Model.RoundedLearn
import Verif.Proofs.Rounded
import Verif.Props.Learn

/-!
# `mle_estimator` with rounded arithmetic: the result
-/

set_option linter.unusedSectionVars false

namespace PyBN
namespace BayesNet

theorem flDen_pos {u : ℚ} {rnd : ℚ → ℚ} (r : Rounds u rnd) {s : ℚ} (hs : 0 ≤ s) : 0 < flDen rnd s := by
  have h1 := (r.near hs).nonneg r.lt_one
  have h2 := r.near (x := 1 / 10000000) (by norm_num)
  have hu := r.lt_one
  have h3 : 0 < rnd (1 / 10000000) := lt_of_lt_of_le (mul_pos (pow_pos (by linarith) _) (by norm_num)) h2.2.1
  have h4 := r.near (x := rnd s + rnd (1 / 10000000)) (by linarith)
  exact lt_of_lt_of_le (mul_pos (pow_pos (by linarith) _) (by linarith)) h4.2.1

theorem normBlocksR_ok {rnd : ℚ → ℚ} {card : ℕ} (hc : 0 < card) : ∀ (m fuel : ℕ) (l : List ℚ), m < fuel → l.length = card * m →
    (∀ k < m, flDen rnd (blockSum card l k) ≠ 0) →
    ∃ r, normBlocksR rnd card fuel l = .ok r ∧ r.length = l.length ∧
      ∀ k < m, ∀ j < card, r[card * k + j]? = (l[card * k + j]?).map fun x => flShare rnd x (blockSum card l k) := by
  intro m
  induction m with
  | zero =>
    intro fuel l hf hl _
    have : l = [] := by apply List.eq_nil_of_length_eq_zero; rw [hl]; simp
    subst this
    cases fuel with
    | zero => omega
    | succ f => exact ⟨[], by rw [normBlocksR, if_neg (by omega), if_pos rfl], rfl, by simp⟩
  | succ m ih =>
    intro fuel l hf hl hs
    cases fuel with
    | zero => omega
    | succ f =>
      have hlen : l.length = card + card * m := by rw [hl]; ring
      have hdrop : ∀ k, blockSum card (l.drop card) k = blockSum card l (k + 1) := by
        intro k
        unfold blockSum pySlice
        rw [List.drop_drop]
        congr 2
        · omega
        · congr 1; ring
      obtain ⟨r, h1, h2, h3⟩ := ih f (l.drop card) (by omega) (by rw [List.length_drop]; omega)
        (fun k hk => by rw [hdrop]; exact hs (k + 1) (by omega))
      have h0 : blockSum card l 0 = (l.take card).sum := by simp [blockSum, pySlice]
      have hs0 := hs 0 (by omega)
      rw [h0] at hs0
      refine ⟨(l.take card).map (fun x => flShare rnd x (l.take card).sum) ++ r, ?_, ?_, ?_⟩
      · rw [normBlocksR, if_neg (by omega), if_neg (by rintro rfl; simp at hlen; omega), if_neg hs0, if_neg (by omega), h1]; rfl
      · simp [h2]; omega
      · intro k hk j hj
        cases k with
        | zero =>
          rw [Nat.mul_zero, Nat.zero_add, List.getElem?_append_left (by simp; omega), List.getElem?_map, List.getElem?_take_of_lt hj, h0]
        | succ k =>
          have e : card * (k + 1) + j = card + (card * k + j) := by ring
          have hlt : (List.map (fun x => flShare rnd x (List.take card l).sum) (List.take card l)).length = card := by simp; omega
          rw [List.getElem?_append_right (by rw [hlt]; omega), hlt, e, Nat.add_sub_cancel_left, h3 k (by omega) j hj, hdrop,
            List.getElem?_drop]

theorem norm_okR {u : ℚ} {rnd : ℚ → ℚ} (r : Rounds u rnd) {bn : BayesNet ℕ ℤ} (w : bn.WF) {v : ℕ} (hv : v ∈ bn.V) {rows : List (List ℤ)} (hr : ∀ row ∈ rows, v < row.length)
    {l : List ℚ} (hl : l.length = ((v :: bn.parentsOf v).map bn.cardOf).prod)
    (hent : ∀ a, InRange bn.cardOf (v :: bn.parentsOf v) a → l[enc bn.cardOf (v :: bn.parentsOf v) a]? =
      some ((0 : ℚ) + (rows.countP fun row => decide (MatchesOrLast bn.valuesOf (v :: bn.parentsOf v) a row) : ℕ)))
    :
    ∃ t, normBlocksR rnd (bn.cardOf v) (l.length + 1) l = .ok t ∧ t.length = l.length ∧
      ∀ a, InRange bn.cardOf (v :: bn.parentsOf v) a → t[enc bn.cardOf (v :: bn.parentsOf v) a]? =
        some (flShare rnd ((0 : ℚ) + (rows.countP fun row => decide (MatchesOrLast bn.valuesOf (v :: bn.parentsOf v) a row) : ℕ))
          (bn.cardOf v * (0 : ℚ) + (rows.countP fun row => decide (MatchesOrLast bn.valuesOf (bn.parentsOf v) a row) : ℕ))) := by
  have hnd := List.nodup_cons.1 (w.fam_nodup v hv)
  have hc := w.card_pos hv
  have hbs : ∀ a, InRange bn.cardOf (bn.parentsOf v) a → blockSum (bn.cardOf v) l (enc bn.cardOf (bn.parentsOf v) a) =
      bn.cardOf v * (0 : ℚ) + (rows.countP fun row => decide (MatchesOrLast bn.valuesOf (bn.parentsOf v) a row) : ℕ) := by
    intro a ha
    rw [blockSum_eq (g := fun x => (0 : ℚ) + ((rows.countP fun row => decide (MatchesOrLast bn.valuesOf (v :: bn.parentsOf v) (a.upd v x) row) : ℕ) : ℚ))]
    · rw [Finset.sum_add_distrib, count_split w hv rows a hr, Finset.sum_const, Finset.card_range, nsmul_eq_mul]
    · intro j hj
      have := hent (a.upd v j) (by
        intro u hu
        by_cases h : u = v
        · subst h; rw [Asg.upd_self]; exact hj
        · rw [Asg.upd_ne _ _ h]; exact ha u ((List.mem_cons.1 hu).resolve_left h))
      rw [← this]
      congr 1
      rw [enc, Asg.upd_self, enc_upd_notMem hnd.1]; omega
  have hlen : l.length = bn.cardOf v * ((bn.parentsOf v).map bn.cardOf).prod := by rw [hl, List.map_cons, List.prod_cons]
  obtain ⟨t, h1, h2, h3⟩ := normBlocksR_ok (rnd := rnd) hc ((bn.parentsOf v).map bn.cardOf).prod (l.length + 1) l
    (by rw [hlen]; have := Nat.le_mul_of_pos_left ((bn.parentsOf v).map bn.cardOf).prod hc; omega) hlen
    (fun k hk => by
      obtain ⟨a, ha, rfl⟩ := enc_surj hnd.2 hk
      rw [hbs a ha]
      have : (0 : ℚ) ≤ (rows.countP fun row => decide (MatchesOrLast bn.valuesOf (bn.parentsOf v) a row) : ℕ) := Nat.cast_nonneg _
      exact (flDen_pos r (by rw [mul_zero, zero_add]; exact this)).ne')
  refine ⟨t, h1, h2, fun a ha => ?_⟩
  have hap : InRange bn.cardOf (bn.parentsOf v) a := fun u hu => ha u (by simp [hu])
  have := h3 _ (enc_lt hap) (a v) (ha v (by simp))
  rw [hbs a hap] at this
  have he : enc bn.cardOf (v :: bn.parentsOf v) a = bn.cardOf v * enc bn.cardOf (bn.parentsOf v) a + a v := by rw [enc]; omega
  rw [he, this, ← he, hent a ha]; rfl

theorem mleR_ok {u : ℚ} {rnd : ℚ → ℚ} (hr : Rounds u rnd) (hE : HashOrder (ℕ × ℤ)) (hI : HashOrder ℤ) (bn : BayesNet ℕ ℤ) (s : bn.Shape) (data : Data) (hf : data.Fits bn.V)
    (nodes : Option (List ℕ)) (hns : (nodes.getD bn.V).Perm bn.V) (hEk : ∀ v ∈ bn.V, v ∈ bn.E.keys) :
    ∃ bn', mleEstimatorR rnd hE hI bn data nodes = .ok bn' ∧ bn'.V = bn.V ∧ bn'.E = bn.E ∧
      (∀ v, (bn'.F.get? v).isSome ↔ v ∈ bn.V) ∧
      (∀ v ∈ bn.V, data.IsValues ((nodes.getD bn.V).idxOf v) (bn'.valuesOf v) ∧ bn'.valuesOf v ≠ []) ∧
      (∀ v ∈ bn.V, (bn'.parentsOf v).Sublist (nodes.getD bn.V) ∧ ∀ p, p ∈ bn'.parentsOf v ↔ p ∈ bn.V ∧ Arc bn.E p v) ∧
      ∀ v ∈ bn.V, (bn'.cptOf v).length = ((v :: bn.parentsOf v).map bn'.cardOf).prod ∧
        ∀ a, InRange bn'.cardOf (v :: bn.parentsOf v) a → (bn'.cptOf v)[enc bn'.cardOf (v :: bn.parentsOf v) a]? =
          some (flShare rnd ((data.rows.countP fun row => decide (MatchesOrLast bn'.valuesOf (v :: bn.parentsOf v) a row) : ℕ) : ℚ)
            ((data.rows.countP fun row => decide (MatchesOrLast bn'.valuesOf (bn.parentsOf v) a row) : ℕ))) := by
  obtain ⟨bn2, cnt, h1, hV, hE', w2, hp, hval, htab⟩ := learn_ok hE hI (fill := fun _ => .ok 0) (x := fun _ => 0) (fun _ _ => rfl) s hns hf
  set ns := nodes.getD bn.V with hnsdef
  have hnd : ns.Nodup := hns.nodup_iff.2 s.nodup
  have hmem : ∀ v, v ∈ ns ↔ v ∈ bn.V := fun v => hns.mem_iff
  have hpl : ∀ v, ∃ l, parentList ns bn.E v = .ok l ∧ List.Sublist l ns ∧ ∀ p, p ∈ l ↔ p ∈ ns ∧ Arc bn.E p v :=
    fun v => parentList_ok (fun u hu => hEk u ((hmem u).1 hu)) v
  choose PL hPL using hpl
  have hnorm : ∀ v, ∃ r, v ∈ bn.V → normBlocksR rnd (bn2.cardOf v) (((cnt.get? v).getD []).length + 1) ((cnt.get? v).getD []) = .ok r ∧
      r.length = ((v :: bn.parentsOf v).map bn2.cardOf).prod ∧
      ∀ a, InRange bn2.cardOf (v :: bn.parentsOf v) a → r[enc bn2.cardOf (v :: bn.parentsOf v) a]? =
        some (flShare rnd ((data.rows.countP fun row => decide (MatchesOrLast bn2.valuesOf (v :: bn.parentsOf v) a row) : ℕ) : ℚ)
          ((data.rows.countP fun row => decide (MatchesOrLast bn2.valuesOf (bn.parentsOf v) a row) : ℕ))) := by
    intro v
    by_cases hv : v ∈ bn.V
    · obtain ⟨l, e1, e2, e3⟩ := htab v hv
      obtain ⟨r, g1, g2, g3⟩ := norm_okR hr w2 (v := v) (by rw [hV]; exact hv) (rows := data.rows)
        (fun row hrow => by rw [hf.rect row hrow]; exact hf.cols v hv) (l := l)
        (by rw [e2, hp]) (by rw [hp]; exact e3)
      refine ⟨r, fun _ => ⟨by rw [e1]; exact g1, by rw [g2, e2], fun a ha => ?_⟩⟩
      rw [hp] at g3
      rw [g3 a ha, mul_zero, zero_add, zero_add]
    · exact ⟨[], fun h => absurd h hv⟩
  choose R hR using hnorm
  have hmap : pyMap (fun rv => do
      let ps ← parentList ns bn.E rv
      let vs ← bn2.values rv
      let l ← cnt.get rv
      let c ← bn2.card rv
      let l' ← normBlocksR rnd c (l.length + 1) l
      pure (rv, (⟨ps, vs, l'⟩ : NodeData ℕ ℤ))) ns =
      (.ok (ns.map fun rv => (rv, (⟨PL rv, bn2.valuesOf rv, R rv⟩ : NodeData ℕ ℤ))) : Py _) :=
    pyMap_ok fun v hv => by
      have hvV := (hmem v).1 hv
      have hv2 : v ∈ bn2.V := by rw [hV]; exact hvV
      obtain ⟨l, e1, _⟩ := htab v hvV
      have hr' := (hR v hvV).1
      rw [e1, Option.getD_some] at hr'
      rw [(hPL v).1, w2.values_ok hv2, Dict.get_of_get? e1, w2.card_ok hv2]
      simp only [Py.bind_ok]
      rw [hr']; rfl
  set bn' : BayesNet ℕ ℤ := { bn with F := Dict.ofPairs (ns.map fun rv => (rv, (⟨PL rv, bn2.valuesOf rv, R rv⟩ : NodeData ℕ ℤ))) } with hbn'
  have hget : ∀ v, bn'.F.get? v = if v ∈ ns then some ⟨PL v, bn2.valuesOf v, R v⟩ else none := by
    intro v
    simp only [hbn']
    rw [Dict.ofPairs, Dict.get?_update (by rw [Dict.keys_map_pair]; exact hnd),
      Dict.get?_map_pair (f := fun rv => (⟨PL rv, bn2.valuesOf rv, R rv⟩ : NodeData ℕ ℤ))]
    split_ifs <;> rfl
  have hvals : bn'.valuesOf = fun v => if v ∈ bn.V then bn2.valuesOf v else [] := by
    funext v; unfold valuesOf; rw [hget]; simp only [hmem]; split_ifs <;> rfl
  have hvals' : ∀ v ∈ bn.V, bn'.valuesOf v = bn2.valuesOf v := fun v hv => by rw [hvals]; exact if_pos hv
  have hvals2 : bn'.valuesOf = bn2.valuesOf := by
    funext v; rw [hvals]; simp only; split_ifs with h
    · rfl
    · unfold valuesOf
      cases hg : bn2.F.get? v with
      | none => rfl
      | some d => exact absurd ((hV ▸ (w2.dom v).1 (by rw [hg]; rfl) : v ∈ bn.V)) h
  have hcard : bn'.cardOf = bn2.cardOf := by
    have h' : ∀ b : BayesNet ℕ ℤ, b.cardOf = fun v => (b.valuesOf v).length := by
      intro b; funext v; unfold cardOf valuesOf; cases b.F.get? v <;> rfl
    rw [h', h' bn2, hvals2]
  refine ⟨bn', ?_, rfl, rfl, fun v => ?_, fun v hv => ⟨?_, ?_⟩, fun v hv => ?_, fun v hv => ?_⟩
  · unfold mleEstimatorR
    simp only [← hnsdef, h1, Py.bind_ok]
    rw [hmap]; rfl
  · rw [hget, ← hmem]; split_ifs with h <;> simp [h]
  · rw [hvals' v hv]; exact hval v hv
  · rw [hvals' v hv]; exact w2.values_ne v (by rw [hV]; exact hv)
  · have : bn'.parentsOf v = PL v := by unfold parentsOf; rw [hget, if_pos ((hmem v).2 hv)]
    rw [this]
    exact ⟨(hPL v).2.1, fun p => by rw [(hPL v).2.2, hmem]⟩
  · have : bn'.cptOf v = R v := by unfold cptOf; rw [hget, if_pos ((hmem v).2 hv)]
    rw [this, hcard, hvals2]
    exact (hR v hv).2

end BayesNet
end PyBN
