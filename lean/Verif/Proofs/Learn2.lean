import Verif.Proofs.Learn
import Mathlib.Tactic.Positivity
import Mathlib.Algebra.Order.BigOperators.Ring.Finset

set_option linter.unusedSectionVars false

namespace PyBN
namespace BayesNet

theorem Shape.get {bn : BayesNet ℕ ℤ} (s : bn.Shape) {v : ℕ} (hv : v ∈ bn.V) :
    ∃ d, bn.F.get? v = some d ∧ bn.parentsOf v = d.parents := by
  obtain ⟨d, hd⟩ := Option.isSome_iff_exists.1 ((s.dom v).2 hv)
  exact ⟨d, hd, by unfold parentsOf; rw [hd]⟩

/-- Everything `learn` does, for a list of nodes that is a reordering of the network's nodes. -/
theorem learn_ok (hE : HashOrder (ℕ × ℤ)) (hI : HashOrder ℤ) {fill : ℕ → Py ℚ} {x : ℕ → ℚ} (hfill : ∀ n, 0 < n → fill n = .ok (x n))
    {bn : BayesNet ℕ ℤ} (s : bn.Shape) {data : Data} {ns : List ℕ} (hns : ns.Perm bn.V) (hf : data.Fits bn.V) :
    ∃ bn2 cnt, learn hE hI fill bn data ns = .ok (bn2, cnt) ∧ bn2.V = bn.V ∧ bn2.E = bn.E ∧ bn2.WF ∧
      (∀ v, bn2.parentsOf v = bn.parentsOf v) ∧
      (∀ v ∈ bn.V, data.IsValues (ns.idxOf v) (bn2.valuesOf v)) ∧
      ∀ v ∈ bn.V, ∃ l, cnt.get? v = some l ∧ l.length = ((v :: bn.parentsOf v).map bn2.cardOf).prod ∧
        ∀ a, InRange bn2.cardOf (v :: bn.parentsOf v) a → l[enc bn2.cardOf (v :: bn.parentsOf v) a]? =
          some (x l.length + (data.rows.countP fun row => decide (MatchesOrLast bn2.valuesOf (v :: bn.parentsOf v) a row) : ℕ)) := by
  have hnd : ns.Nodup := hns.nodup_iff.2 s.nodup
  have hmem : ∀ v, v ∈ ns ↔ v ∈ bn.V := fun v => hns.mem_iff
  have hlen : ns.length ≤ data.ncol := by
    have : ns ⊆ List.range data.ncol := fun v hv => List.mem_range.2 (hf.cols v ((hmem v).1 hv))
    simpa using (List.subperm_of_subset hnd this).length_le
  obtain ⟨F1, h1, h2⟩ := setValues_ok (data := data) (cols := data.entries) ns 0 bn.F hnd
    (fun j hj => by rw [Nat.zero_add]; exact Data.col_ok hf.rect (by omega)) (fun n hn => (s.dom n).2 ((hmem n).1 hn))
  set bn1 : BayesNet ℕ ℤ := { bn with F := F1 } with hbn1
  have hF1 : ∀ k, bn1.F.get? k = if k ∈ ns then (bn.F.get? k).map (fun d => { d with values := npUnique (data.entries (ns.idxOf k)) })
      else bn.F.get? k := by intro k; have := h2 k; rwa [Nat.zero_add] at this
  have hidx : ∀ v ∈ bn.V, ns.idxOf v < data.ncol := fun v hv => by
    have := List.idxOf_lt_length_of_mem ((hmem v).2 hv); omega
  have hp1 : ∀ v, bn1.parentsOf v = bn.parentsOf v := by
    intro v; unfold parentsOf; rw [hF1]; split_ifs with h
    · cases bn.F.get? v <;> rfl
    · rfl
  have hv1 : ∀ v ∈ bn.V, bn1.valuesOf v = npUnique (data.entries (ns.idxOf v)) := by
    intro v hv; obtain ⟨d, hd, _⟩ := s.get hv
    unfold valuesOf; rw [hF1, if_pos ((hmem v).2 hv), hd]; rfl
  have hcl : ∀ v, bn1.cardOf v = (bn1.valuesOf v).length := by
    intro v; unfold cardOf valuesOf; cases bn1.F.get? v <;> rfl
  have hd1 : ∀ v, (bn1.F.get? v).isSome ↔ v ∈ bn.V := by
    intro v; rw [← s.dom, hF1]; split_ifs
    · cases bn.F.get? v <;> simp
    · rfl
  have hne1 : ∀ v ∈ bn.V, bn1.valuesOf v ≠ [] := by
    intro v hv h0
    obtain ⟨row, hrow⟩ := List.exists_mem_of_ne_nil _ hf.ne
    have hlt : ns.idxOf v < row.length := by rw [hf.rect row hrow]; exact hidx v hv
    have := ((Data.isValues_unique hf.rect (hidx v hv)).2 row[ns.idxOf v]).2 ⟨row, hrow, List.getElem?_eq_getElem hlt⟩
    rw [← hv1 v hv, h0] at this; cases this
  have hcp1 : ∀ v ∈ bn.V, 0 < bn1.cardOf v := fun v hv => by rw [hcl]; exact List.length_pos_of_ne_nil (hne1 v hv)
  have hpr : ∀ v ∈ bn.V, 0 < ((bn1.parentsOf v).map bn1.cardOf).prod * bn1.cardOf v := by
    intro v hv
    refine Nat.mul_pos (List.prod_pos ?_) (hcp1 v hv)
    intro c hc
    obtain ⟨p, hp, rfl⟩ := List.mem_map.1 hc
    exact hcp1 p (s.parents_mem v hv p (by rwa [hp1] at hp))
  obtain ⟨F2, h3, h4⟩ := setTables_ok (fill := fill) (x := fun v => x (((bn1.parentsOf v).map bn1.cardOf).prod * bn1.cardOf v)) (V := bn.V) ns bn1
    hnd (fun v hv => (hmem v).1 hv) (fun v hv => (hd1 v).2 hv)
    (fun v hv p hp => s.parents_mem v hv p (by rwa [hp1] at hp)) (fun v hv => hfill _ (hpr v hv))
  set bn2 : BayesNet ℕ ℤ := { bn1 with F := F2 } with hbn2
  have hF2 : ∀ k, bn2.F.get? k = if k ∈ ns then (bn1.F.get? k).map (fun d => ⟨d.parents, d.values,
      List.replicate (((bn1.parentsOf k).map bn1.cardOf).prod * bn1.cardOf k) (x (((bn1.parentsOf k).map bn1.cardOf).prod * bn1.cardOf k))⟩)
      else bn1.F.get? k := h4
  have hp2 : ∀ v, bn2.parentsOf v = bn.parentsOf v := by
    intro v; rw [← hp1]; unfold parentsOf; rw [hF2]; split_ifs with h
    · cases bn1.F.get? v <;> rfl
    · rfl
  have hv2 : ∀ v, bn2.valuesOf v = bn1.valuesOf v := by
    intro v; unfold valuesOf; rw [hF2]; split_ifs with h
    · cases bn1.F.get? v <;> rfl
    · rfl
  have hc2 : bn2.cardOf = bn1.cardOf := by
    funext v; unfold cardOf; rw [hF2]; split_ifs with h
    · cases bn1.F.get? v <;> rfl
    · rfl
  have hcpt : ∀ v ∈ bn.V, bn2.cptOf v = List.replicate ((v :: bn.parentsOf v).map bn2.cardOf).prod
      (x ((v :: bn.parentsOf v).map bn2.cardOf).prod) := by
    intro v hv
    obtain ⟨d, hd⟩ := Option.isSome_iff_exists.1 ((hd1 v).2 hv)
    unfold cptOf; rw [hF2, if_pos ((hmem v).2 hv), hd, hc2, List.map_cons, List.prod_cons, Nat.mul_comm, ← hp1]; rfl
  have w2 : bn2.WF := {
    nodup := s.nodup
    dom := fun v => by
      rw [hF2]; split_ifs
      · rw [← hd1]; cases bn1.F.get? v <;> simp
      · rw [hd1]
    fam_nodup := fun v hv => by rw [hp2]; exact s.fam_nodup v hv
    parents_mem := fun v hv => by rw [hp2]; exact s.parents_mem v hv
    values_nodup := fun v hv => by rw [hv2, hv1 v hv]; exact npUnique_nodup _
    values_ne := fun v hv => by rw [hv2]; exact hne1 v hv
    cpt_len := fun v hv => by rw [hp2, hcpt v hv, List.length_replicate] }
  have hinit : pyMap (fun rv => do let c ← bn2.cpt rv; pure (rv, c)) ns = (.ok (ns.map fun rv => (rv, bn2.cptOf rv)) : Py _) :=
    pyMap_ok fun v hv => by rw [w2.cpt_ok ((hmem v).1 hv)]; rfl
  have hget : ∀ v ∈ ns, Dict.get? (Dict.ofPairs (ns.map fun rv => (rv, bn2.cptOf rv))) v = some (bn2.cptOf v) := by
    intro v hv
    rw [Dict.ofPairs, Dict.get?_update (by rw [Dict.keys_map_pair]; exact hnd), Dict.get?_map_pair, if_pos hv]
  obtain ⟨cnt, h5, h6⟩ := countRows_ok (hE := hE) (hI := hI) w2 (ns := ns) hns data.rows (Dict.ofPairs (ns.map fun rv => (rv, bn2.cptOf rv)))
    (fun row hrow v hv => by rw [hf.rect row hrow]; exact hf.cols v ((hmem v).1 hv))
    (fun v hv => ⟨_, hget v hv, w2.cpt_len v ((hmem v).1 hv)⟩)
  refine ⟨bn2, cnt, ?_, rfl, rfl, w2, hp2, fun v hv => ?_, fun v hv => ?_⟩
  · unfold learn
    rw [h1]
    simp only [Py.bind_ok]
    rw [h3]
    simp only [Py.bind_ok]
    rw [hinit]
    simp only [Py.bind_ok]
    rw [h5]; rfl
  · rw [hv2, hv1 v hv]; exact Data.isValues_unique hf.rect (hidx v hv)
  · obtain ⟨l, e1, e2, e3⟩ := h6 v ((hmem v).2 hv) _ (hget v ((hmem v).2 hv))
    have hl : l.length = ((v :: bn.parentsOf v).map bn2.cardOf).prod := by rw [e2, w2.cpt_len v hv, hp2]
    refine ⟨l, e1, hl, fun a ha => ?_⟩
    have hlt := enc_lt ha
    rw [e3 _ (by rw [← e2, hl]; exact hlt)]
    congr 1
    rw [← hp2] at ha
    congr 1
    · simp only [hcpt v hv, List.getElem_replicate, hl]
    · congr 1
      apply List.countP_congr
      intro row hrow
      rw [decide_eq_true_eq, decide_eq_true_eq, hp2]
      rw [hp2] at ha
      have hin := digit_inRange w2 hv row
      rw [hp2] at hin
      constructor
      · intro h u hu
        have hul : u < row.length := by
          rw [hf.rect row hrow]; exact hf.cols u (w2.fam_mem hv u (by rw [hp2]; exact hu))
        refine ⟨row[u], List.getElem?_eq_getElem hul, ?_⟩
        rw [← enc_inj hin ha h u hu]
        unfold digit; rw [List.getElem?_eq_getElem hul]; rfl
      · intro h
        apply enc_congr
        intro u hu
        obtain ⟨y, hy, hau⟩ := h u hu
        rw [hau]
        unfold digit
        rw [Option.mem_def.1 hy]; rfl

/-- The sum of block number `k`. -/
def blockSum (card : ℕ) (l : List ℚ) (k : ℕ) : ℚ := (pySlice l (card * k) (card * k + card)).sum

theorem normBlocks_ok {eps : ℚ} {card : ℕ} (hc : 0 < card) : ∀ (m fuel : ℕ) (l : List ℚ), m < fuel → l.length = card * m →
    (∀ k < m, blockSum card l k + eps ≠ 0) →
    ∃ r, normBlocks eps card fuel l = .ok r ∧ r.length = l.length ∧
      ∀ k < m, ∀ j < card, r[card * k + j]? = (l[card * k + j]?).map fun x => roundAway 5 (x / (blockSum card l k + eps)) := by
  intro m
  induction m with
  | zero =>
    intro fuel l hf hl _
    have : l = [] := by apply List.eq_nil_of_length_eq_zero; rw [hl]; simp
    subst this
    cases fuel with
    | zero => omega
    | succ f => exact ⟨[], by rw [normBlocks, if_neg (by omega), if_pos rfl], rfl, by simp⟩
  | succ m ih =>
    intro fuel l hf hl hs
    cases fuel with
    | zero => omega
    | succ f =>
      have hlen : l.length = card + card * m := by rw [hl]; ring
      have hdrop : ∀ k, blockSum card (l.drop card) k = blockSum card l (k + 1) := by
        intro k
        unfold blockSum pySlice
        rw [List.drop_drop]
        congr 2
        · omega
        · congr 1; ring
      obtain ⟨r, h1, h2, h3⟩ := ih f (l.drop card) (by omega) (by rw [List.length_drop]; omega)
        (fun k hk => by rw [hdrop]; exact hs (k + 1) (by omega))
      have h0 : blockSum card l 0 = (l.take card).sum := by simp [blockSum, pySlice]
      have hs0 := hs 0 (by omega)
      rw [h0] at hs0
      refine ⟨(l.take card).map (fun x => roundAway 5 (x / ((l.take card).sum + eps))) ++ r, ?_, ?_, ?_⟩
      · rw [normBlocks, if_neg (by omega), if_neg (by rintro rfl; simp at hlen; omega), if_neg hs0, if_neg (by omega), h1]; rfl
      · simp [h2]; omega
      · intro k hk j hj
        cases k with
        | zero =>
          rw [Nat.mul_zero, Nat.zero_add, List.getElem?_append_left (by simp; omega), List.getElem?_map, List.getElem?_take_of_lt hj, h0]
        | succ k =>
          have e : card * (k + 1) + j = card + (card * k + j) := by ring
          have hlt : (List.map (fun x => roundAway 5 (x / ((List.take card l).sum + eps))) (List.take card l)).length = card := by simp; omega
          rw [List.getElem?_append_right (by rw [hlt]; omega), hlt, e, Nat.add_sub_cancel_left, h3 k (by omega) j hj, hdrop,
            List.getElem?_drop]

theorem blockSum_eq {card : ℕ} {l : List ℚ} {k : ℕ} {g : ℕ → ℚ} (h : ∀ j < card, l[card * k + j]? = some (g j)) :
    blockSum card l k = ∑ j ∈ Finset.range card, g j := by
  have : pySlice l (card * k) (card * k + card) = (List.range card).map g := by
    unfold pySlice
    apply List.ext_getElem?
    intro j
    rw [Nat.add_sub_cancel_left, List.getElem?_take]
    split_ifs with hj
    · rw [List.getElem?_drop, h j hj, List.getElem?_map, List.getElem?_range hj]; rfl
    · symm; rw [List.getElem?_eq_none_iff]; simp; omega
  unfold blockSum
  rw [this, list_sum_range]

theorem countP_fiber {α : Type _} (rows : List α) (n : ℕ) (dg : α → ℕ) (p : α → Prop) [DecidablePred p] (h : ∀ r ∈ rows, dg r < n) :
    ∑ x ∈ Finset.range n, ((rows.countP fun r => decide (x = dg r ∧ p r) : ℕ) : ℚ) = (rows.countP fun r => decide (p r) : ℕ) := by
  induction rows with
  | nil => simp
  | cons r rows ih =>
    simp only [List.countP_cons]
    push_cast
    rw [Finset.sum_add_distrib, ih fun r' hr' => h r' (by simp [hr'])]
    congr 1
    have hr := h r (by simp)
    by_cases hp : p r
    · rw [Finset.sum_eq_single (dg r)]
      · simp [hp]
      · intro b _ hb; simp [hb]
      · intro hn; exact absurd (Finset.mem_range.2 hr) hn
    · simp [hp]

theorem count_split {bn : BayesNet ℕ ℤ} (w : bn.WF) {v : ℕ} (hv : v ∈ bn.V) (rows : List (List ℤ)) (a : Asg ℕ)
    (hr : ∀ row ∈ rows, v < row.length) :
    ∑ x ∈ Finset.range (bn.cardOf v), ((rows.countP fun row =>
      decide (MatchesOrLast bn.valuesOf (v :: bn.parentsOf v) (a.upd v x) row) : ℕ) : ℚ) =
      (rows.countP fun row => decide (MatchesOrLast bn.valuesOf (bn.parentsOf v) a row) : ℕ) := by
  rw [← countP_fiber rows (bn.cardOf v) (fun row => seenAs (bn.valuesOf v) ((row[v]?).getD 0))
    (fun row => MatchesOrLast bn.valuesOf (bn.parentsOf v) a row) fun row _ => by
      rw [w.card_len hv]; exact seenAs_lt (w.values_ne v hv) _]
  apply Finset.sum_congr rfl
  intro x _
  congr 1
  apply List.countP_congr
  intro row hrow
  have hl := List.getElem?_eq_getElem (hr row hrow)
  have hnot := (List.nodup_cons.1 (w.fam_nodup v hv)).1
  simp only [decide_eq_true_eq]
  unfold MatchesOrLast
  rw [List.forall_mem_cons, Asg.upd_self]
  have hps : (∀ u ∈ bn.parentsOf v, ∃ y ∈ row[u]?, a.upd v x u = seenAs (bn.valuesOf u) y) ↔
      ∀ u ∈ bn.parentsOf v, ∃ y ∈ row[u]?, a u = seenAs (bn.valuesOf u) y := by
    constructor <;> intro h u hu <;> have := h u hu
    · rwa [Asg.upd_ne _ _ (by rintro rfl; exact hnot hu)] at this
    · rwa [Asg.upd_ne _ _ (by rintro rfl; exact hnot hu)]
  rw [hps, hl]
  simp

/-- Normalising a counted table. -/
theorem norm_ok {bn : BayesNet ℕ ℤ} (w : bn.WF) {v : ℕ} (hv : v ∈ bn.V) {rows : List (List ℤ)} (hr : ∀ row ∈ rows, v < row.length)
    {l : List ℚ} {x0 eps : ℚ} (hl : l.length = ((v :: bn.parentsOf v).map bn.cardOf).prod)
    (hent : ∀ a, InRange bn.cardOf (v :: bn.parentsOf v) a → l[enc bn.cardOf (v :: bn.parentsOf v) a]? =
      some (x0 + (rows.countP fun row => decide (MatchesOrLast bn.valuesOf (v :: bn.parentsOf v) a row) : ℕ)))
    (hpos : 0 < bn.cardOf v * x0 + eps) :
    ∃ r, normBlocks eps (bn.cardOf v) (l.length + 1) l = .ok r ∧ r.length = l.length ∧
      ∀ a, InRange bn.cardOf (v :: bn.parentsOf v) a → r[enc bn.cardOf (v :: bn.parentsOf v) a]? =
        some (roundAway 5 ((x0 + (rows.countP fun row => decide (MatchesOrLast bn.valuesOf (v :: bn.parentsOf v) a row) : ℕ)) /
          (bn.cardOf v * x0 + (rows.countP fun row => decide (MatchesOrLast bn.valuesOf (bn.parentsOf v) a row) : ℕ) + eps))) := by
  have hnd := List.nodup_cons.1 (w.fam_nodup v hv)
  have hc := w.card_pos hv
  have hbs : ∀ a, InRange bn.cardOf (bn.parentsOf v) a → blockSum (bn.cardOf v) l (enc bn.cardOf (bn.parentsOf v) a) =
      bn.cardOf v * x0 + (rows.countP fun row => decide (MatchesOrLast bn.valuesOf (bn.parentsOf v) a row) : ℕ) := by
    intro a ha
    rw [blockSum_eq (g := fun x => x0 + ((rows.countP fun row => decide (MatchesOrLast bn.valuesOf (v :: bn.parentsOf v) (a.upd v x) row) : ℕ) : ℚ))]
    · rw [Finset.sum_add_distrib, count_split w hv rows a hr, Finset.sum_const, Finset.card_range, nsmul_eq_mul]
    · intro j hj
      have := hent (a.upd v j) (by
        intro u hu
        by_cases h : u = v
        · subst h; rw [Asg.upd_self]; exact hj
        · rw [Asg.upd_ne _ _ h]; exact ha u ((List.mem_cons.1 hu).resolve_left h))
      rw [← this]
      congr 1
      rw [enc, Asg.upd_self, enc_upd_notMem hnd.1]; omega
  have hlen : l.length = bn.cardOf v * ((bn.parentsOf v).map bn.cardOf).prod := by rw [hl, List.map_cons, List.prod_cons]
  obtain ⟨r, h1, h2, h3⟩ := normBlocks_ok (eps := eps) hc ((bn.parentsOf v).map bn.cardOf).prod (l.length + 1) l
    (by rw [hlen]; have := Nat.le_mul_of_pos_left ((bn.parentsOf v).map bn.cardOf).prod hc; omega) hlen
    (fun k hk => by
      obtain ⟨a, ha, rfl⟩ := enc_surj hnd.2 hk
      rw [hbs a ha]
      have : (0 : ℚ) ≤ (rows.countP fun row => decide (MatchesOrLast bn.valuesOf (bn.parentsOf v) a row) : ℕ) := Nat.cast_nonneg _
      intro h0; linarith)
  refine ⟨r, h1, h2, fun a ha => ?_⟩
  have hap : InRange bn.cardOf (bn.parentsOf v) a := fun u hu => ha u (by simp [hu])
  have := h3 _ (enc_lt hap) (a v) (ha v (by simp))
  rw [hbs a hap] at this
  have he : enc bn.cardOf (v :: bn.parentsOf v) a = bn.cardOf v * enc bn.cardOf (bn.parentsOf v) a + a v := by rw [enc]; omega
  rw [he, this, ← he, hent a ha]; rfl

theorem roundAway_nonneg {d : ℕ} {x : ℚ} (h : 0 ≤ x) : 0 ≤ roundAway d x := by
  unfold roundAway rintAway
  have hp : (0 : ℚ) < 10 ^ d := by positivity
  rw [if_pos (by positivity)]
  apply div_nonneg _ hp.le
  have : (0 : ℤ) ≤ ⌊x * 10 ^ d + 1 / 2⌋ := Int.floor_nonneg.2 (by positivity)
  exact_mod_cast this

theorem sum_round_close (n d : ℕ) (f : ℕ → ℚ) :
    |∑ x ∈ Finset.range n, roundAway d (f x) - ∑ x ∈ Finset.range n, f x| ≤ n * (1 / 2 / 10 ^ d) := by
  rw [← Finset.sum_sub_distrib]
  refine (Finset.abs_sum_le_sum_abs _ _).trans ((Finset.sum_le_sum fun x _ => roundAway_close d (f x)).trans ?_)
  rw [Finset.sum_const, Finset.card_range, nsmul_eq_mul]

end BayesNet
end PyBN
