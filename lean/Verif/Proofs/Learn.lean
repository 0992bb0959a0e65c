import Verif.Spec.Learn
import Verif.Props.Net
import Verif.Proofs.Infer

set_option linter.unusedSectionVars false

namespace PyBN
open BayesNet

theorem mem_insertUniq {x y : ℤ} {l : List ℤ} : y ∈ insertUniq x l ↔ y = x ∨ y ∈ l := by
  induction l with
  | nil => simp [insertUniq]
  | cons z l ih =>
    simp only [insertUniq]
    split_ifs with h1 h2
    · simp
    · subst h2; simp
    · simp [ih]; tauto

theorem mem_npUnique {y : ℤ} {l : List ℤ} : y ∈ npUnique l ↔ y ∈ l := by
  induction l with
  | nil => simp [npUnique]
  | cons z l ih => simp [npUnique, mem_insertUniq, ih]

theorem insertUniq_pairwise {x : ℤ} {l : List ℤ} (h : l.Pairwise (· < ·)) : (insertUniq x l).Pairwise (· < ·) := by
  induction l with
  | nil => simp [insertUniq]
  | cons z l ih =>
    rw [List.pairwise_cons] at h
    simp only [insertUniq]
    split_ifs with h1 h2
    · rw [List.pairwise_cons, List.pairwise_cons]
      exact ⟨fun a ha => by
        rcases List.mem_cons.1 ha with rfl | ha
        · exact h1
        · exact h1.trans (h.1 a ha), h⟩
    · rw [List.pairwise_cons]; exact h
    · rw [List.pairwise_cons]
      refine ⟨fun a ha => ?_, ih h.2⟩
      rcases mem_insertUniq.1 ha with rfl | ha
      · omega
      · exact h.1 a ha

theorem npUnique_pairwise (l : List ℤ) : (npUnique l).Pairwise (· < ·) := by
  induction l with
  | nil => simp [npUnique]
  | cons z l ih => exact insertUniq_pairwise ih

theorem npUnique_nodup (l : List ℤ) : (npUnique l).Nodup := (npUnique_pairwise l).imp fun h => h.ne

/-- The entries of column `i`. -/
def Data.entries (d : Data) (i : ℕ) : List ℤ := d.rows.map fun row => (row[i]?).getD 0

theorem Data.col_ok {d : Data} (hr : ∀ row ∈ d.rows, row.length = d.ncol) {i : ℕ} (hi : i < d.ncol) :
    d.col i = .ok (d.entries i) := by
  unfold Data.col
  rw [if_pos hi, pyMap_ok (g := fun row => (row[i]?).getD 0) fun row hrow => by
    have : i < row.length := by rw [hr row hrow]; exact hi
    rw [pyIdx_nat (List.getElem?_eq_getElem this), List.getElem?_eq_getElem this]; rfl]
  rfl

theorem Data.isValues_unique {d : Data} (hr : ∀ row ∈ d.rows, row.length = d.ncol) {i : ℕ} (hi : i < d.ncol) :
    d.IsValues i (npUnique (d.entries i)) := by
  refine ⟨npUnique_pairwise _, fun x => ?_⟩
  rw [mem_npUnique, Data.entries, List.mem_map]
  constructor
  · rintro ⟨row, hrow, rfl⟩
    have : i < row.length := by rw [hr row hrow]; exact hi
    exact ⟨row, hrow, by rw [List.getElem?_eq_getElem this]; rfl⟩
  · rintro ⟨row, hrow, h⟩
    exact ⟨row, hrow, by rw [h]; rfl⟩

/-- Two increasing lists with the same members are equal. -/
theorem Data.IsValues.unique {d : Data} {i : ℕ} {vs ws : List ℤ} (h1 : d.IsValues i vs) (h2 : d.IsValues i ws) : vs = ws := by
  have hp : vs.Perm ws := by
    rw [List.perm_ext_iff_of_nodup (h1.1.imp fun h => h.ne) (h2.1.imp fun h => h.ne)]
    intro x; rw [h1.2, h2.2]
  exact hp.eq_of_pairwise (fun a b _ _ hab hba => absurd (hab.trans hba) (lt_irrefl _)) h1.1 h2.1

namespace BayesNet

theorem setValues_ok {data : Data} {cols : ℕ → List ℤ} : ∀ (ns : List ℕ) (i : ℕ) (F : Dict ℕ (NodeData ℕ ℤ)), ns.Nodup →
    (∀ j < ns.length, data.col (i + j) = .ok (cols (i + j))) → (∀ n ∈ ns, (F.get? n).isSome) →
    ∃ F', setValues data i ns F = .ok F' ∧ ∀ k, F'.get? k =
      if k ∈ ns then (F.get? k).map (fun d => { d with values := npUnique (cols (i + ns.idxOf k)) }) else F.get? k := by
  intro ns
  induction ns with
  | nil => intro i F _ _ _; exact ⟨F, rfl, by simp⟩
  | cons n ns ih =>
    intro i F hn hc hF
    obtain ⟨d, hd⟩ := Option.isSome_iff_exists.1 (hF n (by simp))
    have hc0 := hc 0 (by simp)
    rw [List.nodup_cons] at hn
    obtain ⟨F', h1, h2⟩ := ih (i + 1) (F.set n { d with values := npUnique (cols i) }) hn.2
      (fun j hj => by
        have := hc (j + 1) (by simp; omega)
        rwa [show i + (j + 1) = i + 1 + j by omega] at this)
      (fun m hm => by
        rw [Dict.get?_set_ne _ _ (by rintro rfl; exact hn.1 hm)]; exact hF m (by simp [hm]))
    refine ⟨F', ?_, fun k => ?_⟩
    · rw [setValues, show data.col i = .ok (cols i) from hc0]
      simp only [Py.bind_ok, Dict.get_of_get? hd, h1]
    · rw [h2]
      by_cases hk : k = n
      · subst hk
        rw [if_neg hn.1, if_pos (by simp), Dict.get?_set_self, hd, List.idxOf_cons_self]; rfl
      · rw [Dict.get?_set_ne _ _ (Ne.symm hk)]
        by_cases hkn : k ∈ ns
        · rw [if_pos hkn, if_pos (by simp [hkn]), List.idxOf_cons_ne _ (Ne.symm hk)]
          rw [show i + 1 + ns.idxOf k = i + (ns.idxOf k + 1) by omega]
        · rw [if_neg hkn, if_neg (by simp [hk, hkn])]

theorem setTables_ok {fill : ℕ → Py ℚ} {x : ℕ → ℚ} {V : List ℕ} : ∀ (rvs : List ℕ) (bn : BayesNet ℕ ℤ), rvs.Nodup → (∀ v ∈ rvs, v ∈ V) →
    (∀ v ∈ V, (bn.F.get? v).isSome) → (∀ v ∈ V, ∀ p ∈ bn.parentsOf v, p ∈ V) →
    (∀ v ∈ V, fill (((bn.parentsOf v).map bn.cardOf).prod * bn.cardOf v) = .ok (x v)) →
    ∃ F', setTables fill rvs bn = .ok { bn with F := F' } ∧ ∀ k, F'.get? k =
      if k ∈ rvs then (bn.F.get? k).map (fun d => ⟨d.parents, d.values, List.replicate (((bn.parentsOf k).map bn.cardOf).prod * bn.cardOf k) (x k)⟩) else bn.F.get? k := by
  intro rvs
  induction rvs with
  | nil => intro bn _ _ _ _ _; exact ⟨bn.F, rfl, by simp⟩
  | cons n ns ih =>
    intro bn hn hV hF hp hfill
    obtain ⟨d, hd⟩ := Option.isSome_iff_exists.1 (hF n (hV n (by simp)))
    rw [List.nodup_cons] at hn
    set d' : NodeData ℕ ℤ := { d with cpt := List.replicate (((bn.parentsOf n).map bn.cardOf).prod * bn.cardOf n) (x n) } with hd'
    set bn' : BayesNet ℕ ℤ := { bn with F := bn.F.set n d' } with hbn'
    have hget : ∀ k, bn'.F.get? k = if n = k then some d' else bn.F.get? k := fun k => Dict.get?_set _ _ _ _
    have hpar : ∀ k, bn'.parentsOf k = bn.parentsOf k := by
      intro k; unfold parentsOf; rw [hget]; split_ifs with h
      · subst h; rw [hd]
      · rfl
    have hcard : bn'.cardOf = bn.cardOf := by
      funext k; unfold cardOf; rw [hget]; split_ifs with h
      · subst h; rw [hd]
      · rfl
    obtain ⟨F', h1, h2⟩ := ih bn' hn.2 (fun v hv => hV v (by simp [hv]))
      (fun v hv => by rw [hget]; split_ifs; · rfl
                      · exact hF v hv)
      (fun v hv => by rw [hpar]; exact hp v hv)
      (fun v hv => by rw [hpar, hcard]; exact hfill v hv)
    refine ⟨F', ?_, fun k => ?_⟩
    · have hc : ∀ v ∈ V, bn.card v = .ok (bn.cardOf v) := by
        intro v hv
        obtain ⟨e, he⟩ := Option.isSome_iff_exists.1 (hF v hv)
        simp [card, Dict.get_of_get? he, cardOf, he]
      have hps : bn.parents n = .ok (bn.parentsOf n) := by simp [parents, Dict.get_of_get? hd, parentsOf, hd]
      rw [setTables, hps]
      simp only [Py.bind_ok]
      rw [pyMap_ok fun p hp' => hc p (hp n (hV n (by simp)) p hp')]
      simp only [Py.bind_ok, hc n (hV n (by simp)), hfill n (hV n (by simp)), Dict.get_of_get? hd]
      rw [h1]
    · rw [h2, hget, hpar, hcard]
      by_cases hk : k = n
      · subst hk
        rw [if_neg hn.1, if_pos rfl, if_pos (by simp), hd]; rfl
      · rw [if_neg (Ne.symm hk)]
        by_cases hkn : k ∈ ns
        · rw [if_pos hkn, if_pos (by simp [hkn])]
        · rw [if_neg hkn, if_neg (by simp [hk, hkn])]

theorem incr_ok {l : List ℚ} {n : ℕ} (h : n < l.length) : incr l (n : ℤ) = .ok (l.modify n (· + 1)) := by
  unfold incr
  rw [pyIdx_nat (List.getElem?_eq_getElem h)]
  simp [List.modify_eq_set_getElem?, List.getElem?_eq_getElem h]

theorem countNodes_ok {hE : HashOrder (ℕ × ℤ)} {hI : HashOrder ℤ} {bn : BayesNet ℕ ℤ} (w : bn.WF) {obs : Dict ℕ ℤ} {off : ℕ → ℕ} :
    ∀ (rvs : List ℕ) (cnt : Dict ℕ (List ℚ)), rvs.Nodup → (∀ v ∈ rvs, v ∈ bn.V) →
    (∀ v ∈ rvs, cptIndices hE hI bn v (obs.filter fun kv => decide (kv.1 ∈ v :: bn.parentsOf v)) = .ok [(off v : ℤ)]) →
    (∀ v ∈ rvs, ∃ l, cnt.get? v = some l ∧ off v < l.length) →
    ∃ cnt', countNodes hE hI bn obs rvs cnt = .ok cnt' ∧ ∀ v, cnt'.get? v =
      if v ∈ rvs then (cnt.get? v).map (fun l => l.modify (off v) (· + 1)) else cnt.get? v := by
  intro rvs
  induction rvs with
  | nil => intro cnt _ _ _ _; exact ⟨cnt, rfl, by simp⟩
  | cons n ns ih =>
    intro cnt hn hV hoff hl
    obtain ⟨l, h1, h2⟩ := hl n (by simp)
    rw [List.nodup_cons] at hn
    obtain ⟨cnt', h3, h4⟩ := ih (cnt.set n (l.modify (off n) (· + 1))) hn.2 (fun v hv => hV v (by simp [hv]))
      (fun v hv => hoff v (by simp [hv])) (fun v hv => by
        rw [Dict.get?_set_ne _ _ (by rintro rfl; exact hn.1 hv)]; exact hl v (by simp [hv]))
    refine ⟨cnt', ?_, fun k => ?_⟩
    · rw [countNodes, w.scope_ok (hV n (by simp))]
      simp only [Py.bind_ok]
      rw [hoff n (by simp)]
      simp only [Py.bind_ok, show pyIdx [(off n : ℤ)] 0 = .ok (off n : ℤ) from rfl, Dict.get_of_get? h1, incr_ok h2, h3]
    · rw [h4]
      by_cases hk : k = n
      · subst hk
        rw [if_neg hn.1, if_pos (by simp), Dict.get?_set_self, h1]; rfl
      · rw [Dict.get?_set_ne _ _ (Ne.symm hk)]
        by_cases hkn : k ∈ ns
        · rw [if_pos hkn, if_pos (by simp [hkn])]
        · rw [if_neg hkn, if_neg (by simp [hk, hkn])]

theorem seenAs_lt {vs : List ℤ} (h : vs ≠ []) (x : ℤ) : seenAs vs x < vs.length := by
  have := List.length_pos_of_ne_nil h
  unfold seenAs; split_ifs with hx
  · exact List.idxOf_lt_length_of_mem hx
  · omega

/-- The digits under which a row is counted. -/
def digit (bn : BayesNet ℕ ℤ) (row : List ℤ) (u : ℕ) : ℕ := seenAs (bn.valuesOf u) ((row[u]?).getD 0)

theorem observe_ok {ns : List ℕ} {row : List ℤ} (h : ∀ v ∈ ns, v < row.length) :
    observe ns row = .ok (Dict.ofPairs (ns.map fun v => (v, (row[v]?).getD 0))) := by
  unfold observe
  rw [pyMap_ok (g := fun v => (v, (row[v]?).getD 0)) fun v hv => by
    rw [pyIdx_nat (List.getElem?_eq_getElem (h v hv)), List.getElem?_eq_getElem (h v hv)]; rfl]
  rfl

theorem offset_ok (hE : HashOrder (ℕ × ℤ)) (hI : HashOrder ℤ) {bn : BayesNet ℕ ℤ} (w : bn.WF) {ns : List ℕ} (hns : ns.Perm bn.V)
    (row : List ℤ) {v : ℕ} (hv : v ∈ bn.V) :
    cptIndices hE hI bn v ((Dict.ofPairs (ns.map fun u => (u, (row[u]?).getD 0))).filter
      fun kv => decide (kv.1 ∈ v :: bn.parentsOf v)) = .ok [(enc bn.cardOf (v :: bn.parentsOf v) (bn.digit row) : ℤ)] := by
  have hnd : ns.Nodup := hns.nodup_iff.2 w.nodup
  set D := (Dict.ofPairs (ns.map fun u => (u, (row[u]?).getD 0))) with hD
  have hDget : ∀ u, D.get? u = if u ∈ ns then some ((row[u]?).getD 0) else none := by
    intro u
    rw [hD, Dict.ofPairs, Dict.get?_update (by rw [Dict.keys_map_pair]; exact hnd), Dict.get?_map_pair (f := fun u => (row[u]?).getD 0)]
    split_ifs <;> rfl
  have hDk : D.keys.Nodup := Dict.nodup_keys_update (by simp [Dict.keys])
  have hDm : ∀ kv ∈ D, kv.2 = (row[kv.1]?).getD 0 := by
    intro kv hkv
    have := Dict.get?_of_mem hDk (k := kv.1) (v := kv.2) hkv
    rw [hDget] at this
    split_ifs at this
    exact (Option.some.inj this).symm
  obtain ⟨r, h1, h2, h3⟩ := C56_unknown_value_is_last hE hI bn w v hv
    (D.filter fun kv => decide (kv.1 ∈ v :: bn.parentsOf v)) (fun kv hkv => by simpa using (List.mem_filter.1 hkv).2)
  rw [h1]
  congr 1
  have hp : r.Perm [(enc bn.cardOf (v :: bn.parentsOf v) (bn.digit row) : ℤ)] := by
    rw [List.perm_ext_iff_of_nodup h2 (by simp)]
    intro i
    rw [h3, List.mem_singleton]
    have hdig : ∀ u ∈ v :: bn.parentsOf v, ((row[u]?).getD 0 ∈ bn.valuesOf u → (bn.valuesOf u)[bn.digit row u]? = some ((row[u]?).getD 0)) ∧
        ((row[u]?).getD 0 ∉ bn.valuesOf u → bn.digit row u = bn.cardOf u - 1) := by
      intro u hu
      unfold digit seenAs
      constructor
      · intro h; rw [if_pos h, List.getElem?_idxOf h]
      · intro h; rw [if_neg h, w.card_len (w.fam_mem hv u hu)]
    constructor
    · rintro ⟨a, ha, rfl, hag⟩
      congr 1
      apply enc_congr
      intro u hu
      have huV := w.fam_mem hv u hu
      have hmem : (u, (row[u]?).getD 0) ∈ D.filter fun kv => decide (kv.1 ∈ v :: bn.parentsOf v) := by
        rw [List.mem_filter]
        exact ⟨Dict.get?_mem (by rw [hDget, if_pos (hns.mem_iff.2 huV)]), by simpa using hu⟩
      obtain ⟨g1, g2⟩ := hag _ hmem
      by_cases hx : (row[u]?).getD 0 ∈ bn.valuesOf u
      · have hlt : a u < (bn.valuesOf u).length := by rw [← w.card_len huV]; exact ha u hu
        exact (List.getElem?_inj hlt (w.values_nodup u huV)).1 ((g1 hx).trans ((hdig u hu).1 hx).symm)
      · exact (g2 hx).trans ((hdig u hu).2 hx).symm
    · rintro rfl
      refine ⟨bn.digit row, fun u hu => ?_, rfl, fun kv hkv => ?_⟩
      · rw [w.card_len (w.fam_mem hv u hu)]; exact seenAs_lt (w.values_ne u (w.fam_mem hv u hu)) _
      · rw [List.mem_filter, decide_eq_true_eq] at hkv
        rw [hDm kv hkv.1]
        exact hdig kv.1 hkv.2
  exact List.perm_singleton.1 hp

theorem digit_inRange {bn : BayesNet ℕ ℤ} (w : bn.WF) {v : ℕ} (hv : v ∈ bn.V) (row : List ℤ) :
    InRange bn.cardOf (v :: bn.parentsOf v) (bn.digit row) := fun u hu => by
  rw [w.card_len (w.fam_mem hv u hu)]; exact seenAs_lt (w.values_ne u (w.fam_mem hv u hu)) _

theorem countRows_ok {hE : HashOrder (ℕ × ℤ)} {hI : HashOrder ℤ} {bn : BayesNet ℕ ℤ} (w : bn.WF) {ns : List ℕ} (hns : ns.Perm bn.V) :
    ∀ (rows : List (List ℤ)) (cnt : Dict ℕ (List ℚ)), (∀ row ∈ rows, ∀ v ∈ ns, v < row.length) →
    (∀ v ∈ ns, ∃ l, cnt.get? v = some l ∧ l.length = ((v :: bn.parentsOf v).map bn.cardOf).prod) →
    ∃ cnt', countRows hE hI bn ns rows cnt = .ok cnt' ∧ ∀ v ∈ ns, ∀ l, cnt.get? v = some l → ∃ l', cnt'.get? v = some l' ∧
      l'.length = l.length ∧ ∀ i (_ : i < l.length), l'[i]? = some (l[i] +
        (rows.countP fun row => decide (enc bn.cardOf (v :: bn.parentsOf v) (bn.digit row) = i) : ℕ)) := by
  intro rows
  induction rows with
  | nil =>
    intro cnt _ _
    exact ⟨cnt, rfl, fun v _ l hl => ⟨l, hl, rfl, fun i hi => by simp [hi]⟩⟩
  | cons row rows ih =>
    intro cnt hr hl
    have hV : ∀ v ∈ ns, v ∈ bn.V := fun v hv => hns.mem_iff.1 hv
    obtain ⟨c1, h1, h2⟩ := countNodes_ok (hE := hE) (hI := hI) w (off := fun v => enc bn.cardOf (v :: bn.parentsOf v) (bn.digit row))
      (obs := Dict.ofPairs (ns.map fun u => (u, (row[u]?).getD 0))) ns cnt (hns.nodup_iff.2 w.nodup) hV
      (fun v hv => offset_ok hE hI w hns row (hV v hv))
      (fun v hv => by
        obtain ⟨l, e1, e2⟩ := hl v hv
        exact ⟨l, e1, by rw [e2]; exact enc_lt (digit_inRange w (hV v hv) row)⟩)
    obtain ⟨c2, h3, h4⟩ := ih c1 (fun r hr' => hr r (by simp [hr'])) (fun v hv => by
      obtain ⟨l, e1, e2⟩ := hl v hv
      exact ⟨_, by rw [h2, if_pos hv, e1]; rfl, by rw [List.length_modify, e2]⟩)
    refine ⟨c2, ?_, fun v hv l hlv => ?_⟩
    · rw [countRows, observe_ok (hr row (by simp))]
      simp only [Py.bind_ok, h1, h3]
    · obtain ⟨l', e1, e2, e3⟩ := h4 v hv _ (by rw [h2, if_pos hv, hlv]; rfl)
      refine ⟨l', e1, by rw [e2, List.length_modify], fun i hi => ?_⟩
      rw [e3 i (by rw [List.length_modify]; exact hi), List.getElem_modify, List.countP_cons]
      congr 1
      split_ifs with ha hb hb
      · push_cast; ring
      · simp at hb; exact absurd ha hb
      · simp at hb; exact absurd hb ha
      · simp

end BayesNet
end PyBN
