import Verif.Proofs.FactorElim
import Verif.Proofs.SumAll
import Verif.Spec.BayesNet
import Mathlib.Tactic.FieldSimp
import Mathlib.Tactic.Positivity

/-! `Factor.__init__`, `sumover_var`, `normalize`, lists of eliminations and reductions. -/

set_option linter.unusedSectionVars false
set_option linter.unusedVariables false

namespace PyBN
variable {N A : Type _} [DecidableEq N] [DecidableEq A]

namespace BayesNet
variable {bn : BayesNet N A}

theorem WF.get (w : bn.WF) {v : N} (hv : v ∈ bn.V) :
    ∃ d, bn.F.get? v = some d ∧ bn.parentsOf v = d.parents ∧ bn.valuesOf v = d.values ∧ bn.cptOf v = d.cpt ∧
      bn.cardOf v = d.values.length := by
  have := (w.dom v).2 hv
  obtain ⟨d, hd⟩ := Option.isSome_iff_exists.1 this
  exact ⟨d, hd, by simp [parentsOf, hd], by simp [valuesOf, hd], by simp [cptOf, hd], by simp [cardOf, hd]⟩

theorem WF.card_ok (w : bn.WF) {v : N} (hv : v ∈ bn.V) : bn.card v = .ok (bn.cardOf v) := by
  obtain ⟨d, hd, _, _, _, hc⟩ := w.get hv
  simp [card, Dict.get_of_get? hd, hc]

theorem WF.cpt_ok (w : bn.WF) {v : N} (hv : v ∈ bn.V) : bn.cpt v = .ok (bn.cptOf v) := by
  obtain ⟨d, hd, _, _, h, _⟩ := w.get hv
  simp [cpt, Dict.get_of_get? hd, h]

theorem WF.parents_ok (w : bn.WF) {v : N} (hv : v ∈ bn.V) : bn.parents v = .ok (bn.parentsOf v) := by
  obtain ⟨d, hd, h, _⟩ := w.get hv
  simp [parents, Dict.get_of_get? hd, h]

theorem WF.scope_ok (w : bn.WF) {v : N} (hv : v ∈ bn.V) : bn.scope v = .ok (v :: bn.parentsOf v) := by
  obtain ⟨d, hd, h, _⟩ := w.get hv
  simp [scope, Dict.get_of_get? hd, h]

theorem WF.values_ok (w : bn.WF) {v : N} (hv : v ∈ bn.V) : bn.values v = .ok (bn.valuesOf v) := by
  obtain ⟨d, hd, _, h, _⟩ := w.get hv
  simp [values, Dict.get_of_get? hd, h]

theorem WF.card_len (w : bn.WF) {v : N} (hv : v ∈ bn.V) : bn.cardOf v = (bn.valuesOf v).length := by
  obtain ⟨d, hd, _, h, _, h'⟩ := w.get hv
  rw [h, h']

theorem WF.card_pos (w : bn.WF) {v : N} (hv : v ∈ bn.V) : 0 < bn.cardOf v := by
  rw [w.card_len hv]; exact List.length_pos_of_ne_nil (w.values_ne v hv)

theorem WF.fam_mem (w : bn.WF) {v : N} (hv : v ∈ bn.V) : ∀ u ∈ v :: bn.parentsOf v, u ∈ bn.V := by
  intro u hu
  rcases List.mem_cons.1 hu with rfl | hu
  · exact hv
  · exact w.parents_mem v hv u hu

theorem WF.valueIdx_ok (w : bn.WF) {v : N} (hv : v ∈ bn.V) {x : ℕ} {val : A}
    (h : (bn.valuesOf v)[x]? = some val) : pyIndex (bn.valuesOf v) val = .ok x := by
  rw [pyIndex_ok]
  refine ⟨h, ?_⟩
  intro m hm h'
  have hx : x < (bn.valuesOf v).length := by
    by_contra hge
    rw [List.getElem?_eq_none (by omega)] at h; simp at h
  have := (List.getElem?_inj (by omega : m < (bn.valuesOf v).length) (w.values_nodup v hv)).1 (h'.trans h.symm)
  omega

end BayesNet

namespace Factor

/-! ### `__init__` -/

theorem cardPairs_ok {bn : BayesNet N A} (w : bn.WF) : ∀ l : List N, (∀ v ∈ l, v ∈ bn.V) →
    cardPairs bn l = .ok (l.map fun v => (v, bn.cardOf v)) := by
  intro l
  induction l with
  | nil => intro _; rfl
  | cons v l ih =>
    intro h
    simp only [cardPairs, w.card_ok (h v (by simp)), Py.bind_ok, ih fun u hu => h u (by simp [hu]), Py.pure_eq,
      List.map_cons]

theorem initStride_ok {c : N → ℕ} {card : Dict N ℕ} : ∀ (ps : List N) (d : Dict N ℕ) (s : ℕ), ps.Nodup →
    (∀ v ∈ ps, card.get? v = some (c v)) →
    ∃ d', initStride card ps d s = .ok d' ∧ (∀ v, v ∉ ps → d'.get? v = d.get? v) ∧
      (∀ v ∈ ps, (d'.get? v).isSome) ∧ IsLayout c (fun v => (d'.get? v).getD 0) ps s ∧
      (d.keys.Nodup → d'.keys.Nodup) := by
  intro ps
  induction ps with
  | nil => intro d s _ _; exact ⟨d, rfl, fun _ _ => rfl, by simp, trivial, id⟩
  | cons p ps ih =>
    intro d s hn hc
    rw [List.nodup_cons] at hn
    obtain ⟨d', h1, h2, h3, h4, h5⟩ := ih (d.set p s) (s * c p) hn.2 fun v hv => hc v (by simp [hv])
    refine ⟨d', ?_, ?_, ?_, ⟨?_, h4⟩, fun h => h5 (Dict.nodup_keys_set h p s)⟩
    · simp only [initStride, Dict.get_of_get? (hc p (by simp)), Py.bind_ok, h1]
    · intro v hv
      simp only [List.mem_cons, not_or] at hv
      rw [h2 v hv.2, Dict.get?_set_ne _ _ (Ne.symm hv.1)]
    · intro v hv
      rcases List.mem_cons.1 hv with rfl | hv
      · rw [h2 _ hn.1]; simp
      · exact h3 v hv
    · show (d'.get? p).getD 0 = s
      rw [h2 _ hn.1]; simp

theorem init_ok {bn : BayesNet N A} (w : bn.WF) {rv : N} (hrv : rv ∈ bn.V) :
    ∃ f, init bn rv = .ok f ∧ f.WF bn.cardOf ∧ f.var = rv ∧ f.scope = rv :: bn.parentsOf rv ∧
      f.cpt = bn.cptOf rv ∧ (∀ a, f.pos a = enc bn.cardOf (rv :: bn.parentsOf rv) a) := by
  set sc := rv :: bn.parentsOf rv with hsc
  have hmem := w.fam_mem hrv
  have hn := w.fam_nodup rv hrv
  set card := Dict.ofPairs (sc.map fun v => (v, bn.cardOf v)) with hcard
  have hkp : (Dict.keys (sc.map fun v => (v, bn.cardOf v))).Nodup := by rw [Dict.keys_map_pair]; exact hn
  have hcget : ∀ v, card.get? v = if v ∈ sc then some (bn.cardOf v) else none := by
    intro v
    rw [hcard, Dict.ofPairs, Dict.get?_update hkp, Dict.get?_map_pair]
    split_ifs <;> simp
  have hcn : card.keys.Nodup := Dict.nodup_keys_update (by simp [Dict.keys])
  have hn' := List.nodup_cons.1 hn
  obtain ⟨d', h1, h2, h3, h4, h5⟩ := initStride_ok (c := bn.cardOf) (card := card) (bn.parentsOf rv)
    [(rv, 1)] (bn.cardOf rv) hn'.2 (fun v hv => by rw [hcget, if_pos (by simp [hsc, hv])])
  have hlay : IsLayout bn.cardOf (fun v => (d'.get? v).getD 0) sc 1 := by
    refine ⟨?_, by rw [one_mul]; exact h4⟩
    show (d'.get? rv).getD 0 = 1
    rw [h2 rv hn'.1]; simp [Dict.get?_cons]
  refine ⟨⟨rv, bn.cptOf rv, sc, card, d'⟩, ?_, ?_, rfl, rfl, rfl, ?_⟩
  · have hself := Dict.get_of_get? (show card.get? rv = some (bn.cardOf rv) by rw [hcget, if_pos (by simp [hsc])])
    simp only [init, w.cpt_ok hrv, w.scope_ok hrv, Py.bind_ok, cardPairs_ok w _ hmem, w.parents_ok hrv, Py.pure_eq]
    rw [← hsc, ← hcard, hself, Py.bind_ok, h1, Py.bind_ok]
  · refine ⟨hn, fun v hv => w.card_pos (hmem v hv), hcn, hcget, h5 (by simp [Dict.keys]), fun v => ?_,
      ⟨sc, List.Perm.refl _, hlay⟩, w.cpt_len rv hrv⟩
    show (d'.get? v).isSome ↔ v ∈ sc
    by_cases hv : v ∈ bn.parentsOf rv
    · simp [h3 v hv, hsc, hv]
    · rw [h2 v hv]
      simp only [Dict.get?_cons, Dict.get?_nil, hsc, List.mem_cons, hv, or_false]
      split_ifs with h
      · simp [h]
      · simpa using Ne.symm h
  · intro a
    exact pos_eq_enc (f := ⟨rv, bn.cptOf rv, sc, card, d'⟩) (List.Perm.refl _) hlay a

/-- Reading a complete assignment of the scope with `value_indices` gives its address. -/
theorem valueIndices_gen {bn : BayesNet N A} (w : bn.WF) {f : Factor N} {c : N → ℕ} (wf : f.WF c) (a : Asg N) :
    ∀ d : Dict N A, (∀ kv ∈ d, kv.1 ∈ f.scope ∧ kv.1 ∈ bn.V ∧ (bn.valuesOf kv.1)[a kv.1]? = some kv.2) →
      valueIndices bn f d = .ok (((d.keys.map fun v => a v * f.strideOf v).sum : ℕ) : ℤ) := by
  intro d
  induction d with
  | nil => intro _; rfl
  | cons kv d ih =>
    intro h
    obtain ⟨rv, val⟩ := kv
    obtain ⟨h1, h2, h3⟩ := h (rv, val) (by simp)
    simp only at h1 h2 h3
    obtain ⟨dd, hd, _, hv, _⟩ := w.get h2
    have hidx := w.valueIdx_ok h2 h3
    rw [hv] at hidx
    simp only [valueIndices, BayesNet.valueIdx, Dict.get_of_get? hd, Py.bind_ok, hidx, Py.pure_eq,
      Dict.get_of_get? (wf.stride_get h1), ih fun kv hkv => h kv (by simp [hkv]), Dict.keys, List.map_cons,
      List.sum_cons]
    congr 1

/-! ### sumover_var -/

section
variable {c : N → ℕ} {f : Factor N} {rv : N} {o1 o2 : List N}

theorem slice_sum {cpt : List ℚ} {i P : ℕ} (h : i + P ≤ cpt.length) :
    (pySlice cpt i (i + P)).sum = ∑ r ∈ Finset.range P, (cpt[i + r]?).getD 0 := by
  have : pySlice cpt i (i + P) = (List.range P).map fun r => (cpt[i + r]?).getD 0 := by
    apply List.ext_getElem?
    intro t
    simp only [pySlice, Nat.add_sub_cancel_left]
    by_cases ht : t < P
    · rw [List.getElem?_take_of_lt ht, List.getElem?_drop, List.getElem?_map, List.getElem?_range ht]
      rw [Option.map_some, List.getElem?_eq_getElem (by omega)]; rfl
    · rw [List.getElem?_eq_none (by simp; omega), List.getElem?_eq_none (by simp; omega)]
  rw [this, list_sum_range]

theorem sumoverLoop_ok {cpt : List ℚ} {P C Q i : ℕ} (hP : 0 < P) (hi : i < C)
    (hlen : cpt.length = P * (C * Q)) : ∀ (fuel m q : ℕ) (acc : ℚ), q + m = Q → m ≤ fuel →
      sumoverLoop cpt P (C * P) fuel (i * P + q * (C * P)) acc =
        .ok (acc + ∑ t ∈ Finset.range m, ∑ r ∈ Finset.range P, (cpt[r + P * (i + C * (q + t))]?).getD 0) := by
  have hend : ∀ q, q < Q → i * P + q * (C * P) + P ≤ cpt.length := by
    intro q hq
    rw [hlen]
    calc i * P + q * (C * P) + P = P * (i + 1 + C * q) := by ring
      _ ≤ P * (C + C * q) := Nat.mul_le_mul_left _ (by omega)
      _ = P * (C * (q + 1)) := by ring
      _ ≤ P * (C * Q) := Nat.mul_le_mul_left _ (Nat.mul_le_mul_left _ hq)
  have hstop : ¬ i * P + Q * (C * P) < cpt.length := by
    rw [hlen]
    have : Q * (C * P) = P * (C * Q) := by ring
    omega
  intro fuel
  induction fuel with
  | zero =>
    intro m q acc hq hm
    have hm0 : m = 0 := by omega
    subst hm0
    have : q = Q := by omega
    subst this
    simp only [sumoverLoop, if_neg hstop]; simp
  | succ fuel ih =>
    intro m q acc hq hm
    cases m with
    | zero =>
      have : q = Q := by omega
      subst this
      simp only [sumoverLoop, if_neg hstop]; simp
    | succ m =>
      have hqQ : q < Q := by omega
      have h1 := hend q hqQ
      simp only [sumoverLoop]
      rw [if_pos (by omega), slice_sum h1,
        show i * P + q * (C * P) + C * P = i * P + (q + 1) * (C * P) by ring,
        ih m (q + 1) _ (by omega) (by omega)]
      congr 1
      rw [Finset.sum_range_succ' _ m, add_assoc]
      congr 1
      rw [add_comm]
      congr 1
      · apply Finset.sum_congr rfl; intro t _
        apply Finset.sum_congr rfl; intro r _
        rw [show q + 1 + t = q + (t + 1) by ring]
      · apply Finset.sum_congr rfl; intro r _
        rw [show i * P + q * (C * P) + r = r + P * (i + C * (q + 0)) by ring]

theorem sumoverEntries_ok {cpt : List ℚ} {P C : ℕ} {g : ℕ → ℚ} : ∀ (n i : ℕ),
    (∀ t < n, sumoverLoop cpt P (C * P) cpt.length ((i + t) * P) 0 = .ok (g (i + t))) →
    sumoverEntries cpt C P n i = .ok ((List.range n).map fun t => g (i + t)) := by
  intro n
  induction n with
  | zero => intro i _; rfl
  | succ n ih =>
    intro i h
    have h0 := h 0 (by omega)
    rw [Nat.add_zero] at h0
    simp only [sumoverEntries, h0, Py.bind_ok]
    rw [ih (i + 1) fun t ht => by
      have := h (t + 1) (by omega)
      rwa [show i + (t + 1) = i + 1 + t by ring] at this]
    simp only [Py.bind_ok, Py.pure_eq]
    rw [List.range_succ_eq_map, List.map_cons, List.map_map]
    congr 2
    apply List.map_congr_left
    intro t _
    simp only [Function.comp, Nat.succ_eq_add_one]
    rw [show i + 1 + t = i + (t + 1) by ring]

theorem sumover_ok (w : f.WF c) (hrv : rv ∈ f.scope) :
    ∃ f', sumover f rv = .ok f' ∧ f'.WF c ∧ f'.scope = [rv] ∧ f'.var = rv ∧
      f'.cpt.length = c rv ∧
      ∀ a, a rv < c rv →
        f'.entry a = some (sumAll c (f.scope.erase rv) f.val a) ∧
        f'.cpt[a rv]? = some (sumAll c (f.scope.erase rv) f.val a) := by
  obtain ⟨o1, o2, s⟩ := w.split hrv
  set P := (o1.map c).prod with hPdef
  set Q := (o2.map c).prod with hQdef
  have hP : 0 < P := s.P_pos w
  have hC := s.C_pos w
  have hlen : f.cpt.length = P * (c rv * Q) := s.len w
  have hQlen : Q ≤ f.cpt.length := by
    rw [hlen, ← mul_assoc]; exact Nat.le_mul_of_pos_left _ (Nat.mul_pos hP hC)
  set g : ℕ → ℚ := fun i => ∑ t ∈ Finset.range Q, ∑ r ∈ Finset.range P,
    (f.cpt[r + P * (i + c rv * t)]?).getD 0 with hg
  have hent := sumoverEntries_ok (cpt := f.cpt) (P := P) (C := c rv) (g := g) (c rv) 0 (by
    intro i hi
    rw [zero_add]
    have := sumoverLoop_ok (C := c rv) hP hi hlen f.cpt.length Q 0 0 (by omega) hQlen
    rw [zero_mul, add_zero] at this
    rw [this, zero_add]
    congr 1
    simp only [hg]
    apply Finset.sum_congr rfl; intro t _
    rw [zero_add])
  simp only [zero_add] at hent
  have hn : (o1 ++ o2).Nodup := s.perm_erase.nodup_iff.2 (w.scope_nodup.erase rv)
  have hrvn : rv ∉ o1 ++ o2 := fun h => by
    have := s.perm_erase.subset h
    rw [w.scope_nodup.mem_erase_iff] at this
    exact this.1 rfl
  have hval : ∀ a : Asg N, sumAll c (f.scope.erase rv) f.val a = g (a rv) := by
    intro a
    rw [← sumAll_perm s.perm_erase f.val hn a]
    have h1 : sumAll c (o1 ++ o2) f.val a
        = sumAll c (o1 ++ o2) (fun b =>
          (fun t => (f.cpt[t % P + P * (a rv + c rv * (t / P))]?).getD 0) (enc c (o1 ++ o2) b)) a := by
      apply sumAll_congr _ hn
      intro b hb hr
      have hb1 : enc c o1 b < P := enc_lt fun v hv => hr v (by simp [hv])
      have hbv : b rv = a rv := hb rv hrvn
      have := s.pos_upd w b (b rv)
      rw [Asg.upd_id] at this
      simp only [val, entry, this, enc_append]
      rw [Nat.add_mul_div_left _ _ hP, Nat.div_eq_of_lt hb1, zero_add, Nat.add_mul_mod_self_left,
        Nat.mod_eq_of_lt hb1, hbv]
    rw [h1, sumAll_enc hn (fun t => (f.cpt[t % P + P * (a rv + c rv * (t / P))]?).getD 0), List.map_append, List.prod_append, ← sum_range_mul]
    simp only [hg]
    apply Finset.sum_congr rfl; intro t _
    apply Finset.sum_congr rfl; intro r hr
    have hr := Finset.mem_range.1 hr
    rw [Nat.add_mul_div_left _ _ hP, Nat.div_eq_of_lt hr, zero_add, Nat.add_mul_mod_self_left, Nat.mod_eq_of_lt hr]
  refine ⟨⟨rv, (List.range (c rv)).map g, [rv], [(rv, c rv)], [(rv, 1)]⟩, ?_, ?_, rfl, rfl, by simp, ?_⟩
  · have := s.stride_rv
    simp only [sumover, Dict.get_of_get? (w.card_get hrv), Dict.get_of_get? (w.stride_get hrv), Py.bind_ok]
    rw [this, hent]; rfl
  · refine ⟨by simp, by simpa using hC, by simp [Dict.keys], fun v => ?_, by simp [Dict.keys], fun v => ?_,
      ⟨[rv], List.Perm.refl _, by simp [IsLayout, strideOf, Dict.get?_cons]⟩, by simp⟩
    · simp only [Dict.get?_cons, Dict.get?_nil, List.mem_singleton]
      by_cases h : rv = v
      · subst h; simp
      · simp [h, Ne.symm h]
    · simp only [Dict.get?_cons, Dict.get?_nil, List.mem_singleton]
      by_cases h : rv = v
      · subst h; simp
      · simp [h, Ne.symm h]
  · intro a ha
    have h1 : ((List.range (c rv)).map g)[a rv]? = some (sumAll c (f.scope.erase rv) f.val a) := by
      rw [hval, List.getElem?_map, List.getElem?_range ha]; rfl
    refine ⟨?_, h1⟩
    show ((List.range (c rv)).map g)[_]? = _
    simpa [pos, strideOf, Dict.get?_cons] using h1

/-! ### lists of eliminations and reductions -/

theorem sumoutList_ok (h : HashOrder N) : ∀ (vs : List N) {f : Factor N}, f.WF c → vs.Nodup → (∀ v ∈ vs, v ∈ f.scope) →
    ∃ f', sumoutList h f vs = .ok f' ∧ f'.WF c ∧ (∀ v, v ∈ f'.scope ↔ v ∈ f.scope ∧ v ∉ vs) ∧
      ∀ a, InRange c f'.scope a → f'.entry a = some (sumAll c vs f.val a) := by
  intro vs
  induction vs with
  | nil =>
    intro f w _ _
    exact ⟨f, rfl, w, by simp, fun a ha => w.entry_eq ha⟩
  | cons v vs ih =>
    intro f w hn hm
    rw [List.nodup_cons] at hn
    obtain ⟨f1, h1, h2, h3, h4⟩ := sumout_ok h w (hm v (by simp))
    have hmem1 : ∀ u, u ∈ f1.scope ↔ u ≠ v ∧ u ∈ f.scope := fun u => by rw [h3, w.scope_nodup.mem_erase_iff]
    obtain ⟨f2, h5, h6, h7, h8⟩ := ih h2 hn.2 fun u hu =>
      (hmem1 u).2 ⟨by rintro rfl; exact hn.1 hu, hm u (by simp [hu])⟩
    refine ⟨f2, by simp only [sumoutList, h1, Py.bind_ok, h5], h6, ?_, ?_⟩
    · intro u; rw [h7, hmem1]; simp only [List.mem_cons, not_or]; tauto
    · intro a ha
      rw [h8 a ha]
      congr 1
      have hp : (vs ++ [v]).Perm (v :: vs) := List.perm_append_singleton v vs
      have hnn : (vs ++ [v]).Nodup := hp.nodup_iff.2 (List.nodup_cons.2 hn)
      rw [← sumAll_perm hp f.val hnn, sumAll_append]
      apply sumAll_congr _ hn.2
      intro b hb hr
      have hbr : InRange c f1.scope b := by
        intro u hu
        by_cases huv : u ∈ vs
        · exact hr u huv
        · rw [hb u huv]; exact ha u ((h7 u).2 ⟨hu, huv⟩)
      have := h4 b hbr
      unfold val at this ⊢
      rw [this]
      simp only [Option.getD_some, sumAll, list_sum_range]

/-- The evidence as index assignment: every pair sets its variable. -/
def updIdx (a : Asg N) : List (N × ℕ) → Asg N
  | [] => a
  | (v, x) :: es => (updIdx a es).upd v x

theorem updIdx_of_notMem {es : List (N × ℕ)} {a : Asg N} {u : N} (h : u ∉ es.map Prod.fst) :
    updIdx a es u = a u := by
  induction es with
  | nil => rfl
  | cons e es ih =>
    obtain ⟨v, x⟩ := e
    simp only [List.map_cons, List.mem_cons, not_or] at h
    simp only [updIdx, Asg.upd_ne _ _ h.1, ih h.2]

theorem updIdx_of_mem {es : List (N × ℕ)} (hn : (es.map Prod.fst).Nodup) {a : Asg N} {u : N} {x : ℕ}
    (h : (u, x) ∈ es) : updIdx a es u = x := by
  induction es with
  | nil => simp at h
  | cons e es ih =>
    obtain ⟨v, y⟩ := e
    simp only [List.map_cons, List.nodup_cons] at hn
    rcases List.mem_cons.1 h with h | h'
    · simp only [Prod.mk.injEq] at h; obtain ⟨rfl, rfl⟩ := h; simp [updIdx, Asg.upd_self]
    · have : u ≠ v := by rintro rfl; exact hn.1 (List.mem_map.2 ⟨(u, x), h', rfl⟩)
      simp only [updIdx, Asg.upd_ne _ _ this, ih hn.2 h']

theorem updIdx_perm {es es' : List (N × ℕ)} (hp : es.Perm es') (hn : (es.map Prod.fst).Nodup) (a : Asg N) :
    updIdx a es = updIdx a es' := by
  funext u
  by_cases hu : u ∈ es.map Prod.fst
  · obtain ⟨⟨v, x⟩, hm, rfl⟩ := List.mem_map.1 hu
    rw [updIdx_of_mem hn hm, updIdx_of_mem ((hp.map Prod.fst).nodup_iff.1 hn) (hp.subset hm)]
  · rw [updIdx_of_notMem hu, updIdx_of_notMem fun h => hu ((hp.map Prod.fst).symm.subset h)]

theorem reduceList_ok (h : HashOrder N) {bn : BayesNet N A} (wb : bn.WF) :
    ∀ (es : List (N × A)) {f : Factor N}, f.WF bn.cardOf → (es.map Prod.fst).Nodup →
      (∀ e ∈ es, e.1 ∈ f.scope ∧ e.1 ∈ bn.V ∧ e.2 ∈ bn.valuesOf e.1) →
      ∃ f' : Factor N, reduceList h bn f es = .ok f' ∧ f'.WF bn.cardOf ∧
        (∀ v, v ∈ f'.scope ↔ v ∈ f.scope ∧ v ∉ es.map Prod.fst) ∧
        ∀ a b : Asg N, InRange bn.cardOf f'.scope a → (∀ v, v ∉ es.map Prod.fst → b v = a v) →
          (∀ e ∈ es, (bn.valuesOf e.1)[b e.1]? = some e.2) → f'.entry a = some (f.val b) := by
  intro es
  induction es with
  | nil =>
    intro f w _ _
    refine ⟨f, rfl, w, by simp, ?_⟩
    intro a b ha hb _
    have : b = a := funext fun v => hb v (by simp)
    rw [this]; exact w.entry_eq ha
  | cons e es ih =>
    obtain ⟨v, val⟩ := e
    intro f w hn hm
    rw [List.map_cons, List.nodup_cons] at hn
    obtain ⟨hvs, hvV, hvv⟩ := hm (v, val) (by simp)
    simp only at hvs hvV hvv
    obtain ⟨x, hx, hxl, hxe⟩ := pyIndex_of_mem hvv
    obtain ⟨f1, h1, h2, h3, h4⟩ := reduce_ok h bn w hvs (wb.values_ok hvV) hx (by rw [wb.card_len hvV]; exact hxl)
    have hmem1 : ∀ u, u ∈ f1.scope ↔ u ≠ v ∧ u ∈ f.scope := fun u => by rw [h3, w.scope_nodup.mem_erase_iff]
    obtain ⟨f2, h5, h6, h7, h8⟩ := ih h2 hn.2 fun e he => by
      obtain ⟨q1, q2, q3⟩ := hm e (by simp [he])
      refine ⟨(hmem1 _).2 ⟨?_, q1⟩, q2, q3⟩
      intro heq; exact hn.1 (heq ▸ List.mem_map.2 ⟨e, he, rfl⟩)
    refine ⟨f2, by simp only [reduceList, h1, Py.bind_ok, h5], h6, ?_, ?_⟩
    · intro u; rw [h7, hmem1]; simp only [List.map_cons, List.mem_cons, not_or]; tauto
    · intro a b ha hb hbe
      -- the assignment for the intermediate factor
      have hbv : b v = x := by
        have h9 := hbe (v, val) (by simp)
        have h10 := wb.valueIdx_ok hvV h9
        rw [hx] at h10; simpa using h10.symm
      have hstep := h8 a (b.upd v (a v)) ha (by
          intro u hu
          by_cases huv : u = v
          · subst huv; rw [Asg.upd_self]
          · rw [Asg.upd_ne _ _ huv]; exact hb u (by simp [huv, hu]))
        (by
          intro e he
          have hne : e.1 ≠ v := by
            intro heq; exact hn.1 (heq ▸ List.mem_map.2 ⟨e, he, rfl⟩)
          rw [Asg.upd_ne _ _ hne]; exact hbe e (by simp [he]))
      rw [hstep]
      congr 1
      have hr1 : InRange bn.cardOf f1.scope (b.upd v (a v)) := by
        intro u hu
        have hu' := (hmem1 u).1 hu
        rw [Asg.upd_ne _ _ hu'.1]
        by_cases hue : u ∈ es.map Prod.fst
        · obtain ⟨e, he, rfl⟩ := List.mem_map.1 hue
          have h9 := hbe e (by simp [he])
          have h10 := (hm e (by simp [he])).2.1
          rw [wb.card_len h10]
          by_contra hge
          rw [List.getElem?_eq_none (by omega)] at h9; simp at h9
        · rw [hb u (by simp [hu'.1, hue])]
          exact ha u ((h7 u).2 ⟨hu, hue⟩)
      have h9 := h4 _ hr1
      unfold Factor.val at h9 ⊢
      rw [h9, Asg.upd_upd, ← hbv, Asg.upd_id]; rfl

/-! ### normalize -/

theorem normBlocks_length (C : ℕ) (hC : 0 < C) : ∀ (n : ℕ) (l : List ℚ), (normBlocks C n l).length = l.length := by
  intro n
  induction n with
  | zero => intro l; rfl
  | succ n ih =>
    intro l
    simp only [normBlocks]
    cases l with
    | nil => rfl
    | cons x l =>
      simp only [List.isEmpty_cons, Bool.false_eq_true, if_false, List.length_append, List.length_map,
        List.length_take, ih, List.length_drop]
      omega

theorem normBlocks_get (C : ℕ) (hC : 0 < C) : ∀ (Q n : ℕ) (l : List ℚ), l.length = C * Q → Q ≤ n →
    ∀ q < Q, ∀ r < C, (normBlocks C n l)[C * q + r]? =
      some ((l[C * q + r]?).getD 0 / ∑ y ∈ Finset.range C, (l[C * q + y]?).getD 0) := by
  intro Q
  induction Q with
  | zero => intro n l _ _ q hq; omega
  | succ Q ih =>
    intro n l hl hn q hq r hr
    cases n with
    | zero => omega
    | succ n =>
      have hlC : C ≤ l.length := by rw [hl]; exact Nat.le_mul_of_pos_right _ (by omega)
      have hemp : l.isEmpty = false := by
        cases l with
        | nil => simp at hlC; omega
        | cons => rfl
      simp only [normBlocks, hemp, Bool.false_eq_true, if_false]
      have hml : ((l.take C).map (· / (l.take C).sum)).length = C := by simp; omega
      cases q with
      | zero =>
        rw [List.getElem?_append_left (by rw [hml]; omega)]
        simp only [mul_zero, zero_add]
        rw [List.getElem?_map, List.getElem?_take_of_lt hr, List.getElem?_eq_getElem (by omega)]
        have : (l.take C).sum = ∑ y ∈ Finset.range C, (l[y]?).getD 0 := by
          have := slice_sum (cpt := l) (i := 0) (P := C) (by omega)
          simpa [pySlice] using this
        rw [this]; rfl
      | succ q =>
        rw [List.getElem?_append_right (by rw [hml, Nat.mul_succ]; omega), hml]
        have e : ∀ y, C * (q + 1) + y - C = C * q + y := fun y => by rw [Nat.mul_succ]; omega
        rw [e, ih n (l.drop C) (by rw [List.length_drop, hl, Nat.mul_succ]; omega) (by omega) q (by omega) r hr]
        have e2 : ∀ y, (l.drop C)[C * q + y]? = l[C * (q + 1) + y]? := fun y => by
          rw [List.getElem?_drop]; congr 1; ring
        simp only [e2]

theorem normalize_ok (h : HashOrder N) (w : f.WF c) :
    ∃ f', normalize h f = .ok f' ∧ f'.WF c ∧ f'.scope = f.scope ∧ f'.stride = f.stride ∧ f'.card = f.card ∧
      f'.var = f.var ∧
      ((f.scope = [] ∧ ∀ a, f'.entry a = some ((f.val a + 1 / 10000000) / (f.val a + 1 / 10000000))) ∨
       ∃ var ∈ f.scope, f.strideOf var = 1 ∧ ∀ a, InRange c f.scope a →
        f'.entry a = some ((f.val a + 1 / 10000000) /
          ∑ x ∈ Finset.range (c var), (f.val (a.upd var x) + 1 / 10000000))) := by
  have mk : ∀ cpt : List ℚ, cpt.length = f.cpt.length → ({ f with cpt := cpt } : Factor N).WF c := fun cpt hl =>
    ⟨w.scope_nodup, w.card_pos, w.card_nodup, w.card_eq, w.stride_nodup, w.stride_dom, w.layout, by
      rw [← w.cpt_len]; exact hl⟩
  have hpget : ∀ i, i < f.cpt.length → (perturb f.cpt)[i]? = some ((f.cpt[i]?).getD 0 + 1 / 10000000) := by
    intro i hi
    rw [perturb, List.getElem?_map, List.getElem?_eq_getElem hi]; rfl
  unfold normalize
  cases hfl : (h.iter f.stride.keys).filter (fun k => f.stride.get? k = some 1) with
  | cons var rest =>
    have hvar : var ∈ (h.iter f.stride.keys).filter (fun k => f.stride.get? k = some 1) := by rw [hfl]; simp
    rw [List.mem_filter] at hvar
    have hs1 : f.stride.get? var = some 1 := by simpa using hvar.2
    have hvs : var ∈ f.scope := (w.stride_dom var).1 (by rw [hs1]; rfl)
    have hso : f.strideOf var = 1 := by simp [strideOf, hs1]
    obtain ⟨o1, o2, s⟩ := w.split hvs
    have hP1 : (o1.map c).prod = 1 := by rw [← s.stride_rv, hso]
    have hC := s.C_pos w
    have hlen : f.cpt.length = c var * (o2.map c).prod := by rw [s.len w, hP1, one_mul]
    have hpl : (perturb f.cpt).length = c var * (o2.map c).prod := by rw [perturb, List.length_map, hlen]
    refine ⟨{ f with cpt := normBlocks (c var) (perturb f.cpt).length (perturb f.cpt) }, ?_,
      mk _ (by rw [normBlocks_length _ hC, perturb, List.length_map]), rfl, rfl, rfl, rfl, ?_⟩
    · simp only [Dict.get_of_get? (w.card_get hvs), Py.bind_ok, if_neg hC.ne', hpl, Nat.mul_mod_right, if_true,
        Py.pure_eq]
    · right
      refine ⟨var, hvs, hso, ?_⟩
      intro a ha
      have ha2 : enc c o2 a < (o2.map c).prod := enc_lt fun v hv => ha v (s.perm.subset (by simp [hv]))
      have ha1 : enc c o1 a = 0 := by
        have := enc_lt (c := c) (o := o1) (a := a) fun v hv => ha v (s.perm.subset (by simp [hv]))
        rw [hP1] at this; omega
      have hpos : ∀ x, f.pos (a.upd var x) = c var * enc c o2 a + x := fun x => by
        rw [s.pos_upd w, hP1, ha1]; ring
      have hposa : f.pos a = c var * enc c o2 a + a var := by rw [← hpos, Asg.upd_id]
      have hav := ha var hvs
      show (normBlocks _ _ _)[f.pos a]? = _
      rw [hposa, normBlocks_get _ hC _ _ _ hpl (by rw [hpl]; exact Nat.le_mul_of_pos_left _ hC) _ ha2 _ hav]
      have hb : ∀ x, x < c var → c var * enc c o2 a + x < f.cpt.length := by
        intro x hx
        rw [hlen]
        calc c var * enc c o2 a + x < c var * enc c o2 a + c var := by omega
          _ = c var * (enc c o2 a + 1) := by ring
          _ ≤ _ := Nat.mul_le_mul_left _ ha2
      rw [hpget _ (hb _ hav)]
      have e1 : f.val a = (f.cpt[c var * enc c o2 a + a var]?).getD 0 := by
        unfold val entry; rw [hposa]
      rw [e1, Option.getD_some]
      congr 2
      apply Finset.sum_congr rfl
      intro x hx
      rw [hpget _ (hb _ (Finset.mem_range.1 hx)), Option.getD_some]
      unfold val entry; rw [hpos]
  | nil =>
    have hemp : f.scope = [] := by
      obtain ⟨o, ho, hl⟩ := w.layout
      cases o with
      | nil => exact ho.symm.eq_nil
      | cons v o =>
        exfalso
        have hv : v ∈ f.scope := ho.subset (by simp)
        have h1 : f.strideOf v = 1 := hl.1
        have : v ∈ (h.iter f.stride.keys).filter (fun k => f.stride.get? k = some 1) := by
          rw [List.mem_filter]
          refine ⟨(h.perm _).symm.subset (Dict.mem_keys_iff.2 (by rw [w.stride_get hv]; rfl)), ?_⟩
          simp [w.stride_get hv, h1]
        rw [hfl] at this; simp at this
    have hlen : f.cpt.length = 1 := by rw [w.cpt_len, hemp]; rfl
    obtain ⟨x, hx⟩ := List.length_eq_one_iff.1 hlen
    refine ⟨{ f with cpt := normSeq [] (perturb f.cpt) }, rfl, mk _ (by rw [hx]; simp [perturb, normSeq]), rfl, rfl,
      rfl, rfl, ?_⟩
    left
    refine ⟨hemp, fun a => ?_⟩
    have hp0 : f.pos a = 0 := by simp [pos, hemp]
    show (normSeq [] (perturb f.cpt))[f.pos a]? = _
    have hv : f.val a = x := by simp [val, entry, hp0, hx]
    rw [hp0, hv, hx]
    simp [perturb, normSeq]

end
end Factor
end PyBN
