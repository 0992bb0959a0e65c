import Verif.Proofs.FactorMul
import Mathlib.Data.List.Range

/-! `sumout_var`, `maxout_var`, `reduce_factor`. -/

set_option linter.unusedSectionVars false

namespace PyBN
namespace Factor
variable {N A : Type _} [DecidableEq N] [DecidableEq A]

/-! ### Layout facts -/

theorem prod_pos {c : N → ℕ} {o : List N} (h : ∀ v ∈ o, 0 < c v) : 0 < (o.map c).prod := by
  induction o with
  | nil => simp
  | cons v o ih =>
    simp only [List.map_cons, List.prod_cons]
    exact Nat.mul_pos (h v (by simp)) (ih fun u hu => h u (by simp [hu]))

theorem layout_lb {c s : N → ℕ} {o : List N} {p : ℕ} (hl : IsLayout c s o p) (hc : ∀ v ∈ o, 0 < c v) :
    ∀ v ∈ o, p ≤ s v := by
  induction o generalizing p with
  | nil => simp
  | cons w o ih =>
    intro v hv
    simp only [IsLayout] at hl
    rcases List.mem_cons.1 hv with rfl | hv
    · exact hl.1.ge
    · exact (Nat.le_mul_of_pos_right p (hc w (by simp))).trans (ih hl.2 (fun u hu => hc u (by simp [hu])) v hv)

theorem layout_ub {c s : N → ℕ} {o : List N} {p : ℕ} (hl : IsLayout c s o p) (hc : ∀ v ∈ o, 0 < c v) :
    ∀ v ∈ o, s v * c v ≤ p * (o.map c).prod := by
  induction o generalizing p with
  | nil => simp
  | cons w o ih =>
    intro v hv
    simp only [IsLayout] at hl
    simp only [List.map_cons, List.prod_cons]
    rcases List.mem_cons.1 hv with rfl | hv
    · rw [hl.1, ← mul_assoc]
      exact Nat.le_mul_of_pos_right _ (prod_pos fun u hu => hc u (by simp [hu]))
    · rw [← mul_assoc]; exact ih hl.2 (fun u hu => hc u (by simp [hu])) v hv

/-- Strides after removing a variable of stride `P` and cardinality `C`. -/
theorem layout_shrink {c s : N → ℕ} {C P : ℕ} (hC : 0 < C) {o : List N} :
    ∀ {p : ℕ}, IsLayout c s o (C * p) → 0 < p → P ≤ p → (∀ v ∈ o, 0 < c v) →
      IsLayout c (fun v => if s v > P then s v / C else s v) o p := by
  induction o with
  | nil => intros; trivial
  | cons v o ih =>
    intro p hl hp hPp hc
    simp only [IsLayout] at hl ⊢
    refine ⟨?_, ?_⟩
    · rw [hl.1]
      split
      · exact Nat.mul_div_cancel_left p hC
      · rename_i h
        have h1 : C * p ≤ p := by omega
        have : C ≤ 1 := by
          by_contra hlt
          have : 2 * p ≤ C * p := Nat.mul_le_mul_right p (by omega)
          omega
        have : C = 1 := by omega
        rw [this, one_mul]
    · have hcv := hc v (by simp)
      exact ih (by rw [← mul_assoc]; exact hl.2) (Nat.mul_pos hp hcv)
        (hPp.trans (Nat.le_mul_of_pos_right p hcv)) fun u hu => hc u (by simp [hu])

/-- The decomposition of the layout around `rv`. -/
structure Split (c : N → ℕ) (f : Factor N) (rv : N) (o1 o2 : List N) : Prop where
  perm : (o1 ++ rv :: o2).Perm f.scope
  layout : IsLayout c f.strideOf (o1 ++ rv :: o2) 1

theorem WF.split {c : N → ℕ} {f : Factor N} (w : f.WF c) {rv : N} (h : rv ∈ f.scope) :
    ∃ o1 o2, Split c f rv o1 o2 := by
  obtain ⟨o, ho, hl⟩ := w.layout
  obtain ⟨o1, o2, rfl⟩ := List.append_of_mem (ho.mem_iff.2 h)
  exact ⟨o1, o2, ho, hl⟩

section
variable {c : N → ℕ} {f : Factor N} {rv : N} {o1 o2 : List N}

theorem Split.nodup (s : Split c f rv o1 o2) (w : f.WF c) : (o1 ++ rv :: o2).Nodup :=
  s.perm.nodup_iff.2 w.scope_nodup

theorem Split.stride_rv (s : Split c f rv o1 o2) : f.strideOf rv = (o1.map c).prod := by
  have := (isLayout_append.1 s.layout).2
  simpa [IsLayout] using this.1

theorem Split.cpos (s : Split c f rv o1 o2) (w : f.WF c) : ∀ v ∈ o1 ++ rv :: o2, 0 < c v :=
  fun v hv => w.card_pos v (s.perm.subset hv)

theorem Split.P_pos (s : Split c f rv o1 o2) (w : f.WF c) : 0 < (o1.map c).prod :=
  prod_pos fun v hv => s.cpos w v (by simp [hv])

theorem Split.C_pos (s : Split c f rv o1 o2) (w : f.WF c) : 0 < c rv := s.cpos w rv (by simp)

theorem Split.len (s : Split c f rv o1 o2) (w : f.WF c) :
    f.cpt.length = (o1.map c).prod * (c rv * (o2.map c).prod) := by
  rw [w.cpt_len, ← (s.perm.map c).prod_eq]; simp

theorem Split.len_div (s : Split c f rv o1 o2) (w : f.WF c) :
    f.cpt.length / c rv = (o1.map c).prod * (o2.map c).prod := by
  rw [s.len w, Nat.mul_left_comm]
  exact Nat.mul_div_cancel_left _ (s.C_pos w)

theorem Split.perm_erase (s : Split c f rv o1 o2) : (o1 ++ o2).Perm (f.scope.erase rv) := by
  have h1 : (rv :: (o1 ++ o2)).Perm f.scope := (List.perm_middle.symm).trans s.perm
  have := h1.erase rv
  simpa using this

theorem Split.pos_upd (s : Split c f rv o1 o2) (w : f.WF c) (a : Asg N) (x : ℕ) :
    f.pos (a.upd rv x) =
      enc c o1 a + (o1.map c).prod * (x + c rv * enc c o2 a) := by
  have hn := s.nodup w
  rw [List.nodup_append, List.nodup_cons] at hn
  have h1 : rv ∉ o1 := fun h => hn.2.2 rv h rv (by simp) rfl
  rw [pos_eq_enc s.perm s.layout, enc_append, enc_upd_notMem h1]
  simp only [enc, Asg.upd_self, enc_upd_notMem hn.2.1.1]

theorem blockSize_gen (w : f.WF c) (b : ℕ) : ∀ l : List N, l ⊆ f.scope →
    blockSize f b l = .ok ((l.map fun v => if f.strideOf v < b then c v else 1).prod) := by
  intro l
  induction l with
  | nil => intro _; rfl
  | cons v l ih =>
    intro hl
    have hv := hl (by simp : v ∈ v :: l)
    have := ih fun u hu => hl (by simp [hu])
    simp only [blockSize, Dict.get_of_get? (w.stride_get hv), Py.bind_ok, this, List.map_cons, List.prod_cons]
    split
    · rw [Dict.get_of_get? (w.card_get hv)]; rfl
    · rw [one_mul]

theorem Split.blockSize_eq (s : Split c f rv o1 o2) (w : f.WF c) :
    blockSize f (f.strideOf rv) f.scope = .ok ((o1.map c).prod) := by
  rw [blockSize_gen w _ _ (List.Subset.refl _), s.stride_rv]
  congr 1
  rw [← (s.perm.map _).prod_eq, List.map_append, List.prod_append, List.map_cons, List.prod_cons]
  have hP := s.P_pos w
  have hC := s.C_pos w
  have hl := isLayout_append.1 s.layout
  have hl2 : IsLayout c f.strideOf o2 ((o1.map c).prod * c rv) := by simpa [IsLayout] using hl.2.2
  have e1 : (o1.map fun v => if f.strideOf v < (o1.map c).prod then c v else 1) = o1.map c := by
    apply List.map_congr_left
    intro v hv
    split
    · rfl
    · rename_i h
      have hub := layout_ub hl.1 (fun u hu => s.cpos w u (by simp [hu])) v hv
      have hlb := layout_lb hl.1 (fun u hu => s.cpos w u (by simp [hu])) v hv
      have hcv := s.cpos w v (by simp [hv])
      rw [one_mul] at hub
      by_contra hne
      have h2 : 2 ≤ c v := by omega
      have : f.strideOf v * 2 ≤ f.strideOf v * c v := Nat.mul_le_mul_left _ h2
      omega
  have e2 : (o2.map fun v => if f.strideOf v < (o1.map c).prod then c v else 1).prod = 1 := by
    apply List.prod_eq_one
    intro x hx
    obtain ⟨v, hv, rfl⟩ := List.mem_map.1 hx
    have hlb := layout_lb hl2 (fun u hu => s.cpos w u (by simp [hu])) v hv
    have : (o1.map c).prod ≤ (o1.map c).prod * c rv := Nat.le_mul_of_pos_right _ hC
    rw [if_neg (by omega)]
  rw [e1, e2, s.stride_rv, if_neg (lt_irrefl _)]; ring

/-! ### Removing the variable from the bookkeeping -/

theorem get?_shrinkStride (d : Dict N ℕ) (C P : ℕ) (v : N) :
    Dict.get? (shrinkStride d C P) v = (d.get? v).map fun x => if x > P then x / C else x := by
  unfold shrinkStride
  induction d with
  | nil => rfl
  | cons kv d ih =>
    obtain ⟨k, x⟩ := kv
    simp only [List.map_cons, Dict.get?_cons]
    split_ifs <;> simp_all [Dict.get?_cons]

theorem keys_shrinkStride (d : Dict N ℕ) (C P : ℕ) : Dict.keys (shrinkStride d C P) = d.keys := by
  simp only [shrinkStride, Dict.keys, List.map_map]
  apply List.map_congr_left
  intro kv _
  simp only [Function.comp]; split <;> rfl

theorem dropVar_ok (s : Split c f rv o1 o2) (w : f.WF c) {newCpt : List ℚ}
    (hlen : newCpt.length = (o1.map c).prod * (o2.map c).prod) :
    ∃ f', dropVar f rv (c rv) (f.strideOf rv) newCpt = .ok f' ∧ f'.var = f.var ∧
      f'.cpt = newCpt ∧ f'.scope = f.scope.erase rv ∧ (∀ x, { f' with var := x }.WF c) ∧
      (∀ a, f'.pos a = enc c (o1 ++ o2) a) := by
  have hrv : rv ∈ f.scope := s.perm.subset (by simp)
  have hcd : f.card.del rv = .ok (f.card.erase rv) := Dict.del_of_mem (by rw [w.card_get hrv]; rfl)
  have hsd : (shrinkStride f.stride (c rv) (f.strideOf rv)).del rv
      = .ok ((shrinkStride f.stride (c rv) (f.strideOf rv)).erase rv) :=
    Dict.del_of_mem (by rw [get?_shrinkStride, w.stride_get hrv]; rfl)
  have hsn : (Dict.keys (shrinkStride f.stride (c rv) (f.strideOf rv))).Nodup := by
    rw [keys_shrinkStride]; exact w.stride_nodup
  have hme : ∀ v, v ∈ f.scope.erase rv ↔ v ≠ rv ∧ v ∈ f.scope := fun v => w.scope_nodup.mem_erase_iff
  refine ⟨⟨f.var, newCpt, f.scope.erase rv, f.card.erase rv,
    (shrinkStride f.stride (c rv) (f.strideOf rv)).erase rv⟩, ?_, rfl, rfl, rfl, ?_⟩
  · simp only [dropVar, hcd, hsd, pyRemove_of_mem hrv, Py.bind_ok, Py.pure_eq]
  have hlay : IsLayout c (fun v =>
      (Dict.get? ((shrinkStride f.stride (c rv) (f.strideOf rv)).erase rv) v).getD 0) (o1 ++ o2) 1 := by
    have hn := s.nodup w
    have hl := isLayout_append.1 s.layout
    have hl2 : IsLayout c f.strideOf o2 (c rv * (o1.map c).prod) := by
      have := hl.2.2
      rw [one_mul, mul_comm] at this
      exact this
    have h2 := layout_shrink (P := f.strideOf rv) (s.C_pos w) hl2 (s.P_pos w) s.stride_rv.le
      (fun u hu => s.cpos w u (by simp [hu]))
    rw [isLayout_append, one_mul]
    rw [List.nodup_append, List.nodup_cons] at hn
    have key : ∀ v, v ≠ rv → v ∈ f.scope →
        (Dict.get? ((shrinkStride f.stride (c rv) (f.strideOf rv)).erase rv) v).getD 0
          = if f.strideOf v > f.strideOf rv then f.strideOf v / c rv else f.strideOf v := by
      intro v hne hv
      rw [Dict.get?_erase hsn, if_neg hne.symm, get?_shrinkStride, w.stride_get hv]; rfl
    constructor
    · refine (isLayout_congr ?_).2 hl.1
      intro v hv
      have hne : v ≠ rv := fun h => hn.2.2 v hv rv (by simp) h
      rw [key v hne (s.perm.subset (by simp [hv])), if_neg]
      have hub := layout_ub hl.1 (fun u hu => s.cpos w u (by simp [hu])) v hv
      have hcv := s.cpos w v (by simp [hv])
      have : f.strideOf v ≤ f.strideOf v * c v := Nat.le_mul_of_pos_right _ hcv
      rw [s.stride_rv]; omega
    · refine (isLayout_congr ?_).2 h2
      intro v hv
      have hne : v ≠ rv := by rintro rfl; exact hn.2.1.1 hv
      exact key v hne (s.perm.subset (by simp [hv]))
  refine ⟨fun x => ?_, fun a => pos_eq_enc s.perm_erase hlay a⟩
  refine ⟨w.scope_nodup.erase rv, fun v hv => w.card_pos v ((hme v).1 hv).2,
    Dict.nodup_keys_erase w.card_nodup rv, fun v => ?_, Dict.nodup_keys_erase hsn rv, fun v => ?_,
    ⟨o1 ++ o2, s.perm_erase, hlay⟩, ?_⟩
  · show Dict.get? (Dict.erase _ _) v = _
    rw [Dict.get?_erase w.card_nodup, w.card_eq]
    simp only [hme]
    by_cases h : rv = v
    · subst h; simp
    · simp [h, Ne.symm h]
  · show (Dict.get? (Dict.erase _ _) v).isSome ↔ _
    rw [Dict.get?_erase hsn, get?_shrinkStride]
    simp only [hme]
    by_cases h : rv = v
    · subst h; simp
    · simp only [if_neg h, Option.isSome_map, w.stride_dom]; exact ⟨fun h' => ⟨Ne.symm h, h'⟩, fun h' => h'.2⟩
  · show newCpt.length = _
    rw [hlen, ← (s.perm_erase.map c).prod_eq, List.map_append, List.prod_append]

/-! ### The elimination loop -/

theorem elimLoop_ok {agg : ℕ → Py ℚ} {g : ℕ → ℚ} {C P : ℕ} (hP : 0 < P) (hC : 0 < C) :
    ∀ (n q r : ℕ), r < P →
      (∀ t, t < n → agg ((q * P + r + t) / P * P * C + (q * P + r + t) % P)
        = .ok (g (q * P + r + t))) →
      ∃ l, elimLoop agg C P n (q * P * C + r) = .ok l ∧ l.length = n ∧
        ∀ t < n, l[t]? = some (g (q * P + r + t)) := by
  intro n
  induction n with
  | zero => intro q r _ _; exact ⟨[], rfl, rfl, by simp⟩
  | succ n ih =>
    intro q r hr hagg
    have h0 := hagg 0 (by omega)
    have hd : (q * P + r) / P = q := by
      rw [mul_comm, Nat.mul_add_div hP, Nat.div_eq_of_lt hr]; simp
    have hm : (q * P + r) % P = r := by
      rw [mul_comm, Nat.mul_add_mod, Nat.mod_eq_of_lt hr]
    rw [Nat.add_zero, hd, hm] at h0
    simp only [elimLoop, h0, Py.bind_ok]
    have hkm : (q * P * C + r + 1) % P = (r + 1) % P := by
      rw [show q * P * C + r + 1 = P * (q * C) + (r + 1) by ring, Nat.mul_add_mod]
    by_cases hlast : r + 1 = P
    · have : (q * P * C + r + 1) % P = 0 := by rw [hkm, hlast, Nat.mod_self]
      rw [if_pos this]
      have hk : q * P * C + r + 1 + P * (C - 1) = (q + 1) * P * C + 0 := by
        obtain ⟨C', rfl⟩ : ∃ C', C = C' + 1 := ⟨C - 1, by omega⟩
        simp only [Nat.add_sub_cancel]
        rw [show q * P * (C' + 1) + r + 1 = q * P * (C' + 1) + (r + 1) by ring, hlast]; ring
      rw [hk]
      have hidx : ∀ t, q * P + r + (t + 1) = (q + 1) * P + 0 + t := fun t => by
        rw [show q * P + r + (t + 1) = q * P + (r + 1) + t by ring, hlast]; ring
      obtain ⟨l, h1, h2, h3⟩ := ih (q + 1) 0 hP fun t ht => by
        have := hagg (t + 1) (by omega)
        rwa [hidx] at this
      refine ⟨g (q * P + r) :: l, by rw [h1]; rfl, by simp [h2], ?_⟩
      intro t ht
      cases t with
      | zero => rfl
      | succ t => rw [List.getElem?_cons_succ, h3 t (by omega), hidx]
    · have : (q * P * C + r + 1) % P ≠ 0 := by
        rw [hkm, Nat.mod_eq_of_lt (by omega)]; omega
      rw [if_neg this]
      have hidx : ∀ t, q * P + r + (t + 1) = q * P + (r + 1) + t := fun t => by ring
      obtain ⟨l, h1, h2, h3⟩ := ih q (r + 1) (by omega) fun t ht => by
        have := hagg (t + 1) (by omega)
        rwa [hidx] at this
      refine ⟨g (q * P + r) :: l, by rw [add_assoc, h1]; rfl, by simp [h2], ?_⟩
      intro t ht
      cases t with
      | zero => rfl
      | succ t => rw [List.getElem?_cons_succ, h3 t (by omega), hidx]

/-- The column of entries over which the variable is eliminated. -/
def column (cpt : List ℚ) (P k C : ℕ) : List ℚ := (List.range C).map fun x => (cpt[k + P * x]?).getD 0

theorem sumC_ok {cpt : List ℚ} {P k : ℕ} : ∀ (n x : ℕ) (acc : ℚ),
    (∀ y < n, k + P * (x + y) < cpt.length) →
    sumC cpt P k n x acc = .ok (acc + ((List.range n).map fun y => (cpt[k + P * (x + y)]?).getD 0).sum) := by
  intro n
  induction n with
  | zero => intro x acc _; simp [sumC]
  | succ n ih =>
    intro x acc h
    have h0 := h 0 (by omega)
    rw [Nat.add_zero] at h0
    have hx : cpt[k + P * x]? = some ((cpt[k + P * x]?).getD 0) := by
      rw [List.getElem?_eq_getElem h0]; rfl
    simp only [sumC]
    rw [pyIdx_nat hx, Py.bind_ok, ih (x + 1) _ fun y hy => by
      have := h (y + 1) (by omega)
      rwa [show x + 1 + y = x + (y + 1) by ring]]
    rw [List.range_succ_eq_map, List.map_cons, List.sum_cons, List.map_map]
    congr 1
    rw [Nat.add_zero, add_assoc]
    congr 2
    congr 1
    apply List.map_congr_left
    intro y _
    simp only [Function.comp, Nat.succ_eq_add_one]
    rw [show x + 1 + y = x + (y + 1) by ring]

theorem maxC_ok {cpt : List ℚ} {P k : ℕ} : ∀ (n x : ℕ) (acc : ℚ),
    (∀ y < n, k + P * (x + y) < cpt.length) →
    maxC cpt P k n x acc
      = .ok (((List.range n).map fun y => (cpt[k + P * (x + y)]?).getD 0).foldl max acc) := by
  intro n
  induction n with
  | zero => intro x acc _; simp [maxC]
  | succ n ih =>
    intro x acc h
    have h0 := h 0 (by omega)
    rw [Nat.add_zero] at h0
    have hx : cpt[k + P * x]? = some ((cpt[k + P * x]?).getD 0) := by
      rw [List.getElem?_eq_getElem h0]; rfl
    simp only [maxC]
    rw [pyIdx_nat hx, Py.bind_ok, ih (x + 1) _ fun y hy => by
      have := h (y + 1) (by omega)
      rwa [show x + 1 + y = x + (y + 1) by ring]]
    rw [List.range_succ_eq_map, List.map_cons, List.foldl_cons, List.map_map]
    congr 1
    have hm : (if (cpt[k + P * x]?).getD 0 > acc then (cpt[k + P * x]?).getD 0 else acc)
        = max acc ((cpt[k + P * (x + 0)]?).getD 0) := by
      rw [Nat.add_zero, max_def]
      split_ifs <;> first | rfl | linarith
    rw [hm]
    congr 1
    apply List.map_congr_left
    intro y _
    simp only [Function.comp, Nat.succ_eq_add_one]
    rw [show x + 1 + y = x + (y + 1) by ring]

/-- The shared part of `sumout_var` and `maxout_var`. -/
theorem elim_ok (s : Split c f rv o1 o2) (w : f.WF c) {agg : ℕ → Py ℚ} {op : List ℚ → ℚ}
    (hagg : ∀ k, (∀ y < c rv, k + f.strideOf rv * y < f.cpt.length) →
      agg k = .ok (op (column f.cpt (f.strideOf rv) k (c rv)))) :
    ∃ l, elimLoop agg (c rv) ((o1.map c).prod) (f.cpt.length / c rv) 0 = .ok l ∧
      l.length = (o1.map c).prod * (o2.map c).prod ∧
      ∀ a, InRange c (o1 ++ o2) a →
        l[enc c (o1 ++ o2) a]? = some (op ((List.range (c rv)).map fun x => f.val (a.upd rv x))) := by
  set P := (o1.map c).prod with hPdef
  set C := c rv with hCdef
  have hP : 0 < P := s.P_pos w
  have hC : 0 < C := s.C_pos w
  have hlen : f.cpt.length = P * (C * (o2.map c).prod) := s.len w
  obtain ⟨l, h1, h2, h3⟩ := elimLoop_ok (agg := agg)
    (g := fun t => op (column f.cpt P (t / P * P * C + t % P) C)) hP hC (f.cpt.length / C) 0 0 hP
    (by
      intro t ht
      rw [s.len_div w] at ht
      simp only [zero_mul, zero_add]
      rw [hagg _ ?_, s.stride_rv]
      intro y hy
      rw [s.stride_rv, hlen]
      have hq : t / P < (o2.map c).prod := Nat.div_lt_of_lt_mul ht
      have hr : t % P < P := Nat.mod_lt _ hP
      calc t / P * P * C + t % P + P * y = P * (C * (t / P) + y) + t % P := by ring
        _ < P * (C * (t / P) + y) + P := by omega
        _ = P * (C * (t / P) + (y + 1)) := by ring
        _ ≤ P * (C * (t / P) + C) := Nat.mul_le_mul_left _ (by omega)
        _ = P * (C * (t / P + 1)) := by ring
        _ ≤ P * (C * (o2.map c).prod) := Nat.mul_le_mul_left _ (Nat.mul_le_mul_left _ hq))
  simp only [zero_mul, zero_add] at h1 h3
  refine ⟨l, h1, by rw [h2, s.len_div w], ?_⟩
  intro a ha
  have ha1 : enc c o1 a < P := enc_lt fun v hv => ha v (by simp [hv])
  have hlt := enc_lt ha
  rw [List.map_append, List.prod_append] at hlt
  rw [h3 _ (by rw [s.len_div w]; exact hlt), enc_append]
  have hd : (enc c o1 a + P * enc c o2 a) / P = enc c o2 a := by
    rw [Nat.add_mul_div_left _ _ hP, Nat.div_eq_of_lt ha1, zero_add]
  have hm : (enc c o1 a + P * enc c o2 a) % P = enc c o1 a := by
    rw [Nat.add_mul_mod_self_left, Nat.mod_eq_of_lt ha1]
  rw [hd, hm]
  congr 2
  unfold column
  apply List.map_congr_left
  intro x _
  unfold val entry
  rw [s.pos_upd w]
  congr 2
  ring

theorem sumout_ok (h : HashOrder N) (w : f.WF c) (hrv : rv ∈ f.scope) :
    ∃ f', sumout h f rv = .ok f' ∧ f'.WF c ∧ f'.scope = f.scope.erase rv ∧
      ∀ a, InRange c f'.scope a →
        f'.entry a = some (((List.range (c rv)).map fun x => f.val (a.upd rv x)).sum) := by
  obtain ⟨o1, o2, s⟩ := w.split hrv
  obtain ⟨l, h1, h2, h3⟩ := elim_ok s w
    (agg := fun k => sumC f.cpt (f.strideOf rv) k (c rv) 0 0) (op := List.sum)
    (by
      intro k hk
      rw [sumC_ok _ _ _ (fun y hy => by rw [zero_add]; exact hk y hy)]
      simp only [zero_add]; rfl)
  obtain ⟨f', h4, h5, h6, h7, h8, h9⟩ := dropVar_ok s w h2
  refine ⟨{ f' with var := newVar h f.var rv f'.stride }, ?_, h8 _, h7, ?_⟩
  · simp only [sumout, Dict.get_of_get? (w.card_get hrv), Dict.get_of_get? (w.stride_get hrv), Py.bind_ok,
      s.blockSize_eq w, if_neg (s.C_pos w).ne', h1, h4, Py.pure_eq]
  · intro a ha
    show f'.cpt[f'.pos a]? = _
    rw [h6, h9]
    exact h3 a fun v hv => ha v (by show v ∈ f'.scope; rw [h7]; exact s.perm_erase.subset hv)

theorem foldl_max_ge (l : List ℚ) (acc : ℚ) : acc ≤ l.foldl max acc ∧ ∀ x ∈ l, x ≤ l.foldl max acc := by
  induction l generalizing acc with
  | nil => simp
  | cons y l ih =>
    obtain ⟨h1, h2⟩ := ih (max acc y)
    rw [List.foldl_cons]
    refine ⟨(le_max_left _ _).trans h1, ?_⟩
    intro x hx
    rcases List.mem_cons.1 hx with rfl | hx
    · exact (le_max_right _ _).trans h1
    · exact h2 x hx

theorem foldl_max_mem (l : List ℚ) (acc : ℚ) : l.foldl max acc = acc ∨ l.foldl max acc ∈ l := by
  induction l generalizing acc with
  | nil => simp
  | cons y l ih =>
    rw [List.foldl_cons]
    rcases ih (max acc y) with h | h
    · rw [h]
      rcases max_choice acc y with h' | h'
      · exact .inl h'
      · right; rw [h']; simp
    · right; simp [h]

theorem maxout_ok (w : f.WF c) (hrv : rv ∈ f.scope) :
    ∃ f', maxout f rv = .ok f' ∧ f'.WF c ∧ f'.scope = f.scope.erase rv ∧ f'.var = f.var ∧
      ∀ a, InRange c f'.scope a →
        f'.entry a = some (((List.range (c rv)).map fun x => f.val (a.upd rv x)).foldl max 0) := by
  obtain ⟨o1, o2, s⟩ := w.split hrv
  obtain ⟨l, h1, h2, h3⟩ := elim_ok s w
    (agg := fun k => maxC f.cpt (f.strideOf rv) k (c rv) 0 0) (op := fun l => l.foldl max 0)
    (by
      intro k hk
      rw [maxC_ok _ _ _ (fun y hy => by rw [zero_add]; exact hk y hy)]
      simp only [zero_add]; rfl)
  obtain ⟨f', h4, h5, h6, h7, h8, h9⟩ := dropVar_ok s w h2
  refine ⟨f', ?_, h8 f'.var, h7, h5, ?_⟩
  · simp only [maxout, Dict.get_of_get? (w.card_get hrv), Dict.get_of_get? (w.stride_get hrv), Py.bind_ok,
      s.blockSize_eq w, if_neg (s.C_pos w).ne', h1, h4]
  · intro a ha
    show f'.cpt[f'.pos a]? = _
    rw [h6, h9]
    exact h3 a fun v hv => ha v (by rw [h7]; exact s.perm_erase.subset hv)

/-! ### reduce_factor -/

theorem reduceLoop_ok {cpt : List ℚ} {C P Q x : ℕ} (hP : 0 < P) (hx : x < C)
    (hlen : cpt.length = P * (C * Q)) :
    ∀ (fuel q : ℕ) (acc : List ℚ), q ≤ Q → Q ≤ q + fuel → acc.length = q * P →
      (∀ t < q * P, acc[t]? = cpt[t % P + P * (x + C * (t / P))]?) →
      ∃ l, reduceLoop cpt C P (P * Q) fuel (x * P + q * (C * P)) acc = .ok l ∧ l.length = P * Q ∧
        ∀ t < P * Q, l[t]? = cpt[t % P + P * (x + C * (t / P))]? := by
  intro fuel
  induction fuel with
  | zero =>
    intro q acc hq hQ hacc hent
    have : q = Q := by omega
    subst this
    refine ⟨acc, ?_, by rw [hacc, mul_comm], fun t ht => hent t (by rwa [mul_comm])⟩
    simp only [reduceLoop]
    rw [if_neg (by rw [hacc, hlen]; exact not_lt.2 (le_of_eq (by ring)))]
  | succ fuel ih =>
    intro q acc hq hQ hacc hent
    simp only [reduceLoop]
    by_cases hlt : acc.length * C < cpt.length
    · rw [if_pos hlt]
      have hqQ : q < Q := by
        rw [hacc, hlen, show q * P * C = (P * C) * q by ring, show P * (C * Q) = (P * C) * Q by ring] at hlt
        exact Nat.lt_of_mul_lt_mul_left hlt
      have hend : x * P + q * (C * P) + P ≤ cpt.length := by
        rw [hlen]
        calc x * P + q * (C * P) + P = P * (x + 1 + C * q) := by ring
          _ ≤ P * (C + C * q) := Nat.mul_le_mul_left _ (by omega)
          _ = P * (C * (q + 1)) := by ring
          _ ≤ P * (C * Q) := Nat.mul_le_mul_left _ (Nat.mul_le_mul_left _ hqQ)
      set sl := pySlice cpt (x * P + q * (C * P)) (x * P + q * (C * P) + P) with hsl
      have hsll : sl.length = P := by
        simp only [hsl, pySlice, List.length_take, List.length_drop]; omega
      have hslt : ∀ r < P, sl[r]? = cpt[x * P + q * (C * P) + r]? := by
        intro r hr
        simp only [hsl, pySlice]
        rw [List.getElem?_take_of_lt (by omega), List.getElem?_drop]
      have hemp : sl.isEmpty = false := by
        cases hs : sl with
        | nil => rw [hs] at hsll; simp at hsll; omega
        | cons => rfl
      rw [hemp]
      simp only [Bool.false_eq_true, if_false]
      have hnle : ¬ (acc.length + sl.length > P * Q) := by
        rw [hacc, hsll]
        have : P * (q + 1) ≤ P * Q := Nat.mul_le_mul_left _ hqQ
        have h' : P * (q + 1) = q * P + P := by ring
        omega
      rw [if_neg hnle]
      have := ih (q + 1) (acc ++ sl) hqQ (by omega)
        (by rw [List.length_append, hacc, hsll]; ring)
        (by
          intro t ht
          by_cases h1 : t < q * P
          · rw [List.getElem?_append_left (by omega)]; exact hent t h1
          · rw [List.getElem?_append_right (by omega), hacc]
            have hr : t - q * P < P := by
              have : (q + 1) * P = q * P + P := by ring
              omega
            rw [hslt _ hr]
            obtain ⟨r, ht'⟩ : ∃ r, t = P * q + r := ⟨t - P * q, by rw [mul_comm P q]; omega⟩
            have hrr : t - q * P = r := by rw [ht', mul_comm P q]; omega
            rw [hrr] at hr ⊢
            have hd : t / P = q := by
              rw [ht', Nat.mul_add_div hP, Nat.div_eq_of_lt hr]; simp
            have hm : t % P = r := by
              rw [ht', Nat.mul_add_mod, Nat.mod_eq_of_lt hr]
            rw [hd, hm]
            congr 1; ring)
      have hidx : x * P + q * (C * P) + C * P = x * P + (q + 1) * (C * P) := by ring
      rw [hidx]
      exact this
    · rw [if_neg hlt]
      rw [hacc, hlen, not_lt, show q * P * C = (P * C) * q by ring, show P * (C * Q) = (P * C) * Q by ring] at hlt
      have hqq : Q ≤ q := Nat.le_of_mul_le_mul_left hlt (Nat.mul_pos hP (by omega))
      have : q = Q := by omega
      subst this
      exact ⟨acc, rfl, by rw [hacc, mul_comm], fun t ht => hent t (by rwa [mul_comm])⟩

theorem reduce_ok (h : HashOrder N) (bn : BayesNet N A) (w : f.WF c) (hrv : rv ∈ f.scope)
    {vals : List A} (hvals : bn.values rv = .ok vals) {val : A} {x : ℕ} (hx : pyIndex vals val = .ok x)
    (hxc : x < c rv) :
    ∃ f', reduce h bn f rv val = .ok f' ∧ f'.WF c ∧ f'.scope = f.scope.erase rv ∧
      ∀ a, InRange c f'.scope a → f'.entry a = some (f.val (a.upd rv x)) := by
  obtain ⟨o1, o2, s⟩ := w.split hrv
  have hP := s.P_pos w
  have hC := s.C_pos w
  obtain ⟨l, h1, h2, h3⟩ := reduceLoop_ok (Q := (o2.map c).prod) hP hxc (s.len w)
    ((o1.map c).prod * (o2.map c).prod + 1) 0 [] (Nat.zero_le _)
    (by rw [zero_add]; exact (Nat.le_mul_of_pos_left _ hP).trans (Nat.le_succ _)) (by simp) (by simp)
  rw [zero_mul, add_zero] at h1
  obtain ⟨f', h4, h5, h6, h7, h8, h9⟩ := dropVar_ok s w h2
  refine ⟨{ f' with var := newVar h f.var rv f'.stride }, ?_, h8 _, h7, ?_⟩
  · simp only [reduce, Dict.get_of_get? (w.card_get hrv), Dict.get_of_get? (w.stride_get hrv), Py.bind_ok,
      if_neg hC.ne', s.len_div w, hvals, hx, Py.pure_eq]
    rw [show reduceLoop f.cpt (c rv) (f.strideOf rv) ((o1.map c).prod * (o2.map c).prod)
      ((o1.map c).prod * (o2.map c).prod + 1) (x * f.strideOf rv) [] = .ok l by rw [s.stride_rv]; exact h1]
    simp only [Py.bind_ok, h4]
  · intro a ha
    have ha' : InRange c (o1 ++ o2) a := fun v hv => ha v (by
      show v ∈ f'.scope; rw [h7]; exact s.perm_erase.subset hv)
    have ha1 : enc c o1 a < (o1.map c).prod := enc_lt fun v hv => ha' v (by simp [hv])
    have hlt := enc_lt ha'
    rw [List.map_append, List.prod_append] at hlt
    show f'.cpt[f'.pos a]? = _
    rw [h6, h9, h3 _ hlt, enc_append, Nat.add_mul_div_left _ _ hP, Nat.div_eq_of_lt ha1, zero_add,
      Nat.add_mul_mod_self_left, Nat.mod_eq_of_lt ha1, ← s.pos_upd w]
    apply w.entry_eq
    intro v hv
    by_cases hvr : v = rv
    · subst hvr; rw [Asg.upd_self]; exact hxc
    · rw [Asg.upd_ne _ _ hvr]
      exact ha v (by show v ∈ f'.scope; rw [h7]; exact (w.scope_nodup.mem_erase_iff).2 ⟨hvr, hv⟩)

end
end Factor
end PyBN
