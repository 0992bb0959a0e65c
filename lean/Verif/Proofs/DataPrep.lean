import Verif.Model.DataPrep
import Verif.Spec.DataPrep
import Verif.Proofs.Net
import Mathlib.Data.Nat.Digits.Lemmas
import Mathlib.Algebra.Order.Floor.Ring
import Mathlib.Tactic.Linarith
import Mathlib.Tactic.Positivity
import Mathlib.Tactic.FieldSimp
import Mathlib.Tactic.Push

set_option linter.unusedSectionVars false

namespace PyBN

section
variable {α : Type _} [LinearOrder α]

theorem mem_insertSet {x y : α} {l : List α} : y ∈ insertSet x l ↔ y = x ∨ y ∈ l := by
  induction l with
  | nil => simp [insertSet]
  | cons z l ih =>
    unfold insertSet
    split
    · simp
    · split
      · rename_i h; subst h; simp
      · simp [ih]; tauto

theorem insertSet_sorted {x : α} {l : List α} (h : l.Pairwise (· < ·)) : (insertSet x l).Pairwise (· < ·) := by
  induction l with
  | nil => simp [insertSet]
  | cons z l ih =>
    unfold insertSet
    rw [List.pairwise_cons] at h
    split
    · rename_i hxz
      rw [List.pairwise_cons, List.pairwise_cons]
      refine ⟨fun a ha => ?_, h.1, h.2⟩
      rcases List.mem_cons.1 ha with rfl | ha
      · exact hxz
      · exact hxz.trans (h.1 a ha)
    · rename_i hxz
      split
      · exact List.pairwise_cons.2 h
      · rename_i hne
        rw [List.pairwise_cons]
        refine ⟨fun a ha => ?_, ih h.2⟩
        rcases mem_insertSet.1 ha with rfl | ha
        · exact lt_of_le_of_ne (not_lt.1 hxz) (fun h => hne h.symm)
        · exact h.1 a ha

theorem mem_uniqueVals {x : α} {l : List α} : x ∈ uniqueVals l ↔ x ∈ l := by
  induction l with
  | nil => simp [uniqueVals]
  | cons y l ih => simp [uniqueVals, mem_insertSet, ih]

theorem uniqueVals_sorted (l : List α) : (uniqueVals l).Pairwise (· < ·) := by
  induction l with
  | nil => simp [uniqueVals]
  | cons y l ih => exact insertSet_sorted ih

theorem uniqueVals_nodup (l : List α) : (uniqueVals l).Nodup := (uniqueVals_sorted l).imp fun h => h.ne

theorem idxOf_lt_iff_of_sorted {l : List α} (h : l.Pairwise (· < ·)) {x y : α} (hx : x ∈ l) (hy : y ∈ l) :
    l.idxOf x < l.idxOf y ↔ x < y := by
  have hx' := List.idxOf_lt_length_iff.2 hx
  have hy' := List.idxOf_lt_length_iff.2 hy
  have key : ∀ i j (hi : i < l.length) (hj : j < l.length), i < j → l[i] < l[j] := fun i j hi hj hij => List.pairwise_iff_getElem.1 h i j hi hj hij
  constructor
  · intro hlt
    have := key _ _ hx' hy' hlt
    simpa using this
  · intro hxy
    by_contra hge
    rcases Nat.lt_or_eq_of_le (not_lt.1 hge) with hlt | heq
    · have := key _ _ hy' hx' hlt
      simp at this
      exact absurd this (not_lt.2 hxy.le)
    · have hxe : l[l.idxOf x] = x := List.getElem_idxOf hx'
      have : l[l.idxOf y]'hy' = l[l.idxOf x]'hx' := by congr 1
      rw [hxe, List.getElem_idxOf hy'] at this
      exact hxy.ne this.symm

end

theorem throughWidth_small {w c : ℕ} (h : c < 10 ^ w) : throughWidth w c = c := by
  have := (Nat.digits_length_le_iff (b := 10) (k := w) (by omega) c).2 h
  unfold throughWidth
  rw [Nat.sub_eq_zero_of_le this, List.drop_zero, Nat.ofDigits_digits]

theorem throughWidth_lt {w c : ℕ} : throughWidth w c < 10 ^ w := by
  unfold throughWidth
  refine lt_of_lt_of_le (Nat.ofDigits_lt_base_pow_length (b := 10) (by omega) fun x hx => ?_) (Nat.pow_le_pow_right (by omega) ?_)
  · exact Nat.digits_lt_base (by omega) (List.mem_of_mem_drop hx)
  · rw [List.length_drop]; omega

theorem throughWidth_eq (w c : ℕ) : throughWidth w c = c / 10 ^ ((Nat.digits 10 c).length - w) := by
  unfold throughWidth
  generalize (Nat.digits 10 c).length - w = d
  induction d generalizing c with
  | zero => simp [Nat.ofDigits_digits]
  | succ d ih =>
    rcases Nat.eq_zero_or_pos c with rfl | hc
    · simp
    · rw [Nat.digits_def' (by omega) hc, List.drop_succ_cons, ih, Nat.div_div_eq_div_mul, Nat.pow_succ, Nat.mul_comm]

/-- Counting an initial segment. -/
theorem countP_range_le (k m : ℕ) (h : m ≤ k) (p : ℕ → Bool) (hp : ∀ i < k, (p i = true ↔ i < m)) : (List.range k).countP p = m := by
  induction k generalizing m with
  | zero => simp; omega
  | succ k ih =>
    rw [List.range_succ, List.countP_append, List.countP_cons, List.countP_nil]
    rcases Nat.lt_or_ge k m with hlt | hge
    · have : m = k + 1 := by omega
      subst this
      rw [ih k le_rfl (fun i hi => by simp [hp i (by omega)]; omega), (hp k (by omega)).2 (by omega)]
      simp
    · rw [ih m hge (fun i hi => hp i (by omega))]
      have := hp k (by omega)
      have : p k = false := by
        cases hk : p k with
        | false => rfl
        | true => exact absurd (this.1 hk) (by omega)
      simp [this]

theorem digitize_linspace {lo hi x : ℚ} {k : ℕ} (hk : 2 ≤ k) (hlt : lo < hi) (h1 : lo ≤ x) (h2 : x ≤ hi) :
    (digitize (linspace lo hi k) x : ℤ) = ⌊(x - lo) * (k - 1 : ℕ) / (hi - lo)⌋ + 1 := by
  have hd : 0 < hi - lo := sub_pos.2 hlt
  have hk1 : (0 : ℚ) < ((k - 1 : ℕ) : ℚ) := by exact_mod_cast (by omega : 0 < k - 1)
  set q := (x - lo) * (k - 1 : ℕ) / (hi - lo) with hq
  have hq0 : 0 ≤ q := div_nonneg (mul_nonneg (sub_nonneg.2 h1) hk1.le) hd.le
  have hq1 : q ≤ ((k - 1 : ℕ) : ℚ) := by
    rw [hq, div_le_iff₀ hd]
    nlinarith
  have hf0 : 0 ≤ ⌊q⌋ := Int.floor_nonneg.2 hq0
  obtain ⟨m, hm⟩ := Int.eq_ofNat_of_zero_le hf0
  have hmk : m ≤ k - 1 := by
    have : (⌊q⌋ : ℚ) ≤ ((k - 1 : ℕ) : ℚ) := (Int.floor_le q).trans hq1
    rw [hm] at this
    exact_mod_cast this
  unfold digitize linspace
  rw [if_neg (by omega), List.countP_map, countP_range_le k (m + 1) (by omega)]
  · rw [hm]; push_cast; ring
  · intro i _
    simp only [Function.comp, decide_eq_true_eq]
    have : lo + (hi - lo) * i / ((k - 1 : ℕ) : ℚ) ≤ x ↔ (i : ℚ) ≤ q := by
      rw [hq, le_div_iff₀ hd, ← le_sub_iff_add_le', div_le_iff₀ hk1, mul_comm]
    rw [this]
    have h3 : (i : ℚ) ≤ q ↔ (i : ℤ) ≤ ⌊q⌋ := by rw [Int.le_floor]; push_cast; rfl
    rw [h3, hm]
    omega

theorem linspace_const (lo : ℚ) (k : ℕ) : linspace lo lo k = List.replicate k lo := by
  unfold linspace
  split
  · rename_i h; subst h; rfl
  · simp [List.map_const']

theorem digitize_const (lo : ℚ) (k : ℕ) : digitize (linspace lo lo k) lo = k := by
  rw [linspace_const]; unfold digitize; simp [List.countP_replicate]

theorem digitize_one (lo hi x : ℚ) (h : lo ≤ x) : digitize (linspace lo hi 1) x = 1 := by
  simp [linspace, digitize, h]

theorem linspace_length (lo hi : ℚ) (k : ℕ) : (linspace lo hi k).length = k := by
  unfold linspace
  split
  · simp_all
  · simp

theorem digitize_le (bins : List ℚ) (x : ℚ) : digitize bins x ≤ bins.length := List.countP_le_length

theorem digitize_mono (bins : List ℚ) {x y : ℚ} (h : x ≤ y) : digitize bins x ≤ digitize bins y :=
  List.countP_mono_left fun b _ hb => by simp at hb ⊢; exact hb.trans h

theorem digitize_pos {lo hi x : ℚ} {k : ℕ} (hk : 1 ≤ k) (h : lo ≤ x) : 1 ≤ digitize (linspace lo hi k) x := by
  unfold digitize
  refine List.countP_pos_iff.2 ⟨lo, ?_, by simpa using h⟩
  unfold linspace
  split
  · simp
  · exact List.mem_map.2 ⟨0, List.mem_range.2 (by omega), by simp⟩

theorem foldl_min_spec (x : ℚ) (l : List ℚ) : l.foldl min x ∈ x :: l ∧ ∀ y ∈ x :: l, l.foldl min x ≤ y := by
  induction l generalizing x with
  | nil => simp
  | cons z l ih =>
    obtain ⟨h1, h2⟩ := ih (min x z)
    simp only [List.foldl_cons]
    constructor
    · rcases List.mem_cons.1 h1 with h | h
      · rw [h]; rcases min_choice x z with h | h <;> rw [h] <;> simp
      · simp [h]
    · intro y hy
      have hm := h2 (min x z) (by simp)
      rcases List.mem_cons.1 hy with rfl | hy
      · exact hm.trans (min_le_left _ _)
      · rcases List.mem_cons.1 hy with rfl | hy
        · exact hm.trans (min_le_right _ _)
        · exact h2 y (by simp [hy])

theorem foldl_max_spec (x : ℚ) (l : List ℚ) : l.foldl max x ∈ x :: l ∧ ∀ y ∈ x :: l, y ≤ l.foldl max x := by
  induction l generalizing x with
  | nil => simp
  | cons z l ih =>
    obtain ⟨h1, h2⟩ := ih (max x z)
    simp only [List.foldl_cons]
    constructor
    · rcases List.mem_cons.1 h1 with h | h
      · rw [h]; rcases max_choice x z with h | h <;> rw [h] <;> simp
      · simp [h]
    · intro y hy
      have hm := h2 (max x z) (by simp)
      rcases List.mem_cons.1 hy with rfl | hy
      · exact (le_max_left _ _).trans hm
      · rcases List.mem_cons.1 hy with rfl | hy
        · exact (le_max_right _ _).trans hm
        · exact h2 y (by simp [hy])

theorem colMinMax {col : List ℚ} (h : col ≠ []) : ∃ lo hi, colMin col = .ok lo ∧ colMax col = .ok hi ∧ MinMax col lo hi := by
  cases col with
  | nil => exact absurd rfl h
  | cons x l =>
    refine ⟨_, _, rfl, rfl, ?_⟩
    exact ⟨(foldl_min_spec x l).1, (foldl_max_spec x l).1, (foldl_min_spec x l).2, (foldl_max_spec x l).2⟩

theorem MinMax.unique {col : List ℚ} {lo hi lo' hi' : ℚ} (h : MinMax col lo hi) (h' : MinMax col lo' hi') : lo = lo' ∧ hi = hi' :=
  ⟨le_antisymm (h.lo_le _ h'.lo_mem) (h'.lo_le _ h.lo_mem), le_antisymm (h'.le_hi _ h.hi_mem) (h.le_hi _ h'.hi_mem)⟩

/-- What the loop leaves in every column. -/
theorem discLoop_spec (mm : List (ℚ × ℚ)) (bins : List ℕ) : ∀ (cs : List ℕ) (cols : List (List ℚ)), cs.Nodup → mm.length = cols.length →
    (∀ c ∈ cs, c < cols.length ∧ c < bins.length) →
    ∃ r, discLoop mm bins cs cols = .ok r ∧ r.length = cols.length ∧
      (∀ c, c ∉ cs → r[c]? = cols[c]?) ∧
      ∀ c ∈ cs, ∀ p k col, mm[c]? = some p → bins[c]? = some k → cols[c]? = some col →
        r[c]? = some (col.map fun x => (digitize (linspace p.1 p.2 k) x : ℚ)) := by
  intro cs
  induction cs with
  | nil => intro cols _ _ _; exact ⟨cols, rfl, rfl, fun _ _ => rfl, by simp⟩
  | cons c cs ih =>
    intro cols hnd hlen hb
    rw [List.nodup_cons] at hnd
    obtain ⟨hc1, hc2⟩ := hb c (by simp)
    have e1 : mm[c]? = some mm[c] := List.getElem?_eq_getElem (by omega)
    have e2 : bins[c]? = some bins[c] := List.getElem?_eq_getElem (by omega)
    have e3 : cols[c]? = some cols[c] := List.getElem?_eq_getElem (by omega)
    set col' := cols[c].map fun x => (digitize (linspace mm[c].1 mm[c].2 bins[c]) x : ℚ)
    obtain ⟨r, hr, hl, hout, hin⟩ := ih (cols.set c col') hnd.2 (by simp; omega)
      (fun d hd => by simp; exact hb d (by simp [hd]))
    refine ⟨r, ?_, by rw [hl]; simp, ?_, ?_⟩
    · unfold discLoop
      rw [e1, e2, e3]
      exact hr
    · intro d hd
      simp only [List.mem_cons, not_or] at hd
      rw [hout d hd.2, List.getElem?_set_ne (fun h => hd.1 h.symm)]
    · intro d hd p k col hp hk hcol
      rcases List.mem_cons.1 hd with rfl | hd
      · rw [hout d hnd.1, List.getElem?_set_self (by omega)]
        rw [e1] at hp; rw [e2] at hk; rw [e3] at hcol
        cases hp; cases hk; cases hcol
        rfl
      · have hdc : c ≠ d := fun h => hnd.1 (h ▸ hd)
        exact hin d hd p k col hp hk (by rw [List.getElem?_set_ne hdc]; exact hcol)

theorem truncZ_int (z : ℤ) : truncZ (z : ℚ) = z := by
  unfold truncZ
  split
  · simp
  · rw [← Int.cast_neg, Int.floor_intCast]; simp

theorem discretize_spec (data : List (List ℚ)) (cols bins : Option (List ℕ)) (hne : ∀ c ∈ data, c ≠ [])
    (hnd : (cols.getD (List.range data.length)).Nodup)
    (hb : ∀ c ∈ cols.getD (List.range data.length), c < data.length ∧ c < (bins.getD (List.replicate data.length 5)).length) :
    ∃ r, discretize data cols bins = .ok r ∧ r.length = data.length ∧
      (∀ c col, c ∉ cols.getD (List.range data.length) → data[c]? = some col → r[c]? = some (col.map truncZ)) ∧
      ∀ c ∈ cols.getD (List.range data.length), ∀ lo hi k col, data[c]? = some col → MinMax col lo hi →
        (bins.getD (List.replicate data.length 5))[c]? = some k →
        r[c]? = some (col.map fun x => (digitize (linspace lo hi k) x : ℤ)) := by
  unfold discretize
  have hmm : ∀ l : List (List ℚ), (∀ c ∈ l, c ≠ []) → ∃ mm, pyMap (fun c => do let lo ← colMin c; let hi ← colMax c; pure (lo, hi)) l = .ok mm ∧
      mm.length = l.length ∧ ∀ (c : ℕ) (p : ℚ × ℚ) (col : List ℚ), mm[c]? = some p → l[c]? = some col → MinMax col p.1 p.2 := by
    intro l
    induction l with
    | nil => intro _; exact ⟨[], rfl, rfl, by simp⟩
    | cons x l ih =>
      intro hne
      obtain ⟨lo, hi, h1, h2, h3⟩ := colMinMax (hne x (by simp))
      obtain ⟨mm, h4, h5, h6⟩ := ih fun c hc => hne c (by simp [hc])
      refine ⟨(lo, hi) :: mm, ?_, by simp [h5], ?_⟩
      · unfold pyMap
        rw [h1, h2, h4]; rfl
      · intro c p col hp hcol
        cases c with
        | zero => simp at hp hcol; subst hp hcol; exact h3
        | succ c => simp at hp hcol; exact h6 c p col hp hcol
  obtain ⟨mm, h1, h2, h3⟩ := hmm data hne
  obtain ⟨r, hr, hl, hout, hin⟩ := discLoop_spec mm _ _ data hnd h2 hb
  refine ⟨r.map fun c => c.map truncZ, ?_, by simp [hl], ?_, ?_⟩
  · simp only [h1, Py.bind_ok, hr]; rfl
  · intro c col hc hcol
    rw [List.getElem?_map, hout c hc, hcol]; rfl
  · intro c hc lo hi k col hcol hm hk
    obtain ⟨p, hp⟩ : ∃ p, mm[c]? = some p := ⟨_, List.getElem?_eq_getElem (by rw [h2]; exact (hb c hc).1)⟩
    obtain ⟨e1, e2⟩ := hm.unique (h3 c p col hp hcol)
    rw [List.getElem?_map, hin c hc p k col hp hk hcol]
    subst e1 e2
    simp only [Option.map_some, List.map_map]
    congr 1
    apply List.map_congr_left
    intro x _
    simp only [Function.comp]
    exact truncZ_int _

end PyBN
