import Verif.Proofs.DataPrep
import Mathlib.Data.Fin.Basic

/-!
# C45, C46, C87, C88: preparing data
-/

namespace PyBN

section
variable {α : Type _} [LinearOrder α]

theorem uniqueInv_isEncoding (col : List α) : IsEncoding col (uniqueInv col) (uniqueVals col) := by
  have hcode : ∀ (r : ℕ) (x : α) (c : ℕ), col[r]? = some x → (uniqueInv col)[r]? = some c → c = (uniqueVals col).idxOf x := by
    intro r x c hx hc
    unfold uniqueInv at hc
    rw [List.getElem?_map, hx] at hc
    simpa using hc.symm
  refine ⟨by simp [uniqueInv], ?_, ?_, ?_⟩
  · intro r x c hx hc
    rw [hcode r x c hx hc]
    have hm : x ∈ uniqueVals col := mem_uniqueVals.2 (List.mem_of_getElem? hx)
    rw [List.getElem?_eq_getElem (List.idxOf_lt_length_iff.2 hm), List.getElem_idxOf]
  · intro c hc
    refine List.mem_map.2 ⟨(uniqueVals col)[c], mem_uniqueVals.1 (List.getElem_mem hc), ?_⟩
    exact List.Nodup.idxOf_getElem (uniqueVals_nodup col) c hc
  · intro r s x y c d hx hy hc hd
    rw [hcode r x c hx hc, hcode s y d hy hd]
    exact idxOf_lt_iff_of_sorted (uniqueVals_sorted col) (mem_uniqueVals.2 (List.mem_of_getElem? hx)) (mem_uniqueVals.2 (List.mem_of_getElem? hy))

/-- C45 for arrays that can hold the codes: `replace_strings` is a reversible, order-preserving encoding of every column. -/
theorem C45_numeric_partial (cols : List (List α)) : (replaceNums cols).1.length = cols.length ∧ (replaceNums cols).2.length = cols.length ∧
    ∀ (i : ℕ) (col : List α), cols[i]? = some col → ∃ codes vals, (replaceNums cols).1[i]? = some codes ∧ (replaceNums cols).2[i]? = some vals ∧
      IsValueList col vals ∧ IsEncoding col codes vals := by
  refine ⟨by simp [replaceNums], by simp [replaceNums], fun i col h => ⟨uniqueInv col, uniqueVals col, ?_, ?_, ⟨uniqueVals_sorted col, fun _ => mem_uniqueVals⟩, uniqueInv_isEncoding col⟩⟩
  all_goals simp [replaceNums, List.getElem?_map, h]

/-- C45 for arrays of strings of width `w`, when no column has more than `10 ^ w` distinct values. -/
theorem C45_strings_partial (w : ℕ) (cols : List (List α)) (hw : ∀ col ∈ cols, (uniqueVals col).length ≤ 10 ^ w) :
    ∀ (i : ℕ) (col : List α), cols[i]? = some col → ∃ codes vals, (replaceStrs w cols).1[i]? = some codes ∧ (replaceStrs w cols).2[i]? = some vals ∧
      IsValueList col vals ∧ IsEncoding col codes vals := by
  intro i col h
  refine ⟨uniqueInv col, uniqueVals col, ?_, by simp [replaceStrs, List.getElem?_map, h], ⟨uniqueVals_sorted col, fun _ => mem_uniqueVals⟩, uniqueInv_isEncoding col⟩
  simp only [replaceStrs, List.getElem?_map, h, Option.map_some]
  congr 1
  conv_rhs => rw [← List.map_id (uniqueInv col)]
  apply List.map_congr_left
  intro c hc
  apply throughWidth_small
  obtain ⟨x, hx, rfl⟩ := List.mem_map.1 hc
  exact lt_of_lt_of_le (List.idxOf_lt_length_iff.2 (mem_uniqueVals.2 hx)) (hw col (List.mem_of_getElem? h))

/-- C87: in an array of strings of width `w`, an entry decodes to itself exactly if fewer than `10 ^ w` distinct values of its column are
smaller; and its code is the leading `w` digits of that number. -/
theorem C87_replace_strings (w : ℕ) (cols : List (List α)) (i r : ℕ) (col : List α) (x : α) (hi : cols[i]? = some col) (hr : col[r]? = some x) :
    ∃ codes vals c, (replaceStrs w cols).1[i]? = some codes ∧ (replaceStrs w cols).2[i]? = some vals ∧ codes[r]? = some c ∧ IsValueList col vals ∧
      ∀ n, n = (vals.filter (· < x)).length → c = n / 10 ^ ((Nat.digits 10 n).length - w) ∧ (vals[c]? = some x ↔ n < 10 ^ w) := by
  refine ⟨(uniqueInv col).map (throughWidth w), uniqueVals col, throughWidth w ((uniqueVals col).idxOf x), by simp [replaceStrs, List.getElem?_map, hi],
    by simp [replaceStrs, List.getElem?_map, hi], by simp [uniqueInv, List.getElem?_map, hr], ⟨uniqueVals_sorted col, fun _ => mem_uniqueVals⟩, ?_⟩
  intro n hn
  have hm : x ∈ uniqueVals col := mem_uniqueVals.2 (List.mem_of_getElem? hr)
  have hidx : n = (uniqueVals col).idxOf x := by
    rw [hn]
    clear hn hi hr
    have hs := uniqueVals_sorted col
    generalize uniqueVals col = l at hs hm
    induction l with
    | nil => cases hm
    | cons y l ih =>
      rw [List.pairwise_cons] at hs
      rcases List.mem_cons.1 hm with rfl | hm
      · rw [List.idxOf_cons_self, List.filter_cons_of_neg (by simp), List.length_eq_zero_iff, List.filter_eq_nil_iff]
        intro a ha
        simpa using (hs.1 a ha).le
      · have hlt := hs.1 x hm
        rw [List.filter_cons_of_pos (by simpa using hlt), List.length_cons, ih hs.2 hm, List.idxOf_cons_ne _ (hlt.ne)]
  refine ⟨by rw [← hidx]; exact throughWidth_eq w n, ?_⟩
  rw [← hidx]
  constructor
  · intro h
    by_contra hge
    have h1 : throughWidth w n < 10 ^ w := throughWidth_lt
    have hlt : throughWidth w n < (uniqueVals col).length := (List.getElem?_eq_some_iff.1 h).1
    have h2 : (uniqueVals col)[throughWidth w n] = x := (List.getElem?_eq_some_iff.1 h).2
    have h3 : (uniqueVals col).idxOf x = throughWidth w n := by rw [← h2]; exact List.Nodup.idxOf_getElem (uniqueVals_nodup col) _ hlt
    omega
  · intro h
    rw [throughWidth_small h, hidx, List.getElem?_eq_getElem (List.idxOf_lt_length_iff.2 hm), List.getElem_idxOf]

/-- C45 is false of the code: eleven distinct one-character strings. -/
theorem C45_false : ¬ ∀ (w : ℕ) (col : List (Fin 11)), 1 ≤ w → ∃ codes vals, (replaceStrs w [col]).1[0]? = some codes ∧
    (replaceStrs w [col]).2[0]? = some vals ∧ IsEncoding col codes vals := by
  intro h
  obtain ⟨codes, vals, h1, h2, h3⟩ := h 1 [0, 1, 2, 3, 4, 5, 6, 7, 8, 9, 10] le_rfl
  have e1 : (replaceStrs 1 [[(0 : Fin 11), 1, 2, 3, 4, 5, 6, 7, 8, 9, 10]]).1[0]? = some [0, 1, 2, 3, 4, 5, 6, 7, 8, 9, 1] := by decide +kernel
  have e2 : (replaceStrs 1 [[(0 : Fin 11), 1, 2, 3, 4, 5, 6, 7, 8, 9, 10]]).2[0]? = some [0, 1, 2, 3, 4, 5, 6, 7, 8, 9, 10] := by decide +kernel
  rw [e1] at h1; rw [e2] at h2
  cases h1; cases h2
  have := h3.decode 10 10 1 rfl rfl
  revert this
  decide

/-- Witness for C45/C87: a column with repeated values. -/
example : (replaceStrs 1 [[(7 : ℕ), 3, 7, 5]]).1 = [[2, 0, 2, 1]] ∧ (replaceStrs 1 [[(7 : ℕ), 3, 7, 5]]).2 = [[3, 5, 7]] := by
  constructor <;> decide +kernel

end

/-- C46, the part that holds: a discretized column has its entries between 1 and the number of bins and larger inputs never get smaller bins;
columns of integers that are not selected are unchanged. -/
theorem C46_discretize_partial (data : List (List ℚ)) (cols bins : Option (List ℕ)) (hne : ∀ c ∈ data, c ≠ [])
    (hnd : (cols.getD (List.range data.length)).Nodup)
    (hb : ∀ c ∈ cols.getD (List.range data.length), c < data.length ∧ c < (bins.getD (List.replicate data.length 5)).length)
    (hk : ∀ k ∈ bins.getD (List.replicate data.length 5), 1 ≤ k) :
    ∃ r, discretize data cols bins = .ok r ∧ r.length = data.length ∧
      (∀ c ∈ cols.getD (List.range data.length), ∀ k col, data[c]? = some col → (bins.getD (List.replicate data.length 5))[c]? = some k →
        ∃ out, r[c]? = some out ∧ out.length = col.length ∧
          (∀ (i : ℕ) (b : ℤ), out[i]? = some b → 1 ≤ b ∧ b ≤ k) ∧
          ∀ (i j : ℕ) (x y : ℚ) (a b : ℤ), col[i]? = some x → col[j]? = some y → out[i]? = some a → out[j]? = some b → x ≤ y → a ≤ b) ∧
      ∀ (c : ℕ) (z : List ℤ), c ∉ cols.getD (List.range data.length) → data[c]? = some (z.map fun i : ℤ => (i : ℚ)) → r[c]? = some z := by
  obtain ⟨r, hr, hl, hout, hin⟩ := discretize_spec data cols bins hne hnd hb
  refine ⟨r, hr, hl, ?_, ?_⟩
  · intro c hc k col hcol hkc
    obtain ⟨lo, hi, _, _, hm⟩ := colMinMax (hne col (List.mem_of_getElem? hcol))
    refine ⟨_, hin c hc lo hi k col hcol hm hkc, by simp, ?_, ?_⟩
    · intro i b hbi
      rw [List.getElem?_map] at hbi
      cases hx : col[i]? with
      | none => rw [hx] at hbi; cases hbi
      | some x =>
        rw [hx] at hbi
        simp only [Option.map_some, Option.some.injEq] at hbi
        subst hbi
        constructor
        · exact_mod_cast digitize_pos (hk k (List.mem_of_getElem? hkc)) (hm.lo_le x (List.mem_of_getElem? hx))
        · have := digitize_le (linspace lo hi k) x
          rw [linspace_length] at this
          exact_mod_cast this
    · intro i j x y a b hx hy ha hb' hxy
      rw [List.getElem?_map, hx] at ha
      rw [List.getElem?_map, hy] at hb'
      simp only [Option.map_some, Option.some.injEq] at ha hb'
      subst ha hb'
      exact_mod_cast digitize_mono _ hxy
  · intro c z hc hz
    rw [hout c _ hc hz, List.map_map]
    congr 1
    conv_rhs => rw [← List.map_id z]
    apply List.map_congr_left
    intro a _
    exact truncZ_int a

/-- C46 is false of the code: a column that was not selected loses its fractional parts. -/
theorem C46_false : ¬ ∀ (data : List (List ℚ)) (cols : List ℕ) (r : List (List ℤ)) (c : ℕ) (col : List ℚ), discretize data (some cols) none = .ok r →
    c ∉ cols → data[c]? = some col → ∃ out, r[c]? = some out ∧ out.map (fun i : ℤ => (i : ℚ)) = col := by
  intro h
  obtain ⟨out, h1, h2⟩ := h [[1, 2], [1 / 2, 3]] [0] [[1, 5], [0, 3]] 1 [1 / 2, 3] (by decide +kernel) (by decide) rfl
  cases h1
  revert h2
  decide +kernel

/-- C88: the exact result.  A selected column gets, for every entry, the number of the one of `k - 1` equal-width intervals (closed on the
left) it lies in, the maximum alone being in the last bin `k`; a constant column becomes constantly `k`; one bin gives 1 everywhere; every other
column is truncated towards zero. -/
theorem C88_discretize_exact (data : List (List ℚ)) (cols bins : Option (List ℕ)) (hne : ∀ c ∈ data, c ≠ [])
    (hnd : (cols.getD (List.range data.length)).Nodup)
    (hb : ∀ c ∈ cols.getD (List.range data.length), c < data.length ∧ c < (bins.getD (List.replicate data.length 5)).length) :
    ∃ r, discretize data cols bins = .ok r ∧
      (∀ c ∈ cols.getD (List.range data.length), ∀ lo hi k col, data[c]? = some col → MinMax col lo hi →
        (bins.getD (List.replicate data.length 5))[c]? = some k → ∃ out, r[c]? = some out ∧ out.length = col.length ∧
          ∀ (i : ℕ) (x : ℚ) (b : ℤ), col[i]? = some x → out[i]? = some b →
            (2 ≤ k → lo < hi → b = ⌊(x - lo) * (k - 1) / (hi - lo)⌋ + 1) ∧ (2 ≤ k → lo < hi → (b = k ↔ x = hi)) ∧
            (lo = hi → b = k) ∧ (k = 1 → b = 1)) ∧
      ∀ (c : ℕ) (col : List ℚ), c ∉ cols.getD (List.range data.length) → data[c]? = some col →
        r[c]? = some (col.map fun x => if 0 ≤ x then ⌊x⌋ else ⌈x⌉) := by
  obtain ⟨r, hr, -, hout, hin⟩ := discretize_spec data cols bins hne hnd hb
  refine ⟨r, hr, ?_, ?_⟩
  · intro c hc lo hi k col hcol hm hkc
    refine ⟨_, hin c hc lo hi k col hcol hm hkc, by simp, ?_⟩
    intro i x b hx hbi
    rw [List.getElem?_map, hx] at hbi
    simp only [Option.map_some, Option.some.injEq] at hbi
    have hmem := List.mem_of_getElem? hx
    have h1 := hm.lo_le x hmem
    have h2 := hm.le_hi x hmem
    have hform : 2 ≤ k → lo < hi → b = ⌊(x - lo) * (k - 1) / (hi - lo)⌋ + 1 := by
      intro hk hlt
      rw [← hbi, digitize_linspace hk hlt h1 h2, Nat.cast_sub (by omega)]
      simp
    refine ⟨hform, ?_, ?_, ?_⟩
    · intro hk hlt
      rw [hform hk hlt]
      have hd : 0 < hi - lo := sub_pos.2 hlt
      have hk1 : (0 : ℚ) < (k : ℚ) - 1 := by
        have : (2 : ℚ) ≤ k := by exact_mod_cast hk
        linarith
      constructor
      · intro h
        have hfl : ⌊(x - lo) * (k - 1) / (hi - lo)⌋ = (k : ℤ) - 1 := by omega
        have := Int.floor_le ((x - lo) * (k - 1) / (hi - lo))
        rw [hfl, le_div_iff₀ hd] at this
        push_cast at this
        have : hi - lo ≤ x - lo := by
          by_contra hc
          nlinarith
        linarith
      · intro h
        subst h
        have : (x - lo) * ((k : ℚ) - 1) / (x - lo) = (((k : ℤ) - 1 : ℤ) : ℚ) := by
          field_simp
          push_cast
          ring
        rw [this, Int.floor_intCast]; ring
    · intro h
      subst h
      have : x = lo := le_antisymm h2 h1
      subst this
      rw [← hbi, digitize_const]
    · intro h
      subst h
      rw [← hbi, digitize_one _ _ _ h1]; rfl
  · intro c col hc hcol
    rw [hout c col hc hcol]
    congr 1

/-- The bin counts are looked up by column number, not by position among the selected columns. -/
theorem C88_bins_by_column (data : List (List ℚ)) (c : ℕ) (bins : List ℕ) (hne : ∀ c ∈ data, c ≠ []) (h : bins.length ≤ c) :
    discretize data (some [c]) (some bins) = .error .indexError := by
  unfold discretize
  have : ∀ l : List (List ℚ), (∀ c ∈ l, c ≠ []) → ∃ mm, pyMap (fun c => do let lo ← colMin c; let hi ← colMax c; pure (lo, hi)) l = .ok mm := by
    intro l
    induction l with
    | nil => intro _; exact ⟨[], rfl⟩
    | cons x l ih =>
      intro hne
      obtain ⟨lo, hi, h1, h2, _⟩ := colMinMax (hne x (by simp))
      obtain ⟨mm, h4⟩ := ih fun c hc => hne c (by simp [hc])
      refine ⟨(lo, hi) :: mm, ?_⟩
      unfold pyMap
      rw [h1, h2, h4]; rfl
  obtain ⟨mm, hmm⟩ := this data hne
  simp only [Option.getD_some, hmm, Py.bind_ok]
  unfold discLoop
  rw [List.getElem?_eq_none h]
  cases mm[c]? <;> rfl

/-- Witness for C46/C88. -/
example : discretize [[0, 1, 2, 4], [1 / 2, -3 / 2, 3, 7]] (some [0]) (some [3]) = .ok [[1, 1, 2, 3], [0, -1, 3, 7]] := by decide +kernel

end PyBN
