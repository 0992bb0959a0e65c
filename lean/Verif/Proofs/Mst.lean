import Verif.Proofs.Graph2
import Mathlib.Order.Defs.LinearOrder
import Mathlib.Data.List.Pairwise

set_option linter.unusedSectionVars false

namespace PyBN

theorem insertByQ_perm {α : Type _} (key : α → ℚ) (x : α) (l : List α) : (insertByQ key x l).Perm (x :: l) := by
  induction l with
  | nil => exact .refl _
  | cons y l ih =>
    unfold insertByQ
    split_ifs
    · exact .refl _
    · exact (ih.cons y).trans (.swap x y l)

theorem sortByQ_perm {α : Type _} (key : α → ℚ) (l : List α) : (sortByQ key l).Perm l := by
  induction l with
  | nil => exact .refl _
  | cons x l ih => exact (insertByQ_perm key x _).trans (ih.cons x)

theorem insertByQ_sorted {α : Type _} (key : α → ℚ) (x : α) (l : List α) (h : l.Pairwise fun a b => key a ≤ key b) :
    (insertByQ key x l).Pairwise fun a b => key a ≤ key b := by
  induction l with
  | nil => simp [insertByQ]
  | cons y l ih =>
    unfold insertByQ
    rw [List.pairwise_cons] at h
    split_ifs with hxy
    · rw [List.pairwise_cons]
      refine ⟨fun z hz => ?_, List.pairwise_cons.2 h⟩
      rcases List.mem_cons.1 hz with hz | hz
      · exact hz ▸ hxy
      · exact le_trans hxy (h.1 z hz)
    · rw [List.pairwise_cons]
      refine ⟨fun z hz => ?_, ih h.2⟩
      rcases List.mem_cons.1 ((insertByQ_perm key x l).mem_iff.1 hz) with hz | hz
      · exact hz ▸ le_of_lt (lt_of_not_ge hxy)
      · exact h.1 z hz

theorem sortByQ_sorted {α : Type _} (key : α → ℚ) (l : List α) : (sortByQ key l).Pairwise fun a b => key a ≤ key b := by
  induction l with
  | nil => exact .nil
  | cons x l ih => exact insertByQ_sorted key x _ ih

theorem mstPick_none {un : List ℕ} {best : Option ℚ} : ∀ {l : List (ℕ × ℚ)}, mstPick un best l = none →
    ∀ p ∈ l, p.1 ∈ un → ∃ b ∈ best, b ≤ p.2 := by
  intro l
  induction l with
  | nil => simp
  | cons p l ih =>
    intro h q hq hun
    simp only [mstPick] at h
    split_ifs at h with hc
    rcases List.mem_cons.1 hq with hq | hq
    · subst hq
      push Not at hc
      exact hc hun
    · exact ih h q hq hun

theorem mstPick_some {un : List ℕ} {best : Option ℚ} : ∀ {l : List (ℕ × ℚ)}, (l.Pairwise fun a b => a.2 ≤ b.2) → ∀ {sn w},
    mstPick un best l = some (sn, w) →
    (sn, w) ∈ l ∧ sn ∈ un ∧ (∀ b ∈ best, w < b) ∧ ∀ p ∈ l, p.1 ∈ un → w ≤ p.2 := by
  intro l
  induction l with
  | nil => intro _ sn w h; simp [mstPick] at h
  | cons p l ih =>
    intro hs sn w h
    rw [List.pairwise_cons] at hs
    simp only [mstPick] at h
    split_ifs at h with hc
    · cases h
      refine ⟨by simp, hc.1, hc.2, fun q hq _ => ?_⟩
      rcases List.mem_cons.1 hq with hq | hq
      · exact hq ▸ le_refl _
      · exact hs.1 q hq
    · obtain ⟨h1, h2, h3, h4⟩ := ih hs.2 h
      refine ⟨by simp [h1], h2, h3, fun q hq hun => ?_⟩
      rcases List.mem_cons.1 hq with hq | hq
      · subst hq
        push Not at hc
        obtain ⟨b, hb, hbq⟩ := hc hun
        exact le_trans (le_of_lt (h3 b hb)) hbq
      · exact h4 q hq hun

/-- `weightOf` read off the item lists. -/
theorem weightOf_mem {e : Dict ℕ (Dict ℕ ℚ)} {a b : ℕ} {w : ℚ} {d : Dict ℕ ℚ} (hd : Dict.get? e a = some d) (hn : d.keys.Nodup) :
    weightOf e a b = some w ↔ (b, w) ∈ d := by
  unfold weightOf
  rw [hd]
  exact ⟨fun h => Dict.get?_mem h, fun h => Dict.get?_of_mem hn h⟩

theorem mstScan_ok (hP : HashOrder (ℕ × ℚ)) {e : Dict ℕ (Dict ℕ ℚ)} (hn : ∀ a d, Dict.get? e a = some d → d.keys.Nodup)
    (un : List ℕ) : ∀ (rs : List ℕ) (best : Option (ℚ × ℕ × ℕ)), (∀ r ∈ rs, r ∈ e.keys) →
    ∃ r, mstScan hP e un best rs = .ok r ∧
      (r = none → best = none ∧ ∀ s ∈ rs, ∀ t w, weightOf e s t = some w → t ∉ un) ∧
      (∀ w s t, r = some (w, s, t) → (best = some (w, s, t) ∨ (s ∈ rs ∧ t ∈ un ∧ weightOf e s t = some w)) ∧
        (∀ b ∈ best, w ≤ b.1) ∧ ∀ s' ∈ rs, ∀ t' ∈ un, ∀ w', weightOf e s' t' = some w' → w ≤ w') := by
  intro rs
  induction rs with
  | nil =>
    intro best _
    refine ⟨best, rfl, fun h => ⟨h, by simp⟩, fun w s t h => ⟨.inl h, ?_, by simp⟩⟩
    intro b hb; rw [h] at hb; cases hb; exact le_refl _
  | cons rn rs ih =>
    intro best hk
    obtain ⟨d, hd⟩ : ∃ d, Dict.get? e rn = some d := by
      have := hk rn (by simp)
      rw [Dict.mem_keys_iff] at this
      exact Option.isSome_iff_exists.1 this
    have hdn := hn rn d hd
    have hmem : ∀ p, p ∈ sortByQ (·.2) (hP.iter d) ↔ p ∈ d := fun p =>
      ((sortByQ_perm _ _).trans (hP.perm d)).mem_iff
    simp only [mstScan, Dict.get_of_get? hd, Py.bind_ok]
    cases hpick : mstPick un (best.map (·.1)) (sortByQ (·.2) (hP.iter d)) with
    | none =>
      have hnone := mstPick_none hpick
      obtain ⟨r, h1, h2, h3⟩ := ih best fun r hr => hk r (by simp [hr])
      refine ⟨r, h1, fun h => ?_, fun w s t h => ?_⟩
      · obtain ⟨hb, hrest⟩ := h2 h
        refine ⟨hb, fun s hs t w hw htu => ?_⟩
        rcases List.mem_cons.1 hs with hs | hs
        · subst hs
          obtain ⟨b, hb', _⟩ := hnone (t, w) ((hmem _).2 ((weightOf_mem hd hdn).1 hw)) htu
          rw [hb] at hb'; cases hb'
        · exact hrest s hs t w hw htu
      · obtain ⟨ha, hb, hc⟩ := h3 w s t h
        refine ⟨ha.imp_right fun ⟨x, y, z⟩ => ⟨by simp [x], y, z⟩, hb, fun s' hs' t' ht' w' hw' => ?_⟩
        rcases List.mem_cons.1 hs' with hs' | hs'
        · subst hs'
          obtain ⟨b, hb', hle⟩ := hnone (t', w') ((hmem _).2 ((weightOf_mem hd hdn).1 hw')) ht'
          obtain ⟨b0, hb0, rfl⟩ := Option.map_eq_some_iff.1 hb'
          exact le_trans (hb b0 hb0) hle
        · exact hc s' hs' t' ht' w' hw'
    | some p =>
      obtain ⟨sn, w0⟩ := p
      obtain ⟨p1, p2, p3, p4⟩ := mstPick_some (sortByQ_sorted _ _) hpick
      obtain ⟨r, h1, h2, h3⟩ := ih (some (w0, rn, sn)) fun r hr => hk r (by simp [hr])
      refine ⟨r, h1, fun h => absurd (h2 h).1 (by simp), fun w s t h => ?_⟩
      obtain ⟨ha, hb, hc⟩ := h3 w s t h
      have hw0 : w ≤ w0 := hb _ rfl
      refine ⟨?_, ?_, ?_⟩
      · rcases ha with ha | ⟨x, y, z⟩
        · cases ha
          exact .inr ⟨by simp, p2, (weightOf_mem hd hdn).2 ((hmem _).1 p1)⟩
        · exact .inr ⟨by simp [x], y, z⟩
      · intro b hb'
        exact le_trans hw0 (le_of_lt (p3 b.1 (by rw [Option.mem_def, Option.map_eq_some_iff]; exact ⟨b, hb', rfl⟩)))
      · intro s' hs' t' ht' w' hw'
        rcases List.mem_cons.1 hs' with hs' | hs'
        · subst hs'
          exact le_trans hw0 (p4 (t', w') ((hmem _).2 ((weightOf_mem hd hdn).1 hw')) ht')
        · exact hc s' hs' t' ht' w' hw'

theorem Grown.basic {e : Dict ℕ (Dict ℕ ℚ)} {root : ℕ} {R : List ℕ} {T : List (ℕ × ℕ)} (h : Grown e root R T) :
    R = root :: T.map Prod.snd ∧ R.Nodup ∧ (∀ p ∈ T, p.1 ∈ R ∧ (weightOf e p.1 p.2).isSome) := by
  induction h with
  | start => simp
  | step _ hs ht hw _ ih =>
    obtain ⟨h1, h2, h3⟩ := ih
    refine ⟨by rw [h1]; simp, List.nodup_append.2 ⟨h2, by simp, ?_⟩, ?_⟩
    · intro a ha b hb hab; simp at hb; subst hb hab; exact ht ha
    · intro p hp
      rcases List.mem_append.1 hp with hp | hp
      · exact ⟨by simp [(h3 p hp).1], (h3 p hp).2⟩
      · rw [List.mem_singleton.1 hp]
        exact ⟨by simp [hs], by rw [hw]; rfl⟩

/-- The children of `a` in a list of arcs. -/
def outOf (T : List (ℕ × ℕ)) (a : ℕ) : List ℕ := (T.filter fun p => p.1 = a).map Prod.snd

theorem mem_outOf {T : List (ℕ × ℕ)} {a b : ℕ} : b ∈ outOf T a ↔ (a, b) ∈ T := by
  unfold outOf
  simp only [List.mem_map, List.mem_filter, decide_eq_true_eq, Prod.exists, exists_eq_right]

theorem mstLoop_ok (hP : HashOrder (ℕ × ℚ)) {e : Dict ℕ (Dict ℕ ℚ)} (hn : ∀ a d, Dict.get? e a = some d → d.keys.Nodup)
    {n : ℕ} (hkeys : ∀ v, v ∈ e.keys ↔ v < n) (hclosed : ∀ a b w, weightOf e a b = some w → b < n) :
    ∀ (k : ℕ) (g : Dict ℕ (List ℕ)) (R un : List ℕ) (T : List (ℕ × ℕ)), un.length < k → Grown e 0 R T → un.Nodup →
      (∀ v, v ∈ un ↔ v < n ∧ v ∉ R) → (∀ v ∈ R, v < n) → g.keys = List.range n →
      (∀ a < n, Dict.get? g a = some (outOf T a)) →
      ∃ g' R' T', mstLoop hP e k g R un = .ok g' ∧ Grown e 0 R' T' ∧ (∀ v ∈ R', v < n) ∧ g'.keys = List.range n ∧
        (∀ a < n, Dict.get? g' a = some (outOf T' a)) ∧ ∀ s ∈ R', ∀ t w, weightOf e s t = some w → t ∈ R' := by
  intro k
  induction k with
  | zero => intro g R un T h; simp at h
  | succ k ih =>
    intro g R un T hlen hG hun hmem hR hgk hg
    obtain ⟨r, h1, h2, h3⟩ := mstScan_ok hP hn un R none fun r hr => (hkeys r).2 (hR r hr)
    simp only [mstLoop, h1, Py.bind_ok]
    cases r with
    | none =>
      refine ⟨g, R, T, rfl, hG, hR, hgk, hg, fun s hs t w hw => ?_⟩
      have := (h2 rfl).2 s hs t w hw
      rw [hmem] at this
      have hb := hclosed s t w hw
      by_contra hc
      exact this ⟨hb, hc⟩
    | some p =>
      obtain ⟨w, s, t⟩ := p
      obtain ⟨ha, _, hc⟩ := h3 w s t rfl
      rcases ha with ha | ⟨hs, ht, hw⟩
      · cases ha
      have htn := (hmem t).1 ht
      simp only [Dict.get_of_get? (hg s (hR s hs)), Py.bind_ok, pyRemove_of_mem ht]
      have hG' : Grown e 0 (R ++ [t]) (T ++ [(s, t)]) := by
        refine .step hG hs htn.2 hw fun s' hs' t' ht' w' hw' => hc s' hs' t' ?_ w' hw'
        exact (hmem t').2 ⟨hclosed s' t' w' hw', ht'⟩
      refine ih _ _ _ (T ++ [(s, t)]) ?_ hG' (hun.erase _) ?_ ?_ ?_ ?_
      · have := List.length_erase_of_mem ht
        have h0 : 0 < un.length := List.length_pos_of_mem ht
        omega
      · intro v
        rw [hun.mem_erase_iff, hmem, List.mem_append, List.mem_singleton]
        tauto
      · intro v hv
        rcases List.mem_append.1 hv with hv | hv
        · exact hR v hv
        · rw [List.mem_singleton.1 hv]; exact htn.1
      · rw [Dict.keys_set, if_pos]
        · exact hgk
        · rw [hgk]; exact List.mem_range.2 (hR s hs)
      · intro a ha
        rw [Dict.get?_set]
        unfold outOf
        split_ifs with has
        · subst has; simp [List.filter_append]
        · rw [hg a ha]; simp [outOf, List.filter_append, has]

end PyBN
