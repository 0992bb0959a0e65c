import Verif.Model.BayesNetOps
import Verif.Proofs.FactorMore
import Verif.Proofs.Infer
import Mathlib.Tactic.Ring
import Mathlib.Tactic.Linarith

/-! Lemmas about the queries of `BayesNet`. -/

set_option linter.unusedSectionVars false

namespace PyBN
variable {N A : Type _} [DecidableEq N] [DecidableEq A]

theorem pyMap_ok {α β : Type _} {f : α → Py β} {g : α → β} : ∀ {l : List α}, (∀ x ∈ l, f x = .ok (g x)) →
    pyMap f l = .ok (l.map g) := by
  intro l
  induction l with
  | nil => intro _; rfl
  | cons x l ih =>
    intro h
    simp only [pyMap, h x (by simp), ih fun y hy => h y (by simp [hy]), Py.bind_ok, Py.pure_eq, List.map_cons]

theorem pyMap_congr {α β : Type _} {f g : α → Py β} : ∀ {l : List α}, (∀ x ∈ l, f x = g x) → pyMap f l = pyMap g l := by
  intro l
  induction l with
  | nil => intro _; rfl
  | cons x l ih => intro h; simp only [pyMap, h x (by simp), ih fun y hy => h y (by simp [hy])]

namespace BayesNet

theorem EdgeWF.get (w : EdgeWF (bn : BayesNet N A)) {v : N} (hv : v ∈ bn.V) : Dict.get? bn.E v = some (bn.childrenOf v) := by
  have h := (w.dom v).2 hv
  unfold childrenOf
  cases hE : Dict.get? bn.E v with
  | none => rw [hE] at h; cases h
  | some l => rfl

/-- `bn.stride(rv, n)` is the product of the cardinalities listed before `n`. -/
theorem stride_ok {bn : BayesNet N A} (w : bn.WF) {rv n : N} (hrv : rv ∈ bn.V) {o1 o2 : List N}
    (hs : rv :: bn.parentsOf rv = o1 ++ n :: o2) : bn.stride rv n = .ok (o1.map bn.cardOf).prod := by
  have hnd := w.fam_nodup rv hrv
  cases o1 with
  | nil =>
    simp only [List.nil_append, List.cons.injEq] at hs
    unfold stride; rw [if_pos hs.1.symm]; rfl
  | cons x o1 =>
    simp only [List.cons_append, List.cons.injEq] at hs
    obtain ⟨rfl, hps⟩ := hs
    rw [hps] at hnd
    have hne : n ≠ rv := fun h => (List.nodup_cons.1 hnd).1 (by simp [h])
    have hn1 : n ∉ o1 := by
      intro h
      have := (List.nodup_append.1 (List.nodup_cons.1 hnd).2).2.2 n h n (by simp)
      exact this rfl
    have hidx : pyIndex (bn.parentsOf rv) n = .ok o1.length := by
      rw [pyIndex_ok, hps]
      refine ⟨by simp, fun m hm => ?_⟩
      rw [List.getElem?_append_left hm]
      intro h
      exact hn1 (List.mem_of_getElem? h)
    unfold stride
    rw [if_neg hne, w.card_ok hrv, Py.bind_ok, w.parents_ok hrv, Py.bind_ok,
      pyMap_ok (g := bn.cardOf) fun x hx => w.card_ok (w.parents_mem rv hrv x hx), Py.bind_ok, hidx, Py.bind_ok]
    rw [hps]
    simp only [List.map_append, List.map_cons, Py.pure_eq, List.take_succ_cons]
    rw [List.take_left' (by simp)]

theorem enc_zero {c : N → ℕ} {o : List N} {a : Asg N} (h : ∀ v ∈ o, a v = 0) : enc c o a = 0 := by
  induction o with
  | nil => rfl
  | cons v o ih => simp only [enc, h v (by simp), ih fun u hu => h u (by simp [hu])]; simp

/-- The digit of `n` read off a position. -/
theorem enc_digit {c : N → ℕ} {o1 o2 : List N} {n : N} {a : Asg N} (ha : InRange c (o1 ++ n :: o2) a) :
    enc c (o1 ++ n :: o2) a / (o1.map c).prod % c n = a n := by
  rw [enc_append]
  have h1 : enc c o1 a < (o1.map c).prod := enc_lt fun v hv => ha v (by simp [hv])
  have hn : a n < c n := ha n (by simp)
  rw [Nat.add_mul_div_left _ _ (by omega), Nat.div_eq_of_lt h1, Nat.zero_add]
  simp only [enc]
  rw [Nat.add_mul_mod_self_left, Nat.mod_eq_of_lt hn]

/-- Membership in the blocks enumerated by the `while` loop of `cpt_indices`. -/
theorem idxLoop_ok {len S C : ℕ} (hS : 0 < S) (hC : 0 < C) : ∀ (fuel : ℕ) (s : ℤ), (len : ℤ) ≤ s + fuel →
    ∃ r, idxLoop len S (S * C) fuel s = .ok r ∧
      ∀ i : ℤ, 0 ≤ i → i < len → (i ∈ r ↔ s ≤ i ∧ (i - s) / S % C = 0) := by
  have hstop : ∀ s : ℤ, ¬ s < len → ∀ i : ℤ, 0 ≤ i → i < len → (i ∈ ([] : List ℤ) ↔ s ≤ i ∧ (i - s) / S % C = 0) := by
    intro s hs i _ hi
    constructor
    · intro h; cases h
    · rintro ⟨h, _⟩; omega
  intro fuel
  induction fuel with
  | zero =>
    intro s h
    have : ¬ s < len := by push_cast at h; omega
    exact ⟨[], by simp only [idxLoop, if_neg this], hstop s this⟩
  | succ fuel ih =>
    intro s h
    by_cases hlt : s < len
    · have hstep : 1 ≤ S * C := Nat.mul_pos hS hC
      obtain ⟨r, h1, h2⟩ := ih (s + (S * C : ℕ)) (by push_cast at h ⊢; have : (1 : ℤ) ≤ S * C := by exact_mod_cast hstep
                                                     linarith)
      refine ⟨_, by simp only [idxLoop, if_pos hlt, h1, Py.bind_ok, Py.pure_eq]; rfl, fun i h0 hi => ?_⟩
      rw [List.mem_append, h2 i h0 hi, List.mem_map]
      have hSz : (0 : ℤ) < S := by exact_mod_cast hS
      have hCz : (0 : ℤ) < C := by exact_mod_cast hC
      have hshift : (i - (s + (S * C : ℕ))) / S = (i - s) / S - C := by
        push_cast
        rw [show i - (s + (S : ℤ) * C) = (i - s) + S * (-C) by ring, Int.add_mul_ediv_left _ _ (by omega)]
        ring
      rw [hshift, Int.sub_emod_right]
      constructor
      · rintro (⟨t, ht, rfl⟩ | ⟨h3, h4⟩)
        · rw [List.mem_range] at ht
          refine ⟨by omega, ?_⟩
          rw [show s + (t : ℤ) - s = t by ring, Int.ediv_eq_zero_of_lt (by omega) (by exact_mod_cast ht)]
          simp
        · refine ⟨?_, h4⟩
          have : (0 : ℤ) ≤ (S * C : ℕ) := Int.natCast_nonneg _
          omega
      · rintro ⟨h3, h4⟩
        by_cases hb : i < s + S
        · refine .inl ⟨(i - s).toNat, List.mem_range.2 (by omega), by omega⟩
        · refine .inr ⟨?_, h4⟩
          have hq1 : 1 ≤ (i - s) / S := by rw [Int.le_ediv_iff_mul_le hSz]; omega
          have hqC : (C : ℤ) ≤ (i - s) / S := by
            obtain ⟨k, hk⟩ := Int.dvd_of_emod_eq_zero h4
            have hk1 : 1 ≤ k := by
              by_contra hk0
              have : k ≤ 0 := by omega
              have : (C : ℤ) * k ≤ 0 := Int.mul_nonpos_of_nonneg_of_nonpos (by omega) this
              omega
            calc (C : ℤ) = C * 1 := by ring
              _ ≤ C * k := Int.mul_le_mul_of_nonneg_left hk1 (by omega)
              _ = _ := hk.symm
          rw [Int.le_ediv_iff_mul_le hSz] at hqC
          push_cast
          linarith
    · exact ⟨[], by simp only [idxLoop, if_neg hlt], hstop s hlt⟩

/-- ... starting from value index `vi` (or `-1`). -/
theorem idxLoop_value {len S C : ℕ} (hS : 0 < S) (hC : 0 < C) {vi : ℤ} (h1 : -1 ≤ vi) (h2 : vi < C) :
    ∃ r, idxLoop len S (S * C) (len + S + 1) (vi * S) = .ok r ∧
      ∀ i : ℕ, i < len → ((i : ℤ) ∈ r ↔ ((i / S % C : ℕ) : ℤ) = vi % C) := by
  have hSz : (0 : ℤ) < S := by exact_mod_cast hS
  have hCz : (0 : ℤ) < C := by exact_mod_cast hC
  obtain ⟨r, hr, hm⟩ := idxLoop_ok (len := len) hS hC (len + S + 1) (vi * S) (by
    push_cast
    have : -1 * (S : ℤ) ≤ vi * S := Int.mul_le_mul_of_nonneg_right h1 (by omega)
    linarith)
  refine ⟨r, hr, fun i hi => ?_⟩
  rw [hm i (by omega) (by exact_mod_cast hi)]
  have hq : ((i : ℤ) - vi * S) / S = (i : ℤ) / S - vi := by
    rw [show (i : ℤ) - vi * S = i + S * (-vi) by ring, Int.add_mul_ediv_left _ _ (by omega)]; ring
  rw [hq]
  have hq0 : 0 ≤ (i : ℤ) / S := Int.ediv_nonneg (by omega) (by omega)
  push_cast
  constructor
  · rintro ⟨_, h4⟩
    exact Int.emod_eq_emod_iff_emod_sub_eq_zero.2 h4
  · intro h
    have h4 := Int.emod_eq_emod_iff_emod_sub_eq_zero.1 h
    refine ⟨?_, h4⟩
    by_contra hlt
    have hlt' : (i : ℤ) / S < vi := by rw [Int.ediv_lt_iff_lt_mul hSz]; omega
    have : vi - (i : ℤ) / S < C := by omega
    have hdvd := Int.dvd_of_emod_eq_zero h4
    obtain ⟨k, hk⟩ := hdvd
    have hkneg : k < 0 := by
      by_contra hk0
      have : 0 ≤ (C : ℤ) * k := Int.mul_nonneg (by omega) (by omega)
      omega
    have : (C : ℤ) * k ≤ C * (-1) := Int.mul_le_mul_of_nonneg_left (by omega) (by omega)
    omega

/-- The loop over the items keeps the positions whose digits match. -/
theorem cptIndicesLoop_ok {bn : BayesNet N A} {len : ℕ} {stride card : Dict N ℕ} {g : N × A → ℤ} {S C : N → ℕ} :
    ∀ (es : List (N × A)) (idx : List ℤ), (∀ i ∈ idx, ∃ k : ℕ, i = k ∧ k < len) →
    (∀ kv ∈ es, bn.valueIdx kv.1 kv.2 = .ok (g kv) ∧ -1 ≤ g kv ∧ g kv < C kv.1 ∧ Dict.get? stride kv.1 = some (S kv.1) ∧
      Dict.get? card kv.1 = some (C kv.1) ∧ 0 < S kv.1 ∧ 0 < C kv.1) →
    ∃ r, cptIndicesLoop bn len stride card idx es = .ok r ∧ List.Sublist r idx ∧
      ∀ i : ℕ, (i : ℤ) ∈ r ↔ (i : ℤ) ∈ idx ∧ ∀ kv ∈ es, ((i / S kv.1 % C kv.1 : ℕ) : ℤ) = g kv % C kv.1 := by
  intro es
  induction es with
  | nil => intro idx _ _; exact ⟨idx, rfl, List.Sublist.refl _, fun i => by simp⟩
  | cons kv es ih =>
    intro idx hidx h
    obtain ⟨h1, h2, h3, h4, h5, h6, h7⟩ := h kv (by simp)
    obtain ⟨r0, hr0, hm0⟩ := idxLoop_value (len := len) h6 h7 h2 h3
    obtain ⟨r, hr, hsub, hm⟩ := ih (idx.filter fun i => decide (i ∈ r0))
      (fun i hi => hidx i (List.mem_filter.1 hi).1) fun kv hkv => h kv (by simp [hkv])
    obtain ⟨rv, val⟩ := kv
    refine ⟨r, ?_, hsub.trans List.filter_sublist, fun i => ?_⟩
    · simp only [cptIndicesLoop, h1, Py.bind_ok, Dict.get_of_get? h4, Dict.get_of_get? h5, hr0]
      exact hr
    · rw [hm, List.mem_filter, decide_eq_true_eq]
      constructor
      · rintro ⟨⟨ha, hb⟩, hc⟩
        obtain ⟨k, hk, hlt⟩ := hidx i ha
        have hik : i = k := by exact_mod_cast hk
        refine ⟨ha, fun kv hkv => ?_⟩
        rcases List.mem_cons.1 hkv with hkv | hkv
        · subst hkv; exact (hm0 i (hik ▸ hlt)).1 hb
        · exact hc kv hkv
      · rintro ⟨ha, hb⟩
        obtain ⟨k, hk, hlt⟩ := hidx i ha
        have hik : i = k := by exact_mod_cast hk
        exact ⟨⟨ha, (hm0 i (hik ▸ hlt)).2 (hb _ (by simp))⟩, fun kv hkv => hb kv (by simp [hkv])⟩

/-- `Dict.ofPairs` of a duplicate-free comprehension. -/
theorem ofPairs_get {l : List N} {f : N → ℕ} (hn : l.Nodup) {v : N} (hv : v ∈ l) :
    Dict.get? (Dict.ofPairs (l.map fun n => (n, f n))) v = some (f v) := by
  rw [Dict.ofPairs, Dict.get?_update (by rw [Dict.keys_map_pair]; exact hn), Dict.get?_map_pair, if_pos hv]

/-- `cpt_indices` in terms of value indices `g` (which may be `-1`). -/
theorem cptIndices_gen (hE : HashOrder (N × A)) (hI : HashOrder ℤ) {bn : BayesNet N A} (w : bn.WF) {target : N}
    (ht : target ∈ bn.V) (d : Dict N A) (g : N × A → ℤ)
    (hd : ∀ kv ∈ d, kv.1 ∈ target :: bn.parentsOf target ∧ bn.valueIdx kv.1 kv.2 = .ok (g kv) ∧ -1 ≤ g kv ∧ g kv < bn.cardOf kv.1) :
    ∃ r, cptIndices hE hI bn target d = .ok r ∧ r.Nodup ∧ (∀ i ∈ r, ∃ k : ℕ, i = k) ∧
      ∀ i : ℕ, (i : ℤ) ∈ r ↔ ∃ a, InRange bn.cardOf (target :: bn.parentsOf target) a ∧
        i = enc bn.cardOf (target :: bn.parentsOf target) a ∧ ∀ kv ∈ d, (a kv.1 : ℤ) = g kv % bn.cardOf kv.1 := by
  set sc := target :: bn.parentsOf target with hsc
  have hn := w.fam_nodup target ht
  rw [← hsc] at hn
  have hmemV := w.fam_mem ht
  rw [← hsc] at hmemV
  -- the stride as a function
  have hex : ∀ n ∈ sc, ∃ o : List N, ∃ o2, sc = o ++ n :: o2 := fun n hn' => by
    obtain ⟨o1, o2, h⟩ := List.append_of_mem hn'; exact ⟨o1, o2, h⟩
  classical
  let pre : N → List N := fun n => if h : n ∈ sc then (hex n h).choose else []
  have hpre : ∀ n ∈ sc, ∃ o2, sc = pre n ++ n :: o2 := by
    intro n hn'
    simp only [pre, dif_pos hn']
    exact (hex n hn').choose_spec
  let S : N → ℕ := fun n => ((pre n).map bn.cardOf).prod
  have hSpos : ∀ n ∈ sc, 0 < S n := by
    intro n hn'
    obtain ⟨o2, ho⟩ := hpre n hn'
    refine Nat.pos_of_ne_zero fun h0 => ?_
    obtain ⟨m, hm, hm0⟩ := List.mem_map.1 (List.prod_eq_zero_iff.1 h0)
    have := w.card_pos (hmemV m (by rw [ho]; simp [hm]))
    omega
  have hstr : ∀ n ∈ sc, (do let s ← bn.stride target n; pure (n, s) : Py (N × ℕ)) = .ok (n, S n) := by
    intro n hn'
    obtain ⟨o2, ho⟩ := hpre n hn'
    rw [stride_ok w ht ho]; rfl
  have hcard : ∀ n ∈ sc, (do let c ← bn.card n; pure (n, c) : Py (N × ℕ)) = .ok (n, bn.cardOf n) := by
    intro n hn'
    rw [w.card_ok (hmemV n hn')]; rfl
  have hitems : ∀ kv ∈ hE.iter d, kv ∈ d := fun kv h => (hE.perm d).mem_iff.1 h
  obtain ⟨r, hr, hsub, hm⟩ := cptIndicesLoop_ok (bn := bn) (len := (bn.cptOf target).length)
    (stride := Dict.ofPairs (sc.map fun n => (n, S n))) (card := Dict.ofPairs (sc.map fun n => (n, bn.cardOf n)))
    (g := g) (S := S) (C := bn.cardOf) (hE.iter d) ((List.range (bn.cptOf target).length).map fun (i : ℕ) => (i : ℤ))
    (by
      intro i hi
      obtain ⟨k, hk, rfl⟩ := List.mem_map.1 hi
      exact ⟨k, rfl, List.mem_range.1 hk⟩)
    (by
      intro kv hkv
      obtain ⟨h1, h2, h3, h4⟩ := hd kv (hitems kv hkv)
      exact ⟨h2, h3, h4, ofPairs_get hn h1, ofPairs_get hn h1, hSpos _ h1, w.card_pos (hmemV _ h1)⟩)
  refine ⟨hI.iter r, ?_, ?_, ?_, ?_⟩
  · unfold cptIndices
    rw [w.scope_ok ht, Py.bind_ok, ← hsc, pyMap_ok hstr, Py.bind_ok, pyMap_ok hcard, Py.bind_ok, w.cpt_ok ht, Py.bind_ok, hr]
    rfl
  · rw [(hI.perm r).nodup_iff]
    refine hsub.nodup ?_
    rw [List.nodup_map_iff (fun a b h => by exact_mod_cast h)]
    exact List.nodup_range
  · intro i hi
    obtain ⟨k, _, rfl⟩ := List.mem_map.1 (hsub.subset ((hI.perm r).mem_iff.1 hi))
    exact ⟨k, rfl⟩
  · intro i
    rw [(hI.perm r).mem_iff, hm]
    have hlen := w.cpt_len target ht
    rw [← hsc] at hlen
    constructor
    · rintro ⟨h1, h2⟩
      obtain ⟨k, hk, hki⟩ := List.mem_map.1 h1
      have hki' : k = i := by exact_mod_cast hki
      subst hki'
      rw [List.mem_range, hlen] at hk
      obtain ⟨a, ha, hai⟩ := enc_surj hn hk
      refine ⟨a, ha, hai.symm, fun kv hkv => ?_⟩
      have := h2 kv ((hE.perm d).mem_iff.2 hkv)
      obtain ⟨h1, _⟩ := hd kv hkv
      obtain ⟨o2, ho⟩ := hpre _ h1
      rw [← this, ← hai]
      have hdig := enc_digit (c := bn.cardOf) (o1 := pre kv.1) (o2 := o2) (n := kv.1) (a := a) (ho ▸ ha)
      rw [← ho] at hdig
      exact_mod_cast hdig.symm
    · rintro ⟨a, ha, rfl, h2⟩
      refine ⟨List.mem_map.2 ⟨_, List.mem_range.2 (by rw [hlen]; exact enc_lt ha), rfl⟩, fun kv hkv => ?_⟩
      have hkv' := hitems kv hkv
      obtain ⟨h1, _⟩ := hd kv hkv'
      obtain ⟨o2, ho⟩ := hpre _ h1
      have hdig := enc_digit (c := bn.cardOf) (o1 := pre kv.1) (o2 := o2) (n := kv.1) (a := a) (ho ▸ ha)
      rw [← ho] at hdig
      rw [← h2 kv hkv']
      exact_mod_cast hdig

end BayesNet
end PyBN
