import Verif.Model.RoundedBayes
import Verif.Proofs.RoundedLearn
import Verif.Spec.RoundedSum
import Verif.Proofs.RowOrder2

/-!
# `bayes_estimator` with rounded arithmetic: the result
-/

set_option linter.unusedSectionVars false

namespace PyBN
namespace BayesNet

/-- Block number `k`. -/
def blockList (card : ℕ) (l : List ℚ) (k : ℕ) : List ℚ := pySlice l (card * k) (card * k + card)

theorem normBlocksB_ok {rnd : ℚ → ℚ} {fsum : List ℚ → ℚ} {card : ℕ} (hc : 0 < card) : ∀ (m fuel : ℕ) (l : List ℚ), m < fuel → l.length = card * m →
    (∀ k < m, fsum (blockList card l k) ≠ 0) →
    ∃ r, normBlocksB rnd fsum card fuel l = .ok r ∧ r.length = l.length ∧
      ∀ k < m, ∀ j < card, r[card * k + j]? = (l[card * k + j]?).map fun x => flPart rnd fsum x (blockList card l k) := by
  intro m
  induction m with
  | zero =>
    intro fuel l hf hl _
    have : l = [] := by apply List.eq_nil_of_length_eq_zero; rw [hl]; simp
    subst this
    cases fuel with
    | zero => omega
    | succ f => exact ⟨[], by rw [normBlocksB, if_neg (by omega), if_pos rfl], rfl, by simp⟩
  | succ m ih =>
    intro fuel l hf hl hs
    cases fuel with
    | zero => omega
    | succ f =>
      have hlen : l.length = card + card * m := by rw [hl]; ring
      have hdrop : ∀ k, blockList card (l.drop card) k = blockList card l (k + 1) := by
        intro k
        unfold blockList pySlice
        rw [List.drop_drop]
        congr 1
        · omega
        · congr 1; ring
      obtain ⟨r, h1, h2, h3⟩ := ih f (l.drop card) (by omega) (by rw [List.length_drop]; omega)
        (fun k hk => by rw [hdrop]; exact hs (k + 1) (by omega))
      have h0 : blockList card l 0 = l.take card := by simp [blockList, pySlice]
      have hs0 := hs 0 (by omega)
      rw [h0] at hs0
      refine ⟨(l.take card).map (fun x => flPart rnd fsum x (l.take card)) ++ r, ?_, ?_, ?_⟩
      · rw [normBlocksB, if_neg (by omega), if_neg (by rintro rfl; simp at hlen; omega), if_neg hs0, if_neg (by omega), h1]; rfl
      · simp [h2]; omega
      · intro k hk j hj
        cases k with
        | zero =>
          rw [Nat.mul_zero, Nat.zero_add, List.getElem?_append_left (by simp; omega), List.getElem?_map, List.getElem?_take_of_lt hj, h0]
        | succ k =>
          have e : card * (k + 1) + j = card + (card * k + j) := by ring
          have hlt : (List.map (fun x => flPart rnd fsum x (List.take card l)) (List.take card l)).length = card := by simp; omega
          rw [List.getElem?_append_right (by rw [hlt]; omega), hlt, e, Nat.add_sub_cancel_left, h3 k (by omega) j hj, hdrop,
            List.getElem?_drop]

theorem writeBackR_ok {rnd : ℚ → ℚ} {fsum : List ℚ → ℚ} {bn : BayesNet ℕ ℤ} {cnt : Dict ℕ (List ℚ)} {R : ℕ → List ℚ} : ∀ (rvs : List ℕ) (F : Dict ℕ (NodeData ℕ ℤ)), rvs.Nodup →
    (∀ v ∈ rvs, ∃ l c, cnt.get? v = some l ∧ bn.card v = .ok c ∧ normBlocksB rnd fsum c (l.length + 1) l = .ok (R v)) →
    (∀ v ∈ rvs, (F.get? v).isSome) →
    ∃ F', writeBackR rnd fsum bn cnt rvs F = .ok F' ∧ ∀ k, F'.get? k =
      if k ∈ rvs then (F.get? k).map (fun d => ⟨d.parents, d.values, R k⟩) else F.get? k := by
  intro rvs
  induction rvs with
  | nil => intro F _ _ _; exact ⟨F, rfl, by simp⟩
  | cons n ns ih =>
    intro F hn hR hF
    obtain ⟨d, hd⟩ := Option.isSome_iff_exists.1 (hF n (by simp))
    obtain ⟨l, c, e1, e2, e3⟩ := hR n (by simp)
    rw [List.nodup_cons] at hn
    obtain ⟨F', h1, h2⟩ := ih (F.set n { d with cpt := R n }) hn.2 (fun v hv => hR v (by simp [hv]))
      (fun v hv => by rw [Dict.get?_set_ne _ _ (by rintro rfl; exact hn.1 hv)]; exact hF v (by simp [hv]))
    refine ⟨F', ?_, fun k => ?_⟩
    · rw [writeBackR, Dict.get_of_get? e1]
      simp only [Py.bind_ok, e2]
      rw [e3]
      simp only [Py.bind_ok, Dict.get_of_get? hd, h1]
    · rw [h2]
      by_cases hk : k = n
      · subst hk
        rw [if_neg hn.1, if_pos (by simp), Dict.get?_set_self, hd]; rfl
      · rw [Dict.get?_set_ne _ _ (Ne.symm hk)]
        by_cases hkn : k ∈ ns
        · rw [if_pos hkn, if_pos (by simp [hkn])]
        · rw [if_neg hkn, if_neg (by simp [hk, hkn])]

/-! ## Counting -/

/-- The tables counted in rounded arithmetic: each entry within `k` roundings. -/
def NearTables (u : ℚ) (k : ℕ) (cnt cntR : Dict ℕ (List ℚ)) : Prop := ∀ v l, cnt.get? v = some l → ∃ lR, cntR.get? v = some lR ∧ List.Forall₂ (Near u k) l lR

theorem forall₂_getElem? {R : ℚ → ℚ → Prop} : ∀ {l m : List ℚ}, List.Forall₂ R l m → ∀ {i : ℕ} {x : ℚ}, l[i]? = some x → ∃ y, m[i]? = some y ∧ R x y
  | _, _, .nil, i, x, h => by simp at h
  | _, _, .cons (a := a) (b := b) h1 h2, 0, x, h => by
    simp only [List.getElem?_cons_zero, Option.some.injEq] at h ⊢
    subst h; exact ⟨b, rfl, h1⟩
  | _, _, .cons h1 h2, i + 1, x, h => by
    simp only [List.getElem?_cons_succ] at h ⊢
    exact forall₂_getElem? h2 h

theorem forall₂_set' {R : ℚ → ℚ → Prop} : ∀ {l m : List ℚ}, List.Forall₂ R l m → ∀ {x y : ℚ}, R x y → ∀ i, List.Forall₂ R (l.set i x) (m.set i y)
  | _, _, .nil, _, _, _, i => by simp
  | _, _, .cons h1 h2, x, y, h, 0 => .cons h h2
  | _, _, .cons h1 h2, x, y, h, i + 1 => .cons h1 (forall₂_set' h2 h i)

theorem pyIdx_near {R : ℚ → ℚ → Prop} {l m : List ℚ} (h : List.Forall₂ R l m) {i : ℤ} {x : ℚ} (e : pyIdx l i = .ok x) : ∃ y, pyIdx m i = .ok y ∧ R x y := by
  unfold pyIdx at e ⊢
  rw [← h.length_eq]
  split_ifs at e ⊢ with h1 h2
  · cases hg : l[i.toNat]? with
    | none => rw [hg] at e; cases e
    | some z =>
      rw [hg] at e; cases e
      obtain ⟨y, hy, hr⟩ := forall₂_getElem? h hg
      exact ⟨y, by rw [hy], hr⟩
  · cases hg : l[(l.length + i).toNat]? with
    | none => rw [hg] at e; cases e
    | some z =>
      rw [hg] at e; cases e
      obtain ⟨y, hy, hr⟩ := forall₂_getElem? h hg
      exact ⟨y, by rw [hy], hr⟩

theorem incrR_near {u : ℚ} {rnd : ℚ → ℚ} (r : Rounds u rnd) {k : ℕ} {l lR l' : List ℚ} (h : List.Forall₂ (Near u k) l lR) {off : ℤ} (e : incr l off = .ok l') :
    ∃ lR', incrR rnd lR off = .ok lR' ∧ List.Forall₂ (Near u (k + 1)) l' lR' := by
  have h1 : List.Forall₂ (Near u (k + 1)) l lR := h.imp fun a b hab => hab.mono r.nonneg r.lt_one (Nat.le_succ k)
  have hlen := h.length_eq
  unfold incr at e
  rw [bind_ok_iff] at e
  obtain ⟨x, hx, e⟩ := e
  cases e
  obtain ⟨y, hy, hxy⟩ := pyIdx_near h hx
  unfold incrR
  rw [hy, Py.bind_ok, ← hlen]
  refine ⟨_, rfl, ?_⟩
  have hn : Near u (k + 1) (x + 1) (rnd (y + 1)) := by
    have h1 : Near u k (x + 1) (y + 1) := hxy.add ((Near.refl u zero_le_one).mono r.nonneg r.lt_one (Nat.zero_le k))
    exact h1.trans r.nonneg r.lt_one (r.near (h1.nonneg r.lt_one))
  exact forall₂_set' h1 hn _

/-- In one row each node of a duplicate-free list is incremented once. -/
theorem countNodesR_near {u : ℚ} {rnd : ℚ → ℚ} (r : Rounds u rnd) (hE : HashOrder (ℕ × ℤ)) (hI : HashOrder ℤ) (bn : BayesNet ℕ ℤ) (obs : Dict ℕ ℤ) {k : ℕ} :
    ∀ (ns : List ℕ) (cnt cntR cnt' : Dict ℕ (List ℚ)), ns.Nodup → NearTables u (k + 1) cnt cntR →
      (∀ v ∈ ns, ∀ l, cnt.get? v = some l → ∃ lR, cntR.get? v = some lR ∧ List.Forall₂ (Near u k) l lR) →
      countNodes hE hI bn obs ns cnt = .ok cnt' → ∃ cntR', countNodesR rnd hE hI bn obs ns cntR = .ok cntR' ∧ NearTables u (k + 1) cnt' cntR'
  | [], cnt, cntR, cnt', _, h, _, e => by cases e; exact ⟨cntR, rfl, h⟩
  | n :: ns, cnt, cntR, cnt', hn, h, hns, e => by
    rw [List.nodup_cons] at hn
    rw [countNodes, bind_ok_iff] at e
    obtain ⟨sc, h1, e⟩ := e
    rw [bind_ok_iff] at e
    obtain ⟨is, h2, e⟩ := e
    rw [bind_ok_iff] at e
    obtain ⟨off, h3, e⟩ := e
    rw [bind_ok_iff] at e
    obtain ⟨l, h4, e⟩ := e
    rw [bind_ok_iff] at e
    obtain ⟨l', h5, e⟩ := e
    have h4' : cnt.get? n = some l := by
      unfold Dict.get at h4
      cases hg : cnt.get? n with
      | none => rw [hg] at h4; cases h4
      | some x => rw [hg] at h4; cases h4; rfl
    obtain ⟨lR, g1, g2⟩ := hns n List.mem_cons_self l h4'
    obtain ⟨lR', g3, g4⟩ := incrR_near r g2 h5
    rw [countNodesR, h1, Py.bind_ok, h2, Py.bind_ok, h3, Py.bind_ok, Dict.get_of_get? g1, Py.bind_ok, g3, Py.bind_ok]
    refine countNodesR_near r hE hI bn obs ns _ _ _ hn.2 (fun v m hv => ?_) (fun v hv m hm => ?_) e
    · by_cases hvn : n = v
      · subst hvn
        rw [Dict.get?_set_self] at hv ⊢
        cases hv
        exact ⟨lR', rfl, g4⟩
      · rw [Dict.get?_set_ne _ _ hvn] at hv ⊢
        exact h v m hv
    · have hvn : n ≠ v := by rintro rfl; exact hn.1 hv
      rw [Dict.get?_set_ne _ _ hvn] at hm ⊢
      exact hns v (List.mem_cons_of_mem _ hv) m hm

theorem countRowsR_near {u : ℚ} {rnd : ℚ → ℚ} (r : Rounds u rnd) (hE : HashOrder (ℕ × ℤ)) (hI : HashOrder ℤ) (bn : BayesNet ℕ ℤ) {ns : List ℕ} (hn : ns.Nodup) :
    ∀ (rows : List (List ℤ)) (k : ℕ) (cnt cntR cnt' : Dict ℕ (List ℚ)), NearTables u k cnt cntR →
      countRows hE hI bn ns rows cnt = .ok cnt' → ∃ cntR', countRowsR rnd hE hI bn ns rows cntR = .ok cntR' ∧ NearTables u (k + rows.length) cnt' cntR'
  | [], k, cnt, cntR, cnt', h, e => by cases e; exact ⟨cntR, rfl, h⟩
  | row :: rows, k, cnt, cntR, cnt', h, e => by
    rw [countRows, bind_ok_iff] at e
    obtain ⟨obs, h1, e⟩ := e
    rw [bind_ok_iff] at e
    obtain ⟨c1, h2, e⟩ := e
    obtain ⟨cR1, g1, g2⟩ := countNodesR_near r hE hI bn obs (k := k) ns cnt cntR c1 hn (fun v l hv => by
      obtain ⟨lR, a, b⟩ := h v l hv
      exact ⟨lR, a, b.imp fun _ _ hab => hab.mono r.nonneg r.lt_one (Nat.le_succ k)⟩) (fun v _ => h v) h2
    obtain ⟨cR2, g3, g4⟩ := countRowsR_near r hE hI bn hn rows (k + 1) c1 cR1 cnt' g2 e
    refine ⟨cR2, ?_, ?_⟩
    · rw [countRowsR, h1, Py.bind_ok, g1, Py.bind_ok, g3]
    · rw [List.length_cons, show k + (rows.length + 1) = k + 1 + rows.length by omega]; exact g4

theorem setTables_all {P : ℚ → Prop} {fill : ℕ → Py ℚ} (hfill : ∀ n x, fill n = .ok x → P x) : ∀ (ns : List ℕ) (bn bn2 : BayesNet ℕ ℤ), setTables fill ns bn = .ok bn2 →
    ∀ v, (v ∈ ns ∨ ∀ x ∈ bn.cptOf v, P x) → ∀ x ∈ bn2.cptOf v, P x := by
  intro ns
  induction ns with
  | nil => intro bn bn2 e v h; cases e; exact h.resolve_left (by simp)
  | cons n ns ih =>
    intro bn bn2 e v h
    rw [setTables, bind_ok_iff] at e
    obtain ⟨ps, _, e⟩ := e
    rw [bind_ok_iff] at e
    obtain ⟨cs, _, e⟩ := e
    rw [bind_ok_iff] at e
    obtain ⟨c, _, e⟩ := e
    rw [bind_ok_iff] at e
    obtain ⟨x, hx, e⟩ := e
    rw [bind_ok_iff] at e
    obtain ⟨d, _, e⟩ := e
    refine ih _ _ e v ?_
    by_cases hv : v ∈ ns
    · exact Or.inl hv
    · right
      by_cases hvn : v = n
      · subst hvn
        unfold cptOf
        rw [Dict.get?_set_self]
        intro y hy
        obtain ⟨_, rfl⟩ := List.mem_replicate.1 hy
        exact hfill _ _ hx
      · unfold cptOf
        rw [Dict.get?_set_ne _ _ (Ne.symm hvn)]
        exact h.resolve_left (by simp [hv, hvn])

theorem cpt_eq {bn : BayesNet ℕ ℤ} {v : ℕ} {l : List ℚ} (e : bn.cpt v = .ok l) : l = bn.cptOf v := by
  unfold cpt at e
  rw [bind_ok_iff] at e
  obtain ⟨d, h, e⟩ := e
  cases e
  unfold cptOf
  unfold Dict.get at h
  cases hg : bn.F.get? v with
  | none => rw [hg] at h; cases h
  | some d' => rw [hg] at h; cases h; rfl

theorem init_eq (bn : BayesNet ℕ ℤ) : ∀ (ns : List ℕ) (init : List (ℕ × List ℚ)),
    pyMap (fun rv => do let c ← bn.cpt rv; pure (rv, c)) ns = (.ok init : Py _) → init = ns.map fun rv => (rv, bn.cptOf rv) := by
  intro ns
  induction ns with
  | nil => intro init e; cases e; rfl
  | cons n ns ih =>
    intro init e
    rw [pyMap, bind_ok_iff] at e
    obtain ⟨p, h1, e⟩ := e
    rw [bind_ok_iff] at h1
    obtain ⟨c, h2, h1⟩ := h1
    cases h1
    rw [bind_ok_iff] at e
    obtain ⟨q, h3, e⟩ := e
    cases e
    rw [ih _ h3, List.map_cons, cpt_eq h2]

theorem learnR_near {u : ℚ} {rnd : ℚ → ℚ} (r : Rounds u rnd) (hE : HashOrder (ℕ × ℤ)) (hI : HashOrder ℤ) {fill : ℕ → Py ℚ} (hfill : ∀ n x, fill n = .ok x → 0 ≤ x)
    {bn : BayesNet ℕ ℤ} {data : Data} {ns : List ℕ} (hn : ns.Nodup) {bn2 : BayesNet ℕ ℤ} {cnt : Dict ℕ (List ℚ)}
    (e : learn hE hI fill bn data ns = .ok (bn2, cnt)) :
    ∃ cntR, learnR rnd hE hI fill bn data ns = .ok (bn2, cntR) ∧ NearTables u data.rows.length cnt cntR := by
  unfold learn at e
  rw [bind_ok_iff] at e
  obtain ⟨F1, h1, e⟩ := e
  rw [bind_ok_iff] at e
  obtain ⟨b2, h2, e⟩ := e
  rw [bind_ok_iff] at e
  obtain ⟨init, h3, e⟩ := e
  rw [bind_ok_iff] at e
  obtain ⟨c, h4, e⟩ := e
  cases e
  have hinit : NearTables u 0 (Dict.ofPairs init) (Dict.ofPairs init) := by
    intro v l hv
    refine ⟨l, hv, ?_⟩
    rw [List.forall₂_same]
    intro x hx
    refine Near.refl u ?_
    rw [init_eq _ _ _ h3, Dict.ofPairs, Dict.get?_update (by rw [Dict.keys_map_pair]; exact hn), Dict.get?_map_pair] at hv
    split_ifs at hv with hm
    · cases hv
      exact setTables_all (P := fun x => 0 ≤ x) hfill _ _ _ h2 v (Or.inl hm) x hx
    · cases hv
  obtain ⟨cR, g1, g2⟩ := countRowsR_near r hE hI bn2 hn data.rows 0 _ _ _ hinit h4
  refine ⟨cR, ?_, by rw [Nat.zero_add] at g2; exact g2⟩
  unfold learnR
  rw [h1, Py.bind_ok, h2, Py.bind_ok, h3, Py.bind_ok, g1]
  rfl

theorem near_list_sum {u : ℚ} {k : ℕ} : ∀ {l m : List ℚ}, List.Forall₂ (Near u k) l m → Near u k l.sum m.sum := by
  intro l m h
  induction h with
  | nil => exact ⟨le_refl _, by simp, by simp⟩
  | cons h _ ih => rw [List.sum_cons, List.sum_cons]; exact h.add ih

/-- The relative error of `m` roundings on either side of a quotient. -/
def divErr (u : ℚ) (m : ℕ) : ℚ := ((1 + u) / (1 - u)) ^ m - 1

theorem divErr_nonneg {u : ℚ} (h0 : 0 ≤ u) (h1 : u < 1) (m : ℕ) : 0 ≤ divErr u m := by
  unfold divErr
  have : 1 ≤ (1 + u) / (1 - u) := by rw [le_div_iff₀ (by linarith)]; linarith
  have := one_le_pow₀ this (n := m)
  linarith

theorem div_close {u : ℚ} {rnd : ℚ → ℚ} (r : Rounds u rnd) {m : ℕ} {A S A' S' : ℚ} (na : Near u m A A') (ns : Near u m S S') (hS : 0 < S) (hA : A ≤ S) :
    0 < S' ∧ 0 ≤ rnd (A' / S') ∧ |rnd (A' / S') - A / S| ≤ divErr u (m + 1) := by
  have hu := r.lt_one
  have h0 := r.nonneg
  have m0 : 0 < 1 - u := by linarith
  have p0 : 0 < 1 + u := by linarith
  have hA' := na.nonneg hu
  obtain ⟨a0, a1, a2⟩ := na
  obtain ⟨_, s1, s2⟩ := ns
  have hS' : 0 < S' := lt_of_lt_of_le (by positivity) s1
  have nq := r.near (div_nonneg hA' hS'.le)
  have hy := nq.nonneg hu
  obtain ⟨_, y1, y2⟩ := nq
  rw [pow_one] at y1 y2
  refine ⟨hS', hy, ?_⟩
  set y := rnd (A' / S') with hydef
  set q := A / S with hq
  have hq0 : 0 ≤ q := div_nonneg a0 hS.le
  have hq1 : q ≤ 1 := by rw [hq, div_le_one hS]; exact hA
  have hxq : A = q * S := by rw [hq]; field_simp
  set t := (1 + u) / (1 - u) with ht
  have ht1 : 1 ≤ t := by rw [ht, le_div_iff₀ m0]; linarith
  have htm : t ^ m = (1 + u) ^ m / (1 - u) ^ m := by rw [ht, div_pow]
  have tm0 : 0 < t ^ m := by positivity
  have up : A' / S' ≤ t ^ m * q := by
    rw [div_le_iff₀ hS']
    calc A' ≤ (1 + u) ^ m * A := a2
      _ = t ^ m * q * ((1 - u) ^ m * S) := by rw [hxq, htm]; field_simp
      _ ≤ _ := mul_le_mul_of_nonneg_left s1 (by positivity)
  have lo : q ≤ t ^ m * (A' / S') := by
    rw [mul_div_assoc', le_div_iff₀ hS']
    calc q * S' ≤ q * ((1 + u) ^ m * S) := mul_le_mul_of_nonneg_left s2 hq0
      _ = t ^ m * ((1 - u) ^ m * A) := by rw [hxq, htm]; field_simp
      _ ≤ _ := mul_le_mul_of_nonneg_left a1 tm0.le
  have hp : 1 + u ≤ t := by rw [ht, le_div_iff₀ m0]; nlinarith
  have hm : 1 ≤ t * (1 - u) := by rw [ht, div_mul_cancel₀ _ m0.ne']; linarith
  have hz : 0 ≤ A' / S' := div_nonneg hA' hS'.le
  have up' : y ≤ t ^ (m + 1) * q := by
    calc y ≤ (1 + u) * (A' / S') := y2
      _ ≤ t * (t ^ m * q) := mul_le_mul hp up hz (by linarith)
      _ = t ^ (m + 1) * q := by ring
  have lo' : q ≤ t ^ (m + 1) * y := by
    calc q ≤ t ^ m * (A' / S') := lo
      _ ≤ t ^ m * (t * (1 - u) * (A' / S')) := mul_le_mul_of_nonneg_left (le_mul_of_one_le_left hz hm) tm0.le
      _ = t ^ (m + 1) * ((1 - u) * (A' / S')) := by ring
      _ ≤ t ^ (m + 1) * y := mul_le_mul_of_nonneg_left y1 (by positivity)
  have ht2 : 1 ≤ t ^ (m + 1) := one_le_pow₀ ht1
  unfold divErr
  rw [abs_le]
  constructor
  · rcases le_total q y with h | h
    · nlinarith
    · have : q - y ≤ (t ^ (m + 1) - 1) * y := by linarith
      nlinarith
  · have : y - q ≤ (t ^ (m + 1) - 1) * q := by linarith
    nlinarith

theorem norm_okB {u : ℚ} {rnd : ℚ → ℚ} (r : Rounds u rnd) {fsum : List ℚ → ℚ} (hs : SumsTo u fsum) {bn : BayesNet ℕ ℤ} (w : bn.WF) {v : ℕ} (hv : v ∈ bn.V)
    {rows : List (List ℤ)} (hr : ∀ row ∈ rows, v < row.length)
    {l lR : List ℚ} {N : ℕ} (hN : List.Forall₂ (Near u N) l lR) {e0 x0 : ℚ} (he0 : 0 < e0) (hx0 : Near u 1 e0 x0)
    (hl : l.length = ((v :: bn.parentsOf v).map bn.cardOf).prod)
    (hent : ∀ a, InRange bn.cardOf (v :: bn.parentsOf v) a → l[enc bn.cardOf (v :: bn.parentsOf v) a]? =
      some (x0 + (rows.countP fun row => decide (MatchesOrLast bn.valuesOf (v :: bn.parentsOf v) a row) : ℕ))) :
    ∃ r', normBlocksB rnd fsum (bn.cardOf v) (lR.length + 1) lR = .ok r' ∧ r'.length = l.length ∧
      ∀ a, InRange bn.cardOf (v :: bn.parentsOf v) a → ∃ y, r'[enc bn.cardOf (v :: bn.parentsOf v) a]? = some (rnd (roundAway 5 y)) ∧ 0 ≤ y ∧
        |y - (e0 + (rows.countP fun row => decide (MatchesOrLast bn.valuesOf (v :: bn.parentsOf v) a row) : ℕ)) /
          (bn.cardOf v * e0 + (rows.countP fun row => decide (MatchesOrLast bn.valuesOf (bn.parentsOf v) a row) : ℕ))| ≤ divErr u (N + bn.cardOf v + 2) := by
  have hu := r.lt_one
  have h0 := r.nonneg
  have hnd := List.nodup_cons.1 (w.fam_nodup v hv)
  have hc := w.card_pos hv
  have hcq : (0 : ℚ) < bn.cardOf v := by exact_mod_cast hc
  have hbs : ∀ a, InRange bn.cardOf (bn.parentsOf v) a → blockSum (bn.cardOf v) l (enc bn.cardOf (bn.parentsOf v) a) =
      bn.cardOf v * x0 + (rows.countP fun row => decide (MatchesOrLast bn.valuesOf (bn.parentsOf v) a row) : ℕ) := by
    intro a ha
    rw [blockSum_eq (g := fun x => x0 + ((rows.countP fun row => decide (MatchesOrLast bn.valuesOf (v :: bn.parentsOf v) (a.upd v x) row) : ℕ) : ℚ))]
    · rw [Finset.sum_add_distrib, count_split w hv rows a hr, Finset.sum_const, Finset.card_range, nsmul_eq_mul]
    · intro j hj
      have := hent (a.upd v j) (by
        intro u hu
        by_cases h : u = v
        · subst h; rw [Asg.upd_self]; exact hj
        · rw [Asg.upd_ne _ _ h]; exact ha u ((List.mem_cons.1 hu).resolve_left h))
      rw [← this]
      congr 1
      rw [enc, Asg.upd_self, enc_upd_notMem hnd.1]; omega
  have nS : ∀ a, InRange bn.cardOf (bn.parentsOf v) a → Near u (N + bn.cardOf v + 1)
      (bn.cardOf v * e0 + (rows.countP fun row => decide (MatchesOrLast bn.valuesOf (bn.parentsOf v) a row) : ℕ))
      (fsum (blockList (bn.cardOf v) lR (enc bn.cardOf (bn.parentsOf v) a))) := by
    intro a ha
    have e1 : Near u 1 (bn.cardOf v * e0 + (rows.countP fun row => decide (MatchesOrLast bn.valuesOf (bn.parentsOf v) a row) : ℕ))
        (blockSum (bn.cardOf v) l (enc bn.cardOf (bn.parentsOf v) a)) := by
      rw [hbs a ha]
      exact Near.add (by simpa using (Near.refl u hcq.le).mul hu hx0) ((Near.refl u (Nat.cast_nonneg _)).mono h0 hu (Nat.zero_le 1))
    have hblk : List.Forall₂ (Near u N) (blockList (bn.cardOf v) l (enc bn.cardOf (bn.parentsOf v) a)) (blockList (bn.cardOf v) lR (enc bn.cardOf (bn.parentsOf v) a)) := by
      unfold blockList pySlice
      exact List.forall₂_take _ (List.forall₂_drop _ hN)
    have e2 := near_list_sum hblk
    have hle : (blockList (bn.cardOf v) lR (enc bn.cardOf (bn.parentsOf v) a)).length ≤ bn.cardOf v := by
      unfold blockList pySlice
      rw [List.length_take]
      omega
    have e3 := (hs (blockList (bn.cardOf v) lR (enc bn.cardOf (bn.parentsOf v) a)) (by
      intro x hx
      obtain ⟨i, hi, rfl⟩ := List.getElem_of_mem hx
      have hlen := hblk.length_eq
      have := (List.forall₂_iff_get.1 hblk).2 i (by rw [hlen]; exact hi) hi
      exact Near.nonneg hu this)).mono h0 hu hle
    exact ((e1.trans h0 hu e2).trans h0 hu e3).mono h0 hu (by omega)
  have hSpos : ∀ a, (0 : ℚ) < bn.cardOf v * e0 + (rows.countP fun row => decide (MatchesOrLast bn.valuesOf (bn.parentsOf v) a row) : ℕ) := fun a => by positivity
  have hlen : lR.length = bn.cardOf v * ((bn.parentsOf v).map bn.cardOf).prod := by rw [← hN.length_eq, hl, List.map_cons, List.prod_cons]
  obtain ⟨r', h1, h2, h3⟩ := normBlocksB_ok (rnd := rnd) (fsum := fsum) hc ((bn.parentsOf v).map bn.cardOf).prod (lR.length + 1) lR
    (by rw [hlen]; have := Nat.le_mul_of_pos_left ((bn.parentsOf v).map bn.cardOf).prod hc; omega) hlen
    (fun k hk => by
      obtain ⟨a, ha, rfl⟩ := enc_surj hnd.2 hk
      exact ne_of_gt (lt_of_lt_of_le (mul_pos (pow_pos (by linarith) _) (hSpos a)) (nS a ha).2.1))
  refine ⟨r', h1, by rw [h2, hN.length_eq], fun a ha => ?_⟩
  have hap : InRange bn.cardOf (bn.parentsOf v) a := fun u hu => ha u (by simp [hu])
  have h4 := h3 _ (enc_lt hap) (a v) (ha v (by simp))
  have he : enc bn.cardOf (v :: bn.parentsOf v) a = bn.cardOf v * enc bn.cardOf (bn.parentsOf v) a + a v := by rw [enc]; omega
  obtain ⟨z, z1, z2⟩ := forall₂_getElem? hN (hent a ha)
  rw [← he, z1, Option.map_some] at h4
  refine ⟨_, h4, ?_⟩
  have nA : Near u (N + bn.cardOf v + 1) (e0 + (rows.countP fun row => decide (MatchesOrLast bn.valuesOf (v :: bn.parentsOf v) a row) : ℕ)) z :=
    ((hx0.add ((Near.refl u (Nat.cast_nonneg _)).mono h0 hu (Nat.zero_le 1))).trans h0 hu z2).mono h0 hu (by omega)
  have hle : e0 + (rows.countP fun row => decide (MatchesOrLast bn.valuesOf (v :: bn.parentsOf v) a row) : ℕ) ≤
      bn.cardOf v * e0 + ((rows.countP fun row => decide (MatchesOrLast bn.valuesOf (bn.parentsOf v) a row) : ℕ) : ℚ) := by
    have c1 : (1 : ℚ) ≤ bn.cardOf v := by exact_mod_cast hc
    have c2 : ((rows.countP fun row => decide (MatchesOrLast bn.valuesOf (v :: bn.parentsOf v) a row) : ℕ) : ℚ) ≤
        (rows.countP fun row => decide (MatchesOrLast bn.valuesOf (bn.parentsOf v) a row) : ℕ) := by
      exact_mod_cast List.countP_mono_left fun row _ h => by
        rw [decide_eq_true_eq] at h ⊢
        exact fun u hu => h u (List.mem_cons_of_mem _ hu)
    nlinarith
  obtain ⟨_, y0, y1⟩ := div_close r nA (nS a hap) (hSpos a) hle
  exact ⟨y0, y1⟩

end BayesNet
end PyBN
