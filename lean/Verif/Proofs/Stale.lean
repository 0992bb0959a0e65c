import Verif.Proofs.Elim
import Verif.Proofs.FactorMore

/-! Factors whose table does not have the size its scope asks for: every operation, one table length at a time. -/

set_option linter.unusedSectionVars false

namespace PyBN
namespace Factor
variable {N A : Type _} [DecidableEq N] [DecidableEq A]

/-- The same factor with another table. -/
def recut (f : Factor N) (l : List ℚ) : Factor N := { f with cpt := l }

/-- The number of entries the scope asks for. -/
def size (c : N → ℕ) (f : Factor N) : ℕ := (f.scope.map c).prod

/-- Well formed except perhaps for the number of entries. -/
def Shape (c : N → ℕ) (f : Factor N) : Prop := (f.recut (List.replicate (f.size c) 0)).WF c

variable {c : N → ℕ} {f g : Factor N} {rv : N}

theorem WF.recut (w : f.WF c) {l : List ℚ} (h : l.length = f.size c) : (f.recut l).WF c :=
  ⟨w.scope_nodup, w.card_pos, w.card_nodup, w.card_eq, w.stride_nodup, w.stride_dom, w.layout, h⟩

theorem WF.shape (w : f.WF c) : f.Shape c := w.recut (by simp)

theorem Shape.recut (w : f.Shape c) (l : List ℚ) : (f.recut l).Shape c := w

theorem Shape.wf (w : f.Shape c) (h : f.cpt.length = f.size c) : f.WF c := WF.recut (f := f.recut _) w (l := f.cpt) h

theorem Shape.var (w : f.Shape c) (x : N) : ({ f with var := x } : Factor N).Shape c :=
  ⟨w.scope_nodup, w.card_pos, w.card_nodup, w.card_eq, w.stride_nodup, w.stride_dom, w.layout, w.cpt_len⟩

theorem dropVar_recut (f : Factor N) (rv : N) (C P : ℕ) (l l' : List ℚ) {f' : Factor N}
    (h : dropVar f rv C P l = .ok f') (l0 : List ℚ) : dropVar (f.recut l0) rv C P l' = .ok (f'.recut l') := by
  unfold dropVar at h ⊢
  simp only [Factor.recut]
  cases h1 : f.card.del rv with
  | error e => rw [h1] at h; cases h
  | ok a =>
    rw [h1] at h
    cases h2 : (shrinkStride f.stride C P).del rv with
    | error e => rw [Py.bind_ok, h2] at h; cases h
    | ok b =>
      rw [Py.bind_ok, h2] at h
      cases h3 : pyRemove f.scope rv with
      | error e => rw [Py.bind_ok, h3] at h; cases h
      | ok s =>
        rw [Py.bind_ok, h3] at h
        cases h
        rfl

theorem blockSize_recut (f : Factor N) (l : List ℚ) (b : ℕ) : ∀ s : List N, blockSize (f.recut l) b s = blockSize f b s
  | [] => rfl
  | r :: rs => by
      have := blockSize_recut f l b rs
      simp only [blockSize, Factor.recut] at this ⊢
      simp only [this]

/-- What removing a variable does, whatever the table. -/
structure Removal (c : N → ℕ) (f : Factor N) (rv : N) (P Q : ℕ) (f0 : Factor N) : Prop where
  P_pos : 0 < P
  C_pos : 0 < c rv
  size_eq : f.size c = P * (c rv * Q)
  size0 : f0.size c = P * Q
  shape : f0.Shape c
  scope : f0.scope = f.scope.erase rv

theorem Shape.removal (h : HashOrder N) (w : f.Shape c) (hrv : rv ∈ f.scope) :
    ∃ P Q f0 f1, Removal c f rv P Q f0 ∧ Removal c f rv P Q f1 ∧ f0.var = newVar h f.var rv f0.stride ∧
      f.card.get rv = .ok (c rv) ∧ f.stride.get rv = .ok P ∧
      (∀ l : List ℚ, blockSize (f.recut l) P f.scope = .ok P) ∧
      (∀ l l' : List ℚ, dropVar (f.recut l) rv (c rv) P l' = .ok (f1.recut l')) ∧
      f0 = { f1 with var := newVar h f.var rv f1.stride } := by
  obtain ⟨o1, o2, s⟩ := WF.split (f := f.recut _) w hrv
  obtain ⟨f', h4, h5, h6, h7, h8, h9⟩ := dropVar_ok s w
    (newCpt := List.replicate ((o1.map c).prod * (o2.map c).prod) 0) (by simp)
  have hst : (f.recut (List.replicate (f.size c) 0)).strideOf rv = (o1.map c).prod := s.stride_rv
  have hsz : f.size c = (o1.map c).prod * (c rv * (o2.map c).prod) := by
    have := s.len w; simpa [Factor.recut] using this
  have hsz0 : f'.size c = (o1.map c).prod * (o2.map c).prod := by
    have := (h8 f'.var).cpt_len
    rw [h6] at this
    simpa [Factor.size] using this.symm
  have hsh : f'.Shape c := (h8 f'.var).shape
  have r1 : Removal c f rv (o1.map c).prod (o2.map c).prod f' :=
    ⟨s.P_pos w, s.C_pos w, hsz, hsz0, hsh, h7⟩
  have r0 : Removal c f rv (o1.map c).prod (o2.map c).prod { f' with var := newVar h f.var rv f'.stride } :=
    ⟨s.P_pos w, s.C_pos w, hsz, hsz0, hsh.var _, h7⟩
  refine ⟨_, _, _, f', r0, r1, rfl, Dict.get_of_get? (WF.card_get (f := f.recut _) w hrv), ?_, ?_, ?_, rfl⟩
  · rw [← hst]; exact Dict.get_of_get? (WF.stride_get (f := f.recut _) w hrv)
  · intro l
    have := s.blockSize_eq w
    rw [hst, blockSize_recut] at this
    rw [blockSize_recut]; exact this
  · intro l l'
    rw [hst] at h4
    exact dropVar_recut (f.recut _) rv (c rv) _ _ l' h4 l

/-- `sumout_var` as a function of the table alone. -/
theorem Shape.sumout_eq (h : HashOrder N) (w : f.Shape c) (hrv : rv ∈ f.scope) :
    ∃ P Q f0, Removal c f rv P Q f0 ∧ ∀ l : List ℚ, sumout h (f.recut l) rv =
      (elimLoop (fun k => sumC l P k (c rv) 0 0) (c rv) P (l.length / c rv) 0 >>= fun r => .ok (f0.recut r)) := by
  obtain ⟨P, Q, f0, f1, r0, r1, _, hc, hs, hb, hd, rfl⟩ := w.removal h hrv
  refine ⟨P, Q, _, r0, fun l => ?_⟩
  have e1 : (f.recut l).card.get rv = .ok (c rv) := hc
  have e2 : (f.recut l).stride.get rv = .ok P := hs
  have e3 : blockSize (f.recut l) P (f.recut l).scope = .ok P := hb l
  simp only [sumout, e1, e2, e3, Py.bind_ok, if_neg r0.C_pos.ne', hd]
  rfl

/-- `maxout_var` as a function of the table alone. -/
theorem Shape.maxout_eq (w : f.Shape c) (hrv : rv ∈ f.scope) :
    ∃ P Q f0, Removal c f rv P Q f0 ∧ ∀ l : List ℚ, maxout (f.recut l) rv =
      (elimLoop (fun k => maxC l P k (c rv) 0 0) (c rv) P (l.length / c rv) 0 >>= fun r => .ok (f0.recut r)) := by
  obtain ⟨P, Q, f0, f1, r0, r1, _, hc, hs, hb, hd, rfl⟩ := w.removal HashOrder.id hrv
  refine ⟨P, Q, f1, r1, fun l => ?_⟩
  have e1 : (f.recut l).card.get rv = .ok (c rv) := hc
  have e2 : (f.recut l).stride.get rv = .ok P := hs
  have e3 : blockSize (f.recut l) P (f.recut l).scope = .ok P := hb l
  simp only [maxout, e1, e2, e3, Py.bind_ok, if_neg r0.C_pos.ne', hd]
  rfl

/-- `reduce_factor` as a function of the table alone. -/
theorem Shape.reduce_eq (h : HashOrder N) (bn : BayesNet N A) (w : f.Shape c) (hrv : rv ∈ f.scope) :
    ∃ P Q f0, Removal c f rv P Q f0 ∧ ∀ (l : List ℚ) (val : A), reduce h bn (f.recut l) rv val =
      (bn.values rv >>= fun vals => pyIndex vals val >>= fun x =>
        reduceLoop l (c rv) P (l.length / c rv) (l.length / c rv + 1) (x * P) [] >>= fun r => .ok (f0.recut r)) := by
  obtain ⟨P, Q, f0, f1, r0, r1, _, hc, hs, hb, hd, rfl⟩ := w.removal h hrv
  refine ⟨P, Q, _, r0, fun l val => ?_⟩
  have e1 : (f.recut l).card.get rv = .ok (c rv) := hc
  have e2 : (f.recut l).stride.get rv = .ok P := hs
  simp only [reduce, e1, e2, Py.bind_ok, if_neg r0.C_pos.ne', hd]
  rfl

/-! ### The loops on longer and shorter tables -/

theorem elimLoop_length (agg : ℕ → Py ℚ) (C P : ℕ) : ∀ (n k : ℕ) {r : List ℚ}, elimLoop agg C P n k = .ok r → r.length = n
  | 0, _, _, h => by cases h; rfl
  | n + 1, k, r, h => by
      simp only [elimLoop] at h
      cases h1 : agg k with
      | error e => rw [h1] at h; cases h
      | ok x =>
        rw [h1, Py.bind_ok] at h
        revert h
        cases h2 : elimLoop agg C P n (if (k + 1) % P = 0 then k + 1 + P * (C - 1) else k + 1) with
        | error e => intro h; cases h
        | ok r' =>
          intro h
          cases h
          simp [elimLoop_length agg C P n _ h2]

theorem reduceLoop_length (cpt : List ℚ) (C P E : ℕ) : ∀ (fuel i : ℕ) (acc : List ℚ) {r : List ℚ}, acc.length ≤ E →
    reduceLoop cpt C P E fuel i acc = .ok r → r.length ≤ E
  | 0, i, acc, r, ha, h => by
      simp only [reduceLoop] at h
      split at h
      · cases h
      · cases h; exact ha
  | fuel + 1, i, acc, r, ha, h => by
      simp only [reduceLoop] at h
      split at h
      · split at h
        · cases h
        · split at h
          · cases h
          · rename_i hle
            exact reduceLoop_length cpt C P E fuel _ _ (by rw [List.length_append]; omega) h
      · cases h; exact ha

/-- The elimination loop on a table with extra entries, `m` times as long. -/
theorem elim_over {agg : List ℚ → ℕ → Py ℚ} {op : List ℚ → ℚ} {P C Q m : ℕ} {l t : List ℚ} (hP : 0 < P) (hC : 0 < C)
    (hm : 0 < m) (hl : l.length = P * (C * Q)) (hlt : (l ++ t).length = P * (C * Q) * m)
    (hagg : ∀ (l : List ℚ) (k : ℕ), (∀ y < C, k + P * y < l.length) → agg l k = .ok (op (column l P k C))) :
    ∃ r t' : List ℚ, elimLoop (agg l) C P (l.length / C) 0 = .ok r ∧
      elimLoop (agg (l ++ t)) C P ((l ++ t).length / C) 0 = .ok (r ++ t') ∧ r.length = P * Q ∧
      (r ++ t').length = P * Q * m := by
  have gen : ∀ (l : List ℚ) (Q : ℕ), l.length = P * (C * Q) →
      ∃ r : List ℚ, elimLoop (agg l) C P (l.length / C) 0 = .ok r ∧ r.length = P * Q ∧
        ∀ t < P * Q, r[t]? = some (op (column l P (t / P * P * C + t % P) C)) := by
    intro l Q hl
    have hn : l.length / C = P * Q := by
      rw [hl, Nat.mul_left_comm]; exact Nat.mul_div_cancel_left _ hC
    obtain ⟨r, h1, h2, h3⟩ := elimLoop_ok (agg := agg l)
      (g := fun t => op (column l P (t / P * P * C + t % P) C)) hP hC (l.length / C) 0 0 hP
      (by
        intro t ht
        rw [hn] at ht
        simp only [zero_mul, zero_add]
        apply hagg
        intro y hy
        rw [hl]
        have hq : t / P < Q := Nat.div_lt_of_lt_mul ht
        have hr : t % P < P := Nat.mod_lt _ hP
        calc t / P * P * C + t % P + P * y = P * (C * (t / P) + y) + t % P := by ring
          _ < P * (C * (t / P) + y) + P := by omega
          _ = P * (C * (t / P) + (y + 1)) := by ring
          _ ≤ P * (C * (t / P) + C) := Nat.mul_le_mul_left _ (by omega)
          _ = P * (C * (t / P + 1)) := by ring
          _ ≤ P * (C * Q) := Nat.mul_le_mul_left _ (Nat.mul_le_mul_left _ hq))
    simp only [zero_mul, zero_add] at h1 h3
    exact ⟨r, h1, by rw [h2, hn], fun t ht => h3 t (by rw [hn]; exact ht)⟩
  obtain ⟨r, h1, h2, h3⟩ := gen l Q hl
  obtain ⟨r', g1, g2, g3⟩ := gen (l ++ t) (Q * m) (by rw [hlt]; ring)
  have hle : P * Q ≤ P * (Q * m) := Nat.mul_le_mul_left _ (Nat.le_mul_of_pos_right _ hm)
  have hpre : r'.take (P * Q) = r := by
    apply List.ext_getElem?
    intro i
    by_cases hi : i < P * Q
    · rw [List.getElem?_take_of_lt hi, h3 i hi, g3 i (by omega)]
      congr 2
      unfold column
      apply List.map_congr_left
      intro x hx
      rw [List.mem_range] at hx
      congr 1
      apply List.getElem?_append_left
      rw [hl]
      have hq : i / P < Q := Nat.div_lt_of_lt_mul hi
      have hr : i % P < P := Nat.mod_lt _ hP
      calc i / P * P * C + i % P + P * x = P * (C * (i / P) + x) + i % P := by ring
        _ < P * (C * (i / P) + x) + P := by omega
        _ = P * (C * (i / P) + (x + 1)) := by ring
        _ ≤ P * (C * (i / P) + C) := Nat.mul_le_mul_left _ (by omega)
        _ = P * (C * (i / P + 1)) := by ring
        _ ≤ P * (C * Q) := Nat.mul_le_mul_left _ (Nat.mul_le_mul_left _ hq)
    · rw [List.getElem?_eq_none (by rw [List.length_take]; omega), List.getElem?_eq_none (by omega)]
  refine ⟨r, r'.drop (P * Q), h1, ?_, h2, ?_⟩
  · rw [g1]; congr 1; rw [← hpre, List.take_append_drop]
  · rw [← hpre, List.take_append_drop, g2]; ring

theorem reduce_over {P C Q m x : ℕ} {l t : List ℚ} (hP : 0 < P) (hx : x < C)
    (hm : 0 < m) (hl : l.length = P * (C * Q)) (hlt : (l ++ t).length = P * (C * Q) * m) :
    ∃ r t' : List ℚ, reduceLoop l C P (l.length / C) (l.length / C + 1) (x * P) [] = .ok r ∧
      reduceLoop (l ++ t) C P ((l ++ t).length / C) ((l ++ t).length / C + 1) (x * P) [] = .ok (r ++ t') ∧
      r.length = P * Q ∧ (r ++ t').length = P * Q * m := by
  have hC : 0 < C := by omega
  have gen : ∀ (l : List ℚ) (Q : ℕ), l.length = P * (C * Q) →
      ∃ r : List ℚ, reduceLoop l C P (l.length / C) (l.length / C + 1) (x * P) [] = .ok r ∧ r.length = P * Q ∧
        ∀ t < P * Q, r[t]? = l[t % P + P * (x + C * (t / P))]? := by
    intro l Q hl
    have hn : l.length / C = P * Q := by
      rw [hl, Nat.mul_left_comm]; exact Nat.mul_div_cancel_left _ hC
    obtain ⟨r, h1, h2, h3⟩ := reduceLoop_ok hP hx hl (P * Q + 1) 0 [] (Nat.zero_le _)
      (by rw [zero_add]; exact (Nat.le_mul_of_pos_left _ hP).trans (Nat.le_succ _)) (by simp) (by simp)
    rw [zero_mul, add_zero] at h1
    exact ⟨r, by rw [hn]; exact h1, h2, h3⟩
  obtain ⟨r, h1, h2, h3⟩ := gen l Q hl
  obtain ⟨r', g1, g2, g3⟩ := gen (l ++ t) (Q * m) (by rw [hlt]; ring)
  have hle : P * Q ≤ P * (Q * m) := Nat.mul_le_mul_left _ (Nat.le_mul_of_pos_right _ hm)
  have hpre : r'.take (P * Q) = r := by
    apply List.ext_getElem?
    intro i
    by_cases hi : i < P * Q
    · rw [List.getElem?_take_of_lt hi, h3 i hi, g3 i (by omega)]
      apply List.getElem?_append_left
      rw [hl]
      have hq : i / P < Q := Nat.div_lt_of_lt_mul hi
      have hr : i % P < P := Nat.mod_lt _ hP
      calc i % P + P * (x + C * (i / P)) = P * (C * (i / P) + x) + i % P := by ring
        _ < P * (C * (i / P) + x) + P := by omega
        _ = P * (C * (i / P) + (x + 1)) := by ring
        _ ≤ P * (C * (i / P) + C) := Nat.mul_le_mul_left _ (by omega)
        _ = P * (C * (i / P + 1)) := by ring
        _ ≤ P * (C * Q) := Nat.mul_le_mul_left _ (Nat.mul_le_mul_left _ hq)
    · rw [List.getElem?_eq_none (by rw [List.length_take]; omega), List.getElem?_eq_none (by omega)]
  refine ⟨r, r'.drop (P * Q), h1, ?_, h2, ?_⟩
  · rw [g1]; congr 1; rw [← hpre, List.take_append_drop]
  · rw [← hpre, List.take_append_drop, g2]; ring

/-! ### Products -/

theorem backJ_recut (f : Factor N) (l : List ℚ) (rv : N) (c : ℕ) (j : ℤ) : backJ (f.recut l) rv c j = backJ f rv c j := rfl
theorem backK_recut (f : Factor N) (l : List ℚ) (rv : N) (j : ℤ) : backK (f.recut l) rv j = backK f rv j := rfl
theorem fwd_recut (f : Factor N) (l : List ℚ) (rv : N) (j : ℤ) : fwd (f.recut l) rv j = fwd f rv j := rfl

theorem odometer_recut (f g : Factor N) (l1 l2 : List ℚ) (card1 : Dict N ℕ) : ∀ (order : List N) (asg : Dict N ℕ) (j k : ℤ),
    odometer (f.recut l1) (g.recut l2) card1 order asg j k = odometer f g card1 order asg j k
  | [], _, _, _ => rfl
  | rv :: rest, asg, j, k => by
      simp only [odometer, backJ_recut, backK_recut, fwd_recut, odometer_recut f g l1 l2 card1 rest]

theorem pos_recut (f : Factor N) (l : List ℚ) (a : Asg N) : (f.recut l).pos a = f.pos a := rfl

/-- Which positions the product loop reads. -/
theorem mulLoop_reads {phi1 phi2 : Factor N} {card1 : Dict N ℕ}
    (w1 : phi1.Shape c) (w2 : phi2.Shape c) {order : List N} (hn : order.Nodup)
    (hcard : ∀ v ∈ order, card1.get? v = some (c v)) :
    ∀ (n : ℕ) (asg : Dict N ℕ) (a : Asg N) (r : List ℚ),
      (∀ v ∈ order, asg.get? v = some (a v)) → InRange c order a →
      mulLoop phi1 phi2 card1 order n asg (phi1.pos a) (phi2.pos a) = .ok r →
      ∀ t < n, phi1.pos (incN c order t a) < phi1.cpt.length ∧ phi2.pos (incN c order t a) < phi2.cpt.length := by
  intro n
  induction n with
  | zero => intro asg a r _ _ _ t ht; omega
  | succ n ih =>
    intro asg a r hasg hr h
    have hlt : ∀ (l : List ℚ) (p : ℕ) (x : ℚ), pyIdx l (p : ℤ) = .ok x → p < l.length := by
      intro l p x hx
      by_contra hge
      have h1 : pyIdx l (p : ℤ) = .error .indexError := by
        unfold pyIdx
        rw [if_pos (Int.natCast_nonneg p), Int.toNat_natCast, List.getElem?_eq_none (by omega)]
      rw [h1] at hx; cases hx
    simp only [mulLoop] at h
    cases h1 : pyIdx phi1.cpt (phi1.pos a : ℤ) with
    | error e => rw [h1] at h; cases h
    | ok x =>
      rw [h1, Py.bind_ok] at h
      cases h2 : pyIdx phi2.cpt (phi2.pos a : ℤ) with
      | error e => rw [h2] at h; cases h
      | ok y =>
        rw [h2, Py.bind_ok] at h
        obtain ⟨asg', h3, h4⟩ := odometer_ok w1 w2 order asg a hn hcard hasg hr
        rw [odometer_recut, pos_recut, pos_recut, pos_recut, pos_recut] at h3
        rw [h3, Py.bind_ok] at h
        revert h
        cases h5 : mulLoop phi1 phi2 card1 order n asg' (phi1.pos (inc c order a)) (phi2.pos (inc c order a)) with
        | error e => intro h; cases h
        | ok r' =>
          intro _ t ht
          have := ih asg' (inc c order a) r' (fun v hv => h4 v (hasg v hv)) (inc_inRange hn hr) h5
          cases t with
          | zero => exact ⟨hlt _ _ _ h1, hlt _ _ _ h2⟩
          | succ t => exact this t (by omega)

/-- The product loop ignores extra entries. -/
theorem mulLoop_extra {phi1 phi2 : Factor N} {card1 : Dict N ℕ}
    (w1 : phi1.WF c) (w2 : phi2.WF c) (t1 t2 : List ℚ) {order : List N} (hn : order.Nodup)
    (hcard : ∀ v ∈ order, card1.get? v = some (c v))
    (hs1 : phi1.scope ⊆ order) (hs2 : phi2.scope ⊆ order) :
    ∀ (n : ℕ) (asg : Dict N ℕ) (a : Asg N),
      (∀ v ∈ order, asg.get? v = some (a v)) → InRange c order a →
      mulLoop (phi1.recut (phi1.cpt ++ t1)) (phi2.recut (phi2.cpt ++ t2)) card1 order n asg (phi1.pos a) (phi2.pos a) =
        mulLoop phi1 phi2 card1 order n asg (phi1.pos a) (phi2.pos a) := by
  intro n
  induction n with
  | zero => intro asg a _ _; rfl
  | succ n ih =>
    intro asg a hasg hr
    have e1 := w1.entry_eq (a := a) fun v hv => hr v (hs1 hv)
    have e2 := w2.entry_eq (a := a) fun v hv => hr v (hs2 hv)
    have e1' : (phi1.cpt ++ t1)[phi1.pos a]? = some (phi1.val a) := by
      rw [List.getElem?_append_left (w1.pos_lt fun v hv => hr v (hs1 hv))]; exact e1
    have e2' : (phi2.cpt ++ t2)[phi2.pos a]? = some (phi2.val a) := by
      rw [List.getElem?_append_left (w2.pos_lt fun v hv => hr v (hs2 hv))]; exact e2
    obtain ⟨asg', h1, h2⟩ := odometer_ok w1 w2 order asg a hn hcard hasg hr
    have h3 := ih asg' (inc c order a) (fun v hv => h2 v (hasg v hv)) (inc_inRange hn hr)
    simp only [mulLoop, odometer_recut, pyIdx_nat e1, pyIdx_nat e2, Py.bind_ok, h1, h3]
    rw [show (phi1.recut (phi1.cpt ++ t1)).cpt = phi1.cpt ++ t1 from rfl,
      show (phi2.recut (phi2.cpt ++ t2)).cpt = phi2.cpt ++ t2 from rfl, pyIdx_nat e1', Py.bind_ok, pyIdx_nat e2', Py.bind_ok]

/-- The product, with the tables left open. -/
theorem mulCore_eq (h : HashOrder N) (w1 : f.Shape c) (w2 : g.Shape c) :
    ∃ (order : List N) (card1 : Dict N ℕ) (asg : Dict N ℕ) (scope : List N) (stride : Dict N ℕ), order.Nodup ∧
      (∀ v ∈ order, card1.get? v = some (c v)) ∧ f.scope ⊆ order ∧ g.scope ⊆ order ∧
      (∀ v ∈ order, asg.get? v = some 0) ∧ InRange c order (fun _ => 0) ∧
      ∀ l1 l2 : List ℚ, mulCore h (f.recut l1) (g.recut l2) =
        (mulLoop (f.recut l1) (g.recut l2) card1 order (order.map c).prod asg 0 0 >>= fun psi =>
          .ok (psi, scope, card1, stride)) := by
  set o1 := sortBy (fun v => (f.stride.get? v).getD 0) (h.iter f.stride.keys) with ho1
  set extra := h.iter ((g.scope.filter (fun v => v ∉ f.scope)).dedup) with hextra
  set order := o1 ++ extra with horder
  set scopeSet := (f.scope ++ g.scope).dedup with hscopeSet
  set card1 := f.card.update g.card with hcard1
  have hp1 : o1.Perm f.stride.keys := (sortBy_perm _ _).trans (h.perm _)
  have hpe : extra.Perm ((g.scope.filter (fun v => v ∉ f.scope)).dedup) := h.perm _
  have hsd1 : ∀ v, (f.stride.get? v).isSome ↔ v ∈ f.scope := w1.stride_dom
  have hm1 : ∀ v, v ∈ o1 ↔ v ∈ f.scope := fun v => by
    rw [hp1.mem_iff, Dict.mem_keys_iff, hsd1]
  have hme : ∀ v, v ∈ extra ↔ v ∈ g.scope ∧ v ∉ f.scope := fun v => by
    rw [hpe.mem_iff, List.mem_dedup, List.mem_filter]; simp
  have hmo : ∀ v, v ∈ order ↔ v ∈ f.scope ∨ v ∈ g.scope := fun v => by
    rw [horder, List.mem_append, hm1, hme]; tauto
  have hn : order.Nodup := by
    rw [horder, List.nodup_append]
    refine ⟨hp1.nodup_iff.2 w1.stride_nodup, hpe.nodup_iff.2 (List.nodup_dedup _), ?_⟩
    intro u hu w hw huw
    subst huw
    exact ((hme u).1 hw).2 ((hm1 u).1 hu)
  have hms : ∀ v, v ∈ scopeSet ↔ v ∈ f.scope ∨ v ∈ g.scope := fun v => by
    rw [hscopeSet, List.mem_dedup, List.mem_append]
  have hce1 : ∀ v, f.card.get? v = if v ∈ f.scope then some (c v) else none := w1.card_eq
  have hce2 : ∀ v, g.card.get? v = if v ∈ g.scope then some (c v) else none := w2.card_eq
  have hcn2 : g.card.keys.Nodup := w2.card_nodup
  have hcget : ∀ v, card1.get? v = if v ∈ order then some (c v) else none := fun v => by
    rw [hcard1, Dict.get?_update hcn2, hce2, hce1]
    by_cases h1 : v ∈ f.scope <;> by_cases h2 : v ∈ g.scope <;> simp [hmo, h1, h2]
  have hcn : card1.keys.Nodup := Dict.nodup_keys_update w1.card_nodup
  have hcpos : ∀ v ∈ order, 0 < c v := fun v hv => by
    rcases (hmo v).1 hv with h | h
    · exact w1.card_pos v h
    · exact w2.card_pos v h
  have hkeys : card1.keys.Perm order :=
    (List.perm_ext_iff_of_nodup hcn hn).2 fun v => by
      rw [Dict.mem_keys_iff, hcget]; by_cases hv : v ∈ order <;> simp only [hv, if_true, if_false, Option.isSome_some, Option.isSome_none, Bool.false_eq_true]
  have hlen : card1.vals.prod = (order.map c).prod := by
    rw [Dict.vals_eq_map hcn c fun k hk => by rw [hcget, if_pos (hkeys.mem_iff.1 hk)]]
    exact (hkeys.map c).prod_eq
  have hcget' : ∀ v ∈ order, card1.get? v = some (c v) := fun v hv => by rw [hcget, if_pos hv]
  obtain ⟨stride, hst, hsk, hsl⟩ := orderStride_ok order 1 hn hcget'
  refine ⟨order, card1, scopeSet.map fun v => (v, 0), h.iter scopeSet, stride, hn, hcget',
    fun v hv => (hmo v).2 (.inl hv), fun v hv => (hmo v).2 (.inr hv), fun v hv => ?_, fun v hv => hcpos v hv, ?_⟩
  · rw [Dict.get?_map_pair (fun _ => 0), if_pos ((hms v).2 ((hmo v).1 hv))]
  · intro l1 l2
    rw [← hlen]
    show (mulLoop (f.recut l1) (g.recut l2) card1 order _ _ 0 0 >>= fun psi => orderStride card1 order 1 >>= fun stride => _) = _
    rw [hst]; rfl

theorem recut_self (f : Factor N) : f.recut f.cpt = f := rfl

theorem enc_top {c : N → ℕ} : ∀ {o : List N}, (∀ v ∈ o, 0 < c v) → enc c o (fun v => c v - 1) + 1 = (o.map c).prod
  | [], _ => rfl
  | v :: o, h => by
      have ih := enc_top (o := o) fun u hu => h u (by simp [hu])
      have hv := h v (by simp)
      simp only [enc, List.map_cons, List.prod_cons]
      rw [← ih]
      obtain ⟨k, hk⟩ : ∃ k, c v = k + 1 := ⟨c v - 1, by omega⟩
      rw [hk]; simp only [Nat.add_sub_cancel]; ring

/-- A product that returns has read all of both tables. -/
theorem mulCore_reads (h : HashOrder N) (w1 : f.Shape c) (w2 : g.Shape c) {r} (hr : mulCore h f g = .ok r) :
    f.size c ≤ f.cpt.length ∧ g.size c ≤ g.cpt.length := by
  obtain ⟨order, card1, asg, scope, stride, hn, hcard, hs1, hs2, hasg, hr0, he⟩ := mulCore_eq h w1 w2
  have := he f.cpt g.cpt
  rw [recut_self, recut_self] at this
  rw [this] at hr
  cases h1 : mulLoop f g card1 order (order.map c).prod asg 0 0 with
  | error e => rw [h1] at hr; cases hr
  | ok psi =>
    have z1 : (f.pos (fun _ => 0) : ℤ) = 0 := by simp [pos]
    have z2 : (g.pos (fun _ => 0) : ℤ) = 0 := by simp [pos]
    have hreads := mulLoop_reads w1 w2 hn hcard (order.map c).prod asg (fun _ => 0) psi hasg hr0 (by rw [z1, z2]; exact h1)
    have hz : enc c order (fun _ => 0) = 0 := by
      clear * -
      induction order with
      | nil => rfl
      | cons v o ih => simp [enc, ih]
    have htop : InRange c order (fun v => c v - 1) := fun v hv => by have : 0 < c v := hr0 v hv; show c v - 1 < c v; omega
    have hlt := enc_lt htop
    obtain ⟨h2, h3⟩ := incN_enc hn (enc c order fun v => c v - 1) (fun _ => 0) hr0 (by rw [hz, zero_add]; exact hlt)
    rw [hz, zero_add] at h3
    have h4 := enc_inj h2 htop h3
    have h5 := hreads _ hlt
    have key : ∀ k : Factor N, k.Shape c → k.scope ⊆ order → k.pos (fun v => c v - 1) + 1 = k.size c := by
      intro k wk hk
      obtain ⟨o, ho, hl⟩ := wk.layout
      have e1 : k.pos (fun v => c v - 1) = enc c o (fun v => c v - 1) := pos_eq_enc (f := k.recut _) ho hl _
      have hos : ∀ v ∈ o, 0 < c v := fun v hv => wk.card_pos v (ho.subset hv)
      rw [e1, enc_top hos]
      exact (ho.map c).prod_eq
    have k1 := key f w1 hs1
    have k2 := key g w2 hs2
    rw [pos_congr (f := f) (fun v hv => h4 v (hs1 hv)), pos_congr (f := g) (fun v hv => h4 v (hs2 hv))] at h5
    omega

theorem mulCore_extra (h : HashOrder N) (w1 : f.WF c) (w2 : g.WF c) (t1 t2 : List ℚ) :
    mulCore h (f.recut (f.cpt ++ t1)) (g.recut (g.cpt ++ t2)) = mulCore h f g := by
  obtain ⟨order, card1, asg, scope, stride, hn, hcard, hs1, hs2, hasg, hr0, he⟩ := mulCore_eq h w1.shape w2.shape
  have z1 : (f.pos (fun _ => 0) : ℤ) = 0 := by simp [pos]
  have z2 : (g.pos (fun _ => 0) : ℤ) = 0 := by simp [pos]
  have hx := mulLoop_extra w1 w2 t1 t2 hn hcard hs1 hs2 (order.map c).prod asg (fun _ => 0) hasg hr0
  rw [z1, z2] at hx
  have e0 := he f.cpt g.cpt
  rw [recut_self, recut_self] at e0
  rw [he, e0, hx]

end Factor
end PyBN
