import Verif.Proofs.Radix
import Verif.Proofs.Dict
import Mathlib.Data.List.Dedup
import Mathlib.Algebra.BigOperators.Group.List.Basic

/-! `multiply_factor` computes the pointwise product. -/

namespace PyBN
namespace Factor
variable {N : Type _} [DecidableEq N]

theorem pos_congr {f : Factor N} {a b : Asg N} (h : ∀ v ∈ f.scope, a v = b v) : f.pos a = f.pos b := by
  unfold pos; congr 1; apply List.map_congr_left; intro v hv; rw [h v hv]

theorem entry_congr {f : Factor N} {a b : Asg N} (h : ∀ v ∈ f.scope, a v = b v) : f.entry a = f.entry b := by
  unfold entry; rw [pos_congr h]

theorem val_congr {f : Factor N} {a b : Asg N} (h : ∀ v ∈ f.scope, a v = b v) : f.val a = f.val b := by
  unfold val; rw [entry_congr h]

theorem pos_eq_enc {c : N → ℕ} {f : Factor N} {o : List N} (ho : o.Perm f.scope)
    (hl : IsLayout c f.strideOf o 1) (a : Asg N) : f.pos a = enc c o a := by
  have := layout_sum hl a
  rw [one_mul] at this
  rw [← this, pos]
  exact ((ho.map _).sum_eq).symm

theorem WF.pos_lt {c : N → ℕ} {f : Factor N} (h : f.WF c) {a : Asg N} (ha : InRange c f.scope a) :
    f.pos a < f.cpt.length := by
  obtain ⟨o, ho, hl⟩ := h.layout
  rw [pos_eq_enc ho hl, h.cpt_len, ← (ho.map c).prod_eq]
  exact enc_lt fun v hv => ha v (ho.subset hv)

theorem WF.entry_eq {c : N → ℕ} {f : Factor N} (h : f.WF c) {a : Asg N} (ha : InRange c f.scope a) :
    f.entry a = some (f.val a) := by
  unfold val entry
  rw [List.getElem?_eq_getElem (h.pos_lt ha)]; rfl

theorem WF.stride_get {c : N → ℕ} {f : Factor N} (h : f.WF c) {v : N} (hv : v ∈ f.scope) :
    f.stride.get? v = some (f.strideOf v) := by
  have := (h.stride_dom v).2 hv
  unfold strideOf
  cases h' : f.stride.get? v <;> simp [h'] at this ⊢

theorem WF.card_get {c : N → ℕ} {f : Factor N} (h : f.WF c) {v : N} (hv : v ∈ f.scope) :
    f.card.get? v = some (c v) := by rw [h.card_eq, if_pos hv]

theorem pos_upd {f : Factor N} (hn : f.scope.Nodup) (a : Asg N) (v : N) (x : ℕ) :
    (f.pos (a.upd v x) : ℤ) =
      if v ∈ f.scope then (f.pos a : ℤ) + ((x : ℤ) - a v) * f.strideOf v else (f.pos a : ℤ) := by
  have gen : ∀ l : List N, l.Nodup →
      (((l.map fun u => (a.upd v x) u * f.strideOf u).sum : ℕ) : ℤ) =
        if v ∈ l then (((l.map fun u => a u * f.strideOf u).sum : ℕ) : ℤ) + ((x : ℤ) - a v) * f.strideOf v
        else (((l.map fun u => a u * f.strideOf u).sum : ℕ) : ℤ) := by
    intro l
    induction l with
    | nil => simp
    | cons w l ih =>
      intro hl
      rw [List.nodup_cons] at hl
      have := ih hl.2
      simp only [List.map_cons, List.sum_cons, Nat.cast_add, this, List.mem_cons]
      by_cases h : w = v
      · subst h
        simp only [Asg.upd_self, true_or, if_true, hl.1, if_false, Nat.cast_mul]
        ring
      · rw [Asg.upd_ne _ _ h]
        have : v ≠ w := Ne.symm h
        simp only [this, false_or]
        split <;> ring
  exact gen f.scope hn

theorem odometer_ok {phi1 phi2 : Factor N} {c : N → ℕ} {card1 : Dict N ℕ}
    (w1 : phi1.WF c) (w2 : phi2.WF c) :
    ∀ (order : List N) (asg : Dict N ℕ) (a : Asg N), order.Nodup →
      (∀ v ∈ order, card1.get? v = some (c v)) →
      (∀ v ∈ order, asg.get? v = some (a v)) →
      InRange c order a →
      ∃ asg', odometer phi1 phi2 card1 order asg (phi1.pos a) (phi2.pos a)
          = .ok (asg', (phi1.pos (inc c order a) : ℤ), (phi2.pos (inc c order a) : ℤ)) ∧
        ∀ v, asg.get? v = some (a v) → asg'.get? v = some (inc c order a v) := by
  intro order
  induction order with
  | nil => intro asg a _ _ _ _; exact ⟨asg, rfl, fun v h => h⟩
  | cons rv rest ih =>
    intro asg a hn hcard hasg hr
    rw [List.nodup_cons] at hn
    have hx := Dict.get_of_get? (hasg rv (by simp))
    have hc := Dict.get_of_get? (hcard rv (by simp))
    have hrv := hr rv (by simp)
    have P1 := fun x => pos_upd w1.scope_nodup a rv x
    have P2 := fun x => pos_upd w2.scope_nodup a rv x
    simp only [odometer, hx, hc, Py.bind_ok, inc]
    by_cases hwrap : a rv + 1 = c rv
    · rw [if_pos hwrap, if_pos hwrap]
      have hj : backJ phi1 rv (c rv) (phi1.pos a : ℤ) = .ok (phi1.pos (a.upd rv 0) : ℤ) := by
        unfold backJ; rw [P1]
        by_cases hm : rv ∈ phi1.scope
        · rw [if_pos hm, if_pos hm, Dict.get_of_get? (w1.stride_get hm)]
          simp only [Py.bind_ok, Py.pure_eq]
          have : (c rv : ℤ) - 1 = a rv := by omega
          rw [this]; congr 1; push_cast; ring
        · rw [if_neg hm, if_neg hm]; rfl
      have hk : backK phi2 rv (phi2.pos a : ℤ) = .ok (phi2.pos (a.upd rv 0) : ℤ) := by
        unfold backK; rw [P2]
        by_cases hm : rv ∈ phi2.scope
        · rw [if_pos hm, if_pos hm, Dict.get_of_get? (w2.stride_get hm), Dict.get_of_get? (w2.card_get hm)]
          simp only [Py.bind_ok, Py.pure_eq]
          have : (c rv : ℤ) - 1 = a rv := by omega
          rw [this]; congr 1; push_cast; ring
        · rw [if_neg hm, if_neg hm]; rfl
      rw [hj, hk]
      simp only [Py.bind_ok]
      obtain ⟨asg', h1, h2⟩ := ih (asg.set rv 0) (a.upd rv 0) hn.2 (fun v hv => hcard v (by simp [hv]))
        (fun v hv => by
          have hne : rv ≠ v := by rintro rfl; exact hn.1 hv
          rw [Dict.get?_set_ne _ _ hne, Asg.upd_ne _ _ hne.symm]; exact hasg v (by simp [hv]))
        (fun v hv => by
          have hne : rv ≠ v := by rintro rfl; exact hn.1 hv
          rw [Asg.upd_ne _ _ hne.symm]; exact hr v (by simp [hv]))
      refine ⟨asg', h1, fun v hv => h2 v ?_⟩
      by_cases h : rv = v
      · subst h; simp [Asg.upd_self]
      · rw [Dict.get?_set_ne _ _ h, Asg.upd_ne _ _ (Ne.symm h)]; exact hv
    · rw [if_neg hwrap, if_neg hwrap]
      have hj : fwd phi1 rv (phi1.pos a : ℤ) = .ok (phi1.pos (a.upd rv (a rv + 1)) : ℤ) := by
        unfold fwd; rw [P1]
        by_cases hm : rv ∈ phi1.scope
        · rw [if_pos hm, if_pos hm, Dict.get_of_get? (w1.stride_get hm)]
          simp only [Py.bind_ok, Py.pure_eq]
          congr 1; push_cast; ring
        · rw [if_neg hm, if_neg hm]; rfl
      have hk : fwd phi2 rv (phi2.pos a : ℤ) = .ok (phi2.pos (a.upd rv (a rv + 1)) : ℤ) := by
        unfold fwd; rw [P2]
        by_cases hm : rv ∈ phi2.scope
        · rw [if_pos hm, if_pos hm, Dict.get_of_get? (w2.stride_get hm)]
          simp only [Py.bind_ok, Py.pure_eq]
          congr 1; push_cast; ring
        · rw [if_neg hm, if_neg hm]; rfl
      rw [hj, hk]
      simp only [Py.bind_ok]
      refine ⟨_, rfl, fun v hv => ?_⟩
      by_cases h : rv = v
      · subst h; simp [Asg.upd_self]
      · rw [Dict.get?_set_ne _ _ h, Asg.upd_ne _ _ (Ne.symm h)]; exact hv

/-- `inc` iterated. -/
def incN (c : N → ℕ) (o : List N) : ℕ → Asg N → Asg N
  | 0, a => a
  | n + 1, a => incN c o n (inc c o a)

theorem incN_enc {c : N → ℕ} {o : List N} (hn : o.Nodup) : ∀ (n : ℕ) (a : Asg N), InRange c o a →
    enc c o a + n < (o.map c).prod → InRange c o (incN c o n a) ∧ enc c o (incN c o n a) = enc c o a + n := by
  intro n
  induction n with
  | zero => intro a h _; exact ⟨h, rfl⟩
  | succ n ih =>
    intro a h hlt
    have he := enc_inc hn h (by omega)
    obtain ⟨h1, h2⟩ := ih (inc c o a) (inc_inRange hn h) (by omega)
    exact ⟨h1, by rw [incN, h2, he]; omega⟩

theorem mulLoop_ok {phi1 phi2 : Factor N} {c : N → ℕ} {card1 : Dict N ℕ}
    (w1 : phi1.WF c) (w2 : phi2.WF c) {order : List N} (hn : order.Nodup)
    (hcard : ∀ v ∈ order, card1.get? v = some (c v))
    (hs1 : phi1.scope ⊆ order) (hs2 : phi2.scope ⊆ order) :
    ∀ (n : ℕ) (asg : Dict N ℕ) (a : Asg N),
      (∀ v ∈ order, asg.get? v = some (a v)) → InRange c order a →
      ∃ l, mulLoop phi1 phi2 card1 order n asg (phi1.pos a) (phi2.pos a) = .ok l ∧ l.length = n ∧
        ∀ t < n, l[t]? = some (phi1.val (incN c order t a) * phi2.val (incN c order t a)) := by
  intro n
  induction n with
  | zero => intro asg a _ _; exact ⟨[], rfl, rfl, by simp⟩
  | succ n ih =>
    intro asg a hasg hr
    have e1 := w1.entry_eq (a := a) fun v hv => hr v (hs1 hv)
    have e2 := w2.entry_eq (a := a) fun v hv => hr v (hs2 hv)
    obtain ⟨asg', h1, h2⟩ := odometer_ok w1 w2 order asg a hn hcard hasg hr
    obtain ⟨l, h3, h4, h5⟩ := ih asg' (inc c order a) (fun v hv => h2 v (hasg v hv)) (inc_inRange hn hr)
    refine ⟨phi1.val a * phi2.val a :: l, ?_, by simp [h4], ?_⟩
    · simp only [mulLoop, pyIdx_nat e1, pyIdx_nat e2, Py.bind_ok, h1, h3, Py.pure_eq]
    · intro t ht
      cases t with
      | zero => rfl
      | succ t => simpa [incN] using h5 t (by omega)

theorem orderStride_ok {c : N → ℕ} {card : Dict N ℕ} : ∀ (o : List N) (p : ℕ), o.Nodup →
    (∀ v ∈ o, card.get? v = some (c v)) →
    ∃ d, orderStride card o p = .ok d ∧ d.keys = o ∧ IsLayout c (fun v => (d.get? v).getD 0) o p := by
  intro o
  induction o with
  | nil => intro p _ _; exact ⟨[], rfl, rfl, trivial⟩
  | cons v o ih =>
    intro p hn hc
    rw [List.nodup_cons] at hn
    obtain ⟨d, h1, h2, h3⟩ := ih (p * c v) hn.2 fun u hu => hc u (by simp [hu])
    refine ⟨(v, p) :: d, ?_, ?_, ?_⟩
    · simp only [orderStride, Dict.get_of_get? (hc v (by simp)), Py.bind_ok, h1, Py.pure_eq]
    · simp [Dict.keys] at h2 ⊢; exact h2
    · refine ⟨by simp [Dict.get?_cons], ?_⟩
      refine (isLayout_congr ?_).2 h3
      intro u hu
      have : v ≠ u := by rintro rfl; exact hn.1 hu
      simp [Dict.get?_cons, this]

theorem mulCore_ok (h : HashOrder N) {phi1 phi2 : Factor N} {c : N → ℕ} (w1 : phi1.WF c) (w2 : phi2.WF c) (x : N) :
    ∃ psi scope card stride, mulCore h phi1 phi2 = .ok (psi, scope, card, stride) ∧
      (⟨x, psi, scope, card, stride⟩ : Factor N).WF c ∧
      (∀ v, v ∈ scope ↔ v ∈ phi1.scope ∨ v ∈ phi2.scope) ∧
      ∀ a, InRange c scope a →
        (⟨x, psi, scope, card, stride⟩ : Factor N).entry a = some (phi1.val a * phi2.val a) := by
  unfold mulCore
  set o1 := sortBy (fun v => (phi1.stride.get? v).getD 0) (h.iter phi1.stride.keys) with ho1
  set extra := h.iter ((phi2.scope.filter (fun v => v ∉ phi1.scope)).dedup) with hextra
  set order := o1 ++ extra with horder
  set scopeSet := (phi1.scope ++ phi2.scope).dedup with hscopeSet
  set card1 := phi1.card.update phi2.card with hcard1
  have hp1 : o1.Perm phi1.stride.keys := (sortBy_perm _ _).trans (h.perm _)
  have hpe : extra.Perm ((phi2.scope.filter (fun v => v ∉ phi1.scope)).dedup) := h.perm _
  have hm1 : ∀ v, v ∈ o1 ↔ v ∈ phi1.scope := fun v => by
    rw [hp1.mem_iff, Dict.mem_keys_iff, w1.stride_dom]
  have hme : ∀ v, v ∈ extra ↔ v ∈ phi2.scope ∧ v ∉ phi1.scope := fun v => by
    rw [hpe.mem_iff, List.mem_dedup, List.mem_filter]; simp
  have hmo : ∀ v, v ∈ order ↔ v ∈ phi1.scope ∨ v ∈ phi2.scope := fun v => by
    rw [horder, List.mem_append, hm1, hme]; tauto
  have hn : order.Nodup := by
    rw [horder, List.nodup_append]
    refine ⟨hp1.nodup_iff.2 w1.stride_nodup, hpe.nodup_iff.2 (List.nodup_dedup _), ?_⟩
    intro u hu w hw huw
    subst huw
    exact ((hme u).1 hw).2 ((hm1 u).1 hu)
  have hms : ∀ v, v ∈ scopeSet ↔ v ∈ phi1.scope ∨ v ∈ phi2.scope := fun v => by
    rw [hscopeSet, List.mem_dedup, List.mem_append]
  have hpso : order.Perm scopeSet :=
    (List.perm_ext_iff_of_nodup hn (List.nodup_dedup _)).2 fun v => by rw [hmo, hms]
  have hcget : ∀ v, card1.get? v = if v ∈ order then some (c v) else none := fun v => by
    rw [hcard1, Dict.get?_update w2.card_nodup, w2.card_eq, w1.card_eq]
    by_cases h1 : v ∈ phi1.scope <;> by_cases h2 : v ∈ phi2.scope <;> simp [hmo, h1, h2]
  have hcn : card1.keys.Nodup := Dict.nodup_keys_update w1.card_nodup
  have hcpos : ∀ v ∈ order, 0 < c v := fun v hv => by
    rcases (hmo v).1 hv with h | h
    · exact w1.card_pos v h
    · exact w2.card_pos v h
  have hkeys : card1.keys.Perm order :=
    (List.perm_ext_iff_of_nodup hcn hn).2 fun v => by
      rw [Dict.mem_keys_iff, hcget]; by_cases hv : v ∈ order <;> simp only [hv, if_true, if_false, Option.isSome_some, Option.isSome_none, Bool.false_eq_true]
  have hlen : card1.vals.prod = (order.map c).prod := by
    rw [Dict.vals_eq_map hcn c fun k hk => by rw [hcget, if_pos (hkeys.mem_iff.1 hk)]]
    exact (hkeys.map c).prod_eq
  have hcget' : ∀ v ∈ order, card1.get? v = some (c v) := fun v hv => by rw [hcget, if_pos hv]
  have hr0 : InRange c order (fun _ => 0) := fun v hv => hcpos v hv
  obtain ⟨psi, hpsi, hpl, hpt⟩ := mulLoop_ok w1 w2 hn hcget' (fun v hv => (hmo v).2 (.inl hv))
    (fun v hv => (hmo v).2 (.inr hv)) card1.vals.prod (scopeSet.map fun v => (v, 0)) (fun _ => 0)
    (fun v hv => by
      rw [Dict.get?_map_pair (fun _ => 0), if_pos (hpso.mem_iff.1 hv)]) hr0
  obtain ⟨stride, hst, hsk, hsl⟩ := orderStride_ok order 1 hn hcget'
  have hz1 : (phi1.pos (fun _ => 0) : ℤ) = 0 := by simp [pos]
  have hz2 : (phi2.pos (fun _ => 0) : ℤ) = 0 := by simp [pos]
  rw [hz1, hz2] at hpsi
  have hsp : order.Perm (h.iter scopeSet) := hpso.trans (h.perm _).symm
  have hsm : ∀ v, v ∈ h.iter scopeSet ↔ v ∈ phi1.scope ∨ v ∈ phi2.scope := fun v => by
    rw [← hsp.mem_iff, hmo]
  refine ⟨psi, h.iter scopeSet, card1, stride, ?_, ?_, hsm, ?_⟩
  · show (mulLoop phi1 phi2 card1 order _ _ 0 0 >>= fun psi => orderStride card1 order 1 >>= fun stride => _) = _
    rw [hpsi, Py.bind_ok, hst]; rfl
  · refine ⟨hsp.nodup_iff.1 hn, fun v hv => hcpos v (hsp.mem_iff.2 hv), hcn, fun v => ?_, ?_, fun v => ?_,
      ⟨order, hsp, hsl⟩, ?_⟩
    · rw [hcget]; simp only [hsp.mem_iff]
    · show stride.keys.Nodup; rw [hsk]; exact hn
    · show (stride.get? v).isSome ↔ _
      rw [← Dict.mem_keys_iff, hsk]; exact hsp.mem_iff
    · show psi.length = _
      rw [hpl, hlen]; exact (hsp.map c).prod_eq
  · intro a ha
    have ha' : InRange c order a := fun v hv => ha v (hsp.mem_iff.1 hv)
    have hlt := enc_lt ha'
    unfold entry
    rw [pos_eq_enc (f := ⟨x, psi, h.iter scopeSet, card1, stride⟩) hsp hsl a]
    have h1 := hpt (enc c order a) (by rw [hlen]; exact hlt)
    have hz : enc c order (fun _ => 0) = 0 := by
      clear_value order
      clear * -
      induction order with
      | nil => rfl
      | cons v o ih => simp [enc, ih]
    obtain ⟨h2, h3⟩ := incN_enc hn (enc c order a) (fun _ => 0) hr0 (by rw [hz, zero_add]; exact hlt)
    rw [hz, zero_add] at h3
    have h4 := enc_inj h2 ha' h3
    show psi[_]? = _
    rw [h1, val_congr (f := phi1) fun v hv => h4 v ((hmo v).2 (.inl hv)),
      val_congr (f := phi2) fun v hv => h4 v ((hmo v).2 (.inr hv))]

theorem mul_ok (h : HashOrder N) {f g : Factor N} {c : N → ℕ} (wf : f.WF c) (wg : g.WF c) :
    ∃ f' g', mul h f g = .ok (f', g') ∧ f'.WF c ∧ f'.var = f.var ∧
      (∀ v, v ∈ f'.scope ↔ v ∈ f.scope ∨ v ∈ g.scope) ∧
      (∀ a, InRange c f'.scope a → f'.entry a = some (f.val a * g.val a)) ∧
      g'.var = g.var ∧ g'.cpt = g.cpt ∧ g'.scope = g.scope ∧ g'.stride = g.stride := by
  unfold mul
  split
  · obtain ⟨psi, scope, card, stride, h1, h2, h3, h4⟩ := mulCore_ok h wf wg f.var
    exact ⟨_, _, by rw [h1]; rfl, h2, rfl, h3, h4, rfl, rfl, rfl, rfl⟩
  · obtain ⟨psi, scope, card, stride, h1, h2, h3, h4⟩ := mulCore_ok h wg wf f.var
    refine ⟨⟨f.var, psi, scope, card, stride⟩, { g with card := card }, by rw [h1]; rfl, h2, rfl, fun v => ?_, fun a ha => ?_, rfl, rfl, rfl, rfl⟩
    · rw [h3 v, or_comm]
    · rw [h4 a ha, mul_comm]

end Factor
end PyBN
