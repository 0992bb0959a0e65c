import Verif.Model.Rounded
import Verif.Spec.Rounded
import Verif.Proofs.Infer
import Mathlib.Tactic.Linarith
import Mathlib.Tactic.Ring
import Mathlib.Tactic.Positivity
import Mathlib.Tactic.GCongr

/-! Error analysis of exact inference in rounded arithmetic. -/

set_option linter.unusedSectionVars false

namespace PyBN
open Factor Factorization

/-! ## Near -/

section
variable {u : ℚ} {rnd : ℚ → ℚ}

theorem Near.refl {x : ℚ} (u : ℚ) (hx : 0 ≤ x) : Near u 0 x x := ⟨hx, by simp, by simp⟩

theorem Near.nonneg {k : ℕ} {x y : ℚ} (h1 : u < 1) (h : Near u k x y) : 0 ≤ y :=
  le_trans (mul_nonneg (pow_nonneg (by linarith) _) h.1) h.2.1

theorem Near.trans {k m : ℕ} {x y z : ℚ} (h0 : 0 ≤ u) (h1 : u < 1) (a : Near u k x y) (b : Near u m y z) : Near u (k + m) x z := by
  have p1 : 0 ≤ (1 - u) ^ m := pow_nonneg (by linarith) _
  have p2 : 0 ≤ (1 + u) ^ m := pow_nonneg (by linarith) _
  refine ⟨a.1, ?_, ?_⟩
  · calc (1 - u) ^ (k + m) * x = (1 - u) ^ m * ((1 - u) ^ k * x) := by rw [pow_add]; ring
      _ ≤ (1 - u) ^ m * y := mul_le_mul_of_nonneg_left a.2.1 p1
      _ ≤ z := b.2.1
  · calc z ≤ (1 + u) ^ m * y := b.2.2
      _ ≤ (1 + u) ^ m * ((1 + u) ^ k * x) := mul_le_mul_of_nonneg_left a.2.2 p2
      _ = (1 + u) ^ (k + m) * x := by rw [pow_add]; ring

theorem Near.mono {k m : ℕ} {x y : ℚ} (h0 : 0 ≤ u) (h1 : u < 1) (hkm : k ≤ m) (a : Near u k x y) : Near u m x y := by
  refine ⟨a.1, le_trans (mul_le_mul_of_nonneg_right ?_ a.1) a.2.1, a.2.2.trans (mul_le_mul_of_nonneg_right ?_ a.1)⟩
  · exact pow_le_pow_of_le_one (by linarith) (by linarith) hkm
  · exact pow_le_pow_right₀ (by linarith) hkm

theorem Near.mul {k m : ℕ} {x y x' y' : ℚ} (h1 : u < 1) (a : Near u k x y) (b : Near u m x' y') : Near u (k + m) (x * x') (y * y') := by
  have p1 : 0 ≤ (1 - u) ^ m := pow_nonneg (by linarith) _
  have q1 : 0 ≤ (1 - u) ^ k := pow_nonneg (by linarith) _
  have hy := a.nonneg h1
  have hy' := b.nonneg h1
  refine ⟨mul_nonneg a.1 b.1, ?_, ?_⟩
  · calc (1 - u) ^ (k + m) * (x * x') = ((1 - u) ^ k * x) * ((1 - u) ^ m * x') := by rw [pow_add]; ring
      _ ≤ y * y' := mul_le_mul a.2.1 b.2.1 (mul_nonneg p1 b.1) hy
  · calc y * y' ≤ ((1 + u) ^ k * x) * ((1 + u) ^ m * x') := mul_le_mul a.2.2 b.2.2 hy' (hy.trans a.2.2)
      _ = (1 + u) ^ (k + m) * (x * x') := by rw [pow_add]; ring

theorem Near.add {k : ℕ} {x y x' y' : ℚ} (a : Near u k x y) (b : Near u k x' y') : Near u k (x + x') (y + y') :=
  ⟨add_nonneg a.1 b.1, by rw [mul_add]; exact add_le_add a.2.1 b.2.1, by rw [mul_add]; exact add_le_add a.2.2 b.2.2⟩

theorem Near.sum {k : ℕ} {ι : Type _} (s : Finset ι) {f g : ι → ℚ} (h : ∀ i ∈ s, Near u k (f i) (g i)) :
    Near u k (∑ i ∈ s, f i) (∑ i ∈ s, g i) := by
  refine ⟨Finset.sum_nonneg fun i hi => (h i hi).1, ?_, ?_⟩
  · rw [Finset.mul_sum]; exact Finset.sum_le_sum fun i hi => (h i hi).2.1
  · rw [Finset.mul_sum]; exact Finset.sum_le_sum fun i hi => (h i hi).2.2

theorem Rounds.near (r : Rounds u rnd) {x : ℚ} (hx : 0 ≤ x) : Near u 1 x (rnd x) := by
  have := abs_le.1 (r.err x)
  rw [abs_of_nonneg hx] at this
  refine ⟨hx, ?_, ?_⟩ <;> rw [pow_one] <;> nlinarith [this.1, this.2]

/-- A rounded running sum of `n` non-negative terms. -/
theorem Rounds.near_fold (r : Rounds u rnd) : ∀ (l : List ℚ) (k : ℕ) (acc acc' : ℚ), (∀ x ∈ l, 0 ≤ x) → Near u k acc acc' →
    Near u (k + l.length) (acc + l.sum) (l.foldl (fun s x => rnd (s + x)) acc')
  | [], k, acc, acc', _, h => by simpa using h
  | x :: l, k, acc, acc', hl, h => by
      have hx := hl x (by simp)
      have h1 : Near u (k + 1) (acc + x) (rnd (acc' + x)) :=
        (h.add ((Near.refl u hx).mono r.nonneg r.lt_one (Nat.zero_le k))).trans r.nonneg r.lt_one
          (r.near (add_nonneg (h.nonneg r.lt_one) hx))
      have := Rounds.near_fold r l (k + 1) _ _ (fun y hy => hl y (by simp [hy])) h1
      rw [List.foldl_cons, List.sum_cons, List.length_cons, ← add_assoc acc]
      rwa [show k + (l.length + 1) = k + 1 + l.length by omega]

theorem sumAll_near {N : Type _} [DecidableEq N] {c : N → ℕ} {k : ℕ} : ∀ (l : List N) {F G : Asg N → ℚ} (a : Asg N), l.Nodup →
    (∀ b : Asg N, (∀ v, v ∉ l → b v = a v) → (∀ v ∈ l, b v < c v) → Near u k (F b) (G b)) → Near u k (sumAll c l F a) (sumAll c l G a)
  | [], F, G, a, _, h => h a (fun _ _ => rfl) (by simp)
  | v :: l, F, G, a, hn, h => by
      simp only [sumAll]
      refine Near.sum _ fun x hx => ?_
      have hx := Finset.mem_range.1 hx
      refine sumAll_near l _ (List.nodup_cons.1 hn).2 fun b hb hr => h b (fun w hw => ?_) fun w hw => ?_
      · simp only [List.mem_cons, not_or] at hw
        rw [hb w hw.2, Asg.upd_ne _ _ hw.1]
      · rcases List.mem_cons.1 hw with rfl | h2
        · rw [hb w (List.nodup_cons.1 hn).1, Asg.upd_self]; exact hx
        · exact hr w h2

end

variable {N A : Type _} [DecidableEq N] [DecidableEq A] {c : N → ℕ} {u : ℚ} {rnd : ℚ → ℚ}

/-! ## The rounded operations against the exact ones -/

theorem mulLoopR_eq (rnd : ℚ → ℚ) (phi1 phi2 : Factor N) (card1 : Dict N ℕ) (order : List N) : ∀ (n : ℕ) (asg : Dict N ℕ) (j k : ℤ),
    mulLoopR rnd phi1 phi2 card1 order n asg j k = (mulLoop phi1 phi2 card1 order n asg j k).map (List.map rnd)
  | 0, _, _, _ => rfl
  | n + 1, asg, j, k => by
      simp only [mulLoopR, mulLoop]
      cases pyIdx phi1.cpt j with
      | error e => rfl
      | ok x =>
        cases pyIdx phi2.cpt k with
        | error e => rfl
        | ok y =>
          cases odometer phi1 phi2 card1 order asg j k with
          | error e => rfl
          | ok r =>
            obtain ⟨a', j', k'⟩ := r
            simp only [Py.bind_ok]
            rw [mulLoopR_eq rnd phi1 phi2 card1 order n a' j' k']
            cases mulLoop phi1 phi2 card1 order n a' j' k' <;> rfl

theorem mulCoreR_eq (rnd : ℚ → ℚ) (h : HashOrder N) (f g : Factor N) :
    mulCoreR rnd h f g = (mulCore h f g).map fun r => (r.1.map rnd, r.2) := by
  simp only [mulCoreR, mulCore, mulLoopR_eq]
  generalize mulLoop f g _ _ _ _ _ _ = r
  cases r with
  | error e => rfl
  | ok l =>
    simp only [Except.map, Py.bind_ok]
    generalize orderStride (N := N) _ _ _ = s
    cases s <;> rfl

theorem mulR_eq (rnd : ℚ → ℚ) (h : HashOrder N) (f g : Factor N) :
    mulR rnd h f g = (mul h f g).map fun r => { r.1 with cpt := r.1.cpt.map rnd } := by
  unfold mulR mul
  split
  · rw [mulCoreR_eq]; cases mulCore h f g <;> rfl
  · rw [mulCoreR_eq]; cases mulCore h g f <;> rfl

theorem mulR_ok (rnd : ℚ → ℚ) (h : HashOrder N) {f g : Factor N} (wf : f.WF c) (wg : g.WF c) :
    ∃ r, mulR rnd h f g = .ok r ∧ r.WF c ∧ (∀ v, v ∈ r.scope ↔ v ∈ f.scope ∨ v ∈ g.scope) ∧
      ∀ a, InRange c r.scope a → r.val a = rnd (f.val a * g.val a) := by
  obtain ⟨r, g', e, w, _, hs, hv, _⟩ := mul_ok h wf wg
  refine ⟨{ r with cpt := r.cpt.map rnd }, by rw [mulR_eq, e]; rfl,
    ⟨w.scope_nodup, w.card_pos, w.card_nodup, w.card_eq, w.stride_nodup, w.stride_dom, w.layout, by simpa using w.cpt_len⟩, hs, fun a ha => ?_⟩
  have h1 := hv a ha
  refine val_of_entry ?_
  show (r.cpt.map rnd)[r.pos a]? = _
  rw [List.getElem?_map]
  unfold entry at h1
  rw [h1]; rfl

theorem sumCR_ok {cpt : List ℚ} {P k : ℕ} : ∀ (n x : ℕ) (acc : ℚ),
    (∀ y < n, k + P * (x + y) < cpt.length) →
    sumCR rnd cpt P k n x acc = .ok (((List.range n).map fun y => (cpt[k + P * (x + y)]?).getD 0).foldl (fun s x => rnd (s + x)) acc) := by
  intro n
  induction n with
  | zero => intro x acc _; simp [sumCR]
  | succ n ih =>
    intro x acc h
    have h0 := h 0 (by omega)
    rw [Nat.add_zero] at h0
    have hx : cpt[k + P * x]? = some ((cpt[k + P * x]?).getD 0) := by
      rw [List.getElem?_eq_getElem h0]; rfl
    simp only [sumCR]
    rw [pyIdx_nat hx, Py.bind_ok, ih (x + 1) _ fun y hy => by
      have := h (y + 1) (by omega)
      rwa [show x + 1 + y = x + (y + 1) by ring]]
    rw [List.range_succ_eq_map, List.map_cons, List.foldl_cons, List.map_map]
    congr 2
    apply List.map_congr_left
    intro y _
    simp only [Function.comp, Nat.succ_eq_add_one]
    rw [show x + 1 + y = x + (y + 1) by ring]

theorem sumoutR_ok (rnd : ℚ → ℚ) (h : HashOrder N) {f : Factor N} {rv : N} (w : f.WF c) (hrv : rv ∈ f.scope) :
    ∃ f', sumoutR rnd h f rv = .ok f' ∧ f'.WF c ∧ f'.scope = f.scope.erase rv ∧
      ∀ a, InRange c f'.scope a →
        f'.val a = ((List.range (c rv)).map fun x => f.val (a.upd rv x)).foldl (fun s x => rnd (s + x)) 0 := by
  obtain ⟨o1, o2, s⟩ := w.split hrv
  obtain ⟨l, h1, h2, h3⟩ := elim_ok s w
    (agg := fun k => sumCR rnd f.cpt (f.strideOf rv) k (c rv) 0 0) (op := fun l => l.foldl (fun s x => rnd (s + x)) 0)
    (by
      intro k hk
      rw [sumCR_ok _ _ _ (fun y hy => by rw [zero_add]; exact hk y hy)]
      simp only [zero_add]; rfl)
  obtain ⟨f', h4, h5, h6, h7, h8, h9⟩ := dropVar_ok s w h2
  refine ⟨{ f' with var := newVar h f.var rv f'.stride }, ?_, h8 _, h7, ?_⟩
  · simp only [sumoutR, Dict.get_of_get? (w.card_get hrv), Dict.get_of_get? (w.stride_get hrv), Py.bind_ok,
      s.blockSize_eq w, if_neg (s.C_pos w).ne', h1, h4, Py.pure_eq]
  · intro a ha
    refine val_of_entry ?_
    show f'.cpt[f'.pos a]? = _
    rw [h6, h9]
    exact h3 a fun v hv => ha v (by show v ∈ f'.scope; rw [h7]; exact s.perm_erase.subset hv)

/-! ## With `rnd = id` the rounded functions are the exact ones -/

theorem mulR_id (h : HashOrder N) (f g : Factor N) : mulR id h f g = (mul h f g).map Prod.fst := by
  rw [mulR_eq]; congr 1; funext r; simp

theorem sumCR_id (cpt : List ℚ) (P k : ℕ) : ∀ (n x : ℕ) (acc : ℚ), sumCR id cpt P k n x acc = sumC cpt P k n x acc
  | 0, _, _ => rfl
  | n + 1, x, acc => by
      simp only [sumCR, sumC]
      cases pyIdx cpt (k + P * x : ℕ) with
      | error e => rfl
      | ok y => exact sumCR_id cpt P k n (x + 1) (acc + y)

theorem sumoutR_id (h : HashOrder N) (f : Factor N) (rv : N) : sumoutR id h f rv = sumout h f rv := by
  unfold sumoutR sumout
  simp only [sumCR_id]

theorem mulAllR_id (h : HashOrder N) : ∀ (fs : List (Factor N)) (psi : Factor N), mulAllR id h psi fs = mulAll h psi fs
  | [], _ => rfl
  | f :: fs, psi => by
      simp only [mulAllR, mulAll, mulR_id]
      cases mul h psi f with
      | error e => rfl
      | ok r => exact mulAllR_id h fs r.1

theorem relProductR_id (h : HashOrder N) (phi : List (Factor N)) (rv : N) : relProductR id h phi rv = relProduct h phi rv := by
  unfold relProductR relProduct
  cases relevant phi rv with
  | nil => rfl
  | cons f fs => exact mulAllR_id h fs f

theorem sumElimAllR_id (h : HashOrder N) : ∀ (vs : List N) (p : Factorization N A), sumElimAllR id h vs p = sumElimAll h vs p
  | [], _ => rfl
  | v :: vs, p => by
      simp only [sumElimAllR, sumElimAll, sumElimR, sumElim, relProductR_id]
      cases relProduct h p.phi v with
      | error e => rfl
      | ok psi =>
        simp only [Py.bind_ok, sumoutR_id]
        cases sumout h psi v with
        | error e => rfl
        | ok psi' => exact sumElimAllR_id h vs _

theorem maxElimAllR_id (h : HashOrder N) : ∀ (vs : List N) (p : Factorization N A), maxElimAllR id h vs p = maxElimAll h vs p
  | [], _ => rfl
  | v :: vs, p => by
      simp only [maxElimAllR, maxElimAll, maxElimR, maxElim, relProductR_id]
      cases relProduct h p.phi v with
      | error e => rfl
      | ok psi =>
        simp only [Py.bind_ok]
        cases maxout psi v with
        | error e => rfl
        | ok psi' => exact maxElimAllR_id h vs _

/-! ## Elimination -/

theorem prodVal_nonneg_at {a : Asg N} : ∀ {fs : List (Factor N)}, (∀ f ∈ fs, 0 ≤ f.val a) → 0 ≤ prodVal fs a
  | [], _ => by simp [prodVal]
  | f :: fs, h => by
      have h1 := prodVal_nonneg_at (fs := fs) fun g hg => h g (by simp [hg])
      have h2 := h f (by simp)
      simp only [prodVal, List.map_cons, List.prod_cons] at h1 ⊢
      exact mul_nonneg h2 h1

theorem mulAllR_ok (r : Rounds u rnd) (h : HashOrder N) : ∀ (fs : List (Factor N)) {psi : Factor N}, psi.WF c → (∀ f ∈ fs, f.WF c) →
    ∃ psi', mulAllR rnd h psi fs = .ok psi' ∧ psi'.WF c ∧
      (∀ v, v ∈ psi'.scope ↔ v ∈ psi.scope ∨ ∃ f ∈ fs, v ∈ f.scope) ∧
      ∀ a, InRange c psi'.scope a → 0 ≤ psi.val a → (∀ f ∈ fs, 0 ≤ f.val a) → Near u fs.length (psi.val a * prodVal fs a) (psi'.val a) := by
  intro fs
  induction fs with
  | nil => intro psi w _; exact ⟨psi, rfl, w, by simp, fun a _ h0 _ => by simpa [prodVal] using Near.refl u h0⟩
  | cons f fs ih =>
    intro psi w hw
    obtain ⟨p1, e1, w1, s1, v1⟩ := mulR_ok rnd h w (hw f (by simp))
    obtain ⟨p2, e2, w2, s2, v2⟩ := ih w1 fun g hg => hw g (by simp [hg])
    refine ⟨p2, by simp [mulAllR, e1, e2], w2, ?_, ?_⟩
    · intro v; rw [s2, s1]; simp [or_assoc]
    · intro a ha h0 hf
      have hv := v1 a fun v hv => ha v ((s2 v).2 (.inl hv))
      have hn : Near u 1 (psi.val a * f.val a) (p1.val a) := by
        rw [hv]; exact r.near (mul_nonneg h0 (hf f (by simp)))
      have hfs : ∀ g ∈ fs, 0 ≤ g.val a := fun g hg => hf g (by simp [hg])
      have h2 := v2 a ha (hn.nonneg r.lt_one) hfs
      have hp : 0 ≤ prodVal fs a := prodVal_nonneg_at hfs
      have h3 := (hn.mul r.lt_one (Near.refl u hp)).trans r.nonneg r.lt_one h2
      rw [List.length_cons, show fs.length + 1 = 1 + 0 + fs.length by omega]
      have he : psi.val a * prodVal (f :: fs) a = psi.val a * f.val a * prodVal fs a := by
        simp only [prodVal, List.map_cons, List.prod_cons]; ring
      rw [he]; exact h3

theorem relProductR_ok (r : Rounds u rnd) (h : HashOrder N) {phi : List (Factor N)} (hw : ∀ f ∈ phi, f.WF c)
    (hn : ∀ f ∈ phi, VNonneg c f) {rv : N} (hm : Mentions phi rv) :
    ∃ psi, relProductR rnd h phi rv = .ok psi ∧ psi.WF c ∧ rv ∈ psi.scope ∧
      (∀ v, v ∈ psi.scope ↔ ∃ f ∈ phi, rv ∈ f.scope ∧ v ∈ f.scope) ∧
      ∀ a, InRange c psi.scope a → Near u ((relevant phi rv).length - 1) (prodVal (relevant phi rv) a) (psi.val a) := by
  have hmem : ∀ f, f ∈ relevant phi rv ↔ f ∈ phi ∧ rv ∈ f.scope := by simp [relevant]
  unfold relProductR
  cases hr : relevant phi rv with
  | nil =>
    obtain ⟨f, hf, hfv⟩ := hm
    have := (hmem f).2 ⟨hf, hfv⟩
    rw [hr] at this; simp at this
  | cons f fs =>
    rw [hr] at hmem
    obtain ⟨psi, e, w, s, v⟩ := mulAllR_ok r h fs (hw f ((hmem f).1 (by simp)).1)
      fun g hg => hw g ((hmem g).1 (by simp [hg])).1
    have hs : ∀ v, v ∈ psi.scope ↔ ∃ f ∈ phi, rv ∈ f.scope ∧ v ∈ f.scope := by
      intro u
      rw [s]
      constructor
      · rintro (hu | ⟨g, hg, hu⟩)
        · exact ⟨f, ((hmem f).1 (by simp)).1, ((hmem f).1 (by simp)).2, hu⟩
        · exact ⟨g, ((hmem g).1 (by simp [hg])).1, ((hmem g).1 (by simp [hg])).2, hu⟩
      · rintro ⟨g, hg, hgr, hu⟩
        rcases List.mem_cons.1 ((hmem g).2 ⟨hg, hgr⟩) with rfl | hg'
        · exact .inl hu
        · exact .inr ⟨g, hg', hu⟩
    refine ⟨psi, e, w, ?_, hs, ?_⟩
    · obtain ⟨g, hg, hgr⟩ := hm; exact (hs rv).2 ⟨g, hg, hgr, hgr⟩
    · intro a ha
      have hg : ∀ g ∈ f :: fs, 0 ≤ g.val a := fun g hg => by
        obtain ⟨h1, h2⟩ := (hmem g).1 hg
        exact hn g h1 a fun v hv => ha v ((hs v).2 ⟨g, h1, h2, hv⟩)
      have := v a ha (hg f (by simp)) fun g hg' => hg g (by simp [hg'])
      simpa [prodVal] using this

theorem sumElimR_ok (r : Rounds u rnd) (h : HashOrder N) (p : Factorization N A) (hw : ∀ f ∈ p.phi, f.WF c)
    (hn : ∀ f ∈ p.phi, VNonneg c f) {rv : N} (hm : Mentions p.phi rv) :
    ∃ p' psi', p.sumElimR rnd h rv = .ok p' ∧ ElimShape c p.phi rv p'.phi psi' ∧ (∀ f ∈ p'.phi, VNonneg c f) ∧
      ∃ k, k + p'.phi.length = p.phi.length + c rv ∧
      ∀ a, InR c p'.phi a → Near u k (∑ x ∈ Finset.range (c rv), prodVal p.phi (a.upd rv x)) (prodVal p'.phi a) := by
  obtain ⟨psi, e1, w1, r1, s1, v1⟩ := relProductR_ok r h hw hn hm
  obtain ⟨psi', e2, w2, s2, v2⟩ := sumoutR_ok rnd h w1 r1
  have sh : ElimShape c p.phi rv (irrelevant p.phi rv ++ [psi']) psi' :=
    ⟨rfl, w2, fun v => by rw [s2, w1.scope_nodup.mem_erase_iff, s1]⟩
  have hup : ∀ a, InRange c psi'.scope a → ∀ x, x < c rv → InRange c psi.scope (a.upd rv x) := by
    intro a ha x hx v hv
    by_cases h : v = rv
    · subst h; rwa [Asg.upd_self]
    · rw [Asg.upd_ne _ _ h]; exact ha v ((sh.scope v).2 ⟨h, (s1 v).1 hv⟩)
  have hv' : ∀ a, InRange c psi'.scope a →
      Near u (((relevant p.phi rv).length - 1) + c rv) (∑ x ∈ Finset.range (c rv), prodVal (relevant p.phi rv) (a.upd rv x)) (psi'.val a) := by
    intro a ha
    have h1 : Near u ((relevant p.phi rv).length - 1) (∑ x ∈ Finset.range (c rv), prodVal (relevant p.phi rv) (a.upd rv x))
        (∑ x ∈ Finset.range (c rv), psi.val (a.upd rv x)) := Near.sum _ fun x hx => v1 _ (hup a ha x (Finset.mem_range.1 hx))
    have h2 := r.near_fold ((List.range (c rv)).map fun x => psi.val (a.upd rv x)) 0 0 0 (by
      intro y hy
      obtain ⟨x, hx, rfl⟩ := List.mem_map.1 hy
      exact (v1 _ (hup a ha x (List.mem_range.1 hx))).nonneg r.lt_one) (Near.refl u le_rfl)
    rw [← v2 a ha, zero_add, zero_add, list_sum_range, List.length_map, List.length_range] at h2
    exact h1.trans r.nonneg r.lt_one h2
  have hirr : ∀ a, InR c (irrelevant p.phi rv ++ [psi']) a → 0 ≤ prodVal (irrelevant p.phi rv) a := by
    intro a ha
    refine prodVal_nonneg (c := c) (fun f hf => hn f (List.mem_of_mem_filter hf)) fun v hv => ?_
    obtain ⟨f, hf, h2⟩ := hv
    exact ha v ⟨f, List.mem_append_left _ hf, h2⟩
  refine ⟨{ p with phi := irrelevant p.phi rv ++ [psi'] }, psi', by simp [sumElimR, e1, e2], sh, ?_, (relevant p.phi rv).length - 1 + c rv, ?_, ?_⟩
  · intro f hf
    rcases List.mem_append.1 hf with h1 | h1
    · exact hn f (List.mem_of_mem_filter h1)
    · rw [List.mem_singleton] at h1
      subst h1
      exact fun a ha => (hv' a ha).nonneg r.lt_one
  · have h1 : (relevant p.phi rv).length + (irrelevant p.phi rv).length = p.phi.length := by
      unfold relevant irrelevant
      have := List.length_eq_length_filter_add (l := p.phi) fun f => decide (rv ∈ f.scope)
      rw [this]
      congr 2
      apply List.filter_congr
      intro f _; by_cases h : rv ∈ f.scope <;> simp [h]
    have h2 : 0 < (relevant p.phi rv).length := by
      obtain ⟨f, hf, hfv⟩ := hm
      exact List.length_pos_of_mem (a := f) (by simp [relevant, hf, hfv])
    simp only [List.length_append, List.length_singleton]
    omega
  · intro a ha
    have ha' : InRange c psi'.scope a := fun v hv => ha v ⟨psi', by simp, hv⟩
    have he : prodVal (irrelevant p.phi rv ++ [psi']) a = prodVal (irrelevant p.phi rv) a * psi'.val a := by
      simp [prodVal]
    have hs : ∑ x ∈ Finset.range (c rv), prodVal p.phi (a.upd rv x) =
        prodVal (irrelevant p.phi rv) a * ∑ x ∈ Finset.range (c rv), prodVal (relevant p.phi rv) (a.upd rv x) := by
      rw [Finset.mul_sum]
      refine Finset.sum_congr rfl fun x _ => ?_
      rw [prodVal_split p.phi rv, prodVal_irrelevant_upd, mul_comm]
    show Near u _ _ (prodVal (irrelevant p.phi rv ++ [psi']) a)
    rw [he, hs]
    have := (Near.refl u (hirr a ha)).mul r.lt_one (hv' a ha')
    rwa [zero_add] at this

theorem sumElimAllR_ok (r : Rounds u rnd) (h : HashOrder N) : ∀ (order : List N) (p : Factorization N A), (∀ f ∈ p.phi, f.WF c) →
    (∀ f ∈ p.phi, VNonneg c f) → order.Nodup → (∀ v ∈ order, Mentions p.phi v) →
    ∃ p', sumElimAllR rnd h order p = .ok p' ∧ ElimChain c order p.phi p'.phi ∧ (∀ f ∈ p'.phi, f.WF c) ∧
      (∀ v, Mentions p'.phi v ↔ v ∉ order ∧ Mentions p.phi v) ∧
      ∃ k, k + p'.phi.length = p.phi.length + (order.map c).sum ∧
      ∀ a, InR c p'.phi a → Near u k (sumAll c order.reverse (prodVal p.phi) a) (prodVal p'.phi a) := by
  intro order
  induction order with
  | nil =>
    intro p hw hnn _ _
    exact ⟨p, rfl, .nil _, hw, by simp, 0, by simp, fun a ha => Near.refl u (prodVal_nonneg hnn ha)⟩
  | cons v vs ih =>
    intro p hw hnn hn hm
    rw [List.nodup_cons] at hn
    obtain ⟨p1, psi', e1, sh, n1, k1, hk1, v1⟩ := sumElimR_ok r h p hw hnn (hm v (by simp))
    have hm1 := sh.mentions
    obtain ⟨p2, e2, ch2, w2, m2, k2, hk2, v2⟩ := ih p1 (sh.all_wf hw) n1 hn.2 fun u hu =>
      (hm1 u).2 ⟨by rintro rfl; exact hn.1 hu, hm u (by simp [hu])⟩
    refine ⟨p2, by simp [sumElimAllR, e1, e2], .cons sh ch2, w2, ?_, k1 + k2, ?_, ?_⟩
    · intro u; rw [m2, hm1]; simp only [List.mem_cons, not_or]; tauto
    · simp only [List.map_cons, List.sum_cons]; omega
    · intro a ha
      refine Near.trans r.nonneg r.lt_one ?_ (v2 a ha)
      rw [List.reverse_cons, sumAll_append]
      refine sumAll_near _ _ (List.nodup_reverse.2 hn.2) fun b hb hr => ?_
      have := v1 b fun u hu => by
        by_cases hu' : u ∈ vs
        · exact hr u (List.mem_reverse.2 hu')
        · rw [hb u (by simpa using hu')]; exact ha u ((m2 u).2 ⟨hu', hu⟩)
      simpa [sumAll] using this

end PyBN
