import Verif.Model.ParamDist
import Verif.Props.Net
import Verif.Proofs.InfoScore

/-!
# The parameter distances: C175, C176
-/

set_option linter.unusedSectionVars false

namespace PyBN
namespace ParamDist
variable {N A : Type} [DecidableEq N] [DecidableEq A]

/-- C176: as shipped, every parameter distance and the hybrid distance raise `NameError` on every pair of networks. -/
theorem C176_as_shipped (x y : Arg N A) (bx by' : BayesNet N A) (p alpha : ℝ) :
    euclidean false x y = .error .nameError ∧ manhattan false x y = .error .nameError ∧ minkowski false p x y = .error .nameError ∧
    klDivergence false x y = .error .nameError ∧ jsDivergence false x y = .error .nameError ∧ hellinger false x y = .error .nameError ∧
    hybridDistance false false alpha bx by' = .error .nameError :=
  ⟨rfl, rfl, rfl, rfl, rfl, rfl, rfl⟩

/-- What the two assertions do once the name is there. -/
theorem check_bound {x y : BayesNet N A} (wx : x.WF) (wy : y.EdgeWF) :
    ((∃ v, ¬ (v ∈ x.V ↔ v ∈ y.V)) → check true (.net x) (.net y) = .error .assertionError) ∧
    ((∀ v, v ∈ x.V ↔ v ∈ y.V) → x.V ≠ [] → check true (.net x) (.net y) = .error .typeError) ∧
    ((∀ v, v ∈ x.V ↔ v ∈ y.V) → x.V = [] → check true (.net x) (.net y) = .ok (x, y)) := by
  obtain ⟨h1, h2, h3⟩ := C25_exact_partial x y wx wy
  refine ⟨fun h => ?_, fun h hne => ?_, fun h he => ?_⟩
  · simp [check, h1 h]
  · simp [check, h3 h hne]
  · simp [check, h2 h he]

/-- C176 (with the name restored): `AssertionError` for networks over different nodes, `TypeError` for all other non-empty networks -
identical ones included -, and `js_divergence` returns for no pair of networks at all. -/
theorem C176_name_restored (x y : BayesNet N A) (wx : x.WF) (wy : y.EdgeWF) (p : ℝ) :
    ((∃ v, ¬ (v ∈ x.V ↔ v ∈ y.V)) → ∀ f ∈ [euclidean true, manhattan true, minkowski true p, klDivergence true, jsDivergence true, hellinger true],
      f (.net x) (.net y) = .error .assertionError) ∧
    ((∀ v, v ∈ x.V ↔ v ∈ y.V) → x.V ≠ [] →
      ∀ f ∈ [euclidean true, manhattan true, minkowski true p, klDivergence true, jsDivergence true, hellinger true],
      f (.net x) (.net y) = .error .typeError) ∧
    (∀ r : ℝ, jsDivergence true (.net x) (.net y) ≠ .ok r) := by
  obtain ⟨h1, h2, h3⟩ := check_bound wx wy
  refine ⟨fun h f hf => ?_, fun h hne f hf => ?_, fun r hr => ?_⟩
  · simp only [List.mem_cons, List.not_mem_nil, or_false] at hf
    rcases hf with rfl | rfl | rfl | rfl | rfl | rfl <;>
      simp [euclidean, manhattan, minkowski, klDivergence, jsDivergence, hellinger, run, h1 h]
  · simp only [List.mem_cons, List.not_mem_nil, or_false] at hf
    rcases hf with rfl | rfl | rfl | rfl | rfl | rfl <;>
      simp [euclidean, manhattan, minkowski, klDivergence, jsDivergence, hellinger, run, h2 h hne]
  · unfold jsDivergence at hr
    cases hc : check true (.net x) (.net y) with
    | error e => rw [hc] at hr; cases hr
    | ok ab =>
      obtain ⟨a, b⟩ := ab
      rw [hc] at hr
      simp only [Py.bind_ok] at hr
      cases hfa : flat a with
      | error e => rw [hfa] at hr; cases hr
      | ok fa =>
        rw [hfa] at hr
        simp only [Py.bind_ok] at hr
        cases hfb : flat b with
        | error e => rw [hfb] at hr; cases hr
        | ok fb =>
          rw [hfb] at hr
          simp only [Py.bind_ok] at hr
          cases hs : bcast (fun a b => a + b) fa fb with
          | error e => rw [hs] at hr; cases hr
          | ok s =>
            rw [hs] at hr
            simp [klDivergence, run, check] at hr

/-- C176: behind the assertions, tables of different lengths (neither of length one) are a `ValueError` of numpy in every formula. -/
theorem C176_shapes (x y : List ℝ) (p : ℝ) (hne : x.length ≠ y.length) (hx : x.length ≠ 1) (hy : y.length ≠ 1) :
    ∀ f ∈ [euclideanBody, manhattanBody, minkowskiBody p, klBody, hellingerBody], f x y = .error .valueError := by
  have hb : ∀ g, bcast g x y = .error .valueError := by
    intro g
    unfold bcast
    rw [if_neg hne]
    rcases x with _ | ⟨a, _ | ⟨b, x⟩⟩
    · rcases y with _ | ⟨c, _ | ⟨d, y⟩⟩ <;> simp_all
    · simp at hx
    · rcases y with _ | ⟨c, _ | ⟨d, y⟩⟩ <;> simp_all
  have hb' : ∀ g, bcast g (x.map Real.sqrt) (y.map Real.sqrt) = .error .valueError := by
    intro g
    unfold bcast
    rw [if_neg (by simpa using hne)]
    rcases x with _ | ⟨a, _ | ⟨b, x⟩⟩
    · rcases y with _ | ⟨c, _ | ⟨d, y⟩⟩ <;> simp_all
    · simp at hx
    · rcases y with _ | ⟨c, _ | ⟨d, y⟩⟩ <;> simp_all
  intro f hf
  simp only [List.mem_cons, List.not_mem_nil, or_false] at hf
  rcases hf with rfl | rfl | rfl | rfl | rfl <;> simp [euclideanBody, manhattanBody, minkowskiBody, klBody, hellingerBody, hb, hb']

/-- C175 is false of the code: no distance of a network to itself is zero, there is none. -/
theorem C175_false : ¬ ∀ x : BayesNet ℕ ℕ, x.WF → x.EdgeWF → euclidean false (.net x) (.net x) = .ok 0 := by
  intro h
  have := h exNet exNet_wf exNet_edgeWf
  cases this

theorem bcast_same {f : ℝ → ℝ → ℝ} {x y : List ℝ} (h : x.length = y.length) : bcast f x y = .ok (List.zipWith f x y) := if_pos h

theorem sum_abs_zero : ∀ {x y : List ℝ}, x.length = y.length → (((List.zipWith (fun a b => a - b) x y).map fun t => |t|).sum = 0 ↔ x = y) ∧
    0 ≤ ((List.zipWith (fun a b => a - b) x y).map fun t => |t|).sum := by
  intro x
  induction x with
  | nil => intro y h; cases y with
    | nil => simp
    | cons => simp at h
  | cons a x ih =>
    intro y h
    cases y with
    | nil => simp at h
    | cons b y =>
      simp only [List.length_cons, Nat.add_right_cancel_iff] at h
      obtain ⟨i1, i2⟩ := ih h
      simp only [List.zipWith_cons_cons, List.map_cons, List.sum_cons, List.cons.injEq]
      have ha := abs_nonneg (a - b)
      refine ⟨⟨fun hz => ?_, ?_⟩, by linarith⟩
      · have e1 : |a - b| = 0 := by linarith
        have e2 := i1.1 (by linarith)
        exact ⟨by have := abs_eq_zero.1 e1; linarith, e2⟩
      · rintro ⟨rfl, rfl⟩
        rw [i1.2 rfl]; simp

theorem sum_abs_triangle : ∀ {x y z : List ℝ}, x.length = y.length → y.length = z.length →
    ((List.zipWith (fun a b => a - b) x z).map fun t => |t|).sum ≤
      ((List.zipWith (fun a b => a - b) x y).map fun t => |t|).sum + ((List.zipWith (fun a b => a - b) y z).map fun t => |t|).sum := by
  intro x
  induction x with
  | nil => intro y z h1 h2; cases y <;> cases z <;> simp at h1 h2 ⊢
  | cons a x ih =>
    intro y z h1 h2
    cases y with
    | nil => simp at h1
    | cons b y => cases z with
      | nil => simp at h2
      | cons c z =>
        simp only [List.length_cons, Nat.add_right_cancel_iff] at h1 h2
        have := ih h1 h2
        simp only [List.zipWith_cons_cons, List.map_cons, List.sum_cons]
        have := abs_sub_le a b c
        linarith

/-- C175, the part that holds: the *formulas* of `manhattan` and `euclidean` on tables of the same size are the same function (the
documented Euclidean distance is not computed), and it is a metric. -/
theorem C175_formulas_partial (x y z : List ℝ) (hxy : x.length = y.length) (hyz : y.length = z.length) :
    euclideanBody x y = manhattanBody x y ∧ manhattanBody x y = manhattanBody y x ∧
    ∃ dxy dyz dxz : ℝ, manhattanBody x y = .ok dxy ∧ manhattanBody y z = .ok dyz ∧ manhattanBody x z = .ok dxz ∧
      0 ≤ dxy ∧ (dxy = 0 ↔ x = y) ∧ dxz ≤ dxy + dyz := by
  refine ⟨?_, ?_, _, _, _, ?_, ?_, ?_, (sum_abs_zero hxy).2, (sum_abs_zero hxy).1, sum_abs_triangle hxy hyz⟩
  · unfold euclideanBody manhattanBody
    simp only [Real.sqrt_sq_eq_abs]
  · unfold manhattanBody
    rw [bcast_same hxy, bcast_same hxy.symm]
    simp only [Py.bind_ok]
    congr 2
    rw [List.zipWith_comm, List.map_zipWith, List.map_zipWith]
    congr 1
    funext a b
    exact abs_sub_comm _ _
  · unfold manhattanBody; rw [bcast_same hxy]; rfl
  · unfold manhattanBody; rw [bcast_same hyz]; rfl
  · unfold manhattanBody; rw [bcast_same (hxy.trans hyz)]; rfl

/-- The formula of `minkowski` ignores `p` inside the sum: with `p = 1` it is not the Manhattan distance, although documented to be. -/
theorem C175_minkowski_false : ∃ x y : List ℝ, x.length = y.length ∧ minkowskiBody 1 x y ≠ manhattanBody x y := by
  refine ⟨[1 / 2, 1 / 2], [1, 0], rfl, ?_⟩
  unfold minkowskiBody manhattanBody
  rw [bcast_same (x := [1 / 2, 1 / 2]) (y := [1, 0]) rfl]
  simp only [Py.bind_ok, List.zipWith_cons_cons, List.map_cons, List.sum_cons, List.zipWith_nil_left, List.map_nil, List.sum_nil]
  intro h
  rw [if_neg one_ne_zero] at h
  injection h with h
  norm_num at h

/-- The sum of the squared differences. -/
theorem sum_sq_nonneg (l : List ℝ) : 0 ≤ (l.map fun t => t ^ 2).sum :=
  List.sum_nonneg fun y hy => by obtain ⟨t, _, rfl⟩ := List.mem_map.1 hy; exact sq_nonneg t

/-- C175, the formula of `minkowski`: with `p = 2` it is the Euclidean distance, and for every `p` a power of it; `p = 0` raises. -/
theorem C175_minkowski_partial (x y : List ℝ) (hxy : x.length = y.length) (p : ℝ) :
    minkowskiBody 2 x y = .ok (Real.sqrt ((List.zipWith (fun a b => (a - b) ^ 2) x y).sum)) ∧
    (p ≠ 0 → minkowskiBody p x y = .ok (Real.sqrt ((List.zipWith (fun a b => (a - b) ^ 2) x y).sum) ^ (2 / p))) ∧
    minkowskiBody 0 x y = .error .zeroDivision := by
  have hmap : ((List.zipWith (fun a b => a - b) x y).map fun t => t ^ 2) = List.zipWith (fun a b => (a - b) ^ 2) x y := by
    rw [List.map_zipWith]
  have h0 : 0 ≤ (List.zipWith (fun a b => (a - b) ^ 2) x y).sum := by rw [← hmap]; exact sum_sq_nonneg _
  have key : ∀ p : ℝ, p ≠ 0 → minkowskiBody p x y = .ok ((List.zipWith (fun a b => (a - b) ^ 2) x y).sum ^ (1 / p)) := by
    intro p hp
    unfold minkowskiBody
    rw [bcast_same hxy]
    simp only [Py.bind_ok, if_neg hp, hmap]
    rfl
  refine ⟨?_, fun hp => ?_, ?_⟩
  · rw [key 2 two_ne_zero, Real.sqrt_eq_rpow]
  · rw [key p hp, Real.sqrt_eq_rpow, ← Real.rpow_mul h0]
    congr 2
    ring
  · unfold minkowskiBody
    rw [bcast_same hxy]
    simp

theorem kl_term {a b : ℝ} (ha : 0 < a) (hb : 0 < b) : a - b ≤ a * Real.log (a / b) ∧ (a * Real.log (a / b) = a - b → a = b) := by
  have h1 : Real.log (b / a) ≤ b / a - 1 := Real.log_le_sub_one_of_pos (div_pos hb ha)
  have h2 : Real.log (a / b) = - Real.log (b / a) := by rw [← Real.log_inv, inv_div]
  have h3 : a * (b / a - 1) = b - a := by field_simp
  refine ⟨?_, fun he => ?_⟩
  · rw [h2]
    have := mul_le_mul_of_nonneg_left h1 ha.le
    rw [h3] at this
    linarith
  · by_contra hne
    have hne1 : b / a ≠ 1 := fun h0 => hne ((div_eq_one_iff_eq ha.ne').1 h0).symm
    have h4 := Real.log_lt_sub_one_of_pos (div_pos hb ha) hne1
    have := mul_lt_mul_of_pos_left h4 ha
    rw [h3] at this
    rw [h2] at he
    linarith

theorem kl_sum : ∀ {x y : List ℝ}, x.length = y.length → (∀ a ∈ x, 0 < a) → (∀ b ∈ y, 0 < b) →
    x.sum - y.sum ≤ (List.zipWith (fun a b => a * Real.log (a / b)) x y).sum ∧
    ((List.zipWith (fun a b => a * Real.log (a / b)) x y).sum = x.sum - y.sum → x = y) := by
  intro x
  induction x with
  | nil => intro y h _ _; cases y with
    | nil => simp
    | cons => simp at h
  | cons a x ih =>
    intro y h hx hy
    cases y with
    | nil => simp at h
    | cons b y =>
      simp only [List.length_cons, Nat.add_right_cancel_iff] at h
      obtain ⟨i1, i2⟩ := ih h (fun c hc => hx c (by simp [hc])) (fun c hc => hy c (by simp [hc]))
      obtain ⟨k1, k2⟩ := kl_term (hx a (by simp)) (hy b (by simp))
      simp only [List.zipWith_cons_cons, List.sum_cons]
      refine ⟨by linarith, fun he => ?_⟩
      rw [k2 (by linarith), i2 (by linarith)]

theorem zipWith_nested : ∀ (x y : List ℝ), x.length = y.length →
    List.zipWith (fun a b => a * b) x ((List.zipWith (fun a b => a / b) x y).map Real.log) = List.zipWith (fun a b => a * Real.log (a / b)) x y := by
  intro x
  induction x with
  | nil => intro y _; rfl
  | cons a x ih =>
    intro y h
    cases y with
    | nil => simp at h
    | cons b y =>
      simp only [List.length_cons, Nat.add_right_cancel_iff] at h
      simp only [List.zipWith_cons_cons, List.map_cons, ih y h]

/-- C175, the formula of `kl_divergence`: on positive tables with the same total (two networks of the same structure) it is at least 0, and 0
exactly for equal tables. -/
theorem C175_kl_partial (x y : List ℝ) (hxy : x.length = y.length) (hx : ∀ a ∈ x, 0 < a) (hy : ∀ b ∈ y, 0 < b) (hs : x.sum = y.sum) :
    ∃ d : ℝ, klBody x y = .ok d ∧ 0 ≤ d ∧ (d = 0 ↔ x = y) := by
  obtain ⟨k1, k2⟩ := kl_sum hxy hx hy
  refine ⟨(List.zipWith (fun a b => a * Real.log (a / b)) x y).sum, ?_, by linarith, fun he => k2 (by linarith), ?_⟩
  · unfold klBody
    rw [bcast_same hxy]
    simp only [Py.bind_ok]
    rw [bcast_same (by rw [List.length_map, List.length_zipWith]; omega)]
    simp only [Py.bind_ok, zipWith_nested x y hxy]
    rfl
  · rintro rfl
    apply List.sum_eq_zero
    intro z hz
    obtain ⟨i, hi, rfl⟩ := List.mem_iff_getElem.1 hz
    rw [List.getElem_zipWith]
    have hi' : i < x.length := by rw [List.length_zipWith] at hi; omega
    have := hx (x[i]'hi') (List.getElem_mem _)
    rw [div_self this.ne', Real.log_one, mul_zero]

theorem hell_sum : ∀ {x y : List ℝ}, x.length = y.length → (∀ a ∈ x, 0 ≤ a) → (∀ b ∈ y, 0 ≤ b) →
    0 ≤ (List.zipWith (fun a b => (Real.sqrt a - Real.sqrt b) ^ 2) x y).sum ∧
    (List.zipWith (fun a b => (Real.sqrt a - Real.sqrt b) ^ 2) x y).sum ≤ x.sum + y.sum ∧
    ((List.zipWith (fun a b => (Real.sqrt a - Real.sqrt b) ^ 2) x y).sum = 0 ↔ x = y) ∧
    ((List.zipWith (fun a b => (Real.sqrt a - Real.sqrt b) ^ 2) x y).sum = x.sum + y.sum ↔ ∀ p ∈ x.zip y, p.1 = 0 ∨ p.2 = 0) := by
  intro x
  induction x with
  | nil => intro y h _ _; cases y with
    | nil => simp
    | cons => simp at h
  | cons a x ih =>
    intro y h hx hy
    cases y with
    | nil => simp at h
    | cons b y =>
      simp only [List.length_cons, Nat.add_right_cancel_iff] at h
      obtain ⟨i0, i1, i2, i3⟩ := ih h (fun c hc => hx c (by simp [hc])) (fun c hc => hy c (by simp [hc]))
      have ha := hx a (by simp)
      have hb := hy b (by simp)
      have e : (Real.sqrt a - Real.sqrt b) ^ 2 = a + b - 2 * (Real.sqrt a * Real.sqrt b) := by
        have := Real.sq_sqrt ha; have := Real.sq_sqrt hb; ring_nf; linarith
      have hp := mul_nonneg (Real.sqrt_nonneg a) (Real.sqrt_nonneg b)
      have hsq := sq_nonneg (Real.sqrt a - Real.sqrt b)
      simp only [List.zipWith_cons_cons, List.sum_cons, List.zip_cons_cons, List.mem_cons, forall_eq_or_imp, List.cons.injEq]
      refine ⟨by linarith, by linarith, ⟨fun hz => ?_, ?_⟩, ⟨fun hz => ?_, ?_⟩⟩
      · have e1 : (Real.sqrt a - Real.sqrt b) ^ 2 = 0 := by linarith
        have e2 : Real.sqrt a = Real.sqrt b := by have := pow_eq_zero_iff (two_ne_zero) |>.1 e1; linarith
        exact ⟨(Real.sqrt_inj ha hb).1 e2, i2.1 (by linarith)⟩
      · rintro ⟨rfl, rfl⟩
        rw [i2.2 rfl]; simp
      · have e1 : Real.sqrt a * Real.sqrt b = 0 := by linarith
        refine ⟨?_, i3.1 (by linarith)⟩
        rcases mul_eq_zero.1 e1 with e1 | e1
        · exact .inl ((Real.sqrt_eq_zero ha).1 e1)
        · exact .inr ((Real.sqrt_eq_zero hb).1 e1)
      · rintro ⟨h1, h2⟩
        have e1 : Real.sqrt a * Real.sqrt b = 0 := by rcases h1 with h1 | h1 <;> simp [h1]
        have e2 := i3.2 h2
        rw [e, e1]; linarith

/-- C175, the formula of `hellinger` on two probability vectors: between 0 and 1, symmetric, 0 exactly for equal vectors and 1 exactly when no
entry is positive in both. -/
theorem C175_hellinger_partial (x y : List ℝ) (hxy : x.length = y.length) (hx : ∀ a ∈ x, 0 ≤ a) (hy : ∀ b ∈ y, 0 ≤ b) (sx : x.sum = 1)
    (sy : y.sum = 1) :
    ∃ d : ℝ, hellingerBody x y = .ok d ∧ hellingerBody y x = .ok d ∧ 0 ≤ d ∧ d ≤ 1 ∧ (d = 0 ↔ x = y) ∧
      (d = 1 ↔ ∀ p ∈ x.zip y, p.1 = 0 ∨ p.2 = 0) := by
  obtain ⟨k0, k1, k2, k3⟩ := hell_sum hxy hx hy
  set s := (List.zipWith (fun a b => (Real.sqrt a - Real.sqrt b) ^ 2) x y).sum with hs
  have hval : ∀ u v : List ℝ, u.length = v.length → hellingerBody u v = .ok (1 / Real.sqrt 2 * Real.sqrt
      ((List.zipWith (fun a b => (Real.sqrt a - Real.sqrt b) ^ 2) u v).sum)) := by
    intro u v huv
    unfold hellingerBody
    rw [bcast_same (by rw [List.length_map, List.length_map]; exact huv)]
    simp only [Py.bind_ok, List.map_zipWith, List.zipWith_map]
    rfl
  have hd : 1 / Real.sqrt 2 * Real.sqrt s = Real.sqrt (s / 2) := by rw [Real.sqrt_div k0]; ring
  refine ⟨Real.sqrt (s / 2), by rw [hval x y hxy, ← hs, hd], ?_, Real.sqrt_nonneg _, ?_, ?_, ?_⟩
  · rw [hval y x hxy.symm]
    have : List.zipWith (fun a b => (Real.sqrt a - Real.sqrt b) ^ 2) y x = List.zipWith (fun a b => (Real.sqrt a - Real.sqrt b) ^ 2) x y := by
      rw [List.zipWith_comm]
      congr 1
      funext a b
      ring
    rw [this, ← hs, hd]
  · rw [Real.sqrt_le_one]; linarith
  · rw [Real.sqrt_eq_zero (by linarith), ← k2]
    constructor <;> intro h <;> linarith
  · rw [Real.sqrt_eq_one, ← k3]
    constructor <;> intro h <;> linarith

/-- The hypotheses of the three formulas on the tables of a fair and a biased coin. -/
example : ([1 / 2, 1 / 2] : List ℝ).length = ([1 / 4, 3 / 4] : List ℝ).length ∧ ([1 / 2, 1 / 2] : List ℝ).sum = 1 ∧
    ([1 / 4, 3 / 4] : List ℝ).sum = 1 ∧ (∀ a ∈ ([1 / 2, 1 / 2] : List ℝ), 0 < a) := by
  refine ⟨rfl, by norm_num, by norm_num, ?_⟩
  intro a ha
  simp only [List.mem_cons, List.not_mem_nil, or_false] at ha
  rcases ha with rfl | rfl <;> norm_num

example : exNet.WF ∧ exNet.EdgeWF ∧ exNet.V ≠ [] := ⟨exNet_wf, exNet_edgeWf, by decide⟩

end ParamDist
end PyBN
