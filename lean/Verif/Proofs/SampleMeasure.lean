import Verif.Proofs.Sample4
import Mathlib.MeasureTheory.Integral.Bochner.Set

set_option linter.unusedSectionVars false

namespace PyBN
open BayesNet Sampling MeasureTheory
variable {N A : Type _} [DecidableEq N] [DecidableEq A]

theorem stream_mem {m : ℕ} {u : Fin m → ℝ} (hu : u ∈ cube m) (i : ℕ) : 0 ≤ stream u i ∧ stream u i < 1 := by
  unfold stream
  split_ifs with h
  · exact hu ⟨i, h⟩ trivial
  · norm_num

theorem falls_normalised {bn : BayesNet N A} (w : bn.WF) (hno : bn.Normalised) {v : N} (hv : v ∈ bn.V) {a : Asg N}
    (ha : InRange bn.cardOf bn.V a) (u : ℝ) : bn.Falls a v u ↔ u ∈ Set.Ico ((bn.cum v a (a v) : ℚ) : ℝ) ((bn.cum v a (a v + 1) : ℚ) : ℝ) := by
  have h1 : bn.cum v a (bn.cardOf v) = 1 := hno v hv a fun p hp => ha p (w.parents_mem v hv p hp)
  unfold BayesNet.Falls
  rw [h1, div_one, div_one, Set.mem_Ico]

theorem cum_succ_sub {bn : BayesNet N A} (v : N) (a : Asg N) : bn.cum v a (a v + 1) - bn.cum v a (a v) = bn.prob v a := by
  unfold BayesNet.cum
  rw [Finset.sum_range_succ, add_sub_cancel_left]
  congr 1
  funext u
  unfold Asg.upd; split_ifs with h
  · rw [h]
  · rfl

theorem normalised_near {bn : BayesNet N A} (hno : bn.Normalised) {tol : ℚ} (h0 : 0 ≤ tol) : bn.NearNormalised tol := by
  intro v hv a ha
  have : bn.cum v a (bn.cardOf v) = 1 := hno v hv a ha
  rw [this]; simpa using h0

/-- The bounds of the box of random numbers for which pass `t` draws `sel t` (no condition where `sel t` is `none`). -/
noncomputable def lo (bn : BayesNet N A) (L : List N) (sel : ℕ → Option (Asg N)) (q : ℕ) : ℝ :=
  match sel (q / L.length), L[q % L.length]? with
  | some a, some v => ((bn.cum v a (a v) : ℚ) : ℝ)
  | _, _ => 0

noncomputable def hi (bn : BayesNet N A) (L : List N) (sel : ℕ → Option (Asg N)) (q : ℕ) : ℝ :=
  match sel (q / L.length), L[q % L.length]? with
  | some a, some v => ((bn.cum v a (a v + 1) : ℚ) : ℝ)
  | _, _ => 1

def box (bn : BayesNet N A) (L : List N) (n : ℕ) (sel : ℕ → Option (Asg N)) : Set (Fin (n * L.length) → ℝ) :=
  Set.univ.pi fun q => Set.Ico (lo bn L sel q) (hi bn L sel q)

/-- The probability of a selection. -/
def selProb (bn : BayesNet N A) (L : List N) (n : ℕ) (sel : ℕ → Option (Asg N)) : ℚ :=
  ∏ t ∈ Finset.range n, match sel t with | some a => (L.map fun v => bn.prob v a).prod | none => 1

theorem prod_eq_prod (bn : BayesNet N A) (L : List N) (a : Asg N) : (L.map fun v => bn.prob v a).prod = ∏ j : Fin L.length, bn.prob L[j] a := by
  rw [← List.prod_ofFn]
  congr 1
  apply List.ext_getElem <;> simp

theorem volume_box {bn : BayesNet N A} (hn : bn.Nonneg) {L : List N} (hL : ∀ v ∈ L, v ∈ bn.V) (n : ℕ) (sel : ℕ → Option (Asg N)) :
    volume (box bn L n sel) = ENNReal.ofReal ((selProb bn L n sel : ℚ) : ℝ) := by
  unfold box
  rw [Real.volume_pi_Ico, ← Fintype.prod_equiv (finProdFinEquiv (m := n) (n := L.length)) (fun x => ENNReal.ofReal
    (hi bn L sel (finProdFinEquiv x) - lo bn L sel (finProdFinEquiv x))) _ (fun x => rfl), Fintype.prod_prod_type]
  have hrow : ∀ t : Fin n, ∏ j : Fin L.length, ENNReal.ofReal (hi bn L sel (finProdFinEquiv (t, j)) - lo bn L sel (finProdFinEquiv (t, j))) =
      ENNReal.ofReal (((match sel t with | some a => (L.map fun v => bn.prob v a).prod | none => 1 : ℚ)) : ℝ) := by
    intro t
    have hdm : ∀ j : Fin L.length, ((finProdFinEquiv (t, j) : Fin (n * L.length)) : ℕ) / L.length = t ∧
        ((finProdFinEquiv (t, j) : Fin (n * L.length)) : ℕ) % L.length = j := by
      intro j
      have hj := j.2
      rw [finProdFinEquiv_apply_val]
      constructor
      · rw [Nat.add_mul_div_left _ _ (by omega), Nat.div_eq_of_lt hj]; simp
      · rw [Nat.add_mul_mod_self_left, Nat.mod_eq_of_lt hj]
    cases hs : sel t with
    | none =>
      rw [Finset.prod_eq_one]
      · simp
      · intro j _
        unfold hi lo
        rw [(hdm j).1, hs]; simp
    | some a =>
      simp only
      rw [prod_eq_prod, Rat.cast_prod, ENNReal.ofReal_prod_of_nonneg]
      · apply Finset.prod_congr rfl
        intro j _
        unfold hi lo
        rw [(hdm j).1, (hdm j).2, hs, List.getElem?_eq_getElem j.2]
        simp only
        rw [← Rat.cast_sub, cum_succ_sub]; rfl
      · intro j _
        exact_mod_cast sprob_nonneg hn (hL _ (List.getElem_mem _)) a
  rw [Finset.prod_congr rfl fun t _ => hrow t, ← ENNReal.ofReal_prod_of_nonneg]
  · unfold selProb
    rw [Rat.cast_prod, Finset.prod_range]
  · intro t _
    cases sel t with
    | none => simp
    | some a =>
      simp only
      have : 0 ≤ (L.map fun v => bn.prob v a).prod := by
        rw [prod_eq_prod]
        exact Finset.prod_nonneg fun j _ => sprob_nonneg hn (hL _ (List.getElem_mem _)) a
      exact_mod_cast this

theorem measurableSet_box (bn : BayesNet N A) (L : List N) (n : ℕ) (sel : ℕ → Option (Asg N)) : MeasurableSet (box bn L n sel) :=
  MeasurableSet.univ_pi fun _ => measurableSet_Ico

theorem cum_nonneg {bn : BayesNet N A} (hn : bn.Nonneg) {v : N} (hv : v ∈ bn.V) (a : Asg N) (i : ℕ) : 0 ≤ bn.cum v a i := by
  have := cum_mono hn hv a (Nat.zero_le i)
  simpa [BayesNet.cum] using this

/-- The box is what it is meant to be. -/
theorem mem_box {bn : BayesNet N A} (w : bn.WF) (hn : bn.Nonneg) (hno : bn.Normalised) {L : List N} (hL : ∀ v ∈ L, v ∈ bn.V) {n : ℕ} {sel : ℕ → Option (Asg N)}
    (hsel : ∀ t a, t < n → sel t = some a → InRange bn.cardOf bn.V a) {u : Fin (n * L.length) → ℝ} :
    u ∈ box bn L n sel ↔ u ∈ cube (n * L.length) ∧ ∀ t a, t < n → sel t = some a → ∀ j v, L[j]? = some v →
      bn.Falls a v (stream u (t * L.length + j)) := by
  have hq : ∀ q : Fin (n * L.length), (q : ℕ) / L.length < n ∧ (q : ℕ) % L.length < L.length := by
    intro q
    have := q.2
    have hm : 0 < L.length := by
      rcases Nat.eq_zero_or_pos L.length with h | h
      · have h' : n * L.length = 0 := by rw [h]; rfl
        exact absurd this (by omega)
      · exact h
    exact ⟨by rw [Nat.div_lt_iff_lt_mul hm]; exact this, Nat.mod_lt _ hm⟩
  have hstr : ∀ q : Fin (n * L.length), stream u ((q : ℕ) / L.length * L.length + (q : ℕ) % L.length) = u q := by
    intro q
    have : (q : ℕ) / L.length * L.length + (q : ℕ) % L.length = q := by rw [Nat.mul_comm]; exact Nat.div_add_mod _ _
    rw [this]; unfold stream; rw [dif_pos q.2]
  constructor
  · intro hu
    refine ⟨fun q _ => ?_, fun t a ht hs j v hj => ?_⟩
    · have := hu q trivial
      obtain ⟨h1, h2⟩ := hq q
      unfold lo hi at this
      dsimp only at this
      rw [List.getElem?_eq_getElem h2] at this
      cases hs : sel ((q : ℕ) / L.length) with
      | none => rw [hs] at this; exact this
      | some a =>
        rw [hs] at this
        simp only at this
        have hv : L[(q : ℕ) % L.length] ∈ bn.V := hL _ (List.getElem_mem _)
        have hin := hsel _ a h1 hs
        have h0 := cum_nonneg hn hv a (a L[(q : ℕ) % L.length])
        have hle := cum_mono hn hv a (show a L[(q : ℕ) % L.length] + 1 ≤ _ from hin _ hv)
        rw [show bn.cum _ a (bn.cardOf L[(q : ℕ) % L.length]) = 1 from hno _ hv a fun p hp => hin p (w.parents_mem _ hv p hp)] at hle
        refine ⟨le_trans (by exact_mod_cast h0) this.1, lt_of_lt_of_le this.2 (by exact_mod_cast hle)⟩
    · have hjl : j < L.length := (List.getElem?_eq_some_iff.1 hj).1
      have hlt : t * L.length + j < n * L.length := by
        calc t * L.length + j < t * L.length + L.length := by omega
          _ = (t + 1) * L.length := by ring
          _ ≤ n * L.length := Nat.mul_le_mul_right _ ht
      have := hu ⟨t * L.length + j, hlt⟩ trivial
      unfold lo hi at this
      simp only at this
      rw [show (t * L.length + j) % L.length = j by rw [Nat.mul_add_mod_self_right, Nat.mod_eq_of_lt hjl], show (t * L.length + j) / L.length = t by
        rw [Nat.mul_comm, Nat.mul_add_div (by omega), Nat.div_eq_of_lt hjl, Nat.add_zero], hj, hs] at this
      rw [falls_normalised w hno (hL _ (List.mem_of_getElem? hj)) (hsel t a ht hs)]
      unfold stream; rw [dif_pos hlt]; exact this
  · rintro ⟨hc, hf⟩ q _
    obtain ⟨h1, h2⟩ := hq q
    unfold lo hi
    dsimp only
    rw [List.getElem?_eq_getElem h2]
    cases hs : sel ((q : ℕ) / L.length) with
    | none => exact hc q trivial
    | some a =>
      simp only
      have := hf _ a h1 hs _ _ (List.getElem?_eq_getElem h2)
      rwa [falls_normalised w hno (hL _ (List.getElem_mem _)) (hsel _ a h1 hs), hstr] at this

end PyBN
