import Verif.Model.InfoScore
import Verif.Spec.InfoScore
import Verif.Props.Net
import Verif.Proofs.Indep
import Mathlib.Analysis.Complex.ExponentialBounds

/-! Lemmas about the information scores. -/

set_option linter.unusedSectionVars false

namespace PyBN
namespace BayesNet
open Indep (eps eps_pos)
variable {N A : Type _} [DecidableEq N] [DecidableEq A]

theorem flatCpt_ok {bn : BayesNet N A} (w : bn.WF) : bn.flatCpt = .ok (bn.V.flatMap bn.cptOf) := by
  unfold flatCpt
  rw [pyMap_ok fun u hu => w.cpt_ok hu]; rfl

theorem numParams_ok {bn : BayesNet N A} (w : bn.WF) : bn.numParams = .ok bn.paramCount := by
  unfold numParams
  rw [pyMap_ok (g := fun u => (bn.cptOf u).length) fun u hu => by
    obtain ⟨d, hd, _, _, hc, _⟩ := w.get hu
    rw [Dict.get_of_get? hd, hc]; rfl]
  rfl

theorem numEdges_ok {bn : BayesNet N A} (w : bn.WF) (we : bn.EdgeWF) : bn.numEdges = .ok bn.arcCount := by
  unfold numEdges
  rw [pyMap_ok (g := fun u => (bn.childrenOf u).length) fun u hu => by rw [Dict.get_of_get? (we.get hu)]; rfl]
  have h1 : (bn.V.map fun u => (bn.parentsOf u).length).sum =
      (bn.V.map fun u => (bn.V.map fun v => if v ∈ bn.parentsOf u then 1 else 0).sum).sum := by
    congr 1
    exact List.map_congr_left fun u hu => length_eq_count w.nodup (List.nodup_cons.1 (w.fam_nodup u hu)).2 (w.parents_mem u hu)
  have h2 : (bn.V.map fun u => (bn.childrenOf u).length).sum =
      (bn.V.map fun u => (bn.V.map fun v => if v ∈ bn.childrenOf u then 1 else 0).sum).sum := by
    congr 1
    exact List.map_congr_left fun u hu => length_eq_count w.nodup (we.nodup u hu) fun x hx => (children_mem w we hx).1
  have h3 : bn.arcCount = (bn.V.map fun u => (bn.childrenOf u).length).sum := by
    unfold arcCount
    rw [h1, h2, list_sum_comm]
    congr 1
    refine List.map_congr_left fun u _ => ?_
    congr 1
    refine List.map_congr_left fun v _ => ?_
    have := we.iff u v
    by_cases h : v ∈ bn.childrenOf u
    · rw [if_pos h, if_pos (this.1 h)]
    · rw [if_neg h, if_neg fun h' => h (this.2 h')]
  rw [h3]; rfl

/-- The score of one table. -/
noncomputable def tableLL (n : ℕ) (l : List ℚ) : ℝ := (l.map fun x : ℚ => Real.log ((n : ℝ) * ((x : ℝ) + eps))).sum

theorem sum_flatMap {α : Type _} (l : List α) (f : α → List ℚ) (g : ℚ → ℝ) : ((l.flatMap f).map g).sum = (l.map fun v => ((f v).map g).sum).sum := by
  induction l with
  | nil => rfl
  | cons a l ih => simp [ih]

theorem entry_pos {n : ℕ} (hn : 1 ≤ n) {x : ℚ} (hx : 0 ≤ x) : 0 < (n : ℝ) * ((x : ℝ) + eps) := by
  have := eps_pos
  have h1 : (0 : ℝ) < n := by exact_mod_cast hn
  have h2 : (0 : ℝ) ≤ x := by exact_mod_cast hx
  positivity

theorem ll_ok {bn : BayesNet N A} (w : bn.WF) (h0 : bn.Nonneg) {n : ℕ} (hn : 1 ≤ n) :
    bn.logLikelihood n = .ok (some (bn.V.map fun v => tableLL n (bn.cptOf v)).sum) := by
  unfold logLikelihood
  rw [flatCpt_ok w, Py.bind_ok, if_pos, Py.pure_eq, sum_flatMap]
  · rfl
  · intro x hx
    obtain ⟨v, hv, hxv⟩ := List.mem_flatMap.1 hx
    exact entry_pos hn (h0 v hv x hxv)

theorem bic_ok {bn : BayesNet N A} (w : bn.WF) (we : bn.EdgeWF) {n : ℕ} {L : ℝ} (h : bn.logLikelihood n = .ok (some L)) :
    bn.bic n = .ok (some (L - 1 / 2 * bn.paramCount * Real.log (max bn.arcCount 1 : ℕ))) := by
  unfold bic
  rw [h, Py.bind_ok, numParams_ok w, Py.bind_ok, numEdges_ok w we, Py.bind_ok]; rfl

theorem aic_ok {bn : BayesNet N A} (w : bn.WF) {n : ℕ} {L : ℝ} (h : bn.logLikelihood n = .ok (some L)) :
    bn.aic n = .ok (some (L - bn.paramCount)) := by
  unfold aic
  rw [h, Py.bind_ok, flatCpt_ok w, Py.bind_ok, Py.pure_eq, List.length_flatMap]; rfl

theorem tableLL_split {n : ℕ} (hn : 1 ≤ n) {l : List ℚ} (h : ∀ x ∈ l, 0 ≤ x) :
    tableLL n l = l.length * Real.log n + (l.map fun x : ℚ => Real.log ((x : ℝ) + eps)).sum := by
  unfold tableLL
  induction l with
  | nil => simp
  | cons x l ih =>
    have h1 : (n : ℝ) ≠ 0 := by exact_mod_cast (by omega : n ≠ 0)
    have h2 : (x : ℝ) + eps ≠ 0 := by
      have := eps_pos
      have h3 : (0 : ℝ) ≤ x := by exact_mod_cast h x (by simp)
      positivity
    rw [List.map_cons, List.sum_cons, List.map_cons, List.sum_cons, ih fun y hy => h y (by simp [hy]), Real.log_mul h1 h2, List.length_cons]
    push_cast
    ring

theorem tableLL_perm {n : ℕ} {l l' : List ℚ} (h : l.Perm l') : tableLL n l = tableLL n l' := (h.map _).sum_eq

/-- A table of `L` entries with mean `m` scores at most `L log(n (m + eps))`, with equality only for the constant table. -/
theorem tableLL_le {n : ℕ} (hn : 1 ≤ n) {l : List ℚ} (h0 : ∀ x ∈ l, 0 ≤ x) {m : ℚ} (hm : 0 ≤ m) (hs : l.sum = l.length * m) :
    tableLL n l ≤ l.length * Real.log (n * ((m : ℝ) + eps)) ∧
      (tableLL n l = l.length * Real.log (n * ((m : ℝ) + eps)) → ∀ x ∈ l, x = m) := by
  have hM : 0 < (n : ℝ) * ((m : ℝ) + eps) := entry_pos hn hm
  have h1 : (0 : ℝ) < n := by exact_mod_cast hn
  have he : 0 < (m : ℝ) + eps := by have := eps_pos; have : (0 : ℝ) ≤ m := by exact_mod_cast hm
                                    positivity
  have key : ∀ l : List ℚ, (∀ x ∈ l, 0 ≤ x) →
      tableLL n l ≤ l.length * Real.log (n * ((m : ℝ) + eps)) + ((l.sum : ℚ) - l.length * m) / (m + eps) ∧
      ((∃ x ∈ l, x ≠ m) → tableLL n l < l.length * Real.log (n * ((m : ℝ) + eps)) + ((l.sum : ℚ) - l.length * m) / (m + eps)) := by
    intro l
    induction l with
    | nil => intro _; simp [tableLL]
    | cons x l ih =>
      intro h
      obtain ⟨i1, i2⟩ := ih fun y hy => h y (by simp [hy])
      have hx : 0 < (n : ℝ) * ((x : ℝ) + eps) := entry_pos hn (h x (by simp))
      have hxe : 0 < (x : ℝ) + eps := by
        have := eps_pos
        have h3 : (0 : ℝ) ≤ x := by exact_mod_cast h x (by simp)
        positivity
      have hd : Real.log (n * ((x : ℝ) + eps)) = Real.log (n * ((m : ℝ) + eps)) + Real.log (((x : ℝ) + eps) / (m + eps)) := by
        rw [Real.log_mul h1.ne' hxe.ne', Real.log_mul h1.ne' he.ne', Real.log_div hxe.ne' he.ne']; ring
      have hq : ((x : ℝ) + eps) / (m + eps) - 1 = ((x : ℝ) - m) / (m + eps) := by rw [div_sub_one he.ne']; ring
      have hle : Real.log (((x : ℝ) + eps) / (m + eps)) ≤ ((x : ℝ) - m) / (m + eps) := by
        rw [← hq]; exact Real.log_le_sub_one_of_pos (div_pos hxe he)
      have hlt : x ≠ m → Real.log (((x : ℝ) + eps) / (m + eps)) < ((x : ℝ) - m) / (m + eps) := by
        intro hne
        rw [← hq]
        refine Real.log_lt_sub_one_of_pos (div_pos hxe he) fun e => hne ?_
        rw [div_eq_one_iff_eq he.ne'] at e
        have : (x : ℝ) = m := by linarith
        exact_mod_cast this
      have ht : tableLL n (x :: l) = Real.log (n * ((x : ℝ) + eps)) + tableLL n l := by simp [tableLL]
      have hsum : (((x :: l).sum : ℚ) - ((x :: l).length : ℝ) * m) / (m + eps) = ((x : ℝ) - m) / (m + eps) + ((l.sum : ℚ) - l.length * m) / (m + eps) := by
        rw [List.sum_cons, List.length_cons]; push_cast; rw [← add_div]; congr 1; ring
      have hlen : ((x :: l).length : ℝ) * Real.log (n * ((m : ℝ) + eps)) = Real.log (n * ((m : ℝ) + eps)) + l.length * Real.log (n * ((m : ℝ) + eps)) := by
        rw [List.length_cons]; push_cast; ring
      rw [ht, hd, hsum, hlen]
      refine ⟨by linarith, ?_⟩
      rintro ⟨y, hy, hym⟩
      rcases List.mem_cons.1 hy with rfl | hy
      · have := hlt hym; linarith
      · have := i2 ⟨y, hy, hym⟩; linarith
  obtain ⟨k1, k2⟩ := key l h0
  have hz : ((l.sum : ℚ) : ℝ) - l.length * m = 0 := by rw [hs]; push_cast; ring
  rw [hz, zero_div, add_zero] at k1 k2
  refine ⟨k1, fun e x hx => ?_⟩
  by_contra hne
  exact (k2 ⟨x, hx, hne⟩).ne e

/-- The entries of a table with normalised rows add up to the number of rows. -/
theorem sum_blocks (l : List ℚ) (k : ℕ) (R : ℕ) (hl : l.length = k * R) (h : ∀ r < R, ∑ x ∈ Finset.range k, (l[x + k * r]?).getD 0 = 1) : l.sum = R := by
  induction R generalizing l with
  | zero => simp only [mul_zero, List.length_eq_zero_iff] at hl; simp [hl]
  | succ R ih =>
    have hk : l.length = k + k * R := by rw [hl]; ring
    rw [← List.take_append_drop k l, List.sum_append]
    have h1 : (l.take k).sum = 1 := by
      rw [← h 0 (by omega)]
      have hlen : (l.take k).length = k := by rw [List.length_take]; omega
      have : ∀ l : List ℚ, l.sum = ∑ x ∈ Finset.range l.length, (l[x]?).getD 0 := by
        intro l
        induction l with
        | nil => simp
        | cons a l ih => rw [List.length_cons, Finset.sum_range_succ', List.sum_cons, ih, add_comm]; simp
      rw [this, hlen]
      refine Finset.sum_congr rfl fun x hx => ?_
      rw [mul_zero, add_zero, List.getElem?_take_of_lt (Finset.mem_range.1 hx)]
    have h2 : (l.drop k).sum = R := by
      refine ih _ (by rw [List.length_drop]; omega) fun r hr => ?_
      rw [← h (r + 1) (by omega)]
      refine Finset.sum_congr rfl fun x _ => ?_
      rw [List.getElem?_drop]
      congr 2
      ring_nf
    rw [h1, h2]; push_cast; ring

theorem cpt_sum {bn : BayesNet N A} (w : bn.WF) (hN : bn.Normalised) {v : N} (hv : v ∈ bn.V) :
    (bn.cptOf v).sum = (((bn.parentsOf v).map bn.cardOf).prod : ℕ) := by
  refine sum_blocks _ (bn.cardOf v) _ (by rw [w.cpt_len v hv]; simp) fun r hr => ?_
  have hnd := List.nodup_cons.1 (w.fam_nodup v hv)
  obtain ⟨a, ha, rfl⟩ := enc_surj hnd.2 hr
  rw [← hN v hv a ha]
  refine Finset.sum_congr rfl fun x _ => ?_
  unfold prob
  rw [enc, enc_upd_notMem hnd.1, Asg.upd_self]

end BayesNet
end PyBN
