import Verif.Props.Rename
import Verif.Props.Sample2

/-!
# C245: the law of a sample depends on the model only
-/

set_option linter.unusedSectionVars false

namespace PyBN
open BayesNet Sampling MeasureTheory
variable {N A M B : Type} [DecidableEq N] [DecidableEq A] [DecidableEq M] [DecidableEq B]

/-- Positions of named values correspond. -/
theorem SameModel_positions {ρ : N → M} {τ : N → A → B} {bn : BayesNet N A} {bn' : BayesNet M B} (S : SameModel ρ τ bn bn') (α : N → A) (α' : M → B)
    (h : ∀ u ∈ bn.V, α u ∈ bn.valuesOf u ∧ α' (ρ u) = τ u (α u)) :
    ∀ u ∈ bn.V, Corr ρ τ bn bn' u (bn.positions α u) (bn'.positions α' (ρ u)) := fun u hu => by
  obtain ⟨h1, h2⟩ := h u hu
  refine ⟨α u, List.getElem?_idxOf h1, ?_⟩
  rw [← h2]
  exact List.getElem?_idxOf (h2 ▸ (S.values u hu).mem_iff.2 (List.mem_map_of_mem h1))

/-- C245: of two networks that are the same model written differently, both listing parents before children, `random_sample` returns any given
sequence of rows with the same probability. -/
theorem C245_rows {ρ : N → M} {τ : N → A → B} {bn : BayesNet N A} {bn' : BayesNet M B} (S : SameModel ρ τ bn bn') (wb : bn.WF) (wb' : bn'.WF)
    (hn : bn.Nonneg) (hno : bn.Normalised) (hpf : bn.ParentsFirst) (hpf' : bn'.ParentsFirst) (h : HashOrder N) (h' : HashOrder M) (tol : ℚ)
    (h0 : 0 ≤ tol) (ht : tol < 1) (n : ℕ) (garbage garbage' : List (List ℤ)) (hg : garbage.length = n ∧ ∀ g ∈ garbage, g.length = bn.V.length)
    (hg' : garbage'.length = n ∧ ∀ g ∈ garbage', g.length = bn'.V.length) (α : ℕ → N → A) (α' : ℕ → M → B)
    (hα : ∀ t < n, ∀ u ∈ bn.V, α t u ∈ bn.valuesOf u ∧ α' t (ρ u) = τ u (α t u)) :
    volume {u ∈ cube (n * bn'.V.length) | randomSample tol h' bn' garbage' (stream u) =
        .ok ((List.range n).map fun t => bn'.V.map fun v => (((bn'.valuesOf v).idxOf (α' t v) : ℕ) : ℤ))} =
      volume {u ∈ cube (n * bn.V.length) | randomSample tol h bn garbage (stream u) =
        .ok ((List.range n).map fun t => bn.V.map fun v => (((bn.valuesOf v).idxOf (α t v) : ℕ) : ℤ))} := by
  have hc := fun t (htn : t < n) => SameModel_positions S (α t) (α' t) (hα t htn)
  have e1 := C38_random_sample h bn wb hn hno tol h0 ht hpf n garbage hg (fun t => bn.positions (α t))
    fun t htn u hu => (S.corr_lt wb wb' hu (hc t htn u hu)).1
  have e2 := C38_random_sample h' bn' wb' (S.nonneg wb wb' hn) (S.normalised wb wb' hno) tol h0 ht hpf' n garbage' hg' (fun t => bn'.positions (α' t))
    fun t htn m hm => by
      obtain ⟨u, hu, rfl⟩ := S.ofV wb wb' hm
      exact (S.corr_lt wb wb' hu (hc t htn u hu)).2
  have e3 : (∏ t ∈ Finset.range n, bn'.joint (bn'.positions (α' t))) = ∏ t ∈ Finset.range n, bn.joint (bn.positions (α t)) :=
    Finset.prod_congr rfl fun t htn => S.joint_eq wb wb' (hc t (Finset.mem_range.1 htn))
  rw [e3] at e2
  exact e2.trans e1.symm

/-- C245: the expected estimate of `forward_sample` for a value is the same. -/
theorem C245_expected {ρ : N → M} {τ : N → A → B} {bn : BayesNet N A} {bn' : BayesNet M B} (S : SameModel ρ τ bn bn') (wb : bn.WF) (wb' : bn'.WF)
    (hn : bn.Nonneg) (hno : bn.Normalised) (hpf : bn.ParentsFirst) (hpf' : bn'.ParentsFirst) (h : HashOrder N) (h' : HashOrder M) (tol : ℚ)
    (h0 : 0 ≤ tol) (ht : tol < 1) (n n' : ℕ) (h1 : 1 ≤ n) (h1' : 1 ≤ n') (v : N) (hv : v ∈ bn.V) (x : A) (hx : x ∈ bn.valuesOf v) :
    ∫ u in cube (n' * bn'.V.length), ((estimate (forwardSample tol h' bn' n' (stream u)) (ρ v) (τ v x) : ℚ) : ℝ) =
      ∫ u in cube (n * bn.V.length), ((estimate (forwardSample tol h bn n (stream u)) v x : ℚ) : ℝ) := by
  have hv' := S.memV wb wb' hv
  have hx' : τ v x ∈ bn'.valuesOf (ρ v) := (S.values v hv).mem_iff.2 (List.mem_map_of_mem hx)
  rw [C38_unbiased h bn wb hn hno tol h0 ht hpf n h1 v hv (fun _ => (bn.valuesOf v).idxOf x) x (List.getElem?_idxOf hx),
    C38_unbiased h' bn' wb' (S.nonneg wb wb' hn) (S.normalised wb wb' hno) tol h0 ht hpf' n' h1' (ρ v) hv' (fun _ => (bn'.valuesOf (ρ v)).idxOf (τ v x)) (τ v x)
      (List.getElem?_idxOf hx')]
  refine congrArg (fun q : ℚ => (q : ℝ)) ?_
  unfold BayesNet.marginal
  have hp : (bn'.V.filter fun w => w ≠ ρ v ∧ w ∉ Dict.keys ([] : Dict M B)).Perm ((bn.V.filter fun w => w ≠ v ∧ w ∉ Dict.keys ([] : Dict N A)).map ρ) := by
    refine S.filter_perm wb wb' _ _ fun u hu => ?_
    have e1 : ρ u ≠ ρ v ↔ u ≠ v := not_congr ⟨fun e => S.inj wb wb' hu hv e, fun e => e ▸ rfl⟩
    simp only [e1, Dict.keys, List.map_nil, List.not_mem_nil, not_false_eq_true, and_true]
  rw [sumAll_perm hp _ (wb'.nodup.filter _)]
  refine S.sumAll_eq wb wb' (fun b b' hb => S.joint_eq wb wb' hb) _ (fun u hu => (List.mem_filter.1 hu).1) _ _ fun u hu hnm => ?_
  have huv : u = v := by
    by_contra hne
    exact hnm (List.mem_filter.2 ⟨hu, by simp [hne, Dict.keys]⟩)
  subst huv
  exact ⟨x, List.getElem?_idxOf hx, List.getElem?_idxOf hx'⟩

theorem exAlt_parentsFirst : exAlt.ParentsFirst := by
  intro pre v post h p hp
  have hlen : exAlt.V = [6, 7, 5] := rfl
  rw [hlen] at h
  match pre, h with
  | [], h =>
    simp only [List.nil_append, List.cons.injEq] at h
    rw [← h.1] at hp
    simp [exAlt, BayesNet.parentsOf, Dict.get?] at hp
  | [x], h =>
    simp only [List.cons_append, List.nil_append, List.cons.injEq] at h
    rw [← h.2.1] at hp
    simp [exAlt, BayesNet.parentsOf, Dict.get?] at hp
  | [x, y], h =>
    simp only [List.cons_append, List.nil_append, List.cons.injEq] at h
    rw [← h.2.2.1] at hp
    have hp' : p = 6 ∨ p = 7 := by simpa [exAlt, BayesNet.parentsOf, Dict.get?] using hp
    rw [← h.1, ← h.2.1]
    rcases hp' with rfl | rfl <;> simp
  | x :: y :: z :: l, h => simp at h

/-- The hypotheses of C245 hold of the example and its rewritten form. -/
example : exNet.Nonneg ∧ exNet.Normalised ∧ exNet.ParentsFirst ∧ exAlt.WF ∧ exAlt.ParentsFirst ∧ SameModel (fun v => 7 - v) (fun _ x => x + 100) exNet exAlt :=
  ⟨exNet_nonneg, exNet_normalised, exNet_parentsFirst, exAlt_wf, exAlt_parentsFirst, exAlt_same⟩

end PyBN
