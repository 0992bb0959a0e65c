import Verif.Proofs.FactorMore
import Verif.Proofs.FactorMul
import Verif.Props.Factor

/-!
# C169, C170: the head variable of a factor (`f.var`, `f.parents()`, shown by `repr`), and unknown variables
-/

set_option linter.unusedSectionVars false

namespace PyBN
open Factor

variable {N A : Type _} [DecidableEq N] [DecidableEq A] {c : N → ℕ}

/-- What `sumout_var` and `reduce_factor` do to the head: it stays unless it is the variable removed, in which case a variable of stride 1 that is still
in the scope takes its place; only when nothing is left does it keep the (stale) name. -/
def HeadAfter (f f' : Factor N) (rv : N) : Prop :=
  (rv ≠ f.var → f'.var = f.var) ∧ (rv = f.var → f'.scope ≠ [] → f'.var ∈ f'.scope ∧ f'.stride.get? f'.var = some 1) ∧
  (f'.scope = [] → f'.var = f.var)

theorem headAfter_newVar (h : HashOrder N) {f g : Factor N} {rv : N} (w : g.WF c) (hg : g.var = newVar h f.var rv g.stride) : HeadAfter f g rv := by
  have hmem : ∀ k, k ∈ (h.iter g.stride.keys).filter (fun k => g.stride.get? k = some 1) ↔ g.stride.get? k = some 1 := by
    intro k
    rw [List.mem_filter, (h.perm _).mem_iff, decide_eq_true_eq, and_iff_right_iff_imp]
    intro hk
    rw [Dict.mem_keys_iff, hk]; rfl
  have hsc : ∀ k, g.stride.get? k = some 1 → k ∈ g.scope := fun k hk => (w.stride_dom k).1 (by rw [hk]; rfl)
  refine ⟨fun hne => by rw [hg, newVar, if_neg hne], fun he hs => ?_, fun hs => ?_⟩
  · obtain ⟨o, ho, hl⟩ := w.layout
    cases o with
    | nil => exact absurd ho.nil_eq.symm hs
    | cons v o =>
      have h1 : g.stride.get? v = some 1 := by
        have hv := (w.stride_dom v).2 (ho.subset (by simp))
        obtain ⟨x, hx⟩ := Option.isSome_iff_exists.1 hv
        have := hl.1
        rw [strideOf, hx] at this
        rw [hx]; exact congrArg some this
      have hne : (h.iter g.stride.keys).filter (fun k => g.stride.get? k = some 1) ≠ [] := List.ne_nil_of_mem ((hmem v).2 h1)
      have hr : g.stride.get? g.var = some 1 := by
        rw [hg, newVar, if_pos he]
        split
        · rename_i h0; exact absurd h0 hne
        · rename_i k t ht
          exact (hmem k).1 (by rw [ht]; simp)
      exact ⟨hsc _ hr, hr⟩
  · rw [hg, newVar]
    split
    · split
      · rfl
      · rename_i k t ht
        have := hsc k ((hmem k).1 (by rw [ht]; simp))
        rw [hs] at this; simp at this
    · rfl

/-- C169: the head after summing out a variable. -/
theorem C169_sumout_head (h : HashOrder N) (f : Factor N) (w : f.WF c) (rv : N) (hrv : rv ∈ f.scope) (f' : Factor N)
    (hr : Factor.sumout h f rv = .ok f') : HeadAfter f f' rv := by
  obtain ⟨g, e, wg, _⟩ := sumout_ok h w hrv
  rw [e] at hr
  cases hr
  refine headAfter_newVar h wg ?_
  simp only [sumout, Dict.get_of_get? (w.card_get hrv), Dict.get_of_get? (w.stride_get hrv), Py.bind_ok] at e
  split at e
  · simp at e
  · generalize blockSize f _ _ = r at e
    cases r with
    | error e' => simp at e
    | ok p =>
      simp only [Py.bind_ok] at e
      generalize elimLoop _ _ _ _ _ = r at e
      cases r with
      | error e' => simp at e
      | ok l =>
        simp only [Py.bind_ok] at e
        generalize dropVar f _ _ _ _ = r at e
        cases r with
        | error e' => simp at e
        | ok f0 => simp only [Py.bind_ok, Py.pure_eq, Except.ok.injEq] at e; rw [← e]

/-- C169: the head after fixing a variable to a value. -/
theorem C169_reduce_head (h : HashOrder N) (bn : BayesNet N A) (f : Factor N) (w : f.WF c) (rv : N) (hrv : rv ∈ f.scope) (vals : List A)
    (hvals : bn.values rv = .ok vals) (hc : vals.length = c rv) (val : A) (f' : Factor N)
    (hr : Factor.reduce h bn f rv val = .ok f') : HeadAfter f f' rv := by
  obtain ⟨i, hi⟩ : ∃ i, pyIndex vals val = .ok i := by
    cases hp : pyIndex vals val with
    | ok i => exact ⟨i, rfl⟩
    | error e =>
      simp only [reduce, Dict.get_of_get? (w.card_get hrv), Py.bind_ok, hvals, hp] at hr
      split at hr <;> simp at hr
  have hic : i < c rv := by rw [← hc]; exact (List.getElem?_eq_some_iff.1 ((pyIndex_ok).1 hi).1).1
  obtain ⟨g, e, wg, _⟩ := reduce_ok h bn w hrv hvals hi hic
  rw [e] at hr
  cases hr
  refine headAfter_newVar h wg ?_
  simp only [reduce, Dict.get_of_get? (w.card_get hrv), Dict.get_of_get? (w.stride_get hrv), Py.bind_ok, hvals, hi] at e
  split at e
  · simp at e
  · generalize reduceLoop _ _ _ _ _ _ _ = r at e
    cases r with
    | error e' => simp at e
    | ok l =>
      simp only [Py.bind_ok] at e
      generalize dropVar f _ _ _ _ = r at e
      cases r with
      | error e' => simp at e
      | ok f0 => simp only [Py.bind_ok, Py.pure_eq, Except.ok.injEq] at e; rw [← e]

/-- C169: a factor built from a network is headed by its node and `parents()` lists that node's parents; products keep the head of the left operand;
`sumover_var(rv)` is headed by `rv`. -/
theorem C169_head_kept (h : HashOrder N) (bn : BayesNet N A) (wb : bn.WF) (f g : Factor N) (wf : f.WF c) (wg : g.WF c) (rv : N) (hrv : rv ∈ f.scope) :
    (∀ v ∈ bn.V, ∃ q, Factor.init bn v = .ok q ∧ q.var = v ∧ q.parents = bn.parentsOf v) ∧
    (∃ q, Factor.mul h f g = .ok q ∧ q.1.var = f.var ∧ q.2.var = g.var) ∧
    (∃ q, Factor.sumover f rv = .ok q ∧ q.var = rv ∧ q.parents = []) := by
  refine ⟨fun v hv => ?_, ?_, ?_⟩
  · obtain ⟨q, e, _, hq, hs, _⟩ := init_ok wb hv
    refine ⟨q, e, hq, ?_⟩
    have hn := List.nodup_cons.1 (wb.fam_nodup v hv)
    rw [parents, hs, hq, List.filter_cons, if_neg (by simp), List.filter_eq_self]
    intro u hu
    simp only [decide_eq_true_eq]
    rintro rfl; exact hn.1 hu
  · obtain ⟨f', g', e, _, h1, _, _, h2, _⟩ := mul_ok h wf wg
    exact ⟨_, e, h1, h2⟩
  · obtain ⟨q, e, _, hs, hv, _⟩ := sumover_ok wf hrv
    exact ⟨q, e, hv, by rw [parents, hs, hv]; simp⟩

/-- C169: so, as long as a factor is headed by a variable of its scope, `parents()` is the rest of the scope after a sum or a restriction too: one entry fewer
than the scope. -/
theorem C169_parents (h : HashOrder N) (f : Factor N) (w : f.WF c) (hf : f.var ∈ f.scope) (rv : N) (hrv : rv ∈ f.scope) (f' : Factor N)
    (hr : Factor.sumout h f rv = .ok f') (hne : f'.scope ≠ []) :
    f'.var ∈ f'.scope ∧ f'.parents.length + 1 = f'.scope.length ∧ ∀ v, v ∈ f'.parents ↔ v ∈ f.scope ∧ v ≠ rv ∧ v ≠ f'.var := by
  obtain ⟨h1, h2, _⟩ := C169_sumout_head h f w rv hrv f' hr
  obtain ⟨g, e, wg, hs, _⟩ := sumout_ok h w hrv
  rw [e] at hr
  cases hr
  have hv : f'.var ∈ f'.scope := by
    by_cases he : rv = f.var
    · exact (h2 he hne).1
    · rw [h1 he, hs, w.scope_nodup.mem_erase_iff]; exact ⟨fun h => he h.symm, hf⟩
  refine ⟨hv, ?_, fun v => ?_⟩
  · have h3 : f'.parents = f'.scope.erase f'.var := by
      rw [parents, wg.scope_nodup.erase_eq_filter]
      apply List.filter_congr
      intro x _
      by_cases hx : x = f'.var <;> simp [hx]
    rw [h3, List.length_erase_of_mem hv]
    have := List.length_pos_of_mem hv
    omega
  · rw [parents, List.mem_filter, hs, w.scope_nodup.mem_erase_iff, decide_eq_true_eq]; tauto

/-- C169: `maxout_var` never updates the head (the update is commented out in the code): after maximising over the head itself the factor is headed by a
variable it no longer mentions, and `parents()` is its whole scope. -/
theorem C169_maxout_stale (f : Factor N) (w : f.WF c) (rv : N) (hrv : rv ∈ f.scope) (f' : Factor N)
    (hr : Factor.maxout f rv = .ok f') : f'.var = f.var ∧ (rv = f.var → f'.var ∉ f'.scope ∧ f'.parents = f'.scope) := by
  obtain ⟨g, e, wg, hs, hv, _⟩ := maxout_ok w hrv
  rw [e] at hr
  cases hr
  refine ⟨hv, fun he => ?_⟩
  have hn : f'.var ∉ f'.scope := by rw [hv, ← he, hs, w.scope_nodup.mem_erase_iff]; simp
  refine ⟨hn, ?_⟩
  rw [parents, List.filter_eq_self]
  intro u hu
  simp only [decide_eq_true_eq]
  rintro rfl; exact hn hu

/-- Witness for C169: the three-variable factor of C04; its head is summed out and the next variable takes over. -/
example : ∃ f', Factor.init exNet 2 = .ok f' ∧ f'.var = 2 ∧ f'.scope.length = 3 ∧
    ((Factor.sumout .id f' 2).okAnd fun g => decide (g.var ∈ g.scope ∧ g.parents.length = 1)) = true ∧
    ((Factor.maxout f' 2).okAnd fun g => decide (g.var = 2 ∧ 2 ∉ g.scope)) = true := by
  refine ⟨_, rfl, ?_⟩
  decide +kernel

/-- C170: every operation on a variable outside the scope raises `KeyError` and the factor is what it was (no result is produced). -/
theorem C170_unknown_variable (h : HashOrder N) (bn : BayesNet N A) (f : Factor N) (w : f.WF c) (rv : N) (hrv : rv ∉ f.scope) (val : A) :
    Factor.sumout h f rv = .error .keyError ∧ Factor.maxout f rv = .error .keyError ∧ Factor.sumover f rv = .error .keyError ∧
      Factor.reduce h bn f rv val = .error .keyError := by
  have hg : f.card.get rv = .error .keyError := by
    have := w.card_eq rv
    rw [if_neg hrv] at this
    unfold Dict.get; rw [this]
  refine ⟨?_, ?_, ?_, ?_⟩
  · simp only [sumout, hg]; rfl
  · simp only [maxout, hg]; rfl
  · simp only [sumover, hg]; rfl
  · simp only [reduce, hg]; rfl

end PyBN
