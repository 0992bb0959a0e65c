import Verif.Proofs.Infer
import Verif.Props.Example

/-!
# C12 - C17: exact inference by variable elimination
-/

namespace PyBN
open Factor Factorization
variable {N A : Type _} [DecidableEq N] [DecidableEq A]

/-- A fork 0 → 1, 0 → 2, all binary. -/
def exFork : BayesNet ℕ ℕ where
  V := [0, 1, 2]
  E := [(0, [1, 2]), (1, []), (2, [])]
  F := [(0, ⟨[], [10, 11], [1/4, 3/4]⟩),
        (1, ⟨[0], [20, 21], [1/2, 1/2, 1/3, 2/3]⟩),
        (2, ⟨[0], [30, 31], [1/5, 4/5, 1/10, 9/10]⟩)]

theorem exFork_wf : exFork.WF := .of_dec _ (by decide) (by decide)
theorem exFork_nonneg : exFork.Nonneg := by unfold BayesNet.Nonneg; decide +kernel
theorem exFork_acyclic : exFork.Acyclic := by
  refine ⟨[0, 1, 2], List.Perm.refl _, ?_⟩
  intro o1 v o2 h
  rcases o1 with _ | ⟨x, _ | ⟨y, _ | ⟨z, _ | ⟨w, o1⟩⟩⟩⟩ <;> simp at h
  · obtain ⟨rfl, _⟩ := h; decide
  · obtain ⟨rfl, rfl, _⟩ := h; decide
  · obtain ⟨rfl, rfl, rfl, _⟩ := h; decide
theorem exFork_normalised : exFork.Normalised := by
  have h1 : ∀ a : Asg ℕ, a 0 < 2 → a 0 = 0 ∨ a 0 = 1 := fun a h => by omega
  have key0 : ∀ (a : Asg ℕ), ∑ x ∈ Finset.range 2, exFork.prob 0 (a.upd 0 x) = 1 := by
    intro a
    have e : ∀ x, exFork.prob 0 (a.upd 0 x) = (([1/4, 3/4] : List ℚ)[x]?).getD 0 := fun x => by
      show (([1/4, 3/4] : List ℚ)[enc exFork.cardOf [0] (a.upd 0 x)]?).getD 0 = _
      simp [enc, Asg.upd]
    simp only [e]
    norm_num [Finset.sum_range_succ]
  intro v hv
  have : v = 0 ∨ v = 1 ∨ v = 2 := by simpa [exFork] using hv
  rcases this with rfl | rfl | rfl
  · intro a _; exact key0 a
  · intro a ha
    have ha0 : a 0 < 2 := ha 0 (by decide)
    have e : ∀ x, exFork.prob 1 (a.upd 1 x) = (([1/2, 1/2, 1/3, 2/3] : List ℚ)[x + 2 * a 0]?).getD 0 := fun x => by
      show (([1/2, 1/2, 1/3, 2/3] : List ℚ)[enc exFork.cardOf [1, 0] (a.upd 1 x)]?).getD 0 = _
      have : exFork.cardOf 1 = 2 := rfl
      simp [enc, Asg.upd, this]
    show ∑ x ∈ Finset.range 2, _ = _
    simp only [e]
    rcases h1 a ha0 with h | h <;> rw [h] <;> norm_num [Finset.sum_range_succ]
  · intro a ha
    have ha0 : a 0 < 2 := ha 0 (by decide)
    have e : ∀ x, exFork.prob 2 (a.upd 2 x) = (([1/5, 4/5, 1/10, 9/10] : List ℚ)[x + 2 * a 0]?).getD 0 := fun x => by
      show (([1/5, 4/5, 1/10, 9/10] : List ℚ)[enc exFork.cardOf [2, 0] (a.upd 2 x)]?).getD 0 = _
      have : exFork.cardOf 2 = 2 := rfl
      simp [enc, Asg.upd, this]
    show ∑ x ∈ Finset.range 2, _ = _
    simp only [e]
    rcases h1 a ha0 with h | h <;> rw [h] <;> norm_num [Finset.sum_range_succ]

/-- Evidence "node 2 is 30" is legal in the fork. -/
theorem exFork_ev : exFork.LegalEvidence [(2, 30)] := ⟨by decide, by decide⟩

/-! ## C12 -/

/-- C12: eliminating a mentioned variable succeeds; the new product of all factors is the sum of the old product over the
variable's values; no factor mentions it any more, every other mentioned variable is still mentioned, and the factors stay
well formed. -/
theorem C12_sum_product_eliminate (h : HashOrder N) (c : N → ℕ) (p : Factorization N A) (hw : ∀ f ∈ p.phi, f.WF c) (rv : N)
    (hm : Mentions p.phi rv) :
    ∃ p', p.sumElim h rv = .ok p' ∧ (∀ f ∈ p'.phi, f.WF c) ∧
      (∀ v, Mentions p'.phi v ↔ Mentions p.phi v ∧ v ≠ rv) ∧
      ∀ a, (∀ f ∈ p'.phi, InRange c f.scope a) →
        prodVal p'.phi a = ∑ x ∈ Finset.range (c rv), prodVal p.phi (a.upd rv x) := by
  obtain ⟨p', psi', e, _, _, sh, hv⟩ := sumElim_ok h p hw hm
  exact ⟨p', e, sh.all_wf hw, fun v => by rw [sh.mentions, and_comm],
    fun a ha => hv a fun v ⟨f, hf, hvf⟩ => ha f hf v hvf⟩

/-- Witness for C12: the factorization of the fork and its variable 0, mentioned by three factors. -/
example : ∃ p : Factorization ℕ ℕ, Factorization.init exFork = .ok p ∧ (∀ f ∈ p.phi, f.WF exFork.cardOf) ∧ Mentions p.phi 0 := by
  obtain ⟨p, e, w, m⟩ := init_mentions exFork_wf
  exact ⟨p, e, w, m 0 (by decide)⟩

/-! ## C13 -/

/-- C13: whenever `marginal_ve_e` returns, the query was a legal one, the array has one entry per value of the target, and the
entry of a value is the rounded sum of the joint over all complete assignments with that target value agreeing with
the evidence.  For every node order, hash order and evidence order. -/
theorem C13_marginal_exact (h : HashOrder N) (hE : HashOrder (N × A)) (bn : BayesNet N A) (wb : bn.WF) (target : N)
    (ev : Dict N A) (hn : ev.keys.Nodup) (r : List ℚ) (hr : marginalVE h hE bn target ev = .ok r) :
    target ∈ bn.V ∧ target ∉ ev.keys ∧ bn.LegalEvidence ev ∧ r.length = bn.cardOf target ∧
      ∀ a, a target < bn.cardOf target → bn.Agrees ev a →
        r[a target]? = some (roundEven 4 (bn.marginal target ev a)) := by
  obtain ⟨ht, hte, hl⟩ := marginalVE_legal wb hn hr
  obtain ⟨p, e, _, _, w, m, v⟩ := marginalVE_run h hE wb ht hte hl
  rw [e] at hr
  cases hc : p.consolidate with
  | error e => rw [hc] at hr; simp at hr
  | ok f =>
    rw [hc] at hr
    simp only [Py.bind_ok, Py.pure_eq, Except.ok.injEq] at hr
    have hp := consolidate_one hc
    have wf : f.WF bn.cardOf := w f (by rw [hp]; simp)
    have hs : ∀ u, u ∈ f.scope ↔ u = target := fun u => by rw [← m u, Mentions, hp]; simp
    obtain ⟨hsc, hlen, hpos⟩ := wf_single wf hs
    refine ⟨ht, hte, hl, by rw [← hr, List.length_map, hlen], fun a ha hag => ?_⟩
    have h1 := wf.entry_eq (a := a) (fun u hu => by rw [(hs u).1 hu]; exact ha)
    rw [Factor.entry, hpos] at h1
    have h2 := v a ha hag
    rw [hp] at h2
    simp only [prodVal, List.map_cons, List.map_nil, List.prod_cons, List.prod_nil, mul_one] at h2
    rw [← hr, List.getElem?_map, h1, h2]; rfl

/-- C13, the rounding is to four digits. -/
theorem C13_rounding (x : ℚ) : |roundEven 4 x - x| ≤ 1 / 2 / 10 ^ 4 := roundEven_close 4 x

/-- C13: the answer does not depend on any hash order. -/
theorem C13_order_independent (h h' : HashOrder N) (hE hE' : HashOrder (N × A)) (bn : BayesNet N A) (wb : bn.WF) (target : N)
    (ev : Dict N A) (ht : target ∈ bn.V) (hte : target ∉ ev.keys) (hl : bn.LegalEvidence ev) :
    marginalVE h hE bn target ev = marginalVE h' hE' bn target ev := by
  obtain ⟨p, e, hne, hiff, w, m, v⟩ := marginalVE_run h hE wb ht hte hl
  obtain ⟨p', e', hne', hiff', w', m', v'⟩ := marginalVE_run h' hE' wb ht hte hl
  by_cases hlen : p.phi.length = 1
  · have hlen' : p'.phi.length = 1 := hiff'.2 (hiff.1 hlen)
    obtain ⟨f, hf, hc⟩ := consolidate_of_one hlen
    obtain ⟨f', hf', hc'⟩ := consolidate_of_one hlen'
    have hr : marginalVE h hE bn target ev = .ok (f.cpt.map (roundEven 4)) := by rw [e, hc]; rfl
    have hr' : marginalVE h' hE' bn target ev = .ok (f'.cpt.map (roundEven 4)) := by rw [e', hc']; rfl
    rw [hr, hr']
    obtain ⟨_, _, _, l1, r1⟩ := C13_marginal_exact h hE bn wb target ev hl.nodup _ hr
    obtain ⟨_, _, _, l2, r2⟩ := C13_marginal_exact h' hE' bn wb target ev hl.nodup _ hr'
    congr 1
    apply List.ext_getElem?
    intro i
    by_cases hi : i < bn.cardOf target
    · -- an assignment agreeing with the evidence exists
      have hg : ∀ v : N, ∃ j : ℕ, ∀ e ∈ ev, e.1 = v → (bn.valuesOf v)[j]? = some e.2 := by
        intro v
        by_cases hv : v ∈ ev.keys
        · obtain ⟨e, he, hev⟩ := List.mem_map.1 hv
          obtain ⟨j, hj, hj2⟩ := List.mem_iff_getElem.1 (hl.legal e he).2
          refine ⟨j, fun e' he' he1 => ?_⟩
          have : e' = e := by
            have h1 := Dict.get?_of_mem hl.nodup (k := e.1) (v := e.2) he
            have h2 := Dict.get?_of_mem hl.nodup (k := e'.1) (v := e'.2) he'
            rw [he1, ← hev, h1] at h2
            exact Prod.ext (he1.trans hev.symm) (Option.some.inj h2).symm
          subst this
          rw [← hev, List.getElem?_eq_getElem hj, hj2]
        · exact ⟨0, fun e he hev => absurd (List.mem_map.2 ⟨e, he, hev⟩) hv⟩
      choose t ht2 using hg
      have hag : bn.Agrees ev (Asg.upd t target i) := by
        intro e he
        have hne : e.1 ≠ target := by rintro heq; exact hte (heq ▸ List.mem_map.2 ⟨e, he, rfl⟩)
        rw [Asg.upd_ne _ _ hne]; exact ht2 e.1 e he rfl
      have hti : (Asg.upd t target i) target = i := Asg.upd_self _ _ _
      have h1 := r1 _ (by rw [hti]; exact hi) hag
      have h2 := r2 _ (by rw [hti]; exact hi) hag
      rw [hti] at h1 h2
      rw [h1, h2]
    · rw [List.getElem?_eq_none (by omega), List.getElem?_eq_none (by omega)]
  · have hlen' : p'.phi.length ≠ 1 := fun h0 => hlen (hiff.2 (hiff'.1 h0))
    rw [e, e', consolidate_many hne hlen, consolidate_many hne' hlen']

/-- Witness for C13: P(1 | evidence 2=30) in the fork: the hypotheses hold and the call returns. -/
example : marginalVE .rev .id exFork 1 [(2, 30)] = .ok [1/20, 3/40] := by decide +kernel

/-! ## C14 -/

/-- C14 is false: on a perfectly normal network and legal evidence of positive probability, the returned array sums to
`P(evidence) = 1/8`, not to one (no normalisation takes place). -/
theorem C14_false : ∃ (bn : BayesNet ℕ ℕ) (target : ℕ) (ev : Dict ℕ ℕ) (r : List ℚ),
    bn.WF ∧ bn.Nonneg ∧ bn.Normalised ∧ bn.Acyclic ∧ bn.LegalEvidence ev ∧ target ∈ bn.V ∧ target ∉ ev.keys ∧
      marginalVE .id .id bn target ev = .ok r ∧ r.sum = 1 / 8 :=
  ⟨exFork, 1, [(2, 30)], [1/20, 3/40], exFork_wf, exFork_nonneg, exFork_normalised, exFork_acyclic, exFork_ev,
    by decide, by decide, by decide +kernel, by norm_num⟩

/-- C51 (what is true of C14): the unrounded entries are non-negative and sum to the probability of the evidence. -/
theorem C51_sum_is_evidence_prob (h : HashOrder N) (hE : HashOrder (N × A)) (bn : BayesNet N A) (wb : bn.WF)
    (hnn : bn.Nonneg) (target : N) (ev : Dict N A) (hn : ev.keys.Nodup) (r : List ℚ)
    (hr : marginalVE h hE bn target ev = .ok r) (a : Asg N) (hag : bn.Agrees ev a) :
    ∃ q : ℕ → ℚ, r = (List.range (bn.cardOf target)).map (fun i => roundEven 4 (q i)) ∧ (∀ i, 0 ≤ q i) ∧
      ∑ i ∈ Finset.range (bn.cardOf target), q i = bn.evidenceProb ev a := by
  obtain ⟨ht, hte, hl, hlen, hv⟩ := C13_marginal_exact h hE bn wb target ev hn r hr
  refine ⟨fun i => bn.marginal target ev (a.upd target i), ?_, fun i => sumAll_nonneg (joint_nonneg hnn) _, ?_⟩
  · apply List.ext_getElem?
    intro i
    by_cases hi : i < bn.cardOf target
    · have := hv (a.upd target i) (by rw [Asg.upd_self]; exact hi) (by
        intro e he
        have hne : e.1 ≠ target := by rintro heq; exact hte (heq ▸ List.mem_map.2 ⟨e, he, rfl⟩)
        rw [Asg.upd_ne _ _ hne]; exact hag e he)
      rw [Asg.upd_self] at this
      rw [this]; simp [hi]
    · rw [List.getElem?_eq_none (by omega), List.getElem?_eq_none (by simp; omega)]
  · unfold BayesNet.evidenceProb
    have hperm : (bn.V.filter fun v => v ∉ ev.keys).Perm
        (target :: bn.V.filter fun v => v ≠ target ∧ v ∉ ev.keys) := by
      refine (List.perm_ext_iff_of_nodup (wb.nodup.filter _) ?_).2 ?_
      · rw [List.nodup_cons]; exact ⟨by simp, wb.nodup.filter _⟩
      · intro u
        simp only [List.mem_filter, List.mem_cons, decide_eq_true_eq]
        by_cases hu : u = target
        · subst hu; simp [ht, hte]
        · simp [hu]
    rw [sumAll_perm hperm _ (wb.nodup.filter _)]
    rfl

/-- C14 for queries without evidence: the unrounded entries are a probability distribution. -/
theorem C14_no_evidence_partial (h : HashOrder N) (hE : HashOrder (N × A)) (bn : BayesNet N A) (wb : bn.WF)
    (hnn : bn.Nonneg) (hno : bn.Normalised) (hac : bn.Acyclic) (target : N) (r : List ℚ)
    (hr : marginalVE h hE bn target [] = .ok r) :
    ∃ q : ℕ → ℚ, r = (List.range (bn.cardOf target)).map (fun i => roundEven 4 (q i)) ∧ (∀ i, 0 ≤ q i) ∧
      ∑ i ∈ Finset.range (bn.cardOf target), q i = 1 := by
  obtain ⟨q, h1, h2, h3⟩ := C51_sum_is_evidence_prob h hE bn wb hnn target [] (by simp [Dict.keys]) r hr
    (fun _ => 0) (by intro e he; simp at he)
  refine ⟨q, h1, h2, ?_⟩
  rw [h3, ← joint_sum_one wb hno hac (fun _ => 0)]
  unfold BayesNet.evidenceProb
  have : (bn.V.filter fun v => v ∉ Dict.keys ([] : Dict N A)) = bn.V :=
    List.filter_eq_self.2 (by simp [Dict.keys])
  rw [this]

example : marginalVE .id .id exFork 1 [] = .ok [3/8, 5/8] := by decide +kernel

/-! ## C15 -/

/-- C15 is false: on the fork 0 → 1, 0 → 2, asking for the root without any evidence raises `NameError`
(after elimination more than one factor mentions the target and `consolidate` reads an undefined global). -/
theorem C15_false : ∃ (bn : BayesNet ℕ ℕ) (target : ℕ),
    bn.WF ∧ bn.Nonneg ∧ bn.Normalised ∧ bn.Acyclic ∧ target ∈ bn.V ∧
      ∀ h hE, marginalVE h hE bn target [] = .error .nameError := by
  refine ⟨exFork, 0, exFork_wf, exFork_nonneg, exFork_normalised, exFork_acyclic, by decide, fun h hE => ?_⟩
  rw [C13_order_independent h .id hE .id exFork exFork_wf 0 [] (by decide) (by decide) ⟨by decide, by decide⟩]
  decide +kernel

/-- C52 (what is true of C15): exactly when a legal query is answered: every two families must be connected through shared variables that are
neither the target nor observed.  In all other cases the call raises `NameError`. -/
theorem C52_answered_iff (h : HashOrder N) (hE : HashOrder (N × A)) (bn : BayesNet N A) (wb : bn.WF) (target : N)
    (ev : Dict N A) (ht : target ∈ bn.V) (hte : target ∉ ev.keys) (hl : bn.LegalEvidence ev) :
    ((∀ u ∈ bn.V, ∀ v ∈ bn.V, bn.Linked (bn.V.filter fun v => v ≠ target ∧ v ∉ ev.keys) u v) →
      ∃ r, marginalVE h hE bn target ev = .ok r) ∧
    (¬ (∀ u ∈ bn.V, ∀ v ∈ bn.V, bn.Linked (bn.V.filter fun v => v ≠ target ∧ v ∉ ev.keys) u v) →
      marginalVE h hE bn target ev = .error .nameError) := by
  obtain ⟨p, e, hne, hiff, _⟩ := marginalVE_run h hE wb ht hte hl
  constructor
  · intro hlk
    obtain ⟨f, _, hc⟩ := consolidate_of_one (hiff.2 hlk)
    exact ⟨_, by rw [e, hc]; rfl⟩
  · intro hlk
    rw [e, consolidate_many hne fun h0 => hlk (hiff.1 h0)]; rfl

/-- C52, a simple sufficient consequence: evidence on a parentless node of a network with at least two nodes is never answered. -/
theorem C52_root_evidence_never_answered (h : HashOrder N) (hE : HashOrder (N × A)) (bn : BayesNet N A) (wb : bn.WF) (target : N)
    (ev : Dict N A) (ht : target ∈ bn.V) (hte : target ∉ ev.keys) (hl : bn.LegalEvidence ev) (root : N) (hr : root ∈ ev.keys)
    (hroot : bn.parentsOf root = []) : marginalVE h hE bn target ev = .error .nameError := by
  apply (C52_answered_iff h hE bn wb target ev ht hte hl).2
  intro hall
  obtain ⟨e, he, rfl⟩ := List.mem_map.1 hr
  have hV := (hl.legal e he).1
  have key : ∀ w, bn.Linked (bn.V.filter fun v => v ≠ target ∧ v ∉ ev.keys) e.1 w → w = e.1 := by
    intro w hw
    induction hw with
    | refl => rfl
    | step _ _ hx hxv _ ih =>
      exfalso
      subst ih
      rw [BayesNet.fam, hroot, List.mem_singleton] at hxv
      subst hxv
      simp only [List.mem_filter, decide_eq_true_eq] at hx
      exact hx.2.2 hr
  have := key target (hall e.1 hV target ht)
  subst this
  exact hte hr

/-- Witnesses for both directions of C15: target 1 of the fork is answered, target 0 is not. -/
example : (∃ r, marginalVE .id .id exFork 1 [] = .ok r) ∧ marginalVE .id .id exFork 0 [] = .error .nameError ∧
    marginalVE .id .id exFork 1 [(0, 10)] = .error .nameError :=
  ⟨⟨_, (by decide +kernel : marginalVE .id .id exFork 1 [] = .ok [3/8, 5/8])⟩, by decide +kernel, by decide +kernel⟩

/-! ## C16, C17 -/

/-- C16: on a network with non-negative tables and legal evidence, `ve_map` never raises; it returns exactly one legal value for
every node (and nothing else), agreeing with the evidence, and no complete assignment agreeing with the evidence has
a larger joint probability. -/
theorem C16_map_is_most_probable (h : HashOrder N) (hE : HashOrder (N × A)) (bn : BayesNet N A) (wb : bn.WF) (hnn : bn.Nonneg)
    (ev : Dict N A) (hl : bn.LegalEvidence ev) :
    ∃ (d : Dict N A) (x : Asg N), veMap h hE bn ev = .ok d ∧ d.keys.Nodup ∧ (∀ v, v ∉ bn.V → d.get? v = none) ∧
      (∀ v ∈ bn.V, x v < bn.cardOf v ∧ d.get? v = (bn.valuesOf v)[x v]?) ∧
      (∀ e ∈ ev, d.get? e.1 = some e.2) ∧ bn.Agrees ev x ∧
      ∀ b, InRange bn.cardOf bn.V b → bn.Agrees ev b → bn.joint b ≤ bn.joint x := by
  obtain ⟨p, d, x, e, h1, h2, h3, h4, h5, _⟩ := veMapCore_run h hE wb hnn hl
  refine ⟨d, x, by simp [veMap, e], h1, h2, h3, fun e he => ?_, h4, h5⟩
  rw [(h3 e.1 (hl.legal e he).1).2]; exact h4 e he

/-- C16: illegal evidence (unknown node, value not in the list) always raises. -/
theorem C16_illegal_evidence_raises (h : HashOrder N) (hE : HashOrder (N × A)) (bn : BayesNet N A) (wb : bn.WF)
    (ev : Dict N A) (hn : ev.keys.Nodup) (d : Dict N A) (hd : veMap h hE bn ev = .ok d) : bn.LegalEvidence ev := by
  unfold veMap at hd
  cases hc : veMapCore h hE bn ev with
  | error e => rw [hc] at hd; simp at hd
  | ok r => exact veMap_legal wb hn hc

/-- C16 with a target: the reported value is the target's value in that assignment. -/
theorem C16_target (h : HashOrder N) (hE : HashOrder (N × A)) (bn : BayesNet N A) (wb : bn.WF) (hnn : bn.Nonneg)
    (ev : Dict N A) (hl : bn.LegalEvidence ev) (t : N) (ht : t ∈ bn.V) :
    ∃ (val : A) (x : Asg N), veMapTarget h hE bn ev t = .ok val ∧ (bn.valuesOf t)[x t]? = some val ∧
      InRange bn.cardOf bn.V x ∧ bn.Agrees ev x ∧
      ∀ b, InRange bn.cardOf bn.V b → bn.Agrees ev b → bn.joint b ≤ bn.joint x := by
  obtain ⟨d, x, e, _, _, h3, _, h5, h6⟩ := C16_map_is_most_probable h hE bn wb hnn ev hl
  obtain ⟨hx, hd⟩ := h3 t ht
  have hlen : x t < (bn.valuesOf t).length := by rw [← wb.card_len ht]; exact hx
  rw [List.getElem?_eq_getElem hlen] at hd
  refine ⟨_, x, ?_, List.getElem?_eq_getElem hlen, fun v hv => (h3 v hv).1, h5, h6⟩
  simp only [veMapTarget, e, Py.bind_ok]
  exact Dict.get_of_get? hd

/-- Witness for C16: the fork with evidence 2=30 (hash orders reversed). -/
example : veMap .rev .rev exFork [(2, 30)] = .ok [(2, 30), (1, 21), (0, 11)] := by decide +kernel

/-- C17: when `ve_map(..., prob=True)` returns, the number is the (5-digit rounded) joint probability of the reported assignment,
which is the maximum over all complete assignments agreeing with the evidence. -/
theorem C17_map_prob (h : HashOrder N) (hE : HashOrder (N × A)) (bn : BayesNet N A) (wb : bn.WF) (hnn : bn.Nonneg)
    (ev : Dict N A) (hn : ev.keys.Nodup) (q : ℚ) (d : Dict N A) (hr : veMapProb h hE bn ev = .ok (q, d)) :
    bn.LegalEvidence ev ∧ veMap h hE bn ev = .ok d ∧
      ∃ x : Asg N, (∀ v ∈ bn.V, x v < bn.cardOf v ∧ d.get? v = (bn.valuesOf v)[x v]?) ∧ bn.Agrees ev x ∧
        q = roundAway 5 (bn.joint x) ∧ |q - bn.joint x| ≤ 1 / 2 / 10 ^ 5 ∧
        ∀ b, InRange bn.cardOf bn.V b → bn.Agrees ev b → bn.joint b ≤ bn.joint x := by
  unfold veMapProb at hr
  cases hc : veMapCore h hE bn ev with
  | error e => rw [hc] at hr; simp at hr
  | ok r0 =>
    have hl := veMap_legal wb hn hc
    obtain ⟨p, d', x, e, h1, h2, h3, h4, h5, w, nm, cst, _⟩ := veMapCore_run h hE wb hnn hl
    rw [hc] at e; cases e
    rw [hc] at hr
    simp only [Py.bind_ok] at hr
    cases hco : p.consolidate with
    | error e => rw [hco] at hr; simp at hr
    | ok f =>
      rw [hco] at hr
      simp only [Py.bind_ok] at hr
      have hp := consolidate_one hco
      obtain ⟨hsc, hlen, hpos⟩ := wf_empty (w f (by rw [hp]; simp)) fun u hu => nm u ⟨f, by rw [hp]; simp, hu⟩
      have h0 : f.cpt[0]? = some (bn.joint x) := by
        have h6 := (w f (by rw [hp]; simp)).entry_eq (a := fun _ => 0) (by rw [hsc]; simp [InRange])
        rw [Factor.entry, hpos] at h6
        have h7 := cst fun _ => 0
        rw [hp] at h7
        simp only [prodVal, List.map_cons, List.map_nil, List.prod_cons, List.prod_nil, mul_one] at h7
        rw [h6, h7]
      have h8 : pyIdx f.cpt 0 = .ok (bn.joint x) := pyIdx_nat (n := 0) h0
      rw [h8] at hr
      simp only [Py.bind_ok, Py.pure_eq, Except.ok.injEq, Prod.mk.injEq] at hr
      obtain ⟨rfl, rfl⟩ := hr
      exact ⟨hl, by simp [veMap, hc], x, h3, h4, rfl, roundAway_close 5 _, h5⟩

/-- C53: exactly when `prob=True` is answered on a non-empty network with legal evidence; otherwise `NameError`. -/
theorem C53_map_prob_answered_iff (h : HashOrder N) (hE : HashOrder (N × A)) (bn : BayesNet N A) (wb : bn.WF) (hnn : bn.Nonneg)
    (ev : Dict N A) (hl : bn.LegalEvidence ev) (hV : bn.V ≠ []) :
    ((∀ u ∈ bn.V, ∀ v ∈ bn.V, bn.Linked (bn.V.filter fun v => v ∉ ev.keys) u v) →
      ∃ r, veMapProb h hE bn ev = .ok r) ∧
    (¬ (∀ u ∈ bn.V, ∀ v ∈ bn.V, bn.Linked (bn.V.filter fun v => v ∉ ev.keys) u v) →
      veMapProb h hE bn ev = .error .nameError) := by
  obtain ⟨p, d, x, e, _, _, _, _, _, w, nm, _, hcl⟩ := veMapCore_run h hE wb hnn hl
  obtain ⟨hne, hiff⟩ := hcl hV
  constructor
  · intro hlk
    obtain ⟨f, hp, hc⟩ := consolidate_of_one (hiff.2 hlk)
    obtain ⟨_, hlen, _⟩ := wf_empty (w f (by rw [hp]; simp)) fun u hu => nm u ⟨f, by rw [hp]; simp, hu⟩
    obtain ⟨y, hy⟩ := List.length_eq_one_iff.1 hlen
    have h8 : pyIdx f.cpt 0 = .ok y := pyIdx_nat (n := 0) (by rw [hy]; rfl)
    exact ⟨(roundAway 5 y, d), by simp [veMapProb, e, hc, h8]⟩
  · intro hlk
    simp only [veMapProb, e, Py.bind_ok]
    rw [consolidate_many hne fun h0 => hlk (hiff.1 h0)]; rfl

/-- Witness for C17: the fork without evidence returns the maximum 9/20 (0=11, 1=21, 2=31). -/
example : veMapProb .id .id exFork [] = .ok (9/20, [(2, 31), (1, 21), (0, 11)]) := by decide +kernel

end PyBN
