import Verif.Props.DSep
import Verif.Props.Sample5

/-!
# C252, C253: asking for a node given its parents
-/

set_option linter.unusedSectionVars false

namespace PyBN
open BayesNet Relation
variable {N A : Type} [DecidableEq N] [DecidableEq A]

/-- The chain rule at a node, for any set of nodes that contains its parents and none of its descendants. -/
theorem margOf_local {bn : BayesNet N A} (w : bn.WF) (hno : bn.Normalised) (hac : bn.Acyclic) {v : N} (hv : v ∈ bn.V) {W : List N} (hp : ∀ p ∈ bn.parentsOf v, p ∈ W)
    (hd : ∀ u ∈ W, ¬ ReflTransGen bn.IsParent v u) {a : Asg N} (ha : InRange bn.cardOf (v :: W) a) : margOf bn (v :: W) a = bn.prob v a * margOf bn W a := by
  classical
  let R : N → Bool := fun u => decide (u = v ∨ ∃ t ∈ W, ReflTransGen bn.IsParent u t)
  let R' : N → Bool := fun u => decide (∃ t ∈ W, ReflTransGen bn.IsParent u t)
  have hR : ∀ u, R u = true ↔ u = v ∨ ∃ t ∈ W, ReflTransGen bn.IsParent u t := fun u => by simp [R]
  have hR' : ∀ u, R' u = true ↔ ∃ t ∈ W, ReflTransGen bn.IsParent u t := fun u => by simp [R']
  clear_value R R'
  have hup' : ∀ u, R' u = true → ∀ p ∈ bn.parentsOf u, R' p = true := by
    intro u hu p hpu
    obtain ⟨t, ht, hut⟩ := (hR' u).1 hu
    exact (hR' p).2 ⟨t, ht, .head hpu hut⟩
  have hup : ∀ u, R u = true → ∀ p ∈ bn.parentsOf u, R p = true := by
    intro u hu p hpu
    rcases (hR u).1 hu with rfl | ⟨t, ht, hut⟩
    · exact (hR p).2 (.inr ⟨p, hp p hpu, .refl⟩)
    · exact (hR p).2 (.inr ⟨t, ht, .head hpu hut⟩)
  have hvR' : R' v = false := by
    rw [Bool.eq_false_iff]
    intro h
    obtain ⟨t, ht, hvt⟩ := (hR' v).1 h
    exact hd t ht hvt
  have hvW : v ∉ W := fun h => hd v h .refl
  have hperm : (bn.V.filter R).Perm (v :: bn.V.filter R') := by
    refine (List.perm_ext_iff_of_nodup (w.nodup.filter _) (List.nodup_cons.2 ⟨fun h => ?_, w.nodup.filter _⟩)).2 fun u => ?_
    · rw [List.mem_filter, hvR'] at h; exact Bool.false_ne_true h.2
    · rw [List.mem_cons, List.mem_filter, List.mem_filter, hR, hR']
      constructor
      · rintro ⟨h1, rfl | h2⟩
        · exact .inl rfl
        · exact .inr ⟨h1, h2⟩
      · rintro (rfl | ⟨h1, h2⟩)
        · exact ⟨hv, .inl rfl⟩
        · exact ⟨h1, .inr h2⟩
  have hT : ∀ t ∈ v :: W, R t = true := by
    intro t ht
    rcases List.mem_cons.1 ht with rfl | ht
    · exact (hR _).2 (.inl rfl)
    · exact (hR t).2 (.inr ⟨t, ht, .refl⟩)
  rw [barren w hno hac R hup hT ha, barren w hno hac R' hup' (fun t ht => (hR' t).2 ⟨t, ht, .refl⟩) (fun t ht => ha t (List.mem_cons_of_mem _ ht))]
  have hfun : (fun b => ((bn.V.filter R).map fun u => bn.prob u b).prod) = fun b => bn.prob v b * ((bn.V.filter R').map fun u => bn.prob u b).prod := by
    funext b
    rw [List.Perm.prod_eq (hperm.map _), List.map_cons, List.prod_cons]
  have hlist : ((bn.V.filter R).filter fun u => u ∉ v :: W).Perm ((bn.V.filter R').filter fun u => u ∉ W) := by
    refine (hperm.filter _).trans ?_
    rw [List.filter_cons, if_neg (by simp)]
    refine List.Perm.of_eq (List.filter_congr fun u hu => ?_)
    have : u ≠ v := by
      rintro rfl
      rw [List.mem_filter, hvR'] at hu; exact Bool.false_ne_true hu.2
    simp [this]
  rw [hfun, sumAll_perm hlist _ ((w.nodup.filter _).filter _)]
  apply sumAll_mul_left (G := fun b => bn.prob v b)
  intro c d hcd
  apply prob_congr
  intro x hx
  apply hcd
  intro h0
  obtain ⟨h1, h2⟩ := List.mem_filter.1 h0
  rcases List.mem_cons.1 hx with rfl | hx
  · rw [List.mem_filter, hvR'] at h1; exact Bool.false_ne_true h1.2
  · simp [hp x hx] at h2

/-- **C252** (1): in a network of at least two nodes, a query whose target and evidence cover a whole family (a node and all its parents) is never answered. -/
theorem C252_whole_family (h : HashOrder N) (hE : HashOrder (N × A)) (bn : BayesNet N A) (w : bn.WF) (h2 : 2 ≤ bn.V.length) (target : N) (ev : Dict N A) (ht : target ∈ bn.V)
    (hte : target ∉ ev.keys) (hl : bn.LegalEvidence ev) (v : N) (hv : v ∈ bn.V) (hfam : ∀ u ∈ v :: bn.parentsOf v, u = target ∨ u ∈ ev.keys) :
    marginalVE h hE bn target ev = .error .nameError := by
  refine (C52_answered_iff h hE bn w target ev ht hte hl).2 fun hall => ?_
  obtain ⟨u, hu, huv⟩ : ∃ u ∈ bn.V, u ≠ v := by
    by_contra hne
    push Not at hne
    have hs : bn.V ⊆ [v] := fun u hu => by simp [hne u hu]
    have := (List.subperm_of_subset w.nodup hs).length_le
    simp only [List.length_cons, List.length_nil] at this
    omega
  have key : ∀ x y, bn.Linked (bn.V.filter fun v => v ≠ target ∧ v ∉ ev.keys) x y → y = v → x = v := by
    intro x y hxy
    induction hxy with
    | refl => exact id
    | @step v' w' x' _ _ hx _ hxw _ =>
      rintro rfl
      exfalso
      have hx' := (List.mem_filter.1 hx).2
      simp only [decide_eq_true_eq] at hx'
      rcases hfam x' hxw with e | e
      · exact hx'.1 e
      · exact hx'.2 e
  exact huv (key u v (hall u hu v hv) rfl)

/-- **C252** (2): in particular no query about a node whose parents are all observed is answered: not the one for its table row, and none at all about a node without parents. -/
theorem C252_given_parents (h : HashOrder N) (hE : HashOrder (N × A)) (bn : BayesNet N A) (w : bn.WF) (h2 : 2 ≤ bn.V.length) (target : N) (ev : Dict N A) (ht : target ∈ bn.V)
    (hte : target ∉ ev.keys) (hl : bn.LegalEvidence ev) (hp : ∀ p ∈ bn.parentsOf target, p ∈ ev.keys) : marginalVE h hE bn target ev = .error .nameError := by
  refine C252_whole_family h hE bn w h2 target ev ht hte hl target ht fun u hu => ?_
  rcases List.mem_cons.1 hu with rfl | hu
  · exact .inl rfl
  · exact .inr (hp u hu)

/-- **C252** (3): and no query with evidence about a node without parents, or about a node and all its parents. -/
theorem C252_root_evidence (h : HashOrder N) (hE : HashOrder (N × A)) (bn : BayesNet N A) (w : bn.WF) (h2 : 2 ≤ bn.V.length) (target : N) (ev : Dict N A) (ht : target ∈ bn.V)
    (hte : target ∉ ev.keys) (hl : bn.LegalEvidence ev) (v : N) (hv : v ∈ ev.keys) (hp : ∀ p ∈ bn.parentsOf v, p ∈ ev.keys) : marginalVE h hE bn target ev = .error .nameError := by
  obtain ⟨e, he, rfl⟩ := List.mem_map.1 hv
  refine C252_whole_family h hE bn w h2 target ev ht hte hl e.1 (hl.legal e he).1 fun u hu => .inr ?_
  rcases List.mem_cons.1 hu with rfl | hu
  · exact hv
  · exact hp u hu

/-- `exFork` (0 -> 1, 0 -> 2): all queries about the root, or given the root. -/
example : exFork.WF ∧ 2 ≤ exFork.V.length ∧ exFork.parentsOf 0 = [] ∧ exFork.parentsOf 1 = [0] ∧ exFork.LegalEvidence [(0, 10)] :=
  ⟨exFork_wf, by decide, by decide, by decide, ⟨by decide, by decide⟩⟩

/-! ## C253 -/

open Sampling MeasureTheory ProbabilityTheory Filter Topology
variable {Ω : Type} [MeasurableSpace Ω] {P : Measure Ω} {U : ℕ → Ω → ℝ}

/-- Given its parents, and whatever else that does not follow from it, a node is distributed as its table says. -/
theorem marginal_local {bn : BayesNet N A} (w : bn.WF) (hno : bn.Normalised) (hac : bn.Acyclic) {v : N} (hv : v ∈ bn.V) {ev : Dict N A} (hl : bn.LegalEvidence ev)
    (hp : ∀ p ∈ bn.parentsOf v, p ∈ ev.keys) (hd : ∀ u ∈ ev.keys, ¬ ReflTransGen bn.IsParent v u) {a : Asg N} (hag : bn.Agrees ev a) (hav : a v < bn.cardOf v) :
    bn.marginal v ev a = bn.prob v a * bn.evidenceProb ev a := by
  have := margOf_local w hno hac hv hp hd (a := a) (by
    intro u hu
    rcases List.mem_cons.1 hu with rfl | hu
    · exact hav
    · exact agrees_range w hl hag u hu)
  rw [marginal_eq_marg]
  exact this

/-- **C253**: with evidence for all parents of `v` and for no descendant of it, `lw_sample`'s estimate of the value `x` converges almost surely to the entry of `v`'s table for `x` and the
parents' values, up to the rounding of the estimate. -/
theorem C253_lw_table_row (hU : Uniforms P U) (h : HashOrder N) (bn : BayesNet N A) (w : bn.WF) (hn : bn.Nonneg) (hno : bn.Normalised)
    (tol : ℚ) (h0 : 0 ≤ tol) (ht : tol < 1) (hpf : bn.ParentsFirst) (ev : Dict N A) (hev : bn.LegalEvidence ev) (v : N) (hv : v ∈ bn.V)
    (hp : ∀ p ∈ bn.parentsOf v, p ∈ ev.keys) (hd : ∀ u ∈ ev.keys, ¬ ReflTransGen bn.IsParent v u)
    (a : Asg N) (hag : bn.Agrees ev a) (x : A) (hx : (bn.valuesOf v)[a v]? = some x) (hpos : bn.evidenceProb ev a ≠ 0) :
    ∀ᵐ ω ∂P, (∀ᶠ n in atTop, ∃ d, lwSample tol h bn ev n (fun i => U i ω) = .ok d) ∧
      ∀ δ > 0, ∀ᶠ n in atTop, |((estimate (lwSample tol h bn ev n fun i => U i ω) v x : ℚ) : ℝ) - ((bn.prob v a : ℚ) : ℝ)| ≤ 1 / 20000 + δ := by
  have key := C173_lw_converges hU h bn w hn hno tol h0 ht hpf ev hev v hv a hag x hx hpos
  have hav : a v < bn.cardOf v := by rw [w.card_len hv]; exact (List.getElem?_eq_some_iff.1 hx).1
  rwa [marginal_local w hno (parentsFirst_acyclic hpf) hv hev hp hd hag hav, mul_div_cancel_right₀ _ hpos] at key

/-- In `exNet` (0 -> 2 <- 1) with both parents observed, node 2. -/
example : exNet.WF ∧ exNet.Nonneg ∧ exNet.Normalised ∧ exNet.ParentsFirst ∧ exNet.LegalEvidence [(0, 11), (1, 20)] ∧
    (∀ p ∈ exNet.parentsOf 2, p ∈ Dict.keys [((0 : ℕ), (11 : ℕ)), (1, 20)]) ∧
    (∀ u ∈ Dict.keys [((0 : ℕ), (11 : ℕ)), (1, 20)], ¬ ReflTransGen exNet.IsParent 2 u) ∧ exNet.Agrees [(0, 11), (1, 20)] (fun v => if v = 1 then 0 else 1) ∧
    exNet.evidenceProb [(0, 11), (1, 20)] (fun v => if v = 1 then 0 else 1) = 3 / 8 := by
  refine ⟨exNet_wf, exNet_nonneg, exNet_normalised, exNet_parentsFirst, ⟨by decide, by decide⟩, by decide, ?_, (by unfold BayesNet.Agrees; decide), by decide +kernel⟩
  intro u hu h
  have hu' : u = 0 ∨ u = 1 := by simpa [Dict.keys] using hu
  have hpu : exNet.parentsOf u = [] := by rcases hu' with rfl | rfl <;> decide
  rcases Relation.ReflTransGen.cases_tail h with h | ⟨c, _, hc⟩
  · omega
  · unfold BayesNet.IsParent at hc
    rw [hpu] at hc
    cases hc

end PyBN
