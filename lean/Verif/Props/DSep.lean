import Verif.Proofs.DSepSound
import Verif.Proofs.DSep
import Verif.Props.Perturb
import Verif.Props.Distance
import Verif.Props.Oracle

/-!
# C197 – C200: what the graph of a network says about its answers
-/

set_option linter.unusedSectionVars false

namespace PyBN
open BayesNet Relation
variable {N A : Type} [DecidableEq N] [DecidableEq A]

theorem enc_card {c c' : N → ℕ} {a : Asg N} : ∀ {o : List N}, (∀ u ∈ o, c' u = c u) → enc c' o a = enc c o a
  | [], _ => rfl
  | v :: o, h => by simp only [enc]; rw [h v (by simp), enc_card fun u hu => h u (by simp [hu])]

theorem sumAll_card {c c' : N → ℕ} {F : Asg N → ℚ} : ∀ {o : List N} {a : Asg N}, (∀ u ∈ o, c' u = c u) → sumAll c' o F a = sumAll c o F a
  | [], _, _ => rfl
  | v :: o, a, h => by
      simp only [sumAll]
      rw [h v (by simp)]
      exact Finset.sum_congr rfl fun x _ => sumAll_card fun u hu => h u (by simp [hu])

/-- The sums over the ancestors only. -/
theorem margOf_ancestors {bn bn' : BayesNet N A} (w : bn.WF) (w' : bn'.WF) (hno : bn.Normalised) (hno' : bn'.Normalised) (hac : bn.Acyclic) (hac' : bn'.Acyclic)
    {T : List N} (hsame : ∀ v, (∃ t ∈ T, ReflTransGen bn.IsParent v t) → bn'.F.get? v = bn.F.get? v) {a : Asg N} (ha : InRange bn.cardOf T a) :
    margOf bn' T a = margOf bn T a := by
  classical
  let R : N → Bool := fun v => decide (∃ t ∈ T, ReflTransGen bn.IsParent v t)
  have hR : ∀ v, R v = true ↔ ∃ t ∈ T, ReflTransGen bn.IsParent v t := fun v => by simp [R]
  clear_value R
  have hF : ∀ v, R v = true → bn'.F.get? v = bn.F.get? v := fun v hv => hsame v ((hR v).1 hv)
  have hup : ∀ v, R v = true → ∀ p ∈ bn.parentsOf v, R p = true := by
    intro v hv p hp
    obtain ⟨t, ht, hvt⟩ := (hR v).1 hv
    exact (hR p).2 ⟨t, ht, .head hp hvt⟩
  have hpar : ∀ v, R v = true → bn'.parentsOf v = bn.parentsOf v := fun v hv => by unfold BayesNet.parentsOf; rw [hF v hv]
  have hcard : ∀ v, R v = true → bn'.cardOf v = bn.cardOf v := fun v hv => by unfold BayesNet.cardOf; rw [hF v hv]
  have hcpt : ∀ v, R v = true → bn'.cptOf v = bn.cptOf v := fun v hv => by unfold BayesNet.cptOf; rw [hF v hv]
  have hTR : ∀ t ∈ T, R t = true := fun t ht => (hR t).2 ⟨t, ht, .refl⟩
  have hVp : (bn'.V.filter R).Perm (bn.V.filter R) := by
    refine (List.perm_ext_iff_of_nodup (w'.nodup.filter _) (w.nodup.filter _)).2 fun v => ?_
    simp only [List.mem_filter]
    refine and_congr_left fun hv => ?_
    rw [← w.dom, ← w'.dom, hF v hv]
  rw [barren w hno hac R hup hTR ha, barren w' hno' hac' R (fun v hv p hp => hup v hv p (hpar v hv ▸ hp)) hTR (fun t ht => by rw [hcard t (hTR t ht)]; exact ha t ht)]
  have hprob : ∀ v, R v = true → ∀ b, bn'.prob v b = bn.prob v b := by
    intro v hv b
    unfold BayesNet.prob
    rw [hcpt v hv, hpar v hv]
    congr 2
    apply enc_card
    intro u hu
    rcases List.mem_cons.1 hu with rfl | hu
    · exact hcard _ hv
    · exact hcard _ (hup v hv u hu)
  have hfun : (fun b => ((bn'.V.filter R).map fun u => bn'.prob u b).prod) = fun b => ((bn.V.filter R).map fun u => bn.prob u b).prod := by
    funext b
    rw [List.Perm.prod_eq (hVp.map _)]
    congr 1
    apply List.map_congr_left
    intro u hu
    exact hprob u (List.mem_filter.1 hu).2 b
  rw [hfun, sumAll_perm (hVp.filter _) _ ((w'.nodup.filter _).filter _)]
  apply sumAll_card
  intro u hu
  exact hcard u (List.mem_filter.1 (List.mem_filter.1 hu).1).2

/-! ## C197 -/

/-- C197: nodes that the graph of the network d-separates are conditionally independent under the probability the tables define. -/
theorem C197_separated_independent (bn : BayesNet N A) (w : bn.WF) (hno : bn.Normalised) (hac : bn.Acyclic) (X Y S : List N) (hX : ∀ x ∈ X, x ∉ S)
    (hs : bn.Separates X Y S) : CondIndep bn X Y S := dsep_sound w hno hac hX hs

theorem agrees_upd {bn : BayesNet N A} {ev : Dict N A} {a : Asg N} {t : N} (ht : t ∉ ev.keys) (hag : bn.Agrees ev a) (i : ℕ) : bn.Agrees ev (a.upd t i) := by
  intro e he
  have hne : e.1 ≠ t := fun heq => ht (heq ▸ List.mem_map.2 ⟨e, he, rfl⟩)
  rw [Asg.upd_ne _ _ hne]; exact hag e he

theorem agrees_range {bn : BayesNet N A} (w : bn.WF) {ev : Dict N A} {a : Asg N} (hl : bn.LegalEvidence ev) (hag : bn.Agrees ev a) : InRange bn.cardOf ev.keys a := by
  intro v hv
  obtain ⟨e, he, rfl⟩ := List.mem_map.1 hv
  rw [w.card_len (hl.legal e he).1]
  exact (List.getElem?_eq_some_iff.1 (hag e he)).1

theorem margOf_le_one {bn : BayesNet N A} (w : bn.WF) (hnn : bn.Nonneg) (hno : bn.Normalised) (hac : bn.Acyclic) {T : List N} {a : Asg N}
    (ha : InRange bn.cardOf T a) : margOf bn T a ≤ 1 := by
  rw [← joint_sum_one w hno hac a]
  unfold margOf
  have hp : (bn.V.filter (fun v => !decide (v ∉ T)) ++ bn.V.filter fun v => decide (v ∉ T)).Perm bn.V :=
    (List.perm_append_comm).trans (List.filter_append_perm _ bn.V)
  rw [← sumAll_perm hp _ (hp.nodup_iff.2 w.nodup), sumAll_append]
  refine sumAll_le_of_mem (fun b => sumAll_nonneg (joint_nonneg hnn) b) _ a fun v hv => ?_
  simp at hv
  exact ha v hv.2

/-- Rounded numbers in the same proportions as exact ones. -/
theorem rounded_ratio {c : ℕ} {r r' q q' : ℕ → ℚ} {i : ℕ} (hi : i < c) (hr : ∀ j, r j = roundEven 4 (q j)) (hr' : ∀ j, r' j = roundEven 4 (q' j))
    (h0 : ∀ j, 0 ≤ q j) (h0' : ∀ j, 0 ≤ q' j) (h1 : ∑ j ∈ Finset.range c, q j ≤ 1) (h1' : ∑ j ∈ Finset.range c, q' j ≤ 1)
    (he : q' i * ∑ j ∈ Finset.range c, q j = q i * ∑ j ∈ Finset.range c, q' j) :
    |r' i * ∑ j ∈ Finset.range c, r j - r i * ∑ j ∈ Finset.range c, r' j| ≤ (c + 1) / 9000 := by
  have one : ∀ (r q r' q' : ℕ → ℚ), (∀ j, r j = roundEven 4 (q j)) → (∀ j, r' j = roundEven 4 (q' j)) → (∀ j, 0 ≤ q j) → (∀ j, 0 ≤ q' j) →
      ∑ j ∈ Finset.range c, q j ≤ 1 → ∑ j ∈ Finset.range c, q' j ≤ 1 →
      |r' i * ∑ j ∈ Finset.range c, r j - q' i * ∑ j ∈ Finset.range c, q j| ≤ 1 / 20000 * (1 + c / 20000) + c / 20000 := by
    intro r q r' q' hr hr' h0 h0' h1 h1'
    have hc : ∀ x : ℚ, |roundEven 4 x - x| ≤ 1 / 20000 := fun x => (roundEven_close 4 x).trans (by norm_num)
    have hsum : |∑ j ∈ Finset.range c, r j - ∑ j ∈ Finset.range c, q j| ≤ c / 20000 := by
      rw [← Finset.sum_sub_distrib]
      refine (Finset.abs_sum_le_sum_abs _ _).trans ?_
      refine (Finset.sum_le_sum fun j _ => (by rw [hr]; exact hc _ : |r j - q j| ≤ 1 / 20000)).trans ?_
      simp [div_eq_mul_inv]
    have hQ0 : 0 ≤ ∑ j ∈ Finset.range c, q j := Finset.sum_nonneg fun j _ => h0 j
    have hq1 : q' i ≤ 1 := (Finset.single_le_sum (f := q') (fun j _ => h0' j) (Finset.mem_range.2 hi)).trans h1'
    have hR : |∑ j ∈ Finset.range c, r j| ≤ 1 + c / 20000 := by
      have h2 := abs_sub_abs_le_abs_sub (∑ j ∈ Finset.range c, r j) (∑ j ∈ Finset.range c, q j)
      rw [abs_of_nonneg hQ0] at h2
      linarith
    have e : r' i * ∑ j ∈ Finset.range c, r j - q' i * ∑ j ∈ Finset.range c, q j
        = (r' i - q' i) * ∑ j ∈ Finset.range c, r j + q' i * (∑ j ∈ Finset.range c, r j - ∑ j ∈ Finset.range c, q j) := by ring
    rw [e]
    refine (abs_add_le _ _).trans (add_le_add ?_ ?_)
    · rw [abs_mul]
      exact mul_le_mul (by rw [hr']; exact hc _) hR (abs_nonneg _) (by norm_num)
    · rw [abs_mul, abs_of_nonneg (h0' i)]
      calc q' i * |∑ j ∈ Finset.range c, r j - ∑ j ∈ Finset.range c, q j| ≤ 1 * (c / 20000) := mul_le_mul hq1 hsum (abs_nonneg _) (by norm_num)
        _ = _ := one_mul _
  have a1 := one r q r' q' hr hr' h0 h0' h1 h1'
  have a2 := one r' q' r q hr' hr h0' h0 h1' h1
  rw [he] at a1
  have := abs_sub_le (r' i * ∑ j ∈ Finset.range c, r j) (q i * ∑ j ∈ Finset.range c, q' j) (r i * ∑ j ∈ Finset.range c, r' j)
  rw [abs_sub_comm (r i * _)] at a2
  have hcc : (0 : ℚ) ≤ c := Nat.cast_nonneg c
  have a2' : |q i * ∑ j ∈ Finset.range c, q' j - r i * ∑ j ∈ Finset.range c, r' j| ≤ 1 / 20000 * (1 + c / 20000) + c / 20000 := by
    rw [abs_sub_comm] at a2; rw [abs_sub_comm]; exact a2
  linarith

/-- The entries of an answer, with one assignment that agrees with the evidence. -/
theorem answer_entries {h : HashOrder N} {hE : HashOrder (N × A)} {bn : BayesNet N A} (w : bn.WF) {target : N} {ev : Dict N A} (hn : ev.keys.Nodup) {r : List ℚ}
    (hr : marginalVE h hE bn target ev = .ok r) {a : Asg N} (hag : bn.Agrees ev a) :
    r = (List.range (bn.cardOf target)).map (fun i => roundEven 4 (margOf bn (target :: ev.keys) (a.upd target i))) ∧
      ∑ i ∈ Finset.range (bn.cardOf target), margOf bn (target :: ev.keys) (a.upd target i) = margOf bn ev.keys a := by
  obtain ⟨ht, hte, hl, hlen, hv⟩ := C13_marginal_exact h hE bn w target ev hn r hr
  constructor
  · apply List.ext_getElem?
    intro i
    by_cases hi : i < bn.cardOf target
    · have := hv (a.upd target i) (by rw [Asg.upd_self]; exact hi) (agrees_upd hte hag i)
      rw [Asg.upd_self] at this
      rw [this, marginal_eq_marg]; simp [hi]
    · rw [List.getElem?_eq_none (by omega), List.getElem?_eq_none (by simp; omega)]
  · unfold margOf
    have hperm : (bn.V.filter fun v => v ∉ ev.keys).Perm (target :: bn.V.filter fun v => v ∉ target :: ev.keys) := by
      refine (List.perm_ext_iff_of_nodup (w.nodup.filter _) ?_).2 ?_
      · rw [List.nodup_cons]; exact ⟨by simp, w.nodup.filter _⟩
      · intro u
        simp only [List.mem_filter, List.mem_cons, decide_eq_true_eq]
        by_cases hu : u = target
        · subst hu; simp [ht, hte]
        · simp [hu]
    rw [sumAll_perm hperm _ (w.nodup.filter _)]
    rfl

/-- C197: observing further nodes that the evidence d-separates from the target does not change what `marginal_ve_e` says about the target: the two answers are
proportional, up to the rounding to four digits. -/
theorem C197_irrelevant_evidence (h h' : HashOrder N) (hE hE' : HashOrder (N × A)) (bn : BayesNet N A) (w : bn.WF) (hnn : bn.Nonneg) (hno : bn.Normalised) (hac : bn.Acyclic)
    (target : N) (more ev : Dict N A) (hn : (more.keys ++ ev.keys).Nodup) (hs : bn.Separates [target] more.keys ev.keys) (r r' : List ℚ)
    (hr : marginalVE h hE bn target ev = .ok r) (hr' : marginalVE h' hE' bn target (more ++ ev) = .ok r') :
    r.length = bn.cardOf target ∧ r'.length = bn.cardOf target ∧ ∀ (i : ℕ) (p p' : ℚ), r[i]? = some p → r'[i]? = some p' →
      |p' * r.sum - p * r'.sum| ≤ (bn.cardOf target + 1) / 9000 := by
  have hn0 : ev.keys.Nodup := (List.nodup_append.1 hn).2.1
  have hk : Dict.keys (more ++ ev : Dict N A) = more.keys ++ ev.keys := List.map_append
  obtain ⟨ht, hte', hl', hlen', -⟩ := C13_marginal_exact h' hE' bn w target (more ++ ev : Dict N A) (by rw [hk]; exact hn) r' hr'
  obtain ⟨-, hte, hl, hlen, -⟩ := C13_marginal_exact h hE bn w target ev hn0 r hr
  refine ⟨hlen, hlen', fun i p p' hp hp' => ?_⟩
  have hi : i < bn.cardOf target := by rw [← hlen]; exact (List.getElem?_eq_some_iff.1 hp).1
  obtain ⟨a, -, hag'⟩ := exists_agrees (i := 0) hte' hl'
  have hag : bn.Agrees ev a := fun e he => hag' e (List.mem_append_right _ he)
  obtain ⟨e1, s1⟩ := answer_entries w hn0 hr hag
  obtain ⟨e2, s2⟩ := answer_entries w (ev := (more ++ ev : Dict N A)) (by rw [hk]; exact hn) hr' hag'
  have hra : InRange bn.cardOf (more.keys ++ ev.keys) a := hk ▸ agrees_range w hl' hag'
  rw [hk] at e2 s2 hte'
  have key := rounded_ratio (c := bn.cardOf target) (i := i) hi (r := fun j => roundEven 4 (margOf bn (target :: ev.keys) (a.upd target j)))
    (r' := fun j => roundEven 4 (margOf bn (target :: (more.keys ++ ev.keys)) (a.upd target j))) (q := fun j => margOf bn (target :: ev.keys) (a.upd target j))
    (q' := fun j => margOf bn (target :: (more.keys ++ ev.keys)) (a.upd target j)) (fun _ => rfl) (fun _ => rfl)
    (fun j => sumAll_nonneg (joint_nonneg hnn) _) (fun j => sumAll_nonneg (joint_nonneg hnn) _)
    (by rw [s1]; exact margOf_le_one w hnn hno hac fun v hv => hra v (List.mem_append_right _ hv)) (by rw [s2]; exact margOf_le_one w hnn hno hac hra)
    (by
      rw [s1, s2]
      have hd := dsep_sound w hno hac (X := [target]) (S := ev.keys) (by simpa using hte) hs (a.upd target i) (by
        intro v hv
        by_cases hvt : v = target
        · subst hvt; rw [Asg.upd_self]; exact hi
        · rw [Asg.upd_ne _ _ hvt]
          rcases List.mem_cons.1 hv with h0 | h0
          · exact absurd h0 hvt
          · exact hra v h0)
      have b1 : margOf bn ev.keys (a.upd target i) = margOf bn ev.keys a := margOf_congr w fun u hu => by
        rw [Asg.upd_ne]; rintro rfl; exact hte hu
      have b2 : margOf bn (more.keys ++ ev.keys) (a.upd target i) = margOf bn (more.keys ++ ev.keys) a := margOf_congr w fun u hu => by
        rw [Asg.upd_ne]; rintro rfl; exact hte' hu
      rw [b1, b2] at hd
      exact hd)
  have l1 : r.sum = ∑ j ∈ Finset.range (bn.cardOf target), roundEven 4 (margOf bn (target :: ev.keys) (a.upd target j)) := by
    rw [e1, list_sum_range]
  have l2 : r'.sum = ∑ j ∈ Finset.range (bn.cardOf target), roundEven 4 (margOf bn (target :: (more.keys ++ ev.keys)) (a.upd target j)) := by
    rw [e2, list_sum_range]
  rw [l1, l2]
  rw [e1] at hp
  rw [e2] at hp'
  simp [hi] at hp hp'
  rw [← hp, ← hp']
  exact key

/-! ## C198 -/

/-- C198: the list `markov_blanket(bn)` gives for a node shields it from the rest of the network: given the nodes in the list, the node is independent of all the
others together. -/
theorem C198_blanket_shields (h : Heap N A) (b : HNet N) (hb : HNet.InBounds h b) (w : (HNet.deref h b).Struct) (wf : (HNet.deref h b).WF)
    (hno : (HNet.deref h b).Normalised) (hac : (HNet.deref h b).Acyclic) :
    ∃ h' mb, HNet.markovBlanket h b = .ok (h', mb) ∧ ∀ x ∈ (HNet.deref h b).V, ∃ e, mb.get? x = some e ∧
      CondIndep (HNet.deref h b) [x] ((HNet.deref h b).V.filter fun y => y ≠ x ∧ y ∉ h'.nm e) (h'.nm e) := by
  obtain ⟨h', mb, r1, r2, r3, r4⟩ := C43_markov_blanket h b hb w
  refine ⟨h', mb, r1, fun x hx => ?_⟩
  obtain ⟨e, he, hm⟩ := r3 x hx
  refine ⟨e, he, ?_⟩
  have hacy := acyclic_parents wf hac
  have hiff : ∀ y, DSep.InBlanket (HNet.deref h b).IsParent x y ↔ y ∈ h'.nm e := by
    intro y
    rw [hm y]
    unfold DSep.InBlanket BayesNet.InBlanket BayesNet.IsParent
    simp only [w.edges.iff]
  apply dsep_sound wf hno hac
  · simp only [List.mem_singleton, forall_eq]
    intro hxb
    rcases (hiff x).2 hxb with h0 | h0 | h0
    · exact hacy x (.single h0)
    · exact hacy x (.single h0)
    · exact h0.1 rfl
  · simp only [BayesNet.Separates, List.mem_singleton, forall_eq]
    intro y hy
    have hy' := (List.mem_filter.1 hy).2
    simp only [decide_eq_true_eq] at hy'
    exact DSep.blanket_sep hacy (fun h0 => hy'.1 h0.symm) (fun h0 => hy'.2 ((hiff y).1 h0)) fun v hv => (hiff v).1 hv

/-! ## C199 -/

/-- C199: for a faithful network, the tests "are these columns independent under the probability of the network?" are the perfect tests of the theorems about
the constraint-based learners. -/
theorem C199_true_tests_perfect (bn : BayesNet ℕ A) (w : bn.WF) (hno : bn.Normalised) (hac : bn.Acyclic) (hcol : ∀ v, v ∈ bn.V ↔ v < bn.V.length) (hf : Faithful bn)
    (gt : List ℕ → Bool) (hgt : ∀ x y S, (x :: y :: S).Nodup → (∀ v ∈ x :: y :: S, v ∈ bn.V) → (gt (x :: y :: S) = true ↔ CondIndep bn [x] [y] S)) :
    DSep.IsDag bn.V.length bn.IsParent ∧ DSep.FindsIndependence bn.V.length bn.IsParent gt ∧ DSep.FindsDependence bn.V.length bn.IsParent fun c => !gt c := by
  have h2 : DSep.FindsIndependence bn.V.length bn.IsParent gt := by
    intro x y S hn hl
    have hl' : ∀ v ∈ x :: y :: S, v ∈ bn.V := fun v hv => (hcol v).2 (hl v hv)
    rw [hgt x y S hn hl']
    constructor
    · intro hi
      exact hf x y S hn hl' hi
    · intro hs
      refine dsep_sound w hno hac ?_ ?_
      · simp at hn ⊢; exact hn.1.2
      · simpa [BayesNet.Separates] using hs
  refine ⟨⟨fun u v huv => ?_, acyclic_parents w hac⟩, h2, findsDependence_not h2⟩
  have hv := isParent_mem w huv
  exact ⟨(hcol u).1 (w.parents_mem v hv u huv), (hcol v).1 hv⟩

/-- C199: Grow-Shrink on a faithful network whose tests never err: every Markov blanket it returns is the true one. -/
theorem C199_gs_blanket (bn : BayesNet ℕ A) (w : bn.WF) (hno : bn.Normalised) (hac : bn.Acyclic) (hcol : ∀ v, v ∈ bn.V ↔ v < bn.V.length) (hf : Faithful bn)
    (lt : List ℕ → Bool) (hlt : ∀ x y S, (x :: y :: S).Nodup → (∀ v ∈ x :: y :: S, v ∈ bn.V) → (lt (x :: y :: S) = true ↔ ¬ CondIndep bn [x] [y] S))
    (x : ℕ) (hx : x ∈ bn.V) (fuel : ℕ) (B : List ℕ) (h : Constraint.gsBlanket lt bn.V.length fuel x = .ok B) :
    B.Nodup ∧ ∀ y, y ∈ B ↔ DSep.InBlanket bn.IsParent x y := by
  obtain ⟨h1, h2, h3⟩ := C199_true_tests_perfect bn w hno hac hcol hf (fun c => !lt c) (fun x y S hn hl => by
    have := hlt x y S hn hl
    cases hc : lt (x :: y :: S) <;> simp_all)
  simp only [Bool.not_not] at h3
  exact C179_gs_blanket h1 h3 ((hcol x).1 hx) h

/-- C199: … and if they are all returned, the undirected graph Grow-Shrink goes on with is the skeleton of the network. -/
theorem C199_gs_skeleton (bn : BayesNet ℕ A) (w : bn.WF) (hno : bn.Normalised) (hac : bn.Acyclic) (hcol : ∀ v, v ∈ bn.V ↔ v < bn.V.length) (hf : Faithful bn)
    (lt gt : List ℕ → Bool) (hlt : ∀ x y S, (x :: y :: S).Nodup → (∀ v ∈ x :: y :: S, v ∈ bn.V) → (lt (x :: y :: S) = true ↔ ¬ CondIndep bn [x] [y] S))
    (hgt : ∀ x y S, (x :: y :: S).Nodup → (∀ v ∈ x :: y :: S, v ∈ bn.V) → (gt (x :: y :: S) = true ↔ CondIndep bn [x] [y] S)) (fuel : ℕ) (mb : Dict ℕ (List ℕ))
    (h : Constraint.gsBlankets lt bn.V.length fuel = .ok mb) :
    ∃ e, Constraint.resolve gt bn.V.length mb = .ok e ∧ ∀ x y, y ∈ nb e x ↔ bn.IsParent x y ∨ bn.IsParent y x := by
  obtain ⟨h1, h2, -⟩ := C199_true_tests_perfect bn w hno hac hcol hf gt hgt
  obtain ⟨-, -, h3⟩ := C199_true_tests_perfect bn w hno hac hcol hf (fun c => !lt c) (fun x y S hn hl => by
    have := hlt x y S hn hl
    cases hc : lt (x :: y :: S) <;> simp_all)
  simp only [Bool.not_not] at h3
  obtain ⟨e, e1, -, e3⟩ := C181_gs_skeleton_partial h1 h3 h2 h
  exact ⟨e, e1, e3⟩

/-- `exNet` (0 → 2 ← 1) is faithful, and its columns are its nodes. -/
theorem exNet_faithful : Faithful exNet := by
  intro x y S hn hl hi
  have hP : exNet.IsParent = collP := by
    funext u v
    apply propext
    unfold BayesNet.IsParent collP
    by_cases hv : v = 2
    · subst hv; simp [exNet, BayesNet.parentsOf, Dict.get?]
    · simp only [hv, and_false, iff_false]
      intro hu
      have hvV := isParent_mem exNet_wf hu
      simp [exNet] at hvV
      rcases hvV with rfl | rfl | rfl
      · simp [exNet, BayesNet.parentsOf, Dict.get?] at hu
      · simp [exNet, BayesNet.parentsOf, Dict.get?] at hu
      · exact hv rfl
  have hlt : ∀ v ∈ x :: y :: S, v < 3 := by
    intro v hv
    have := hl v hv
    simp [exNet] at this
    omega
  rw [hP, ← coll_findsIndependence x y S hn hlt]
  have hm := three_lists hn hlt
  simp only [List.mem_cons, List.not_mem_nil, or_false, List.cons.injEq] at hm
  have dep : ∀ (X Y S : List ℕ) (l : List ℕ), InRange exNet.cardOf (X ++ Y ++ S) (fun v => l.getD v 0) →
      margOf exNet (X ++ Y ++ S) (fun v => l.getD v 0) * margOf exNet S (fun v => l.getD v 0) ≠ margOf exNet (X ++ S) (fun v => l.getD v 0) * margOf exNet (Y ++ S) (fun v => l.getD v 0) →
      ¬ CondIndep exNet X Y S := fun X Y S l h1 h2 h3 => h2 (h3 _ h1)
  rcases hm with ⟨rfl, rfl, rfl⟩ | ⟨rfl, rfl, rfl⟩ | ⟨rfl, rfl, rfl⟩ | ⟨rfl, rfl, rfl⟩ | ⟨rfl, rfl, rfl⟩ | ⟨rfl, rfl, rfl⟩ | ⟨rfl, rfl, rfl⟩ | ⟨rfl, rfl, rfl⟩ |
    ⟨rfl, rfl, rfl⟩ | ⟨rfl, rfl, rfl⟩ | ⟨rfl, rfl, rfl⟩ | ⟨rfl, rfl, rfl⟩
  all_goals first
    | decide
    | exact absurd hi (dep _ _ _ [0, 0, 0] (by unfold InRange; decide) (by decide +kernel))

theorem parentsFirst_acyclic {bn : BayesNet N A} (h : bn.ParentsFirst) : bn.Acyclic := ⟨bn.V, .refl _, h⟩

example : exNet.WF ∧ exNet.Normalised ∧ exNet.Acyclic ∧ (∀ v, v ∈ exNet.V ↔ v < exNet.V.length) ∧ Faithful exNet :=
  ⟨exNet_wf, exNet_normalised, parentsFirst_acyclic exNet_parentsFirst, fun v => by simp [exNet]; omega, exNet_faithful⟩

/-- The hypotheses of `C198_blanket_shields` are met by `exNet` as built by the constructor. -/
example : HNet.InBounds (HNet.fresh exNet).1 (HNet.fresh exNet).2 ∧ (HNet.deref (HNet.fresh exNet).1 (HNet.fresh exNet).2).Struct ∧
    (HNet.deref (HNet.fresh exNet).1 (HNet.fresh exNet).2).WF ∧ (HNet.deref (HNet.fresh exNet).1 (HNet.fresh exNet).2).Normalised ∧
    (HNet.deref (HNet.fresh exNet).1 (HNet.fresh exNet).2).Acyclic := by
  rw [HNet.fresh_deref]
  exact ⟨HNet.fresh_inBounds _, exNet_struct, exNet_wf, exNet_normalised, parentsFirst_acyclic exNet_parentsFirst⟩

/-! ## C200 -/

/-- C200: the answer to a query depends only on the tables of the ancestors of the target and the observed nodes: two networks that agree on those (whatever
else they contain) never give different answers. -/
theorem C200_only_ancestors_matter (h h' : HashOrder N) (hE hE' : HashOrder (N × A)) (bn bn' : BayesNet N A) (w : bn.WF) (w' : bn'.WF) (hno : bn.Normalised)
    (hno' : bn'.Normalised) (hac : bn.Acyclic) (hac' : bn'.Acyclic) (target : N) (ev : Dict N A) (hn : ev.keys.Nodup)
    (hsame : ∀ v, (∃ t ∈ target :: ev.keys, ReflTransGen bn.IsParent v t) → bn'.F.get? v = bn.F.get? v) (r r' : List ℚ)
    (hr : marginalVE h hE bn target ev = .ok r) (hr' : marginalVE h' hE' bn' target ev = .ok r') : r' = r := by
  obtain ⟨ht, hte, hl, hlen, hv⟩ := C13_marginal_exact h hE bn w target ev hn r hr
  obtain ⟨ht', hte', hl', hlen', hv'⟩ := C13_marginal_exact h' hE' bn' w' target ev hn r' hr'
  have hT : ∀ t ∈ target :: ev.keys, bn'.F.get? t = bn.F.get? t := fun t ht => hsame t ⟨t, ht, .refl⟩
  have hc : bn'.cardOf target = bn.cardOf target := by unfold BayesNet.cardOf; rw [hT target (by simp)]
  apply List.ext_getElem?
  intro i
  by_cases hi : i < bn.cardOf target
  · obtain ⟨a, hai, hag⟩ := exists_agrees (i := i) hte hl
    subst hai
    have hag' : bn'.Agrees ev a := by
      intro e he
      have : bn'.valuesOf e.1 = bn.valuesOf e.1 := by unfold BayesNet.valuesOf; rw [hT e.1 (List.mem_cons_of_mem _ (List.mem_map.2 ⟨e, he, rfl⟩))]
      rw [this]; exact hag e he
    rw [hv a hi hag, hv' a (by rw [hc]; exact hi) hag', marginal_eq_marg, marginal_eq_marg]
    have hra : InRange bn.cardOf (target :: ev.keys) a := by
      intro v hv
      rcases List.mem_cons.1 hv with rfl | hv
      · exact hi
      · exact agrees_range w hl hag v hv
    rw [margOf_ancestors w w' hno hno' hac hac' hsame hra]
  · rw [List.getElem?_eq_none (by omega), List.getElem?_eq_none (by omega)]

/-- C200: … and for two networks with the same graph the query is answered for both or for neither. -/
theorem C200_same_graph (h h' : HashOrder N) (hE hE' : HashOrder (N × A)) (bn bn' : BayesNet N A) (w : bn.WF) (w' : bn'.WF) (hno : bn.Normalised)
    (hno' : bn'.Normalised) (hac : bn.Acyclic) (target : N) (ev : Dict N A) (ht : target ∈ bn.V) (hte : target ∉ ev.keys) (hl : bn.LegalEvidence ev)
    (hV : bn'.V = bn.V) (hp : ∀ v ∈ bn.V, bn'.parentsOf v = bn.parentsOf v)
    (hsame : ∀ v, (∃ t ∈ target :: ev.keys, ReflTransGen bn.IsParent v t) → bn'.F.get? v = bn.F.get? v) :
    marginalVE h' hE' bn' target ev = marginalVE h hE bn target ev := by
  have hac' : bn'.Acyclic := by
    obtain ⟨o, h1, h2⟩ := hac
    refine ⟨o, by rw [hV]; exact h1, fun o1 v o2 e p hpv => ?_⟩
    have hvV : v ∈ bn.V := h1.mem_iff.1 (by rw [e]; simp)
    rw [hp v hvV] at hpv
    exact h2 o1 v o2 e p hpv
  have hl' : bn'.LegalEvidence ev := ⟨hl.nodup, fun e he => by
    have hg := hsame e.1 ⟨e.1, List.mem_cons_of_mem _ (List.mem_map.2 ⟨e, he, rfl⟩), .refl⟩
    have : bn'.valuesOf e.1 = bn.valuesOf e.1 := by unfold BayesNet.valuesOf; rw [hg]
    rw [hV, this]; exact hl.legal e he⟩
  have a1 := C52_answered_iff h hE bn w target ev ht hte hl
  have a2 := C52_answered_iff h' hE' bn' w' target ev (by rw [hV]; exact ht) hte hl'
  by_cases hlk : ∀ u ∈ bn.V, ∀ v ∈ bn.V, bn.Linked (bn.V.filter fun v => v ≠ target ∧ v ∉ ev.keys) u v
  · obtain ⟨r, hr⟩ := a1.1 hlk
    obtain ⟨r', hr'⟩ := a2.1 (by rw [hV]; exact fun u hu v hv => (Linked.transfer hV hp hu (hlk u hu v hv)).1)
    rw [hr, hr', C200_only_ancestors_matter h h' hE hE' bn bn' w w' hno hno' hac hac' target ev hl.nodup hsame r r' hr hr']
  · rw [a1.2 hlk, a2.2 fun hlk' => hlk fun u hu v hv => (Linked.transfer (bn := bn') hV.symm (fun v hv => (hp v (hV ▸ hv)).symm) (hV ▸ hu) (hV ▸ (hlk' u (hV ▸ hu) v (hV ▸ hv)))).1]

/-! ### An example -/

/-- 2 ← 0 → 3 ← 1 → 4, with a given table for node 3. -/
def exW (t : List ℚ) : BayesNet ℕ ℕ where
  V := [0, 1, 2, 3, 4]
  E := [(0, [2, 3]), (1, [3, 4]), (2, []), (3, []), (4, [])]
  F := [(0, ⟨[], [0, 1], [1/4, 3/4]⟩), (1, ⟨[], [0, 1], [1/2, 1/2]⟩), (2, ⟨[0], [0, 1], [1/5, 4/5, 2/5, 3/5]⟩), (3, ⟨[0, 1], [0, 1], t⟩),
        (4, ⟨[1], [0, 1], [1/10, 9/10, 3/10, 7/10]⟩)]

def exT1 : List ℚ := [1/2, 1/2, 1/3, 2/3, 1, 0, 0, 1]
def exT2 : List ℚ := [1/5, 4/5, 1, 0, 1, 0, 1/2, 1/2]

theorem exW_wf1 : (exW exT1).WF := .of_dec _ (by decide) (by decide)
theorem exW_wf2 : (exW exT2).WF := .of_dec _ (by decide) (by decide)
theorem exW_nonneg : (exW exT1).Nonneg := by unfold BayesNet.Nonneg; decide +kernel

theorem exW_mem {t : List ℚ} {v : ℕ} (hv : v ∈ (exW t).V) : v = 0 ∨ v = 1 ∨ v = 2 ∨ v = 3 ∨ v = 4 := by simpa [exW] using hv

theorem exW_acyclic (t : List ℚ) : (exW t).Acyclic := by
  refine parentsFirst_acyclic ?_
  intro pre v post h
  rcases pre with _ | ⟨a, _ | ⟨b, _ | ⟨c, _ | ⟨d, _ | ⟨e, pre⟩⟩⟩⟩⟩ <;> simp [exW] at h
  · obtain ⟨rfl, _⟩ := h; simp [exW, BayesNet.parentsOf, Dict.get?]
  · obtain ⟨rfl, rfl, _⟩ := h; simp [exW, BayesNet.parentsOf, Dict.get?]
  · obtain ⟨rfl, rfl, rfl, _⟩ := h; simp [exW, BayesNet.parentsOf, Dict.get?]
  · obtain ⟨rfl, rfl, rfl, rfl, _⟩ := h; simp [exW, BayesNet.parentsOf, Dict.get?]
  · obtain ⟨rfl, rfl, rfl, rfl, rfl, _⟩ := h; simp [exW, BayesNet.parentsOf, Dict.get?]

theorem exW_normalised {t : List ℚ} (ht : ∀ x < 2, ∀ y < 2, ∑ z ∈ Finset.range 2, (t[z + 2 * (x + 2 * (y + 2 * 0))]?).getD 0 = 1) : (exW t).Normalised := by
  intro v hv a ha
  rcases exW_mem hv with rfl | rfl | rfl | rfl | rfl
  · simp [exW, BayesNet.cardOf, BayesNet.prob, BayesNet.cptOf, BayesNet.parentsOf, Dict.get?, Finset.sum_range_succ, enc, Asg.upd]; norm_num
  · simp [exW, BayesNet.cardOf, BayesNet.prob, BayesNet.cptOf, BayesNet.parentsOf, Dict.get?, Finset.sum_range_succ, enc, Asg.upd]; norm_num
  · have h0 : a 0 < 2 := ha 0 (by simp [exW, BayesNet.parentsOf, Dict.get?])
    have key : ∀ x < 2, ∑ z ∈ Finset.range 2, (([1/5, 4/5, 2/5, 3/5] : List ℚ)[z + 2 * (x + 2 * 0)]?).getD 0 = 1 := by decide +kernel
    exact key (a 0) h0
  · exact ht (a 0) (ha 0 (by simp [exW, BayesNet.parentsOf, Dict.get?])) (a 1) (ha 1 (by simp [exW, BayesNet.parentsOf, Dict.get?]))
  · have h0 : a 1 < 2 := ha 1 (by simp [exW, BayesNet.parentsOf, Dict.get?])
    have key : ∀ x < 2, ∑ z ∈ Finset.range 2, (([1/10, 9/10, 3/10, 7/10] : List ℚ)[z + 2 * (x + 2 * 0)]?).getD 0 = 1 := by decide +kernel
    exact key (a 1) h0

theorem exW_arcs (t : List ℚ) {u v : ℕ} : (exW t).IsParent u v ↔ (u = 0 ∧ v = 2) ∨ (u = 0 ∧ v = 3) ∨ (u = 1 ∧ v = 3) ∨ (u = 1 ∧ v = 4) := by
  unfold BayesNet.IsParent
  by_cases hv : v < 5
  · interval_cases v <;> simp [exW, BayesNet.parentsOf, Dict.get?]
  · have : (exW t).parentsOf v = [] := by
      have h0 : ∀ k < 5, ¬ k = v := fun k hk => by omega
      simp [exW, BayesNet.parentsOf, Dict.get?, h0]
    rw [this]; simp; omega

/-- The ends of the W are separated as long as the node in the middle is not observed. -/
theorem exW_separated : (exW exT1).Separates [4] [2] [] := by
  simp only [BayesNet.Separates, List.mem_singleton, forall_eq]
  rintro ⟨l, h1, h2, t⟩
  have adj : ∀ {u v : ℕ}, DSep.Adjacent (exW exT1).IsParent u v → (u = 0 ∧ v = 2) ∨ (u = 0 ∧ v = 3) ∨ (u = 1 ∧ v = 3) ∨ (u = 1 ∧ v = 4) ∨
      (u = 2 ∧ v = 0) ∨ (u = 3 ∧ v = 0) ∨ (u = 3 ∧ v = 1) ∨ (u = 4 ∧ v = 1) := by
    intro u v h
    rcases h with h | h <;> rw [exW_arcs] at h <;> omega
  rcases l with _ | ⟨v0, _ | ⟨v1, l⟩⟩
  · simp at h1
  · simp at h1 h2; omega
  simp at h1
  subst h1
  have hc := t.chain
  have hn := t.nodup
  rw [List.isChain_cons_cons] at hc
  have e1 : v1 = 1 := by have := adj hc.1; omega
  subst e1
  rcases l with _ | ⟨v2, l⟩
  · simp at h2
  have hc2 := hc.2
  rw [List.isChain_cons_cons] at hc2
  have e2 : v2 = 3 := by
    have h3 := adj hc2.1
    have : v2 ≠ 4 := by rintro rfl; simp at hn
    omega
  subst e2
  rcases l with _ | ⟨v3, l⟩
  · simp at h2
  have hc3 := hc2.2
  rw [List.isChain_cons_cons] at hc3
  have e3 : v3 = 0 := by
    have h3 := adj hc3.1
    have : v3 ≠ 1 := by rintro rfl; simp at hn
    omega
  subst e3
  obtain ⟨s, hs, -⟩ := t.collider [4] 1 3 0 l rfl ((exW_arcs _).2 (by omega)) ((exW_arcs _).2 (by omega))
  simp at hs

/-- The two queries of `C197_irrelevant_evidence` are answered: node 4 without evidence, and given node 2. -/
example : marginalVE .id .id (exW exT1) 4 [] = .ok [1/5, 4/5] ∧ marginalVE .id .id (exW exT1) 4 [(2, 0)] = .ok [7/100, 7/25] := by decide +kernel

/-- … and the answers are those theorems give with the other table for node 3, which is no ancestor of 2 and 4. -/
example : (exW exT1).Normalised ∧ (exW exT2).Normalised ∧ (∀ v ∈ (exW exT1).V, (exW exT2).parentsOf v = (exW exT1).parentsOf v) ∧
    (∀ v, (∃ t ∈ [4, 2], ReflTransGen (exW exT1).IsParent v t) → (exW exT2).F.get? v = (exW exT1).F.get? v) ∧ (exW exT2).F.get? 3 ≠ (exW exT1).F.get? 3 := by
  refine ⟨exW_normalised (by decide +kernel), exW_normalised (by decide +kernel), by decide, ?_, by decide +kernel⟩
  intro v ⟨t, ht, h⟩
  have hne : v ≠ 3 := by
    rintro rfl
    rcases h.cases_head with h | ⟨c, h, _⟩
    · subst h; simp at ht
    · rw [exW_arcs] at h; omega
  simp only [exW, Dict.get?]
  split_ifs <;> first | rfl | omega

end PyBN
