import Verif.Props.FactorizationOps

/-!
# C187: marginal MAP with the operators of a `Factorization`
-/

set_option linter.unusedSectionVars false

namespace PyBN
open Factorization Classical
variable {N A : Type _} [DecidableEq N] [DecidableEq A]

theorem steps_evidence (h : HashOrder N) {bn : BayesNet N A} : ∀ (es : List (N × A)) {p p' : Factorization N A} {order order' : List N},
    applyEvidence h bn es p order = .ok (p', order') →
    steps h bn p (es.map fun e => .reduce e.1 e.2) = (p', es.map fun _ => none) := by
  intro es
  induction es with
  | nil => intro p p' order order' e; cases e; rfl
  | cons e es ih =>
    intro p p' order order' he
    obtain ⟨v, x⟩ := e
    rw [applyEvidence] at he
    cases h1 : p.sub h bn v x with
    | error y => rw [h1] at he; cases he
    | ok p1 =>
      rw [h1] at he
      cases h2 : pyRemove order v with
      | error y => rw [h2] at he; cases he
      | ok o1 =>
        rw [h2] at he
        have h3 := ih he
        have h4 : step h bn p (.reduce v x) = (p1, none) := by
          unfold Factorization.sub at h1
          cases h5 : reducePhi h bn v x p.phi with
          | error y => rw [h5] at h1; cases h1
          | ok phi => rw [h5] at h1; cases h1; simp [step, reducePhiS_ok h h5]
        simp [steps, h4, h3]

theorem steps_sums (h : HashOrder N) {bn : BayesNet N A} : ∀ (vs : List N) {p p' : Factorization N A},
    sumElimAll h vs p = .ok p' → steps h bn p (vs.map .sumOut) = (p', vs.map fun _ => none) := by
  intro vs
  induction vs with
  | nil => intro p p' e; cases e; rfl
  | cons v vs ih =>
    intro p p' he
    rw [sumElimAll] at he
    cases h1 : p.sumElim h v with
    | error y => rw [h1] at he; cases he
    | ok p1 =>
      rw [h1] at he
      have h3 := ih he
      have h4 : step h bn p (.sumOut v) = (p1, none) := by simp [step, h1]
      simp [steps, h4, h3]

theorem steps_maxes (h : HashOrder N) {bn : BayesNet N A} : ∀ (vs : List N) {p p' : Factorization N A},
    maxElimAll h vs p = .ok p' → steps h bn p (vs.map .maxOut) = (p', vs.map fun _ => none) := by
  intro vs
  induction vs with
  | nil => intro p p' e; cases e; rfl
  | cons v vs ih =>
    intro p p' he
    rw [maxElimAll] at he
    cases h1 : p.maxElim h v with
    | error y => rw [h1] at he; cases he
    | ok p1 =>
      rw [h1] at he
      have h3 := ih he
      have h4 : step h bn p (.maxOut v) = (p1, none) := by simp [step, h1]
      simp [steps, h4, h3]

theorem sumAll_merge {c : N → ℕ} {F : Asg N → ℚ} {M : Asg N → Asg N} : ∀ (vs : List N), (∀ v ∈ vs, ∀ a x, M (a.upd v x) = (M a).upd v x) →
    ∀ a, sumAll c vs (fun b => F (M b)) a = sumAll c vs F (M a) := by
  intro vs
  induction vs with
  | nil => intro _ a; rfl
  | cons v vs ih =>
    intro hM a
    simp only [sumAll]
    refine Finset.sum_congr rfl fun x _ => ?_
    rw [ih fun u hu => hM u (by simp [hu]), hM v (by simp)]

/-- C187: reduce by the evidence, sum out some nodes, maximise out the others, each in any order, then call `traceback_map()`: it returns the
evidence together with values of the maximised nodes that are jointly most probable given the evidence, the summed nodes being
marginalised. -/
theorem C187_marginal_map (h : HashOrder N) (bn : BayesNet N A) (wb : bn.WF) (nn : bn.Nonneg) (ev : Dict N A) (sums maxes : List N)
    (hev : bn.LegalEvidence ev) (hpart : (ev.keys ++ sums ++ maxes).Perm bn.V) :
    ∃ p q asg x, initNodes bn none = .ok p ∧
      steps h bn p (ev.map (fun e => .reduce e.1 e.2) ++ sums.map .sumOut ++ maxes.map .maxOut) =
        (q, bn.V.map fun _ => none) ∧
      traceback h bn q.mapAssignment q.mapFactors = .ok asg ∧
      bn.Agrees ev x ∧ InRange bn.cardOf maxes x ∧
      (∀ u ∈ maxes, asg.get? u = (bn.valuesOf u)[x u]?) ∧ (∀ e ∈ ev, asg.get? e.1 = some e.2) ∧ (∀ u ∈ sums, asg.get? u = none) ∧
      ∀ b, bn.Agrees ev b → InRange bn.cardOf maxes b → sumAll bn.cardOf sums bn.joint b ≤ sumAll bn.cardOf sums bn.joint x := by
  have hnd : (ev.keys ++ sums ++ maxes).Nodup := hpart.nodup_iff.2 wb.nodup
  have hnd1 := List.nodup_append.1 hnd
  have hnd2 := List.nodup_append.1 hnd1.1
  have hmemV : ∀ u, u ∈ bn.V ↔ (u ∈ ev.keys ∨ u ∈ sums) ∨ u ∈ maxes := fun u => by
    rw [← hpart.mem_iff, List.mem_append, List.mem_append]
  have hkeys : ev.keys = ev.map Prod.fst := rfl
  obtain ⟨p0, p1, e0, e1, mf1, ma1, r1⟩ := start_ok h wb ev bn.V hev.nodup hev.legal (fun e he => (hev.legal e he).1) wb.nodup
  have s1 := steps_evidence h ev e1
  have hm1 : ∀ u, Mentions p1.phi u ↔ u ∈ sums ∨ u ∈ maxes := by
    intro u
    rw [restr_mentions r1]
    constructor
    · rintro ⟨hu, v, hv, huv⟩
      have huV : u ∈ bn.V := by
        rcases List.mem_cons.1 huv with rfl | h0
        · exact hv
        · exact wb.parents_mem v hv u h0
      rcases (hmemV u).1 huV with (h0 | h0) | h0
      · exact absurd h0 hu
      · exact .inl h0
      · exact .inr h0
    · rintro (hu | hu)
      · exact ⟨fun hk => hnd2.2.2 u hk u hu rfl, u, (hmemV u).2 (.inl (.inr hu)), by simp [BayesNet.fam]⟩
      · exact ⟨fun hk => hnd1.2.2 u (List.mem_append_left _ hk) u hu rfl, u, (hmemV u).2 (.inr hu), by simp [BayesNet.fam]⟩
  obtain ⟨p2, e2, ch2, w2, m2, v2⟩ := sumElimAll_ok h sums p1 (restr_wf r1) hnd2.2.1 fun v hv => (hm1 v).2 (.inl hv)
  have s2 := steps_sums h (bn := bn) sums e2
  have hm2 : ∀ u, Mentions p2.phi u ↔ u ∈ maxes := by
    intro u
    rw [m2, hm1]
    exact ⟨fun hu => hu.2.resolve_left hu.1, fun hu => ⟨fun h0 => hnd1.2.2 u (List.mem_append_right _ h0) u hu rfl, .inr hu⟩⟩
  have hat : ∀ (vs : List N) {p p' : Factorization N A}, sumElimAll h vs p = .ok p' →
      p'.mapFactors = p.mapFactors ∧ p'.mapAssignment = p.mapAssignment := by
    intro vs
    induction vs with
    | nil => intro p p' e; cases e; exact ⟨rfl, rfl⟩
    | cons v vs ih =>
      intro p p' e
      rw [sumElimAll] at e
      cases h1 : p.sumElim h v with
      | error y => rw [h1] at e; cases e
      | ok p1 =>
        rw [h1] at e
        obtain ⟨i1, i2⟩ := ih e
        unfold sumElim at h1
        cases h2 : relProduct h p.phi v with
        | error y => rw [h2] at h1; cases h1
        | ok psi =>
          rw [h2] at h1
          simp only [Py.bind_ok] at h1
          cases h3 : psi.sumout h v with
          | error y => rw [h3] at h1; cases h1
          | ok psi' => rw [h3] at h1; cases h1; exact ⟨i1, i2⟩
  obtain ⟨a1, a2⟩ := hat sums e2
  -- non-negativity, from the history invariant
  have hp0 : initNodes bn none = .ok p0 := e0
  obtain ⟨phi0, e0', H0⟩ := init_holds wb nn (nodes := bn.V) fun _ h => h
  have hp0' : p0 = ⟨phi0, [], []⟩ := by
    have : initNodes bn none = .ok ⟨phi0, [], []⟩ := by simp [initNodes, e0']
    rw [hp0] at this; cases this; rfl
  have H2 := (steps_holds h wb nn (ev.map (fun e => .reduce e.1 e.2) ++ sums.map .sumOut) H0).2
  rw [← hp0', steps_append, s1] at H2
  simp only [s2] at H2
  obtain ⟨q, mf, e3, m3, ma3, k3, ch3, w3, nm3, tb⟩ := maxElimAll_ok h wb maxes p2 w2 H2.nonneg hnd1.2.1
    (fun v hv => (hmemV v).2 (.inr hv)) hm2 (fun v _ => by rw [a1, mf1]; simp [Dict.keys])
  have s3 := steps_maxes h (bn := bn) maxes e3
  obtain ⟨asg, x, t1, g1, xr, mx, _, _⟩ := tb q.mapAssignment
  -- an index for every observed value
  have hidx : ∃ t : Asg N, bn.Agrees ev t := by
    have hg : ∀ v : N, ∃ i : ℕ, ∀ e ∈ ev, e.1 = v → (bn.valuesOf v)[i]? = some e.2 := by
      intro v
      by_cases hv : v ∈ ev.map Prod.fst
      · obtain ⟨e, he, hev1⟩ := List.mem_map.1 hv
        obtain ⟨i, hi, hi2⟩ := List.mem_iff_getElem.1 (hev.legal e he).2
        refine ⟨i, fun e' he' he1 => ?_⟩
        have : e' = e := by
          have h1 := Dict.get?_of_mem (d := ev) hev.nodup (k := e.1) (v := e.2) he
          have h2 := Dict.get?_of_mem (d := ev) hev.nodup (k := e'.1) (v := e'.2) he'
          rw [he1, ← hev1, h1] at h2
          exact Prod.ext (he1.trans hev1.symm) (Option.some.inj h2).symm
        subst this
        rw [← hev1, List.getElem?_eq_getElem hi, hi2]
      · exact ⟨0, fun e he hev1 => absurd (List.mem_map.2 ⟨e, he, hev1⟩) hv⟩
    choose t ht using hg
    exact ⟨t, fun e he => ht e.1 e he rfl⟩
  obtain ⟨t, htag⟩ := hidx
  let merge : Asg N → Asg N := fun a u => if u ∈ ev.map Prod.fst then t u else a u
  have hmag : ∀ a, bn.Agrees ev (merge a) := by
    intro a e he
    have hm : merge a e.1 = t e.1 := if_pos (List.mem_map.2 ⟨e, he, rfl⟩)
    rw [hm]; exact htag e he
  have hmoff : ∀ a u, u ∉ ev.map Prod.fst → merge a u = a u := fun a u hu => if_neg hu
  have hsum : ∀ a, InRange bn.cardOf maxes a → prodVal p2.phi a = sumAll bn.cardOf sums bn.joint (merge a) := by
    intro a ha
    rw [v2 a fun u hu => ha u ((hm2 u).1 hu), sumAll_perm (List.reverse_perm sums) _ (List.nodup_reverse.2 hnd2.2.1)]
    rw [← sumAll_merge sums (M := merge)]
    · refine sumAll_congr (fun b hb hr => ?_) hnd2.2.1
      refine restr_prod r1 b (merge b) (fun u hu => ?_) (hmoff b) (hmag b)
      rcases (hm1 u).1 hu with h0 | h0
      · exact hr u h0
      · rw [hb u fun h1 => hnd1.2.2 u (List.mem_append_right _ h1) u h0 rfl]; exact ha u h0
    · intro v hv a x
      funext u
      have hvk : v ∉ ev.map Prod.fst := fun hk => hnd2.2.2 v hk v hv rfl
      by_cases huv : u = v
      · subst huv; rw [Asg.upd_self, hmoff _ _ hvk, Asg.upd_self]
      · rw [Asg.upd_ne _ _ huv]
        by_cases huk : u ∈ ev.map Prod.fst
        · show (if _ then _ else _) = (if _ then _ else _)
          rw [if_pos huk, if_pos huk]
        · rw [hmoff _ _ huk, hmoff _ _ huk, Asg.upd_ne _ _ huv]
  have hself : ∀ b, bn.Agrees ev b → merge b = b := by
    intro b hb
    funext u
    by_cases huk : u ∈ ev.map Prod.fst
    · obtain ⟨e, he, rfl⟩ := List.mem_map.1 huk
      have h1 := hb e he
      have h2 := hmag b e he
      obtain ⟨l1, q1⟩ := List.getElem?_eq_some_iff.1 h1
      obtain ⟨l2, q2⟩ := List.getElem?_eq_some_iff.1 h2
      exact (List.Nodup.getElem_inj_iff (wb.values_nodup e.1 (hev.legal e he).1)).1 (q2.trans q1.symm)
    · exact hmoff b u huk
  have hxr : InRange bn.cardOf maxes x := fun u hu => (xr u hu).1
  have hmk : ∀ u ∈ maxes, u ∉ ev.map Prod.fst := fun u hu hk => hnd1.2.2 u (List.mem_append_left _ hk) u hu rfl
  have hget : ∀ v, q.mapAssignment.get? v = Dict.get? ev v := by
    intro v; rw [ma3, a2, ma1, Dict.get?_update (e := ev) hev.nodup]; cases Dict.get? ev v <;> simp
  refine ⟨p0, q, asg, merge x, hp0, ?_, ?_, hmag x, ?_, ?_, ?_, ?_, ?_⟩
  · rw [steps_append, steps_append, s1]
    simp only [s2, s3]
    congr 1
    have hl : bn.V.length = ev.length + sums.length + maxes.length := by
      rw [← hpart.length_eq, List.length_append, List.length_append, hkeys, List.length_map]
    simp only [List.map_const', hl, List.replicate_add]
  · rw [m3, a1, mf1, List.nil_append]; exact t1
  · intro u hu; rw [hmoff x u (hmk u hu)]; exact hxr u hu
  · intro u hu; rw [hmoff x u (hmk u hu)]; exact (xr u hu).2
  · intro e he
    have hek : e.1 ∉ maxes := fun hu => hmk e.1 hu (List.mem_map.2 ⟨e, he, rfl⟩)
    rw [g1 e.1 hek, hget, Dict.get?_of_mem (d := ev) hev.nodup (k := e.1) (v := e.2) he]
  · intro u hu
    have hum : u ∉ maxes := fun h0 => hnd1.2.2 u (List.mem_append_right _ hu) u h0 rfl
    rw [g1 u hum, hget]
    cases hg : Dict.get? ev u with
    | none => rfl
    | some y =>
      exact absurd rfl (hnd2.2.2 u (Dict.mem_keys_iff.2 (by rw [hg]; rfl)) u hu)
  · intro b hb hbr
    have h1 := mx b fun u hu => hbr u ((hm2 u).1 hu)
    rw [hsum b hbr, hsum x hxr, hself b hb] at h1
    exact h1

/-- The three kinds of node of C187 on the three-node example: node 0 observed, node 1 summed out, node 2 maximised. -/
example : exNet.LegalEvidence [(0, 10)] ∧ (Dict.keys [((0 : ℕ), (10 : ℕ))] ++ [1] ++ [2]).Perm exNet.V :=
  ⟨⟨by decide, by decide⟩, by decide⟩

/-- C187 needs the sums to come first: `F // 0`, `F / 1`, `F / 2` are all carried out, but `traceback_map()` then raises `IndexError`,
because the table kept for node 0 still mentions the summed nodes. -/
theorem C187_sum_after_max : ∃ (p q : Factorization ℕ ℕ), initNodes exNet none = .ok p ∧
    steps ⟨id, fun _ => List.Perm.refl _⟩ exNet p [.maxOut 0, .sumOut 1, .sumOut 2] = (q, [none, none, none]) ∧
    traceback ⟨id, fun _ => List.Perm.refl _⟩ exNet q.mapAssignment q.mapFactors = .error .indexError := by
  obtain ⟨p, hp, h⟩ := Py.of_okAnd (m := initNodes exNet none) (p := fun p =>
    decide ((steps ⟨id, fun _ => List.Perm.refl _⟩ exNet p [.maxOut 0, .sumOut 1, .sumOut 2]).2 = [none, none, none]) &&
    (match traceback ⟨id, fun _ => List.Perm.refl _⟩ exNet
        (steps ⟨id, fun _ => List.Perm.refl _⟩ exNet p [.maxOut 0, .sumOut 1, .sumOut 2]).1.mapAssignment
        (steps ⟨id, fun _ => List.Perm.refl _⟩ exNet p [.maxOut 0, .sumOut 1, .sumOut 2]).1.mapFactors with
      | .error .indexError => true
      | _ => false)) (by decide +kernel)
  rw [Bool.and_eq_true, decide_eq_true_eq] at h
  refine ⟨p, _, hp, Prod.ext rfl h.1, ?_⟩
  have h2 := h.2
  revert h2
  cases traceback ⟨id, fun _ => List.Perm.refl _⟩ exNet
        (steps ⟨id, fun _ => List.Perm.refl _⟩ exNet p [.maxOut 0, .sumOut 1, .sumOut 2]).1.mapAssignment
        (steps ⟨id, fun _ => List.Perm.refl _⟩ exNet p [.maxOut 0, .sumOut 1, .sumOut 2]).1.mapFactors with
  | ok a => intro h; cases h
  | error e => cases e <;> intro h <;> first | rfl | cases h

end PyBN
