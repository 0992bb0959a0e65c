import Verif.Proofs.Rounded

/-! The two inference entry points in rounded arithmetic. -/

set_option linter.unusedSectionVars false

namespace PyBN
open Factor Factorization

variable {N A : Type _} [DecidableEq N] [DecidableEq A] {c : N → ℕ} {u : ℚ} {rnd : ℚ → ℚ}

theorem elim_length {phi phi' : List (Factor N)} {rv : N} {psi : Factor N} (sh : ElimShape c phi rv phi' psi) (hm : Mentions phi rv) :
    (relevant phi rv).length - 1 + phi'.length = phi.length := by
  have h1 : (relevant phi rv).length + (irrelevant phi rv).length = phi.length := by
    unfold relevant irrelevant
    have := List.length_eq_length_filter_add (l := phi) fun f => decide (rv ∈ f.scope)
    rw [this]
    congr 2
    apply List.filter_congr
    intro f _; by_cases h : rv ∈ f.scope <;> simp [h]
  have h2 : 0 < (relevant phi rv).length := by
    obtain ⟨f, hf, hfv⟩ := hm
    exact List.length_pos_of_mem (a := f) (by simp [relevant, hf, hfv])
  rw [sh.eq]
  simp only [List.length_append, List.length_singleton]
  omega

theorem maxElimR_ok (r : Rounds u rnd) (h : HashOrder N) (p : Factorization N A) (hw : ∀ f ∈ p.phi, f.WF c)
    (hn : ∀ f ∈ p.phi, VNonneg c f) {rv : N} (hm : Mentions p.phi rv) :
    ∃ p' psi psi', p.maxElimR rnd h rv = .ok p' ∧ p'.mapFactors = Dict.set p.mapFactors rv psi ∧
      p'.mapAssignment = p.mapAssignment ∧ psi.WF c ∧ rv ∈ psi.scope ∧
      (∀ v, v ∈ psi.scope ↔ ∃ f ∈ p.phi, rv ∈ f.scope ∧ v ∈ f.scope) ∧
      (∀ a, InRange c psi.scope a → Near u ((relevant p.phi rv).length - 1) (prodVal (relevant p.phi rv) a) (psi.val a)) ∧
      ElimShape c p.phi rv p'.phi psi' ∧
      ∀ a, InRange c psi'.scope a →
        psi'.val a = ((List.range (c rv)).map fun x => psi.val (a.upd rv x)).foldl max 0 := by
  obtain ⟨psi, e1, w1, r1, s1, v1⟩ := relProductR_ok r h hw hn hm
  obtain ⟨psi', e2, w2, s2, _, v2⟩ := maxout_ok w1 r1
  have sh : ElimShape c p.phi rv (irrelevant p.phi rv ++ [psi']) psi' :=
    ⟨rfl, w2, fun v => by rw [s2, w1.scope_nodup.mem_erase_iff, s1]⟩
  exact ⟨{ p with phi := irrelevant p.phi rv ++ [psi'], mapFactors := Dict.set p.mapFactors rv psi }, psi, psi',
    by simp [maxElimR, e1, e2], rfl, rfl, w1, r1, s1, v1, sh, fun a ha => val_of_entry (v2 a ha)⟩

theorem maxElimAllR_ok (r : Rounds u rnd) (h : HashOrder N) {bn : BayesNet N A} (wb : bn.WF) : ∀ (order : List N) (p : Factorization N A),
    (∀ f ∈ p.phi, f.WF bn.cardOf) → (∀ f ∈ p.phi, VNonneg bn.cardOf f) → order.Nodup → (∀ v ∈ order, v ∈ bn.V) →
    (∀ v, Mentions p.phi v ↔ v ∈ order) → (∀ v ∈ order, v ∉ Dict.keys p.mapFactors) →
    ∃ p' mf, maxElimAllR rnd h order p = .ok p' ∧ p'.mapFactors = p.mapFactors ++ mf ∧ p'.mapAssignment = p.mapAssignment ∧
      mf.map Prod.fst = order ∧ ElimChain bn.cardOf order p.phi p'.phi ∧ (∀ f ∈ p'.phi, f.WF bn.cardOf) ∧ (∀ v, ¬ Mentions p'.phi v) ∧
      ∃ k, k + p'.phi.length = p.phi.length ∧
      ∀ asg : Dict N A, ∃ asg' x W, traceback h bn asg mf = .ok asg' ∧ (∀ u, u ∉ order → asg'.get? u = asg.get? u) ∧
        (∀ u ∈ order, x u < bn.cardOf u ∧ asg'.get? u = (bn.valuesOf u)[x u]?) ∧
        (∀ b, InR bn.cardOf p.phi b → (1 - u) ^ k * prodVal p.phi b ≤ W) ∧ Near u k (prodVal p.phi x) W ∧
        (∀ a, prodVal p'.phi a = W) ∧ (asg.keys.Nodup → asg'.keys.Nodup) := by
  intro order
  induction order with
  | nil =>
    intro p hw hnn _ _ hm _
    have hm' : ∀ v, ¬ Mentions p.phi v := fun v hv => by simpa using (hm v).1 hv
    have hconst : ∀ a b, prodVal p.phi a = prodVal p.phi b := by
      intro a b
      unfold prodVal; congr 1
      apply List.map_congr_left
      intro f hf
      exact val_congr fun v hv => absurd ⟨f, hf, hv⟩ (hm' v)
    exact ⟨p, [], rfl, by simp, rfl, rfl, .nil _, hw, hm', 0, by simp, fun asg => ⟨asg, fun _ => 0, prodVal p.phi fun _ => 0, rfl, fun _ _ => rfl, by simp,
      fun b _ => by simpa using (hconst _ _).le, Near.refl u (prodVal_nonneg hnn fun v hv => absurd hv (hm' v)), fun a => hconst _ _, id⟩⟩
  | cons v vs ih =>
    intro p hw hnn hn hV hm hk
    rw [List.nodup_cons] at hn
    obtain ⟨p1, psi, psi', e1, mf1, ma1, wpsi, rpsi, spsi, vpsi, sh, vpsi'⟩ :=
      maxElimR_ok r h p hw hnn ((hm v).2 (by simp))
    have hm1 : ∀ u, Mentions p1.phi u ↔ u ∈ vs := by
      intro u
      rw [sh.mentions, hm, List.mem_cons]
      exact ⟨fun hu => hu.2.resolve_left hu.1, fun hu => ⟨by rintro rfl; exact hn.1 hu, .inr hu⟩⟩
    have hpsisub : ∀ u ∈ psi.scope, u = v ∨ u ∈ vs := by
      intro u hu
      obtain ⟨f, hf, _, hu⟩ := (spsi u).1 hu
      exact List.mem_cons.1 ((hm u).1 ⟨f, hf, hu⟩)
    have hrel : ∀ f, f ∈ relevant p.phi v → f ∈ p.phi := fun f hf => List.mem_of_mem_filter hf
    have hirr : ∀ f, f ∈ irrelevant p.phi v → f ∈ p.phi := fun f hf => List.mem_of_mem_filter hf
    have hpsinn : ∀ a, InRange bn.cardOf psi.scope a → 0 ≤ psi.val a := by
      intro a ha
      exact (vpsi a ha).nonneg r.lt_one
    have hnn1 : ∀ f ∈ p1.phi, VNonneg bn.cardOf f := by
      intro f hf
      rw [sh.eq, List.mem_append, List.mem_singleton] at hf
      rcases hf with hf | rfl
      · exact hnn f (hirr f hf)
      · intro a ha; rw [vpsi' a ha]; exact (foldl_max_ge _ _).1
    have hk' : v ∉ Dict.keys p.mapFactors := hk v (by simp)
    have hset : Dict.set p.mapFactors v psi = p.mapFactors ++ [(v, psi)] := by
      generalize p.mapFactors = d at hk'
      induction d with
      | nil => rfl
      | cons kv d ihd =>
        obtain ⟨k, w⟩ := kv
        simp only [Dict.keys, List.map_cons, List.mem_cons, not_or] at hk'
        simp only [Dict.set, if_neg (Ne.symm hk'.1), List.cons_append]
        rw [ihd hk'.2]
    obtain ⟨p2, mf, e2, m2, ma2, k2, ch2, w2, nm2, K, hK, tb2⟩ := ih p1 (sh.all_wf hw) hnn1 hn.2 (fun u hu => hV u (by simp [hu])) hm1
      (fun u hu => by
        rw [mf1, hset]
        simp only [Dict.keys, List.map_append, List.map_cons, List.map_nil, List.mem_append, List.mem_singleton, not_or]
        exact ⟨hk u (by simp [hu]), by rintro rfl; exact hn.1 hu⟩)
    refine ⟨p2, (v, psi) :: mf, by simp [maxElimAllR, e1, e2], by rw [m2, mf1, hset]; simp, by rw [ma2, ma1],
      by simp [k2], .cons sh ch2, w2, nm2, (relevant p.phi v).length - 1 + K, ?_, fun asg => ?_⟩
    · have := elim_length sh ((hm v).2 (by simp)); omega
    obtain ⟨asg1, x1, W, t1, g1, x1r, mx1, hW, c1, nd1⟩ := tb2 asg
    have hvV : v ∈ bn.V := hV v (by simp)
    obtain ⟨f', e3, w3, s3, v3⟩ := reduceUpstream_ok h wb (asg := asg1) (x := x1) vs wpsi hn.2
      (fun u hu => hV u (by simp [hu])) (fun u hu => (x1r u hu).1) (fun u hu => (x1r u hu).2)
    have hs3 : ∀ u, u ∈ f'.scope ↔ u = v := by
      intro u
      rw [s3]
      exact ⟨fun hu => (hpsisub u hu.1).resolve_right hu.2, by rintro rfl; exact ⟨rpsi, hn.1⟩⟩
    obtain ⟨sc3, len3, pos3⟩ := wf_single w3 hs3
    have hcp : 0 < bn.cardOf v := wpsi.card_pos v rpsi
    have hne : f'.cpt ≠ [] := by intro h0; rw [h0] at len3; simp at len3; omega
    obtain ⟨i, z, am, hz, hmax⟩ := pyArgmax_ok hne
    have hi : i < bn.cardOf v := by rw [← len3]; exact (List.getElem?_eq_some_iff.1 hz).1
    -- entries of the reduced factor
    have hent : ∀ j < bn.cardOf v, f'.cpt[j]? = some (psi.val (x1.upd v j)) := by
      intro j hj
      have hr : InRange bn.cardOf f'.scope (fun _ => j) := by
        intro u hu; rw [(hs3 u).1 hu]; exact hj
      have h1 := w3.entry_eq hr
      rw [Factor.entry, pos3] at h1
      rw [h1, v3 _ hr]
      congr 1
      apply val_congr
      intro u hu
      rcases hpsisub u hu with rfl | huv
      · rw [Asg.upd_self]; simp [hn.1]
      · have : u ≠ v := by rintro rfl; exact hn.1 huv
        rw [Asg.upd_ne _ _ this]; simp [huv]
    have hx1psi : ∀ j < bn.cardOf v, InRange bn.cardOf psi.scope (x1.upd v j) := by
      intro j hj u hu
      by_cases huv : u = v
      · subst huv; rwa [Asg.upd_self]
      · rw [Asg.upd_ne _ _ huv]; exact (x1r u ((hpsisub u hu).resolve_left huv)).1
    have hzv : z = psi.val (x1.upd v i) := by have := hent i hi; rw [hz] at this; exact Option.some.inj this
    have hzmax : ∀ j < bn.cardOf v, psi.val (x1.upd v j) ≤ psi.val (x1.upd v i) := by
      intro j hj; rw [← hzv]; exact hmax _ (List.mem_of_getElem? (hent j hj))
    have hpsi'scope : ∀ u ∈ psi'.scope, u ∈ vs := by
      intro u hu
      obtain ⟨h1, f, hf, _, hfu⟩ := (sh.scope u).1 hu
      exact (List.mem_cons.1 ((hm u).1 ⟨f, hf, hfu⟩)).resolve_left h1
    have hprod1 : ∀ a, prodVal p1.phi a = prodVal (irrelevant p.phi v) a * psi'.val a := by
      intro a; rw [sh.eq]; simp [prodVal]
    have hval' : psi'.val x1 = psi.val (x1.upd v i) := by
      rw [vpsi' x1 fun u hu => (x1r u (hpsi'scope u hu)).1]
      apply foldl_max_eq
      · exact List.mem_map.2 ⟨i, List.mem_range.2 hi, rfl⟩
      · exact hpsinn _ (hx1psi i hi)
      · intro y hy
        obtain ⟨j, hj, rfl⟩ := List.mem_map.1 hy
        exact hzmax j (List.mem_range.1 hj)
    have hirrnn : ∀ b, InR bn.cardOf p.phi b → 0 ≤ prodVal (irrelevant p.phi v) b := by
      intro b hb
      apply prodVal_nonneg (c := bn.cardOf) fun f hf => hnn f (hirr f hf)
      rintro u ⟨f, hf, hu⟩
      exact hb u ⟨f, hirr f hf, hu⟩
    have hxR : InR bn.cardOf p.phi (x1.upd v i) := by
      intro u hu
      by_cases huv : u = v
      · subst huv; rwa [Asg.upd_self]
      · rw [Asg.upd_ne _ _ huv]; exact (x1r u ((List.mem_cons.1 ((hm u).1 hu)).resolve_left huv)).1
    have key : Near u ((relevant p.phi v).length - 1) (prodVal p.phi (x1.upd v i)) (prodVal p1.phi x1) := by
      have h1 := (vpsi _ (hx1psi i hi)).mul r.lt_one (Near.refl u (hirrnn _ hxR))
      rw [← prodVal_split p.phi v, prodVal_irrelevant_upd, ← hval', mul_comm, ← hprod1] at h1
      exact h1
    have hlen : i < (bn.valuesOf v).length := by rw [← wb.card_len hvV]; exact hi
    refine ⟨asg1.set v (bn.valuesOf v)[i], x1.upd v i, W, ?_, ?_, ?_, ?_, key.trans r.nonneg r.lt_one hW, c1, ?_⟩
    · have hpi : pyIdx (bn.valuesOf v) (i : ℤ) = .ok (bn.valuesOf v)[i] := pyIdx_nat (List.getElem?_eq_getElem hlen)
      simp only [traceback, t1, Py.bind_ok, k2, e3, wb.values_ok hvV, am, hpi]
      rfl
    · intro u hu
      simp only [List.mem_cons, not_or] at hu
      rw [Dict.get?_set, if_neg (Ne.symm hu.1)]; exact g1 u hu.2
    · intro u hu
      by_cases huv : u = v
      · subst huv
        rw [Asg.upd_self]
        exact ⟨hi, by rw [Dict.get?_set, if_pos rfl, List.getElem?_eq_getElem hlen]⟩
      · rw [Asg.upd_ne _ _ huv, Dict.get?_set, if_neg (Ne.symm huv)]
        exact x1r u ((List.mem_cons.1 hu).resolve_left huv)
    · intro b hb
      have hb1 : InR bn.cardOf p1.phi b := fun u hu => hb u ((sh.mentions u).1 hu).2
      refine le_trans ?_ (mx1 b hb1)
      have hbpsi : InRange bn.cardOf psi.scope b := by
        intro u hu
        obtain ⟨f, hf, _, hfu⟩ := (spsi u).1 hu
        exact hb u ⟨f, hf, hfu⟩
      rw [pow_add, mul_comm (_ ^ _) (_ ^ K), mul_assoc]
      refine mul_le_mul_of_nonneg_left ?_ (pow_nonneg (by linarith [r.lt_one]) _)
      rw [prodVal_split p.phi v, hprod1, ← mul_assoc, mul_comm (prodVal (irrelevant p.phi v) b)]
      refine mul_le_mul_of_nonneg_right ((vpsi b hbpsi).2.1.trans ?_) (hirrnn b hb)
      rw [vpsi' b fun u hu => hb u (by
          obtain ⟨_, f, hf, _, hfu⟩ := (sh.scope u).1 hu; exact ⟨f, hf, hfu⟩)]
      apply (foldl_max_ge _ _).2
      exact List.mem_map.2 ⟨b v, List.mem_range.2 (hbpsi v rpsi), by rw [Asg.upd_id]⟩
    · intro hnd; exact Dict.nodup_keys_set (nd1 hnd) _ _

theorem restr_nonneg {bn : BayesNet N A} (wb : bn.WF) (hnn : bn.Nonneg) {es : List (N × A)} (hn : (es.map Prod.fst).Nodup)
    (hlv : ∀ e ∈ es, e.1 ∈ bn.V ∧ e.2 ∈ bn.valuesOf e.1) {p1 : Factorization N A} (r1 : List.Forall₂ (Restr bn es) bn.V p1.phi) :
    ∀ f ∈ p1.phi, VNonneg bn.cardOf f := by
  -- an index for every observed value
  have hidx : ∃ t : Asg N, bn.Agrees es t ∧ ∀ v ∈ es.map Prod.fst, t v < bn.cardOf v := by
    have hg : ∀ v : N, ∃ i : ℕ, ∀ e ∈ es, e.1 = v → (bn.valuesOf v)[i]? = some e.2 := by
      intro v
      by_cases hv : v ∈ es.map Prod.fst
      · obtain ⟨e, he, hev⟩ := List.mem_map.1 hv
        obtain ⟨i, hi, hi2⟩ := List.mem_iff_getElem.1 (hlv e he).2
        refine ⟨i, fun e' he' he1 => ?_⟩
        have : e' = e := by
          have h1 := Dict.get?_of_mem (d := es) hn (k := e.1) (v := e.2) he
          have h2 := Dict.get?_of_mem (d := es) hn (k := e'.1) (v := e'.2) he'
          rw [he1, ← hev, h1] at h2
          exact Prod.ext (he1.trans hev.symm) (Option.some.inj h2).symm
        subst this
        rw [← hev, List.getElem?_eq_getElem hi, hi2]
      · exact ⟨0, fun e he hev => absurd (List.mem_map.2 ⟨e, he, hev⟩) hv⟩
    choose t ht using hg
    refine ⟨t, fun e he => ht e.1 e he rfl, fun v hv => ?_⟩
    obtain ⟨e, he, rfl⟩ := List.mem_map.1 hv
    rw [wb.card_len (hlv e he).1]
    exact (List.getElem?_eq_some_iff.1 (ht e.1 e he rfl)).1
  obtain ⟨t, htag, htr⟩ := hidx
  let merge : Asg N → Asg N := fun a u => if u ∈ es.map Prod.fst then t u else a u
  have hmag : ∀ a, bn.Agrees es (merge a) := by
    intro a e he
    have hm : merge a e.1 = t e.1 := if_pos (List.mem_map.2 ⟨e, he, rfl⟩)
    rw [hm]; exact htag e he
  have hmoff : ∀ a u, u ∉ es.map Prod.fst → merge a u = a u := fun a u hu => if_neg hu
  intro f hf a ha
  obtain ⟨v, hv, hr⟩ := forall₂_mem_right r1.flip hf
  rw [hr.2.2 a (merge a) ha (hmoff a) (hmag a)]
  exact prob_nonneg hnn hv _

/-- The final factorization of a legal marginal query. -/
theorem marginalVER_run (r : Rounds u rnd) (h : HashOrder N) (hE : HashOrder (N × A)) {bn : BayesNet N A} (wb : bn.WF) (hnn : bn.Nonneg) {target : N}
    {ev : Dict N A} (ht : target ∈ bn.V) (hte : target ∉ ev.keys) (hl : bn.LegalEvidence ev) :
    ∃ p : Factorization N A, (marginalVER rnd h hE bn target ev = do
        let f ← p.consolidate
        pure (f.cpt.map (roundEven 4))) ∧
      p.phi ≠ [] ∧
      (p.phi.length = 1 ↔ ∀ u ∈ bn.V, ∀ v ∈ bn.V, bn.Linked (bn.V.filter fun v => v ≠ target ∧ v ∉ ev.keys) u v) ∧
      (∀ f ∈ p.phi, f.WF bn.cardOf) ∧ (∀ v, Mentions p.phi v ↔ v = target) ∧
      ∃ k, k + p.phi.length = bn.V.length + ((bn.V.filter fun v => v ≠ target ∧ v ∉ ev.keys).map bn.cardOf).sum ∧
      ∀ a, a target < bn.cardOf target → bn.Agrees ev a → Near u k (bn.marginal target ev a) (prodVal p.phi a) := by
  have hp := hE.perm ev
  obtain ⟨hn, hlv⟩ := perm_legal hp hl
  set es := hE.iter ev with hes
  have hmemK : ∀ v, v ∈ es.map Prod.fst ↔ v ∈ ev.keys := fun v => (hp.map Prod.fst).mem_iff
  have hon : (bn.V.erase target).Nodup := wb.nodup.erase _
  obtain ⟨p0, p1, e0, e1, _, _, r1⟩ := start_ok h wb es (bn.V.erase target) hn hlv (fun e he => by
    rw [wb.nodup.mem_erase_iff]
    refine ⟨?_, (hlv e he).1⟩
    rintro rfl
    exact hte ((hmemK _).1 (List.mem_map.2 ⟨e, he, rfl⟩))) hon
  set O := bn.V.filter fun v => v ≠ target ∧ v ∉ ev.keys with hO
  have hord : (bn.V.erase target).filter (fun v => v ∉ es.map Prod.fst) = O := by
    rw [wb.nodup.erase_eq_filter, List.filter_filter, hO]
    apply List.filter_congr
    intro u _
    by_cases h1 : u = target <;> by_cases h2 : u ∈ ev.keys <;> simp only [hmemK] <;> simp [h1, h2]
  rw [hord] at e1
  have hOn : O.Nodup := wb.nodup.filter _
  have hm1 : ∀ u, Mentions p1.phi u ↔ u ∉ ev.keys ∧ u ∈ bn.V := by
    intro u
    rw [restr_mentions r1, hmemK]
    constructor
    · rintro ⟨h1, v, hv, hu⟩; exact ⟨h1, wb.fam_mem hv u hu⟩
    · rintro ⟨h1, hu⟩; exact ⟨h1, u, hu, by simp [BayesNet.fam]⟩
  have hOmem : ∀ u, u ∈ O ↔ u ∈ bn.V ∧ u ≠ target ∧ u ∉ ev.keys := by intro u; simp [hO]
  obtain ⟨p2, e2, ch, w2, m2, k, hk, v2⟩ := sumElimAllR_ok r h O p1 (restr_wf r1) (restr_nonneg wb hnn hn hlv r1) hOn fun v hv =>
    (hm1 v).2 ⟨((hOmem v).1 hv).2.2, ((hOmem v).1 hv).1⟩
  have hm2 : ∀ v, Mentions p2.phi v ↔ v = target := by
    intro v
    rw [m2, hm1, hOmem]
    constructor
    · rintro ⟨h1, h2, h3⟩; by_contra h4; exact h1 ⟨h3, h4, h2⟩
    · rintro rfl; exact ⟨fun h => h.2.1 rfl, hte, ht⟩
  obtain ⟨P, hP, I⟩ := ClsInv.start O r1
  obtain ⟨P', hP', I'⟩ := I.chain ch hP hOn fun v hv => by
    obtain ⟨g1, g2, g3⟩ := (hOmem v).1 hv
    exact ⟨hv, id, by rw [hmemK]; exact g3, (hm1 v).2 ⟨g3, g1⟩⟩
  obtain ⟨hne, hone⟩ := I'.single wb.nodup (fun v hv => .inr hv) (List.ne_nil_of_mem ht)
  have hlen : P'.length = p2.phi.length := by rw [← hP', List.length_map]
  refine ⟨p2, ?_, ?_, ?_, w2, hm2, k, ?_, ?_⟩
  · unfold marginalVER
    rw [e0]
    simp only [Py.bind_ok, pyRemove_of_mem ht]
    rw [← hes, e1]
    simp only [Py.bind_ok]
    rw [e2]
    rfl
  · intro h0; rw [h0] at hlen; exact hne (List.length_eq_zero_iff.1 hlen)
  · rw [← hlen]; exact hone
  · rw [hk, r1.length_eq]
  · intro a hat hag
    have hnear := v2 a fun v hv => by rw [(hm2 v).1 hv]; exact hat
    rw [sumAll_perm (List.reverse_perm O) _ (List.nodup_reverse.2 hOn)] at hnear
    have heq : bn.marginal target ev a = sumAll bn.cardOf O (prodVal p1.phi) a := by
     unfold BayesNet.marginal
     rw [← hO]
     apply sumAll_congr _ hOn
     intro b hb hr
     have hbe : ∀ v, v ∈ ev.keys → b v = a v := fun v hv => hb v fun ho => ((hOmem v).1 ho).2.2 hv
     symm
     rw [restr_prod r1 b b]
     · rfl
     · intro u hu
       obtain ⟨g1, g2⟩ := (hm1 u).1 hu
       by_cases hut : u = target
       · rw [hut, hb target fun ho => ((hOmem target).1 ho).2.1 rfl]; exact hat
       · exact hr u ((hOmem u).2 ⟨g2, hut, g1⟩)
     · intros; rfl
     · intro e he
       rw [hbe e.1 ((hmemK _).1 (List.mem_map.2 ⟨e, he, rfl⟩))]
       exact (perm_agrees hp).2 hag e he
    rw [heq]; exact hnear

theorem veMapCoreR_run (r : Rounds u rnd) (h : HashOrder N) (hE : HashOrder (N × A)) {bn : BayesNet N A} (wb : bn.WF) (hnn : bn.Nonneg)
    {ev : Dict N A} (hl : bn.LegalEvidence ev) :
    ∃ (p : Factorization N A) (d : Dict N A) (x : Asg N), veMapCoreR rnd h hE bn ev = .ok (p, d) ∧
      d.keys.Nodup ∧ (∀ v, v ∉ bn.V → d.get? v = none) ∧
      (∀ v ∈ bn.V, x v < bn.cardOf v ∧ d.get? v = (bn.valuesOf v)[x v]?) ∧ bn.Agrees ev x ∧
      (∀ f ∈ p.phi, f.WF bn.cardOf) ∧ (∀ v, ¬ Mentions p.phi v) ∧ 
      (∃ (k : ℕ) (W : ℚ), k + p.phi.length = bn.V.length ∧ Near u k (bn.joint x) W ∧ (∀ a, prodVal p.phi a = W) ∧
        ∀ b, InRange bn.cardOf bn.V b → bn.Agrees ev b → (1 - u) ^ k * bn.joint b ≤ W) ∧
      (bn.V ≠ [] → p.phi ≠ [] ∧ (p.phi.length = 1 ↔
        ∀ u ∈ bn.V, ∀ v ∈ bn.V, bn.Linked (bn.V.filter fun v => v ∉ ev.keys) u v)) := by
  have hp := hE.perm ev
  obtain ⟨hn, hlv⟩ := perm_legal hp hl
  set es := hE.iter ev with hes
  have hmemK : ∀ v, v ∈ es.map Prod.fst ↔ v ∈ ev.keys := fun v => (hp.map Prod.fst).mem_iff
  obtain ⟨p0, p1, e0, e1, mf1, ma1, r1⟩ := start_ok h wb es bn.V hn hlv (fun e he => (hlv e he).1) wb.nodup
  set O := bn.V.filter fun v => v ∉ ev.keys with hO
  have hord : bn.V.filter (fun v => v ∉ es.map Prod.fst) = O := by
    apply List.filter_congr; intro u _; simp only [hmemK]
  rw [hord] at e1
  have hOn : O.Nodup := wb.nodup.filter _
  have hOmem : ∀ u, u ∈ O ↔ u ∈ bn.V ∧ u ∉ ev.keys := by intro u; simp [hO]
  have hm1 : ∀ u, Mentions p1.phi u ↔ u ∈ O := by
    intro u
    rw [restr_mentions r1, hmemK, hOmem]
    constructor
    · rintro ⟨h1, v, hv, hu⟩; exact ⟨wb.fam_mem hv u hu, h1⟩
    · rintro ⟨h1, hu⟩; exact ⟨hu, u, h1, by simp [BayesNet.fam]⟩
  -- an index for every observed value
  have hidx : ∃ t : Asg N, bn.Agrees es t ∧ ∀ v ∈ es.map Prod.fst, t v < bn.cardOf v := by
    have hg : ∀ v : N, ∃ i : ℕ, ∀ e ∈ es, e.1 = v → (bn.valuesOf v)[i]? = some e.2 := by
      intro v
      by_cases hv : v ∈ es.map Prod.fst
      · obtain ⟨e, he, hev⟩ := List.mem_map.1 hv
        obtain ⟨i, hi, hi2⟩ := List.mem_iff_getElem.1 (hlv e he).2
        refine ⟨i, fun e' he' he1 => ?_⟩
        have : e' = e := by
          have h1 := Dict.get?_of_mem (d := es) hn (k := e.1) (v := e.2) he
          have h2 := Dict.get?_of_mem (d := es) hn (k := e'.1) (v := e'.2) he'
          rw [he1, ← hev, h1] at h2
          exact Prod.ext (he1.trans hev.symm) (Option.some.inj h2).symm
        subst this
        rw [← hev, List.getElem?_eq_getElem hi, hi2]
      · exact ⟨0, fun e he hev => absurd (List.mem_map.2 ⟨e, he, hev⟩) hv⟩
    choose t ht using hg
    refine ⟨t, fun e he => ht e.1 e he rfl, fun v hv => ?_⟩
    obtain ⟨e, he, rfl⟩ := List.mem_map.1 hv
    rw [wb.card_len (hlv e he).1]
    exact (List.getElem?_eq_some_iff.1 (ht e.1 e he rfl)).1
  obtain ⟨t, htag, htr⟩ := hidx
  let merge : Asg N → Asg N := fun a u => if u ∈ es.map Prod.fst then t u else a u
  have hmag : ∀ a, bn.Agrees es (merge a) := by
    intro a e he
    have hm : merge a e.1 = t e.1 := if_pos (List.mem_map.2 ⟨e, he, rfl⟩)
    rw [hm]; exact htag e he
  have hmoff : ∀ a u, u ∉ es.map Prod.fst → merge a u = a u := fun a u hu => if_neg hu
  have hnn1 : ∀ f ∈ p1.phi, VNonneg bn.cardOf f := by
    intro f hf a ha
    obtain ⟨v, hv, hr⟩ := forall₂_mem_right r1.flip hf
    rw [hr.2.2 a (merge a) ha (hmoff a) (hmag a)]
    exact prob_nonneg hnn hv _
  obtain ⟨p2, mf, e2, m2, ma2, k2, ch, w2, nm2, k, hk, tb⟩ := maxElimAllR_ok r h wb O p1 (restr_wf r1) hnn1 hOn
    (fun v hv => ((hOmem v).1 hv).1) hm1 (fun v _ => by rw [mf1]; simp [Dict.keys])
  obtain ⟨d, x, W, t1, g1, xr, mx, hW, cst, nd⟩ := tb p2.mapAssignment
  rw [mf1, List.nil_append] at m2
  have hjoint : ∀ a, InR bn.cardOf p1.phi a → prodVal p1.phi a = bn.joint (merge a) := fun a ha =>
    restr_prod r1 a (merge a) ha (hmoff a) (hmag a)
  have hxR : InR bn.cardOf p1.phi x := fun u hu => (xr u ((hm1 u).1 hu)).1
  have hasg : p2.mapAssignment = Dict.update [] es := by rw [ma2, ma1]
  have hget : ∀ v, p2.mapAssignment.get? v = Dict.get? es v := by
    intro v; rw [hasg, Dict.get?_update (e := es) hn]; cases Dict.get? es v <;> simp
  refine ⟨p2, d, merge x, ?_, ?_, ?_, ?_, (perm_agrees hp).1 (hmag x), w2, nm2, ⟨k, W, by rw [hk, r1.length_eq], hjoint x hxR ▸ hW, cst, ?_⟩, ?_⟩
  · unfold veMapCoreR
    rw [e0]
    simp only [Py.bind_ok]
    rw [← hes, e1]
    simp only [Py.bind_ok]
    rw [e2]
    simp only [Py.bind_ok]
    rw [m2, t1]
    rfl
  · exact nd (by rw [hasg]; exact Dict.nodup_keys_update (by simp [Dict.keys]))
  · intro v hv
    rw [g1 v fun ho => hv ((hOmem v).1 ho).1, hget, Dict.get?_eq_none_iff]
    intro hk
    obtain ⟨e, he, rfl⟩ := List.mem_map.1 hk
    exact hv (hlv e he).1
  · intro v hv
    by_cases hk : v ∈ es.map Prod.fst
    · have : merge x v = t v := if_pos hk
      rw [this]
      refine ⟨htr v hk, ?_⟩
      rw [g1 v fun ho => ((hOmem v).1 ho).2 ((hmemK v).1 hk), hget]
      obtain ⟨e, he, rfl⟩ := List.mem_map.1 hk
      rw [Dict.get?_of_mem (d := es) hn (k := e.1) (v := e.2) he]
      exact (htag e he).symm
    · rw [hmoff x v hk]
      exact xr v ((hOmem v).2 ⟨hv, fun h => hk ((hmemK v).2 h)⟩)
  · intro b hb hag
    have hbR : InR bn.cardOf p1.phi b := fun u hu => hb u ((hOmem u).1 ((hm1 u).1 hu)).1
    have h1 := mx b hbR
    rwa [restr_prod r1 b b hbR (fun _ _ => rfl) ((perm_agrees hp).2 hag)] at h1
  · intro hVne
    obtain ⟨P, hP, I⟩ := ClsInv.start O r1
    obtain ⟨P', hP', I'⟩ := I.chain ch hP hOn fun v hv => by
      obtain ⟨g1, g2⟩ := (hOmem v).1 hv
      exact ⟨hv, id, by rw [hmemK]; exact g2, (hm1 v).2 hv⟩
    obtain ⟨hne, hone⟩ := I'.single wb.nodup (fun v hv => .inr hv) hVne
    have hlen : P'.length = p2.phi.length := by rw [← hP', List.length_map]
    refine ⟨fun h0 => ?_, by rw [← hlen]; exact hone⟩
    rw [h0] at hlen; exact hne (List.length_eq_zero_iff.1 hlen)

end PyBN
