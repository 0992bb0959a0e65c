import Verif.Proofs.Stale5
import Verif.Proofs.Map

/-!
# `ve_map` on tables that are too long
-/

set_option linter.unusedSectionVars false

namespace PyBN
open Factor Factorization
open Obj (PyRel)
variable {N A : Type _} [DecidableEq N] [DecidableEq A]
variable {c : N → ℕ} {f g : Factor N} {rv : N}

theorem Over.maxout (o : Over c f g) (hrv : rv ∈ f.scope) : PyRel (Over c) (f.maxout rv) (g.maxout rv) := by
  obtain ⟨w, t, m, hm, rfl, hlt⟩ := o
  obtain ⟨P, Q, f0, R, he⟩ := w.shape.maxout_eq hrv
  have hl : f.cpt.length = P * (c rv * Q) := w.cpt_len.trans R.size_eq
  obtain ⟨r, t', e1, e2, e3, e4⟩ := elim_over (agg := fun l k => maxC l P k (c rv) 0 0) (op := fun l => l.foldl max 0) (t := t)
    R.P_pos R.C_pos hm hl (by rw [hlt, hl])
    (by
      intro l k hk
      rw [maxC_ok _ _ _ (fun y hy => by rw [zero_add]; exact hk y hy)]
      simp only [zero_add]; rfl)
  have h1 := he f.cpt
  rw [recut_self, e1, Py.bind_ok] at h1
  have h2 := he (f.cpt ++ t)
  rw [e2, Py.bind_ok] at h2
  rw [h1, h2]
  exact .ok (over_of R.shape hm (by rw [e3, R.size0]) (by rw [e4, R.size0]))

theorem over_wf {l1 l2 : List (Factor N)} (h : List.Forall₂ (Over c) l1 l2) : ∀ f ∈ l1, f.WF c := by
  induction h with
  | nil => simp
  | cons h1 _ ih => intro f hf; rcases List.mem_cons.1 hf with rfl | hf; exacts [h1.1, ih f hf]

/-- What relates the two runs of the elimination: the factors, and the recorded products. -/
structure OverState (c : N → ℕ) (p p' : Factorization N A) : Prop where
  phi : List.Forall₂ (Over c) p.phi p'.phi
  maps : List.Forall₂ (fun a b : N × Factor N => b.1 = a.1 ∧ Over c a.2 b.2) p.mapFactors p'.mapFactors
  own : ∀ kf ∈ p.mapFactors, kf.1 ∈ kf.2.scope
  nodup : (Dict.keys p.mapFactors).Nodup
  asg : p'.mapAssignment = p.mapAssignment

theorem over_set {m m' : List (N × Factor N)} (h : List.Forall₂ (fun a b : N × Factor N => b.1 = a.1 ∧ Over c a.2 b.2) m m')
    (rv : N) (o : Over c f g) : List.Forall₂ (fun a b : N × Factor N => b.1 = a.1 ∧ Over c a.2 b.2) (Dict.set m rv f) (Dict.set m' rv g) := by
  induction h with
  | nil => exact .cons ⟨rfl, o⟩ .nil
  | cons hab hs ih =>
    rename_i a b l l'
    obtain ⟨k, x⟩ := a
    obtain ⟨k', y⟩ := b
    obtain ⟨hk, hxy⟩ := hab
    simp only at hk hxy
    subst hk
    unfold Dict.set
    split
    · exact .cons ⟨rfl, o⟩ hs
    · exact .cons ⟨rfl, hxy⟩ ih

theorem own_set {m : List (N × Factor N)} (h : ∀ kf ∈ m, kf.1 ∈ kf.2.scope) (hrv : rv ∈ f.scope) : ∀ kf ∈ Dict.set m rv f, kf.1 ∈ kf.2.scope := by
  induction m with
  | nil => intro kf hk; rw [List.mem_singleton.1 hk]; exact hrv
  | cons a l ih =>
    obtain ⟨k, x⟩ := a
    intro kf hk
    unfold Dict.set at hk
    split at hk
    · rename_i e
      rcases List.mem_cons.1 hk with rfl | hk
      · rw [e]; exact hrv
      · exact h kf (List.mem_cons_of_mem _ hk)
    · rcases List.mem_cons.1 hk with rfl | hk
      · exact h _ List.mem_cons_self
      · exact ih (fun kf hkf => h kf (List.mem_cons_of_mem _ hkf)) kf hk

theorem over_relProduct (h : HashOrder N) {phi phi' : List (Factor N)} (hp : List.Forall₂ (Over c) phi phi') (rv : N) :
    PyRel (fun a b => Over c a b ∧ rv ∈ a.scope) (relProduct h phi rv) (relProduct h phi' rv) := by
  have hrel : List.Forall₂ (Over c) (relevant phi rv) (relevant phi' rv) :=
    forall₂_filter_scope (fun _ _ o => o.scope) (fun s => decide (rv ∈ s)) hp
  have hw := over_wf hp
  by_cases hm : Mentions phi rv
  · obtain ⟨psi, e1, w1, r1, _, _⟩ := relProduct_ok h hw hm
    unfold relProduct at e1 ⊢
    revert hrel e1
    generalize relevant phi rv = rs
    generalize relevant phi' rv = rs'
    intro hrel e1
    cases hrel with
    | nil => cases e1
    | cons o1 hs =>
      have := o1.mulAll h hs
      simp only at e1 ⊢
      rw [e1] at this ⊢
      cases e2 : Factorization.mulAll h _ _ with
      | error e => rw [e2] at this; cases this
      | ok b => rw [e2] at this; cases this with | ok hab => exact .ok ⟨hab.1, r1⟩
  · have : relevant phi rv = [] := by
      apply List.filter_eq_nil_iff.2
      intro f hf
      simp only [decide_eq_true_eq]
      exact fun hh => hm ⟨f, hf, hh⟩
    unfold relProduct
    rw [this] at hrel
    rw [this, List.forall₂_nil_left_iff.1 hrel]
    exact .err _

theorem OverState.maxElim (h : HashOrder N) {p p' : Factorization N A} (hp : OverState c p p') (rv : N) :
    PyRel (OverState c) (p.maxElim h rv) (p'.maxElim h rv) := by
  unfold Factorization.maxElim
  refine (over_relProduct h hp.phi rv).bind fun a b hab => ?_
  refine (hab.1.maxout hab.2).bind fun x y hxy => .ok ?_
  have hirr : List.Forall₂ (Over c) (irrelevant p.phi rv) (irrelevant p'.phi rv) :=
    forall₂_filter_scope (fun _ _ o => o.scope) (fun s => decide (rv ∉ s)) hp.phi
  exact ⟨List.rel_append hirr (.cons hxy .nil), over_set hp.maps rv hab.1, own_set hp.own hab.2, Dict.nodup_keys_set hp.nodup rv a, hp.asg⟩

theorem OverState.maxElimAll (h : HashOrder N) : ∀ (order : List N) {p p' : Factorization N A}, OverState c p p' →
    PyRel (OverState c) (PyBN.maxElimAll h order p) (PyBN.maxElimAll h order p')
  | [], _, _, hp => .ok hp
  | v :: vs, _, _, hp => by
      unfold PyBN.maxElimAll
      exact (hp.maxElim h v).bind fun a b hab => OverState.maxElimAll h vs hab

theorem applyEvidence_maps (h : HashOrder N) (bn : BayesNet N A) : ∀ (es : List (N × A)) (p : Factorization N A) (o : List N) {q},
    applyEvidence h bn es p o = .ok q → q.1.mapFactors = p.mapFactors ∧ q.1.mapAssignment = es.foldl (fun d e => Dict.set d e.1 e.2) p.mapAssignment
  | [], _, _, q, hq => by cases hq; exact ⟨rfl, rfl⟩
  | (v, x) :: es, p, o, q, hq => by
      unfold applyEvidence Factorization.sub at hq
      cases e1 : reducePhi h bn v x p.phi with
      | error e => rw [e1] at hq; cases hq
      | ok phi =>
        rw [e1] at hq
        simp only [Py.bind_ok, Py.pure_eq] at hq
        cases e2 : pyRemove o v with
        | error e => rw [e2] at hq; cases hq
        | ok o' =>
          rw [e2] at hq
          exact applyEvidence_maps h bn es _ _ hq

section
variable (h : HashOrder N) (bn : BayesNet N A)

theorem over_reduceUpstream (hv : ∀ rv val vals x, bn.values rv = .ok vals → pyIndex vals val = .ok x → x < c rv) (asg : Dict N A) :
    ∀ (vs : List N) {f g : Factor N}, Over c f g → PyRel (Over c) (reduceUpstream h bn asg vs f) (reduceUpstream h bn asg vs g)
  | [], _, _, o => .ok o
  | v :: vs, f, g, o => by
      unfold reduceUpstream
      rw [o.scope]
      split
      · rename_i hm
        cases asg.get v with
        | error e => exact .err _
        | ok x => exact (o.reduce h bn hm x (hv v x)).bind fun a b hab => over_reduceUpstream hv asg vs hab
      · exact over_reduceUpstream hv asg vs o

theorem reduceUpstream_keeps (hv : ∀ rv val vals x, bn.values rv = .ok vals → pyIndex vals val = .ok x → x < c rv) (asg : Dict N A) {rv : N} :
    ∀ (vs : List N) {f r : Factor N}, f.WF c → rv ∈ f.scope → rv ∉ vs → reduceUpstream h bn asg vs f = .ok r → rv ∈ r.scope
  | [], f, r, _, hm, _, hr => by cases hr; exact hm
  | v :: vs, f, r, w, hm, hn, hr => by
      unfold reduceUpstream at hr
      split at hr
      · rename_i hvs
        cases e1 : asg.get v with
        | error e => rw [e1] at hr; cases hr
        | ok x =>
          rw [e1, Py.bind_ok] at hr
          cases e2 : f.reduce h bn v x with
          | error e => rw [e2] at hr; cases hr
          | ok f1 =>
            rw [e2, Py.bind_ok] at hr
            cases e3 : bn.values v with
            | error e => unfold Factor.reduce at e2; rw [e3] at e2; exact absurd e2 (by
                intro hh
                cases e5 : f.card.get v <;> rw [e5] at hh <;> try cases hh
                all_goals (simp only [Py.bind_ok] at hh; split at hh <;> try cases hh)
                all_goals (cases e6 : f.stride.get v <;> rw [e6] at hh <;> cases hh))
            | ok vals =>
              cases e4 : pyIndex vals x with
              | error e => exact absurd e2 (by
                  intro hh
                  unfold Factor.reduce at hh
                  rw [e3] at hh
                  simp only [Py.bind_ok, e4] at hh
                  cases e5 : f.card.get v <;> rw [e5] at hh <;> try cases hh
                  all_goals (simp only [Py.bind_ok] at hh; split at hh <;> try cases hh)
                  all_goals (cases e6 : f.stride.get v <;> rw [e6] at hh <;> cases hh))
              | ok y =>
                obtain ⟨f', e5, w', hs, _⟩ := Factor.reduce_ok h bn w hvs e3 e4 (hv v x vals y e3 e4)
                rw [e5] at e2; cases e2
                refine reduceUpstream_keeps hv asg vs w' ?_ (fun hh => hn (List.mem_cons_of_mem _ hh)) hr
                rw [hs]
                exact (List.mem_erase_of_ne fun e => hn (by rw [e]; exact List.mem_cons_self)).2 hm
      · exact reduceUpstream_keeps hv asg vs w hm (fun hh => hn (List.mem_cons_of_mem _ hh)) hr

end

theorem argmaxFrom_append : ∀ (l t : List ℚ) (best : ℕ) (bx : ℚ) (i : ℕ), best < i →
    argmaxFrom best bx i (l ++ t) = argmaxFrom best bx i l ∨ i + l.length ≤ argmaxFrom best bx i (l ++ t)
  | [], t, best, bx, i, hb => by
      rw [List.nil_append, List.length_nil, Nat.add_zero]
      show argmaxFrom best bx i t = best ∨ _
      induction t generalizing best bx i with
      | nil => exact .inl rfl
      | cons x t ih =>
        unfold argmaxFrom
        split
        · right
          rcases ih i x (i + 1) (Nat.lt_succ_self i) with h | h
          · rw [h]
          · omega
        · rcases ih best bx (i + 1) (by omega) with h | h
          · exact .inl h
          · right; omega
  | x :: l, t, best, bx, i, hb => by
      rw [List.cons_append]
      unfold argmaxFrom
      rw [List.length_cons]
      split
      · rcases argmaxFrom_append l t i x (i + 1) (Nat.lt_succ_self i) with h | h
        · exact .inl h
        · right; omega
      · rcases argmaxFrom_append l t best bx (i + 1) (by omega) with h | h
        · exact .inl h
        · right; omega

theorem pyArgmax_append {l t : List ℚ} {i : ℕ} (h : pyArgmax (l ++ t) = .ok i) (hi : i < l.length) : pyArgmax l = .ok i := by
  cases l with
  | nil => simp at hi
  | cons x l =>
    rw [List.cons_append] at h
    unfold pyArgmax at h ⊢
    cases h
    rcases argmaxFrom_append l t 0 x 1 (by omega) with h | h
    · rw [h]
    · rw [List.length_cons] at hi; omega

theorem Retab.reduceUpstream {bn bn' : BayesNet N A} {T : N → List ℚ} (r : Retab bn bn' T) (h : HashOrder N) (asg : Dict N A) :
    ∀ (vs : List N) (f : Factor N), Factorization.reduceUpstream h bn' asg vs f = Factorization.reduceUpstream h bn asg vs f
  | [], _ => rfl
  | v :: vs, f => by simp only [Factorization.reduceUpstream, r.reduce, Retab.reduceUpstream r h asg vs]

theorem Retab.traceback {bn bn' : BayesNet N A} {T : N → List ℚ} (r : Retab bn bn' T) (h : HashOrder N) (asg : Dict N A) :
    ∀ m : List (N × Factor N), Factorization.traceback h bn' asg m = Factorization.traceback h bn asg m
  | [] => rfl
  | (rv, f) :: m => by simp only [Factorization.traceback, r.values, r.reduceUpstream, Retab.traceback r h asg m]

theorem card_le_size (w : f.WF c) (hrv : rv ∈ f.scope) : c rv ≤ f.cpt.length := by
  rw [w.cpt_len]
  refine Nat.le_of_dvd (List.prod_pos fun x hx => ?_) (List.dvd_prod (List.mem_map_of_mem hrv))
  obtain ⟨v, hv, rfl⟩ := List.mem_map.1 hx
  exact w.card_pos v hv

theorem over_traceback (h : HashOrder N) (bn : BayesNet N A)
    (hv : ∀ rv val vals x, bn.values rv = .ok vals → pyIndex vals val = .ok x → x < c rv)
    (hc : ∀ rv vals, bn.values rv = .ok vals → vals.length = c rv) (asg : Dict N A) :
    ∀ {m m' : List (N × Factor N)} {r : Dict N A},
      List.Forall₂ (fun a b : N × Factor N => b.1 = a.1 ∧ Over c a.2 b.2) m m' → (∀ kf ∈ m, kf.1 ∈ kf.2.scope) → (Dict.keys m).Nodup →
      traceback h bn asg m' = .ok r → traceback h bn asg m = .ok r := by
  intro m m' r hm
  induction hm generalizing r with
  | nil => exact fun _ _ h => h
  | cons hab hs ih =>
    rename_i a b l l'
    obtain ⟨k, f⟩ := a
    obtain ⟨k', g⟩ := b
    obtain ⟨hk, o⟩ := hab
    simp only at hk o
    subst hk
    intro hown hnd hr
    have hkeys : l'.map Prod.fst = l.map Prod.fst := by
      clear ih hr hown hnd
      induction hs with
      | nil => rfl
      | cons h1 _ ih => simp only [List.map_cons, h1.1, ih]
    have hnd' : k' ∉ l.map Prod.fst ∧ (Dict.keys l).Nodup := List.nodup_cons.1 hnd
    unfold traceback at hr ⊢
    rw [hkeys] at hr
    cases e1 : traceback h bn asg l' with
    | error e => rw [e1] at hr; cases hr
    | ok asg' =>
      rw [ih (fun kf hkf => hown kf (List.mem_cons_of_mem _ hkf)) hnd'.2 e1]
      rw [e1, Py.bind_ok] at hr
      rw [Py.bind_ok]
      have h2 := over_reduceUpstream h bn hv asg' (l.map Prod.fst) o
      cases e2 : Factorization.reduceUpstream h bn asg' (l.map Prod.fst) f with
      | error e =>
        rw [e2] at h2
        cases e3 : Factorization.reduceUpstream h bn asg' (l.map Prod.fst) g with
        | error e => rw [e3] at hr; cases hr
        | ok g' => rw [e3] at h2; cases h2
      | ok f' =>
        rw [e2] at h2
        cases e3 : Factorization.reduceUpstream h bn asg' (l.map Prod.fst) g with
        | error e => rw [e3] at hr; cases hr
        | ok g' =>
          rw [e3] at h2 hr
          cases h2 with
          | ok o' =>
          rw [Py.bind_ok] at hr ⊢
          have hk' := reduceUpstream_keeps h bn hv asg' _ o.1 (hown _ List.mem_cons_self) hnd'.1 e2
          cases e4 : bn.values k' with
          | error e => rw [e4] at hr; cases hr
          | ok vals =>
            rw [e4, Py.bind_ok] at hr
            rw [Py.bind_ok]
            obtain ⟨w', t, mm, _, rfl, _⟩ := o'
            have hle := card_le_size w' hk'
            cases e5 : pyArgmax (f'.cpt ++ t) with
            | error e => rw [show (recut f' (f'.cpt ++ t)).cpt = f'.cpt ++ t from rfl, e5] at hr; cases hr
            | ok i =>
              rw [show (recut f' (f'.cpt ++ t)).cpt = f'.cpt ++ t from rfl, e5, Py.bind_ok] at hr
              cases e6 : pyIdx vals (i : ℤ) with
              | error e => rw [e6] at hr; cases hr
              | ok x =>
                have hi : i < vals.length := by
                  unfold pyIdx at e6
                  rw [if_pos (Int.natCast_nonneg i), Int.toNat_natCast] at e6
                  by_contra hh
                  rw [List.getElem?_eq_none (by omega)] at e6
                  cases e6
                rw [pyArgmax_append e5 (lt_of_lt_of_le (hc _ _ e4 ▸ hi) hle), Py.bind_ok, e6]
                rw [e6] at hr
                exact hr

theorem veMapCore_over (h : HashOrder N) (hE : HashOrder (N × A)) {bn bn' : BayesNet N A} {T : N → List ℚ} (r : Retab bn bn' T)
    (w : bn.WF) (hT : ∀ v ∈ bn.V, ∃ t m, 0 < m ∧ T v = bn.cptOf v ++ t ∧ (T v).length = (bn.cptOf v).length * m)
    (ev : Dict N A) {q' : Factorization N A × Dict N A} (hq : veMapCore h hE bn' ev = .ok q') :
    ∃ q, veMapCore h hE bn ev = .ok q ∧ q'.2 = q.2 ∧ List.Forall₂ (Over bn.cardOf) q.1.phi q'.1.phi := by
  obtain ⟨phi, phi', e1, e2, hphi⟩ := initPhi_over r w bn.V (fun _ h => h) hT
  have hc : ∀ rv vals, bn.values rv = .ok vals → vals.length = bn.cardOf rv := fun _ _ h => values_ok_card h
  have hv : ∀ rv val vals x, bn.values rv = .ok vals → pyIndex vals val = .ok x → x < bn.cardOf rv := fun rv val vals x h1 h2 => by
    rw [← hc rv vals h1]
    exact (List.getElem?_eq_some_iff.1 (pyIndex_ok.1 h2).1).1
  unfold veMapCore Factorization.init at hq ⊢
  rw [r.1, e2] at hq
  rw [e1]
  simp only [Py.bind_ok, Py.pure_eq] at hq ⊢
  rw [r.applyEvidence h] at hq
  have h3 := over_applyEvidence h bn hv (hE.iter ev) (p := ⟨phi, [], []⟩) (p' := ⟨phi', [], []⟩) bn.V hphi
  cases e3 : applyEvidence h bn (hE.iter ev) ⟨phi', [], []⟩ bn.V with
  | error e => rw [e3] at hq; cases hq
  | ok b =>
    rw [e3] at h3
    cases e4 : applyEvidence h bn (hE.iter ev) ⟨phi, [], []⟩ bn.V with
    | error e => rw [e4] at h3; cases h3
    | ok a =>
      rw [e4] at h3
      cases h3 with
      | ok hab =>
      obtain ⟨h4, _, h5⟩ := hab
      have m1 := applyEvidence_maps h bn _ _ _ e3
      have m2 := applyEvidence_maps h bn _ _ _ e4
      have st : OverState bn.cardOf a.1 b.1 :=
        ⟨h4, by rw [m1.1, m2.1]; exact .nil, by rw [m2.1]; simp, by rw [m2.1]; simp [Dict.keys], by rw [m1.2, m2.2]⟩
      rw [e3, Py.bind_ok, ← h5] at hq
      rw [Py.bind_ok]
      have h6 := st.maxElimAll h a.2
      cases e5 : PyBN.maxElimAll h a.2 b.1 with
      | error e => rw [e5] at hq; cases hq
      | ok q =>
        rw [e5] at h6 hq
        cases e6 : PyBN.maxElimAll h a.2 a.1 with
        | error e => rw [e6] at h6; cases h6
        | ok p =>
          rw [e6] at h6
          cases h6 with
          | ok hpq =>
          rw [Py.bind_ok, r.traceback, hpq.asg] at hq
          cases e7 : Factorization.traceback h bn p.mapAssignment q.mapFactors with
          | error e => rw [e7] at hq; cases hq
          | ok asg =>
            rw [e7] at hq
            cases hq
            refine ⟨(p, asg), ?_, rfl, hpq.phi⟩
            rw [Py.bind_ok, over_traceback h bn hv hc _ hpq.maps hpq.own hpq.nodup e7]
            rfl

/-- Tables that are a whole number of times too long: an answer of `ve_map` is the answer without the extra entries. -/
theorem veMap_over (h : HashOrder N) (hE : HashOrder (N × A)) {bn bn' : BayesNet N A} {T : N → List ℚ} (r : Retab bn bn' T)
    (w : bn.WF) (hT : ∀ v ∈ bn.V, ∃ t m, 0 < m ∧ T v = bn.cptOf v ++ t ∧ (T v).length = (bn.cptOf v).length * m)
    (ev d : Dict N A) (hd : veMap h hE bn' ev = .ok d) : veMap h hE bn ev = .ok d := by
  unfold veMap at hd ⊢
  cases e : veMapCore h hE bn' ev with
  | error e' => rw [e] at hd; cases hd
  | ok q' =>
    obtain ⟨q, e1, e2, _⟩ := veMapCore_over h hE r w hT ev e
    rw [e] at hd
    rw [e1]
    cases hd
    show Except.ok q.2 = _
    rw [← e2]

theorem veMapProb_over (h : HashOrder N) (hE : HashOrder (N × A)) {bn bn' : BayesNet N A} {T : N → List ℚ} (r : Retab bn bn' T)
    (w : bn.WF) (hT : ∀ v ∈ bn.V, ∃ t m, 0 < m ∧ T v = bn.cptOf v ++ t ∧ (T v).length = (bn.cptOf v).length * m)
    (ev : Dict N A) {d : ℚ × Dict N A} (hd : veMapProb h hE bn' ev = .ok d) : veMapProb h hE bn ev = .ok d := by
  unfold veMapProb at hd ⊢
  cases e : veMapCore h hE bn' ev with
  | error e' => rw [e] at hd; cases hd
  | ok q' =>
    obtain ⟨q, e1, e2, e3⟩ := veMapCore_over h hE r w hT ev e
    obtain ⟨p, asg⟩ := q
    obtain ⟨p', asg'⟩ := q'
    simp only at e2 e3
    subst e2
    rw [e] at hd
    rw [e1]
    simp only [Py.bind_ok, Py.pure_eq] at hd ⊢
    unfold consolidate at hd ⊢
    revert e3 hd
    generalize p.phi = l
    generalize p'.phi = l'
    intro hd hl
    cases hl with
    | nil => cases hd
    | @cons f _ _ _ o hs =>
      cases hs with
      | cons _ _ => cases hd
      | nil =>
        obtain ⟨w1, t, m, _, rfl, _⟩ := o
        have hpos : 0 < f.cpt.length := by
          rw [w1.cpt_len]
          refine List.prod_pos fun x hx => ?_
          obtain ⟨v, hv, rfl⟩ := List.mem_map.1 hx
          exact w1.card_pos v hv
        simp only [Py.bind_ok] at hd ⊢
        have : pyIdx (recut f (f.cpt ++ t)).cpt 0 = pyIdx f.cpt 0 := by
          unfold pyIdx
          show (if (0:ℤ) ≤ 0 then _ else _) = _
          rw [show (recut f (f.cpt ++ t)).cpt = f.cpt ++ t from rfl]
          simp only [le_refl, if_true, Int.toNat_zero]
          rw [List.getElem?_append_left hpos]
        rw [this] at hd
        exact hd

end PyBN
