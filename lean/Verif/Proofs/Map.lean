import Verif.Proofs.Elim

/-! Max-product elimination and traceback. -/

set_option linter.unusedSectionVars false

namespace PyBN
open Factor Factorization
variable {N A : Type _} [DecidableEq N] [DecidableEq A] {c : N → ℕ}

theorem wf_single {f : Factor N} (w : f.WF c) {v : N} (hs : ∀ u, u ∈ f.scope ↔ u = v) :
    f.scope = [v] ∧ f.cpt.length = c v ∧ (∀ a, f.pos a = a v) := by
  have hsc : f.scope = [v] :=
    List.perm_singleton.1 ((List.perm_ext_iff_of_nodup w.scope_nodup (by simp)).2 (by simpa using hs))
  refine ⟨hsc, by rw [w.cpt_len, hsc]; simp, fun a => ?_⟩
  obtain ⟨o, ho, hl⟩ := w.layout
  rw [pos_eq_enc ho hl]
  rw [hsc] at ho
  rw [List.perm_singleton.1 ho]
  simp [enc]

theorem wf_empty {f : Factor N} (w : f.WF c) (hs : ∀ u, u ∉ f.scope) :
    f.scope = [] ∧ f.cpt.length = 1 ∧ (∀ a, f.pos a = 0) := by
  have hsc : f.scope = [] := List.eq_nil_iff_forall_not_mem.2 hs
  exact ⟨hsc, by rw [w.cpt_len, hsc]; simp, fun a => by rw [Factor.pos, hsc]; rfl⟩

theorem argmaxFrom_ok : ∀ (l pre : List ℚ) (best : ℕ) (bx : ℚ), pre[best]? = some bx → (∀ y ∈ pre, y ≤ bx) →
    ∃ z, (pre ++ l)[argmaxFrom best bx pre.length l]? = some z ∧ ∀ y ∈ pre ++ l, y ≤ z := by
  intro l
  induction l with
  | nil => intro pre best bx h1 h2; exact ⟨bx, by simpa [argmaxFrom] using h1, by simpa using h2⟩
  | cons x l ih =>
    intro pre best bx h1 h2
    have hlen : pre.length + 1 = (pre ++ [x]).length := by simp
    have happ : pre ++ x :: l = (pre ++ [x]) ++ l := by simp
    simp only [argmaxFrom]
    rw [happ, hlen]
    split
    · rename_i hlt
      apply ih
      · simp
      · intro y hy
        rw [List.mem_append, List.mem_singleton] at hy
        rcases hy with hy | rfl
        · exact (h2 y hy).trans hlt.le
        · exact le_refl _
    · rename_i hlt
      apply ih
      · rw [List.getElem?_append_left (List.getElem?_eq_some_iff.1 h1).1]; exact h1
      · intro y hy
        rw [List.mem_append, List.mem_singleton] at hy
        rcases hy with hy | rfl
        · exact h2 y hy
        · exact not_lt.1 hlt

theorem pyArgmax_ok {l : List ℚ} (h : l ≠ []) : ∃ i z, pyArgmax l = .ok i ∧ l[i]? = some z ∧ ∀ y ∈ l, y ≤ z := by
  cases l with
  | nil => exact absurd rfl h
  | cons x l =>
    obtain ⟨z, h1, h2⟩ := argmaxFrom_ok l [x] 0 x (by simp) (by simp)
    exact ⟨argmaxFrom 0 x 1 l, z, rfl, h1, h2⟩

theorem reduceUpstream_ok (h : HashOrder N) {bn : BayesNet N A} (wb : bn.WF) {asg : Dict N A} {x : Asg N} :
    ∀ (us : List N) {f : Factor N}, f.WF bn.cardOf → us.Nodup → (∀ u ∈ us, u ∈ bn.V) → (∀ u ∈ us, x u < bn.cardOf u) →
    (∀ u ∈ us, asg.get? u = (bn.valuesOf u)[x u]?) →
    ∃ f', reduceUpstream h bn asg us f = .ok f' ∧ f'.WF bn.cardOf ∧ (∀ v, v ∈ f'.scope ↔ v ∈ f.scope ∧ v ∉ us) ∧
      ∀ a, InRange bn.cardOf f'.scope a → f'.val a = f.val fun u => if u ∈ us then x u else a u := by
  intro us
  induction us with
  | nil => intro f w _ _ _ _; exact ⟨f, rfl, w, by simp, by simp⟩
  | cons v us ih =>
    intro f w hn hV hx hasg
    rw [List.nodup_cons] at hn
    have hvV := hV v (by simp)
    have ih' := fun {g : Factor N} (wg : g.WF bn.cardOf) => ih wg hn.2 (fun u hu => hV u (by simp [hu]))
      (fun u hu => hx u (by simp [hu])) (fun u hu => hasg u (by simp [hu]))
    by_cases hf : v ∈ f.scope
    · have hxl : x v < (bn.valuesOf v).length := by rw [← wb.card_len hvV]; exact hx v (by simp)
      have hg : asg.get? v = some ((bn.valuesOf v)[x v]) := by
        rw [hasg v (by simp), List.getElem?_eq_getElem hxl]
      have hidx : pyIndex (bn.valuesOf v) ((bn.valuesOf v)[x v]) = .ok (x v) := by
        rw [pyIndex_ok]
        refine ⟨List.getElem?_eq_getElem hxl, fun m hm he => ?_⟩
        obtain ⟨hm1, hm2⟩ := List.getElem?_eq_some_iff.1 he
        have := (List.Nodup.getElem_inj_iff (wb.values_nodup v hvV)).1 hm2
        omega
      obtain ⟨f1, e1, w1, s1, v1⟩ := reduce_ok h bn w hf (wb.values_ok hvV) hidx (hx v (by simp))
      obtain ⟨f2, e2, w2, s2, v2⟩ := ih' w1
      refine ⟨f2, by simp [reduceUpstream, hf, Dict.get_of_get? hg, e1, e2], w2, fun u => ?_, fun a ha => ?_⟩
      · rw [s2, s1, w.scope_nodup.mem_erase_iff, List.mem_cons, not_or]; tauto
      · rw [v2 a ha, val_of_entry (v1 _ ?_)]
        · apply val_congr
          intro u _
          by_cases huv : u = v
          · subst huv; rw [Asg.upd_self]; simp
          · rw [Asg.upd_ne _ _ huv]; simp [huv]
        · intro u hu
          by_cases hus : u ∈ us
          · simp only [hus, if_true]; exact hx u (by simp [hus])
          · simp only [hus, if_false]; exact ha u ((s2 u).2 ⟨hu, hus⟩)
    · obtain ⟨f2, e2, w2, s2, v2⟩ := ih' w
      refine ⟨f2, by simp [reduceUpstream, hf, e2], w2, fun u => ?_, fun a ha => ?_⟩
      · rw [s2, List.mem_cons, not_or]
        exact ⟨fun hu => ⟨hu.1, by rintro rfl; exact hf hu.1, hu.2⟩, fun hu => ⟨hu.1, hu.2.2⟩⟩
      · rw [v2 a ha]
        apply val_congr
        intro u hu
        have : u ≠ v := by rintro rfl; exact hf hu
        simp [this]

/-- Non-negative on legal assignments. -/
def VNonneg (c : N → ℕ) (f : Factor N) : Prop := ∀ a, InRange c f.scope a → 0 ≤ f.val a

theorem prodVal_nonneg {phi : List (Factor N)} (hn : ∀ f ∈ phi, VNonneg c f) {a : Asg N} (ha : InR c phi a) :
    0 ≤ prodVal phi a := by
  have hall : ∀ f ∈ phi, 0 ≤ f.val a := fun f hf => hn f hf a fun v hv => ha v ⟨f, hf, hv⟩
  clear hn ha
  induction phi with
  | nil => simp [prodVal]
  | cons f fs ih =>
    simp only [prodVal, List.map_cons, List.prod_cons] at ih ⊢
    exact mul_nonneg (hall f (by simp)) (ih fun g hg => hall g (by simp [hg]))

theorem foldl_max_eq {l : List ℚ} {z : ℚ} (hz : z ∈ l) (h0 : 0 ≤ z) (h : ∀ y ∈ l, y ≤ z) : l.foldl max 0 = z := by
  apply le_antisymm
  · rcases foldl_max_mem l 0 with h1 | h1
    · rw [h1]; exact h0
    · exact h _ h1
  · exact (foldl_max_ge l 0).2 z hz

theorem maxElimAll_ok (h : HashOrder N) {bn : BayesNet N A} (wb : bn.WF) : ∀ (order : List N) (p : Factorization N A),
    (∀ f ∈ p.phi, f.WF bn.cardOf) → (∀ f ∈ p.phi, VNonneg bn.cardOf f) → order.Nodup → (∀ v ∈ order, v ∈ bn.V) →
    (∀ v, Mentions p.phi v ↔ v ∈ order) → (∀ v ∈ order, v ∉ Dict.keys p.mapFactors) →
    ∃ p' mf, maxElimAll h order p = .ok p' ∧ p'.mapFactors = p.mapFactors ++ mf ∧ p'.mapAssignment = p.mapAssignment ∧
      mf.map Prod.fst = order ∧ ElimChain bn.cardOf order p.phi p'.phi ∧ (∀ f ∈ p'.phi, f.WF bn.cardOf) ∧ (∀ v, ¬ Mentions p'.phi v) ∧
      ∀ asg : Dict N A, ∃ asg' x, traceback h bn asg mf = .ok asg' ∧ (∀ u, u ∉ order → asg'.get? u = asg.get? u) ∧
        (∀ u ∈ order, x u < bn.cardOf u ∧ asg'.get? u = (bn.valuesOf u)[x u]?) ∧
        (∀ b, InR bn.cardOf p.phi b → prodVal p.phi b ≤ prodVal p.phi x) ∧
        (∀ a, prodVal p'.phi a = prodVal p.phi x) ∧ (asg.keys.Nodup → asg'.keys.Nodup) := by
  intro order
  induction order with
  | nil =>
    intro p hw _ _ _ hm _
    have hm' : ∀ v, ¬ Mentions p.phi v := fun v hv => by simpa using (hm v).1 hv
    have hconst : ∀ a b, prodVal p.phi a = prodVal p.phi b := by
      intro a b
      unfold prodVal; congr 1
      apply List.map_congr_left
      intro f hf
      exact val_congr fun v hv => absurd ⟨f, hf, hv⟩ (hm' v)
    exact ⟨p, [], rfl, by simp, rfl, rfl, .nil _, hw, hm', fun asg => ⟨asg, fun _ => 0, rfl, fun _ _ => rfl, by simp,
      fun b _ => (hconst _ _).le, fun a => hconst _ _, id⟩⟩
  | cons v vs ih =>
    intro p hw hnn hn hV hm hk
    rw [List.nodup_cons] at hn
    obtain ⟨p1, psi, psi', e1, mf1, ma1, wpsi, rpsi, spsi, vpsi, sh, vpsi'⟩ :=
      maxElim_ok h p hw ((hm v).2 (by simp))
    have hm1 : ∀ u, Mentions p1.phi u ↔ u ∈ vs := by
      intro u
      rw [sh.mentions, hm, List.mem_cons]
      exact ⟨fun hu => hu.2.resolve_left hu.1, fun hu => ⟨by rintro rfl; exact hn.1 hu, .inr hu⟩⟩
    have hpsisub : ∀ u ∈ psi.scope, u = v ∨ u ∈ vs := by
      intro u hu
      obtain ⟨f, hf, _, hu⟩ := (spsi u).1 hu
      exact List.mem_cons.1 ((hm u).1 ⟨f, hf, hu⟩)
    have hrel : ∀ f, f ∈ relevant p.phi v → f ∈ p.phi := fun f hf => List.mem_of_mem_filter hf
    have hirr : ∀ f, f ∈ irrelevant p.phi v → f ∈ p.phi := fun f hf => List.mem_of_mem_filter hf
    have hpsinn : ∀ a, InRange bn.cardOf psi.scope a → 0 ≤ psi.val a := by
      intro a ha
      rw [vpsi a ha]
      apply prodVal_nonneg (c := bn.cardOf) fun f hf => hnn f (hrel f hf)
      rintro u ⟨f, hf, hu⟩
      have hf' := hf
      simp only [relevant, List.mem_filter, decide_eq_true_eq] at hf'
      exact ha u ((spsi u).2 ⟨f, hf'.1, hf'.2, hu⟩)
    have hnn1 : ∀ f ∈ p1.phi, VNonneg bn.cardOf f := by
      intro f hf
      rw [sh.eq, List.mem_append, List.mem_singleton] at hf
      rcases hf with hf | rfl
      · exact hnn f (hirr f hf)
      · intro a ha; rw [vpsi' a ha]; exact (foldl_max_ge _ _).1
    have hk' : v ∉ Dict.keys p.mapFactors := hk v (by simp)
    have hset : Dict.set p.mapFactors v psi = p.mapFactors ++ [(v, psi)] := by
      generalize p.mapFactors = d at hk'
      induction d with
      | nil => rfl
      | cons kv d ihd =>
        obtain ⟨k, w⟩ := kv
        simp only [Dict.keys, List.map_cons, List.mem_cons, not_or] at hk'
        simp only [Dict.set, if_neg (Ne.symm hk'.1), List.cons_append]
        rw [ihd hk'.2]
    obtain ⟨p2, mf, e2, m2, ma2, k2, ch2, w2, nm2, tb2⟩ := ih p1 (sh.all_wf hw) hnn1 hn.2 (fun u hu => hV u (by simp [hu])) hm1
      (fun u hu => by
        rw [mf1, hset]
        simp only [Dict.keys, List.map_append, List.map_cons, List.map_nil, List.mem_append, List.mem_singleton, not_or]
        exact ⟨hk u (by simp [hu]), by rintro rfl; exact hn.1 hu⟩)
    refine ⟨p2, (v, psi) :: mf, by simp [maxElimAll, e1, e2], by rw [m2, mf1, hset]; simp, by rw [ma2, ma1],
      by simp [k2], .cons sh ch2, w2, nm2, fun asg => ?_⟩
    obtain ⟨asg1, x1, t1, g1, x1r, mx1, c1, nd1⟩ := tb2 asg
    have hvV : v ∈ bn.V := hV v (by simp)
    obtain ⟨f', e3, w3, s3, v3⟩ := reduceUpstream_ok h wb (asg := asg1) (x := x1) vs wpsi hn.2
      (fun u hu => hV u (by simp [hu])) (fun u hu => (x1r u hu).1) (fun u hu => (x1r u hu).2)
    have hs3 : ∀ u, u ∈ f'.scope ↔ u = v := by
      intro u
      rw [s3]
      exact ⟨fun hu => (hpsisub u hu.1).resolve_right hu.2, by rintro rfl; exact ⟨rpsi, hn.1⟩⟩
    obtain ⟨sc3, len3, pos3⟩ := wf_single w3 hs3
    have hcp : 0 < bn.cardOf v := wpsi.card_pos v rpsi
    have hne : f'.cpt ≠ [] := by intro h0; rw [h0] at len3; simp at len3; omega
    obtain ⟨i, z, am, hz, hmax⟩ := pyArgmax_ok hne
    have hi : i < bn.cardOf v := by rw [← len3]; exact (List.getElem?_eq_some_iff.1 hz).1
    -- entries of the reduced factor
    have hent : ∀ j < bn.cardOf v, f'.cpt[j]? = some (psi.val (x1.upd v j)) := by
      intro j hj
      have hr : InRange bn.cardOf f'.scope (fun _ => j) := by
        intro u hu; rw [(hs3 u).1 hu]; exact hj
      have h1 := w3.entry_eq hr
      rw [Factor.entry, pos3] at h1
      rw [h1, v3 _ hr]
      congr 1
      apply val_congr
      intro u hu
      rcases hpsisub u hu with rfl | huv
      · rw [Asg.upd_self]; simp [hn.1]
      · have : u ≠ v := by rintro rfl; exact hn.1 huv
        rw [Asg.upd_ne _ _ this]; simp [huv]
    have hx1psi : ∀ j < bn.cardOf v, InRange bn.cardOf psi.scope (x1.upd v j) := by
      intro j hj u hu
      by_cases huv : u = v
      · subst huv; rwa [Asg.upd_self]
      · rw [Asg.upd_ne _ _ huv]; exact (x1r u ((hpsisub u hu).resolve_left huv)).1
    have hzv : z = psi.val (x1.upd v i) := by have := hent i hi; rw [hz] at this; exact Option.some.inj this
    have hzmax : ∀ j < bn.cardOf v, psi.val (x1.upd v j) ≤ psi.val (x1.upd v i) := by
      intro j hj; rw [← hzv]; exact hmax _ (List.mem_of_getElem? (hent j hj))
    have hpsi'scope : ∀ u ∈ psi'.scope, u ∈ vs := by
      intro u hu
      obtain ⟨h1, f, hf, _, hfu⟩ := (sh.scope u).1 hu
      exact (List.mem_cons.1 ((hm u).1 ⟨f, hf, hfu⟩)).resolve_left h1
    have hprod1 : ∀ a, prodVal p1.phi a = prodVal (irrelevant p.phi v) a * psi'.val a := by
      intro a; rw [sh.eq]; simp [prodVal]
    have hprod : ∀ a, InRange bn.cardOf psi.scope a → prodVal p.phi a = psi.val a * prodVal (irrelevant p.phi v) a := by
      intro a ha; rw [prodVal_split p.phi v, vpsi a ha]
    have hval' : psi'.val x1 = psi.val (x1.upd v i) := by
      rw [vpsi' x1 fun u hu => (x1r u (hpsi'scope u hu)).1]
      apply foldl_max_eq
      · exact List.mem_map.2 ⟨i, List.mem_range.2 hi, rfl⟩
      · exact hpsinn _ (hx1psi i hi)
      · intro y hy
        obtain ⟨j, hj, rfl⟩ := List.mem_map.1 hy
        exact hzmax j (List.mem_range.1 hj)
    have key : prodVal p.phi (x1.upd v i) = prodVal p1.phi x1 := by
      rw [hprod _ (hx1psi i hi), hprod1, prodVal_irrelevant_upd, hval', mul_comm]
    have hlen : i < (bn.valuesOf v).length := by rw [← wb.card_len hvV]; exact hi
    refine ⟨asg1.set v (bn.valuesOf v)[i], x1.upd v i, ?_, ?_, ?_, ?_, ?_, ?_⟩
    · have hpi : pyIdx (bn.valuesOf v) (i : ℤ) = .ok (bn.valuesOf v)[i] := pyIdx_nat (List.getElem?_eq_getElem hlen)
      simp only [traceback, t1, Py.bind_ok, k2, e3, wb.values_ok hvV, am, hpi]
      rfl
    · intro u hu
      simp only [List.mem_cons, not_or] at hu
      rw [Dict.get?_set, if_neg (Ne.symm hu.1)]; exact g1 u hu.2
    · intro u hu
      by_cases huv : u = v
      · subst huv
        rw [Asg.upd_self]
        exact ⟨hi, by rw [Dict.get?_set, if_pos rfl, List.getElem?_eq_getElem hlen]⟩
      · rw [Asg.upd_ne _ _ huv, Dict.get?_set, if_neg (Ne.symm huv)]
        exact x1r u ((List.mem_cons.1 hu).resolve_left huv)
    · intro b hb
      rw [key]
      have hb1 : InR bn.cardOf p1.phi b := fun u hu => hb u ((sh.mentions u).1 hu).2
      refine le_trans ?_ (mx1 b hb1)
      have hbpsi : InRange bn.cardOf psi.scope b := by
        intro u hu
        obtain ⟨f, hf, _, hfu⟩ := (spsi u).1 hu
        exact hb u ⟨f, hf, hfu⟩
      rw [hprod b hbpsi, hprod1, mul_comm]
      apply mul_le_mul_of_nonneg_left
      · rw [vpsi' b fun u hu => hb u (by
          obtain ⟨_, f, hf, _, hfu⟩ := (sh.scope u).1 hu; exact ⟨f, hf, hfu⟩)]
        apply (foldl_max_ge _ _).2
        exact List.mem_map.2 ⟨b v, List.mem_range.2 (hbpsi v rpsi), by rw [Asg.upd_id]⟩
      · apply prodVal_nonneg (c := bn.cardOf) fun f hf => hnn f (hirr f hf)
        rintro u ⟨f, hf, hu⟩
        exact hb u ⟨f, hirr f hf, hu⟩
    · intro a; rw [c1, key]
    · intro hnd; exact Dict.nodup_keys_set (nd1 hnd) _ _

end PyBN
