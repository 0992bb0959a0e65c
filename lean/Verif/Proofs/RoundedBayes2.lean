import Verif.Proofs.RoundedBayes
import Verif.Props.Learn

/-!
# `bayes_estimator` with rounded arithmetic: the learned tables
-/

namespace PyBN
namespace BayesNet

/-- Everything about the network after `bayes_estimator` in rounded arithmetic, with a positive equivalent sample size. -/
theorem bayesR_ok {u : ℚ} {rnd : ℚ → ℚ} (r : Rounds u rnd) {fsum : List ℚ → ℚ} (hs : SumsTo u fsum) (hE : HashOrder (ℕ × ℤ)) (hI : HashOrder ℤ) (bn : BayesNet ℕ ℤ) (s : bn.Shape) (data : Data) (hf : data.Fits bn.V)
    (nodes : Option (List ℕ)) (hns : (nodes.getD bn.V).Perm bn.V) (equiv : Option ℚ) (he : ∀ e ∈ equiv, 0 < e) :
    ∃ bn', bayesEstimatorR rnd fsum hE hI bn data equiv nodes = .ok bn' ∧ bn'.V = bn.V ∧ bn'.E = bn.E ∧ bn'.WF ∧
      (∀ v ∈ bn.V, data.IsValues ((nodes.getD bn.V).idxOf v) (bn'.valuesOf v)) ∧
      (∀ v, bn'.parentsOf v = bn.parentsOf v) ∧
      ∀ v ∈ bn.V, (bn'.cptOf v).length = ((v :: bn.parentsOf v).map bn'.cardOf).prod ∧
        ∀ a, InRange bn'.cardOf (v :: bn.parentsOf v) a → ∃ y, (bn'.cptOf v)[enc bn'.cardOf (v :: bn.parentsOf v) a]? = some (rnd (roundAway 5 y)) ∧ 0 ≤ y ∧
          |y - (equiv.getD data.rows.length / (bn'.cptOf v).length +
              (data.rows.countP fun row => decide (MatchesOrLast bn'.valuesOf (v :: bn.parentsOf v) a row) : ℕ)) /
            (bn'.cardOf v * (equiv.getD data.rows.length / (bn'.cptOf v).length) +
              (data.rows.countP fun row => decide (MatchesOrLast bn'.valuesOf (bn.parentsOf v) a row) : ℕ))| ≤
            divErr u (data.rows.length + bn'.cardOf v + 2) := by
  set e : ℚ := equiv.getD data.rows.length with hedef
  have hepos : 0 < e := by
    rw [hedef]
    cases equiv with
    | none => simp only [Option.getD_none]; exact_mod_cast List.length_pos_of_ne_nil hf.ne
    | some x => exact he x rfl
  obtain ⟨bn2, cnt, h1, hV, hE', w2, hp, hval, htab⟩ := learn_ok hE hI (fill := priorFillR rnd e) (x := fun n => rnd (e / n))
    (fun n hn => by unfold priorFillR; rw [if_neg (by omega)]) s hns hf
  set ns := nodes.getD bn.V with hnsdef
  have hnd : ns.Nodup := hns.nodup_iff.2 s.nodup
  have hmem : ∀ v, v ∈ ns ↔ v ∈ bn.V := fun v => hns.mem_iff
  obtain ⟨cntR, k1, k2⟩ := learnR_near r hE hI (fill := priorFillR rnd e) (fun n x hx => by
    unfold priorFillR at hx
    split_ifs at hx
    cases hx
    exact (r.near (div_nonneg hepos.le (Nat.cast_nonneg _))).nonneg r.lt_one) hnd h1
  have hnorm : ∀ v, ∃ R, v ∈ bn.V → normBlocksB rnd fsum (bn2.cardOf v) (((cntR.get? v).getD []).length + 1) ((cntR.get? v).getD []) = .ok R ∧
      R.length = ((v :: bn.parentsOf v).map bn2.cardOf).prod ∧
      ∀ a, InRange bn2.cardOf (v :: bn.parentsOf v) a → ∃ y, R[enc bn2.cardOf (v :: bn.parentsOf v) a]? = some (rnd (roundAway 5 y)) ∧ 0 ≤ y ∧
        |y - (e / R.length + (data.rows.countP fun row => decide (MatchesOrLast bn2.valuesOf (v :: bn.parentsOf v) a row) : ℕ)) /
          (bn2.cardOf v * (e / R.length) + (data.rows.countP fun row => decide (MatchesOrLast bn2.valuesOf (bn.parentsOf v) a row) : ℕ))| ≤
          divErr u (data.rows.length + bn2.cardOf v + 2) := by
    intro v
    by_cases hv : v ∈ bn.V
    · have hv2 : v ∈ bn2.V := by rw [hV]; exact hv
      obtain ⟨l, e1, e2, e3⟩ := htab v hv
      have hcp : (0 : ℚ) < bn2.cardOf v := by exact_mod_cast w2.card_pos hv2
      have hlp : (0 : ℚ) < l.length := by
        have : 0 < l.length := by
          rw [e2]
          apply List.prod_pos
          intro c hc
          obtain ⟨p, hp', rfl⟩ := List.mem_map.1 hc
          exact w2.card_pos (w2.fam_mem hv2 p (by rw [hp]; exact hp'))
        exact_mod_cast this
      obtain ⟨lR, j1, j2⟩ := k2 v l e1
      obtain ⟨R, g1, g2, g3⟩ := norm_okB r hs w2 hv2 (rows := data.rows)
        (fun row hrow => by rw [hf.rect row hrow]; exact hf.cols v hv) (l := l) (lR := lR) j2 (e0 := e / l.length) (x0 := rnd (e / l.length))
        (by positivity) (r.near (by positivity)) (by rw [e2, hp]) (by rw [hp]; exact e3)
      refine ⟨R, fun _ => ⟨by rw [j1]; exact g1, by rw [g2, e2], fun a ha => ?_⟩⟩
      rw [hp] at g3
      rw [g2]
      exact g3 a ha
    · exact ⟨[], fun h => absurd h hv⟩
  choose R hR using hnorm
  obtain ⟨F', g1, g2⟩ := writeBackR_ok (rnd := rnd) (fsum := fsum) (bn := bn2) (cnt := cntR) (R := R) ns bn2.F hnd
    (fun v hv => by
      have hvV := (hmem v).1 hv
      obtain ⟨l, e1, _⟩ := htab v hvV
      obtain ⟨lR, j1, _⟩ := k2 v l e1
      have hr := (hR v hvV).1
      rw [j1, Option.getD_some] at hr
      exact ⟨lR, _, j1, w2.card_ok (by rw [hV]; exact hvV), hr⟩)
    (fun v hv => (w2.dom v).2 (by rw [hV]; exact (hmem v).1 hv))
  set bn' : BayesNet ℕ ℤ := { bn2 with F := F' } with hbn'
  have hget : ∀ k, bn'.F.get? k = if k ∈ ns then (bn2.F.get? k).map (fun d => ⟨d.parents, d.values, R k⟩) else bn2.F.get? k := g2
  have hpar : ∀ v, bn'.parentsOf v = bn.parentsOf v := by
    intro v; rw [← hp]; unfold parentsOf; rw [hget]; split_ifs
    · cases bn2.F.get? v <;> rfl
    · rfl
  have hvals : bn'.valuesOf = bn2.valuesOf := by
    funext v; unfold valuesOf; rw [hget]; split_ifs
    · cases bn2.F.get? v <;> rfl
    · rfl
  have hcard : bn'.cardOf = bn2.cardOf := by rw [card_eq_len, card_eq_len bn2, hvals]
  have hcpt : ∀ v ∈ bn.V, bn'.cptOf v = R v := by
    intro v hv
    obtain ⟨d, hd⟩ := Option.isSome_iff_exists.1 ((w2.dom v).2 (by rw [hV]; exact hv))
    unfold cptOf; rw [hget, if_pos ((hmem v).2 hv), hd]; rfl
  refine ⟨bn', ?_, hV, hE', ?_, fun v hv => by rw [hvals]; exact hval v hv, hpar, fun v hv => ?_⟩
  · unfold bayesEstimatorR
    simp only [← hnsdef, ← hedef, k1, Py.bind_ok]
    rw [g1]; rfl
  · exact {
      nodup := w2.nodup
      dom := fun v => by
        rw [hget]; split_ifs
        · rw [show bn'.V = bn2.V from rfl, ← w2.dom]; cases bn2.F.get? v <;> simp
        · rw [w2.dom]
      fam_nodup := fun v hv => by rw [hpar, ← hp]; exact w2.fam_nodup v hv
      parents_mem := fun v hv => by rw [hpar, ← hp]; exact w2.parents_mem v hv
      values_nodup := fun v hv => by rw [hvals]; exact w2.values_nodup v hv
      values_ne := fun v hv => by rw [hvals]; exact w2.values_ne v hv
      cpt_len := fun v hv => by
        have hv' : v ∈ bn.V := hV ▸ hv
        rw [hcpt v hv', hpar, hcard]; exact (hR v hv').2.1 }
  · rw [hcpt v hv, hcard, hvals]
    exact (hR v hv).2

end BayesNet
end PyBN
