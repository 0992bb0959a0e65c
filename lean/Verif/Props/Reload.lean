import Verif.Props.IO
import Verif.Props.DSep
import Verif.Props.Sample4

/-!
# C231–C233: a network saved with `write_bn` and loaded with `read_bn`
-/

set_option linter.unusedSectionVars false
namespace PyBN
open Sampling
variable {N A : Type _} [DecidableEq N] [DecidableEq A]

/-- The same tables, the nodes possibly listed in another order. -/
structure SameTables (bn bn' : BayesNet N A) : Prop where
  nodes : bn'.V.Perm bn.V
  tables : ∀ v, bn'.F.get? v = bn.F.get? v

namespace SameTables
variable {bn bn' : BayesNet N A} (S : SameTables bn bn')
include S

theorem parents (v : N) : bn'.parentsOf v = bn.parentsOf v := by unfold BayesNet.parentsOf; rw [S.tables]
theorem values (v : N) : bn'.valuesOf v = bn.valuesOf v := by unfold BayesNet.valuesOf; rw [S.tables]
theorem card (v : N) : bn'.cardOf v = bn.cardOf v := by unfold BayesNet.cardOf; rw [S.tables]
theorem cpt (v : N) : bn'.cptOf v = bn.cptOf v := by unfold BayesNet.cptOf; rw [S.tables]
theorem cards : bn'.cardOf = bn.cardOf := funext S.card
theorem prob (v : N) (a : Asg N) : bn'.prob v a = bn.prob v a := by unfold BayesNet.prob; rw [S.cpt, S.parents, S.cards]

theorem joint (a : Asg N) : bn'.joint a = bn.joint a := by
  unfold BayesNet.joint
  simp only [S.prob]
  exact (S.nodes.map _).prod_eq

theorem wf (w : bn.WF) : bn'.WF := by
  have m : ∀ v, v ∈ bn'.V ↔ v ∈ bn.V := fun v => S.nodes.mem_iff
  refine ⟨S.nodes.nodup_iff.2 w.nodup, fun v => by rw [S.tables, w.dom, m], fun v hv => ?_, fun v hv p hp => ?_, fun v hv => ?_, fun v hv => ?_, fun v hv => ?_⟩
  · rw [S.parents]; exact w.fam_nodup v ((m v).1 hv)
  · rw [S.parents] at hp; exact (m p).2 (w.parents_mem v ((m v).1 hv) p hp)
  · rw [S.values]; exact w.values_nodup v ((m v).1 hv)
  · rw [S.values]; exact w.values_ne v ((m v).1 hv)
  · rw [S.cpt, S.parents, S.cards]; exact w.cpt_len v ((m v).1 hv)

theorem nonneg (hn : bn.Nonneg) : bn'.Nonneg := fun v hv x hx => hn v (S.nodes.mem_iff.1 hv) x (by rw [← S.cpt]; exact hx)

theorem near {tol : ℚ} (hn : bn.NearNormalised tol) : bn'.NearNormalised tol := by
  intro v hv a ha
  have hc : bn'.cum v a (bn'.cardOf v) = bn.cum v a (bn.cardOf v) := by
    unfold BayesNet.cum
    simp only [S.prob, S.card]
  rw [hc]
  exact hn v (S.nodes.mem_iff.1 hv) a (by rw [← S.parents, ← S.cards]; exact ha)

theorem legal {ev : Dict N A} (hl : bn.LegalEvidence ev) : bn'.LegalEvidence ev :=
  ⟨hl.nodup, fun e he => ⟨S.nodes.mem_iff.2 (hl.legal e he).1, by rw [S.values]; exact (hl.legal e he).2⟩⟩

theorem agrees (ev : Dict N A) (a : Asg N) : bn'.Agrees ev a ↔ bn.Agrees ev a := by
  unfold BayesNet.Agrees
  simp only [S.values]

theorem symm : SameTables bn' bn := ⟨S.nodes.symm, fun v => (S.tables v).symm⟩

theorem linked {O O' : List N} (hO : ∀ x, x ∈ O → x ∈ O') {u v : N} (h : bn.Linked O u v) : bn'.Linked O' u v := by
  induction h with
  | refl => exact .refl _
  | step _ h1 h2 h3 h4 ih =>
    refine .step ih (S.nodes.mem_iff.2 h1) (hO _ h2) ?_ ?_
    · unfold BayesNet.fam at h3 ⊢; rw [S.parents]; exact h3
    · unfold BayesNet.fam at h4 ⊢; rw [S.parents]; exact h4

theorem marginal (w : bn.WF) (target : N) (ev : Dict N A) (a : Asg N) : bn'.marginal target ev a = bn.marginal target ev a := by
  unfold BayesNet.marginal
  rw [S.cards, sumAll_perm (S.nodes.filter _) _ ((S.wf w).nodup.filter _)]
  congr 1
  funext b
  exact S.joint b

/-- The order in which a network lists its nodes does not matter to `marginal_ve_e`. -/
theorem marginalVE (w : bn.WF) (h h' : HashOrder N) (hE hE' : HashOrder (N × A)) (target : N) (ev : Dict N A) (ht : target ∈ bn.V) (hte : target ∉ ev.keys)
    (hl : bn.LegalEvidence ev) : PyBN.marginalVE h' hE' bn' target ev = PyBN.marginalVE h hE bn target ev := by
  have a1 := C52_answered_iff h hE bn w target ev ht hte hl
  have a2 := C52_answered_iff h' hE' bn' (S.wf w) target ev (S.nodes.mem_iff.2 ht) hte (S.legal hl)
  have hO : ∀ x, x ∈ (bn.V.filter fun v => v ≠ target ∧ v ∉ ev.keys) ↔ x ∈ (bn'.V.filter fun v => v ≠ target ∧ v ∉ ev.keys) := fun x =>
    (S.nodes.filter _).mem_iff.symm
  by_cases hlk : ∀ u ∈ bn.V, ∀ v ∈ bn.V, bn.Linked (bn.V.filter fun v => v ≠ target ∧ v ∉ ev.keys) u v
  · obtain ⟨r, hr⟩ := a1.1 hlk
    obtain ⟨r', hr'⟩ := a2.1 fun u hu v hv => S.linked (fun x hx => (hO x).1 hx) (hlk u (S.nodes.mem_iff.1 hu) v (S.nodes.mem_iff.1 hv))
    rw [hr, hr']
    congr 1
    obtain ⟨-, -, -, l1, r1⟩ := C13_marginal_exact h hE bn w target ev hl.nodup r hr
    obtain ⟨-, -, -, l2, r2⟩ := C13_marginal_exact h' hE' bn' (S.wf w) target ev hl.nodup r' hr'
    apply List.ext_getElem?
    intro i
    by_cases hi : i < bn.cardOf target
    · obtain ⟨a, hai, hag⟩ := exists_agrees hte hl i
      subst hai
      rw [r1 a hi hag, r2 a (by rw [S.card]; exact hi) ((S.agrees ev a).2 hag), S.marginal w]
    · rw [List.getElem?_eq_none (l := r') (by rw [l2, S.card]; omega), List.getElem?_eq_none (l := r) (by omega)]
  · rw [a1.2 hlk, a2.2 fun hlk' => hlk fun u hu v hv =>
      S.symm.linked (fun x hx => (hO x).2 hx) (hlk' u (S.nodes.mem_iff.2 hu) v (S.nodes.mem_iff.2 hv))]

end SameTables

/-- A network `write_bn` can store: string names, consistent children and parent lists, no cycle. -/
structure Storable (bn : BayesNet Scalar Scalar) : Prop where
  wf : bn.WF
  edges : bn.EdgeWF
  keys : bn.F.keys.Nodup
  strings : ∀ v ∈ bn.V, IsStr v
  acyclic : NoCycle bn.E

theorem Storable.children {bn : BayesNet Scalar Scalar} (s : Storable bn) : ChildrenAreKeys bn.E := by
  rintro u v ⟨l, hl, hv⟩
  have hp : u ∈ bn.parentsOf v := by
    rw [← s.edges.iff]
    unfold BayesNet.childrenOf; rw [hl]; exact hv
  have hv' : v ∈ bn.V := by
    rw [← s.wf.dom]
    unfold BayesNet.parentsOf at hp
    cases hf : bn.F.get? v with
    | none => rw [hf] at hp; simp at hp
    | some => rfl
  rw [Dict.mem_keys_iff]; exact (s.edges.dom v).2 hv'

theorem Storable.perm {bn : BayesNet Scalar Scalar} (s : Storable bn) : bn.V.Perm bn.E.keys := by
  rw [List.perm_ext_iff_of_nodup s.wf.nodup s.edges.keys_nodup]
  intro v
  rw [Dict.mem_keys_iff, s.edges.dom]

theorem Storable.roundtrip {bn : BayesNet Scalar Scalar} (s : Storable bn) (fl : ℚ → String) (h h' : HashOrder Scalar) :
    ∃ file bn', IO.writeBn fl h bn = .ok file ∧ IO.readBn h' file = .ok bn' ∧ SameTables bn bn' ∧ (∀ v, bn'.E.get? v = bn.E.get? v) ∧
      bn'.E.keys.Nodup ∧ topsort h' bn'.E none = .ok bn'.V := by
  obtain ⟨file, bn', e1, e2, e3, e4, e5, -, e6, e7⟩ := C44_bn_roundtrip fl h h' bn s.edges.keys_nodup s.keys
    (fun k hk => s.strings k (s.perm.mem_iff.2 hk)) (fun k hk => s.strings k ((s.wf.dom k).1 (Dict.mem_keys_iff.1 hk))) s.children
  exact ⟨file, bn', e1, e2, ⟨(e7 s.acyclic).1.trans s.perm.symm, e4⟩, e3, e5.nodup_iff.2 s.edges.keys_nodup, e6⟩

/-! ## C231 -/

/-- C231: a network that was saved and loaded gives to every legal query of `marginal_ve_e` the answer (or the `NameError`) the original gives; and `ve_map` on it
returns an assignment exactly as probable as the one it returns on the original. -/
theorem C231_reloaded_answers (fl : ℚ → String) (h h' k k' : HashOrder Scalar) (hE hE' : HashOrder (Scalar × Scalar)) (bn : BayesNet Scalar Scalar) (s : Storable bn) :
    ∃ file bn', IO.writeBn fl h bn = .ok file ∧ IO.readBn h' file = .ok bn' ∧
      (∀ target ev, target ∈ bn.V → target ∉ ev.keys → bn.LegalEvidence ev → marginalVE k' hE' bn' target ev = marginalVE k hE bn target ev) ∧
      ∀ ev, bn.Nonneg → bn.LegalEvidence ev → ∃ (d d' : Dict Scalar Scalar) (x x' : Asg Scalar), veMap k hE bn ev = .ok d ∧ veMap k' hE' bn' ev = .ok d' ∧
        (∀ v ∈ bn.V, x v < bn.cardOf v ∧ d.get? v = (bn.valuesOf v)[x v]?) ∧ (∀ v ∈ bn.V, x' v < bn.cardOf v ∧ d'.get? v = (bn.valuesOf v)[x' v]?) ∧
        bn.joint x' = bn.joint x := by
  obtain ⟨file, bn', e1, e2, S, -, -, -⟩ := s.roundtrip fl h h'
  refine ⟨file, bn', e1, e2, fun target ev ht hte hl => S.marginalVE s.wf k k' hE hE' target ev ht hte hl, fun ev hnn hl => ?_⟩
  obtain ⟨d, x, a1, -, -, a4, -, a6, a7⟩ := C16_map_is_most_probable k hE bn s.wf hnn ev hl
  obtain ⟨d', x', b1, -, -, b4, -, b6, b7⟩ := C16_map_is_most_probable k' hE' bn' (S.wf s.wf) (S.nonneg hnn) ev (S.legal hl)
  have b4' : ∀ v ∈ bn.V, x' v < bn.cardOf v ∧ d'.get? v = (bn.valuesOf v)[x' v]? := fun v hv => by
    have := b4 v (S.nodes.mem_iff.2 hv)
    rwa [S.card, S.values] at this
  refine ⟨d, d', x, x', a1, b1, a4, b4', le_antisymm (a7 x' (fun v hv => (b4' v hv).1) ((S.agrees ev x').1 b6)) ?_⟩
  have := b7 x (fun v hv => by rw [S.card]; exact (a4 v (S.nodes.mem_iff.1 hv)).1) ((S.agrees ev x).2 a6)
  rwa [S.joint, S.joint] at this

/-! ## C232, C233 -/

variable {K : Type} [Field K] [LinearOrder K] [IsStrictOrderedRing K]

/-- Three nodes, a → c, a → b, b → c, every table uniform; the nodes are listed parents first. -/
def exReload : BayesNet Scalar Scalar where
  V := [.str "a", .str "b", .str "c"]
  E := [(.str "a", [.str "c", .str "b"]), (.str "b", [.str "c"]), (.str "c", [])]
  F := [(.str "a", ⟨[], [.int 0, .int 1], [1/2, 1/2]⟩), (.str "b", ⟨[.str "a"], [.int 0, .int 1], [1/2, 1/2, 1/2, 1/2]⟩),
        (.str "c", ⟨[.str "a", .str "b"], [.int 0, .int 1], [1/2, 1/2, 1/2, 1/2, 1/2, 1/2, 1/2, 1/2]⟩)]

theorem exReload_wf : exReload.WF := .of_dec _ (by decide) (by decide)

theorem exReload_storable : Storable exReload where
  wf := exReload_wf
  edges := .of_dec _ (by decide) (by decide) (by decide) (by decide)
  keys := by decide
  strings := by
    intro v hv
    simp [exReload] at hv
    rcases hv with rfl | rfl | rfl <;> exact ⟨_, rfl⟩
  acyclic := by
    refine noCycle_of_rank (fun v => if v = .str "a" then 0 else if v = .str "b" then 1 else 2) ?_
    decide

theorem exReload_parentsFirst : exReload.ParentsFirst := by
  intro pre v post h
  rcases pre with _ | ⟨a, _ | ⟨b, _ | ⟨c, pre⟩⟩⟩ <;> simp [exReload] at h
  · obtain ⟨rfl, _⟩ := h; simp [exReload, BayesNet.parentsOf, Dict.get?]
  · obtain ⟨rfl, rfl, _⟩ := h; simp [exReload, BayesNet.parentsOf, Dict.get?]
  · obtain ⟨rfl, rfl, rfl, _⟩ := h; simp [exReload, BayesNet.parentsOf, Dict.get?]

theorem exReload_nonneg : exReload.Nonneg := by unfold BayesNet.Nonneg; decide +kernel

theorem exReload_near : exReload.NearNormalised (1 / 10 ^ 8) := by
  intro v hv a ha
  have hhalf : ∀ v ∈ exReload.V, exReload.cardOf v = 2 ∧ ∀ x ∈ exReload.cptOf v, x = 1 / 2 := by decide +kernel
  have hp : ∀ x < 2, exReload.prob v (a.upd v x) = 1 / 2 := by
    intro x hx
    have hr : InRange exReload.cardOf (v :: exReload.parentsOf v) (a.upd v x) := by
      intro u hu
      by_cases huv : u = v
      · subst huv; rw [Asg.upd_self, (hhalf u hv).1]; exact hx
      · rw [Asg.upd_ne a x huv]
        rcases List.mem_cons.1 hu with rfl | hu
        · exact absurd rfl huv
        · exact ha u hu
    have hlt := enc_lt hr
    rw [← exReload_wf.cpt_len v hv] at hlt
    unfold BayesNet.prob
    rw [List.getElem?_eq_getElem hlt]
    exact (hhalf v hv).2 _ (List.getElem_mem hlt)
  unfold BayesNet.cum
  rw [(hhalf v hv).1, Finset.sum_range_succ, Finset.sum_range_one, hp 0 (by norm_num), hp 1 (by norm_num)]
  norm_num

/-- C232 in full: a network that `forward_sample` can sample can still be sampled after it was saved and loaded.  It is false: `read_bn` lists the nodes in the
order of `topsort`, which may put a node before one of its parents, and then every call raises `KeyError`. -/
theorem C232_false : ∃ (bn : BayesNet Scalar Scalar) (file : List Tok) (bn' : BayesNet Scalar Scalar), Storable bn ∧ bn.ParentsFirst ∧
    IO.writeBn (fun _ => "") .id bn = .ok file ∧ IO.readBn .id file = .ok bn' ∧
    ∀ (h : HashOrder Scalar) (U : ℕ → ℚ), (∀ i, 0 ≤ U i ∧ U i < 1) → ∀ n, 1 ≤ n →
      (∃ d, forwardSample (1 / 10 ^ 8) h bn n U = .ok d) ∧ forwardSample (1 / 10 ^ 8) h bn' n U = .error .keyError := by
  have hd : ((do let file ← IO.writeBn (fun _ => "") .id exReload; let bn' ← IO.readBn .id file; pure bn' : Py (BayesNet Scalar Scalar)).okAnd
      fun bn' => decide (bn'.V = [.str "a", .str "c", .str "b"])) = true := by decide +kernel
  obtain ⟨file, bn', e1, e2, S, -, -, -⟩ := exReload_storable.roundtrip (fun _ => "") .id .id
  obtain ⟨b, hb, hV⟩ := Py.of_okAnd hd
  rw [e1, Py.bind_ok, e2] at hb
  cases hb
  have hV := of_decide_eq_true hV
  refine ⟨exReload, file, bn', exReload_storable, exReload_parentsFirst, e1, e2, fun h U hU n hn => ⟨?_, ?_⟩⟩
  · obtain ⟨d, hd, -⟩ := C37_relative_frequencies h exReload exReload_wf exReload_nonneg (1 / 10 ^ 8) (by norm_num) exReload_near exReload_parentsFirst U hU n hn
    exact ⟨d, hd⟩
  · refine C70_forward_keyError h bn' (S.wf exReload_wf) (S.nonneg exReload_nonneg) (1 / 10 ^ 8) (by norm_num) (S.near exReload_near) U hU n hn fun hpf => ?_
    have := hpf [.str "a"] (.str "c") [.str "b"] hV (.str "b") (by rw [S.parents]; decide)
    revert this; decide

/-- C232, what holds of it: if no node has two parents, the loaded network lists its nodes parents first, and every sampling call succeeds with relative
frequencies. -/
theorem C232_forest_partial (fl : ℚ → String) (h h' k : HashOrder Scalar) (bn : BayesNet Scalar Scalar) (s : Storable bn)
    (hone : ∀ v ∈ bn.V, (bn.parentsOf v).length ≤ 1) (hn : bn.Nonneg) (tol : ℚ) (ht : tol < 1) (hnorm : bn.NearNormalised tol) :
    ∃ file bn', IO.writeBn fl h bn = .ok file ∧ IO.readBn h' file = .ok bn' ∧ bn'.ParentsFirst ∧
      ∀ (U : ℕ → K), (∀ i, 0 ≤ U i ∧ U i < 1) → ∀ n, 1 ≤ n → ∃ d, forwardSample tol k bn' n U = .ok d ∧ d.keys.Perm bn.V ∧
        ∀ v ∈ bn.V, ∃ t, d.get? v = some t ∧ t.keys = bn.valuesOf v ∧ (∀ y ∈ t.vals, 0 ≤ y ∧ y ≤ 1) ∧ t.vals.sum = 1 := by
  obtain ⟨file, bn', e1, e2, S, hEg, hEn, hV⟩ := s.roundtrip fl h h'
  have harc : ∀ u v, Arc bn'.E u v ↔ u ∈ bn.parentsOf v := by
    intro u v
    rw [← s.edges.iff]
    unfold Arc BayesNet.childrenOf
    rw [hEg]
    cases bn.E.get? u <;> simp
  have hmem : ∀ u v, Arc bn'.E u v → v ∈ bn.V := by
    intro u v huv
    have hp := (harc u v).1 huv
    rw [← s.wf.dom]
    unfold BayesNet.parentsOf at hp
    cases hf : bn.F.get? v with
    | none => rw [hf] at hp; simp at hp
    | some => rfl
  have hcl : ChildrenAreKeys bn'.E := fun u v huv => by
    rw [Dict.mem_keys_iff, hEg]
    exact (s.edges.dom v).2 (hmem u v huv)
  obtain ⟨l, hl, hbef⟩ := C27_topological_forest_partial h' bn'.E hEn hcl fun p p' v h1 h2 => by
    have h3 := hone v (hmem p v h1)
    rw [harc] at h1 h2
    rcases hps : bn.parentsOf v with _ | ⟨a, _ | ⟨b, ps⟩⟩
    · rw [hps] at h1; cases h1
    · rw [hps, List.mem_singleton] at h1 h2; rw [h1, h2]
    · rw [hps] at h3; simp at h3
  rw [hV] at hl
  cases hl
  have hpf : bn'.ParentsFirst := by
    intro pre v post e p hp
    rw [S.parents] at hp
    obtain ⟨l1, l2, e', hp'⟩ := hbef p v (by rw [e]; simp) ((harc p v).2 hp)
    have hnd := (S.wf s.wf).nodup
    rw [e] at e'
    have hv1 : v ∉ pre := by rw [e] at hnd; exact fun hv => (List.disjoint_of_nodup_append hnd) hv (by simp)
    have hv2 : v ∉ l1 := by rw [e, e'] at hnd; exact fun hv => (List.disjoint_of_nodup_append hnd) hv (by simp)
    have : pre = l1 := by
      have g1 : (pre ++ v :: post).takeWhile (fun x => x ≠ v) = pre := by
        rw [List.takeWhile_append_of_pos (fun x hx => by rw [decide_eq_true_eq]; exact fun e => hv1 (e ▸ hx))]; simp
      have g2 : (l1 ++ v :: l2).takeWhile (fun x => x ≠ v) = l1 := by
        rw [List.takeWhile_append_of_pos (fun x hx => by rw [decide_eq_true_eq]; exact fun e => hv2 (e ▸ hx))]; simp
      rw [← g1, e', g2]
    rw [this]; exact hp'
  refine ⟨file, bn', e1, e2, hpf, fun U hU n h1 => ?_⟩
  obtain ⟨d, g1, g2, g3⟩ := C37_relative_frequencies k bn' (S.wf s.wf) (S.nonneg hn) tol ht (S.near hnorm) hpf U hU n h1
  refine ⟨d, g1, by rw [g2]; exact S.nodes, fun v hv => ?_⟩
  obtain ⟨t, t1, t2, t3, t4⟩ := g3 v (S.nodes.mem_iff.2 hv)
  exact ⟨t, t1, by rw [t2, S.values], t3, t4⟩

/-- C233: exactly when a loaded network can be sampled: if the order `topsort` gives lists all parents first every call succeeds, otherwise every call raises
`KeyError`. -/
theorem C233_reloaded_sampling (fl : ℚ → String) (h h' k : HashOrder Scalar) (bn : BayesNet Scalar Scalar) (s : Storable bn)
    (hn : bn.Nonneg) (tol : ℚ) (ht : tol < 1) (hnorm : bn.NearNormalised tol) :
    ∃ file bn', IO.writeBn fl h bn = .ok file ∧ IO.readBn h' file = .ok bn' ∧
      ∃ o, topsort h' bn'.E none = .ok o ∧ o.Perm bn.V ∧ ∀ (U : ℕ → K), (∀ i, 0 ≤ U i ∧ U i < 1) → ∀ n, 1 ≤ n →
        ((∀ pre v post, o = pre ++ v :: post → ∀ p ∈ bn.parentsOf v, p ∈ pre) → ∃ d, forwardSample tol k bn' n U = .ok d) ∧
        ((¬ ∀ pre v post, o = pre ++ v :: post → ∀ p ∈ bn.parentsOf v, p ∈ pre) → forwardSample tol k bn' n U = .error .keyError) := by
  obtain ⟨file, bn', e1, e2, S, -, -, hV⟩ := s.roundtrip fl h h'
  have hiff : bn'.ParentsFirst ↔ ∀ pre v post, bn'.V = pre ++ v :: post → ∀ p ∈ bn.parentsOf v, p ∈ pre := by
    unfold BayesNet.ParentsFirst
    simp only [S.parents]
  refine ⟨file, bn', e1, e2, bn'.V, hV, S.nodes, fun U hU n h1 => ⟨fun hpf => ?_, fun hpf => ?_⟩⟩
  · obtain ⟨d, g1, -⟩ := C37_relative_frequencies k bn' (S.wf s.wf) (S.nonneg hn) tol ht (S.near hnorm) (hiff.2 hpf) U hU n h1
    exact ⟨d, g1⟩
  · exact C70_forward_keyError k bn' (S.wf s.wf) (S.nonneg hn) tol ht (S.near hnorm) U hU n h1 fun h => hpf (hiff.1 h)

/-- Witnesses: the network above meets the hypotheses of C231 and C233, and the two-node network of C44 those of C232 (no node has two parents). -/
example : Storable exReload ∧ exReload.Nonneg ∧ exReload.NearNormalised (1 / 10 ^ 8) := ⟨exReload_storable, exReload_nonneg, exReload_near⟩

example : ∃ (target : Scalar) (ev : Dict Scalar Scalar) (r : List ℚ), target ∈ exReload.V ∧ ev ≠ [] ∧ target ∉ ev.keys ∧ exReload.LegalEvidence ev ∧
    marginalVE .id .id exReload target ev = .ok r := by
  have hd : ((marginalVE .id .id exReload (.str "c") [(.str "b", .int 1)]).okAnd fun r => decide (r = [1/4, 1/4])) = true := by decide +kernel
  obtain ⟨r, e, -⟩ := Py.of_okAnd hd
  exact ⟨.str "c", [(.str "b", .int 1)], r, by decide, by decide, by decide, ⟨by decide, by decide⟩, e⟩

example : ∀ v ∈ exIO.V, (exIO.parentsOf v).length ≤ 1 := by decide

end PyBN
