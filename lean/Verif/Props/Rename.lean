import Verif.Proofs.Rename
import Verif.Props.Inference

/-!
# C244: the answers depend on the model only, not on how it is written down
-/

set_option linter.unusedSectionVars false

namespace PyBN
open BayesNet
variable {N A M B : Type _} [DecidableEq N] [DecidableEq A] [DecidableEq M] [DecidableEq B]

/-- C244: a network with other names for nodes and values, and with its nodes, parents and values listed in another order, gives to every legal query of
`marginal_ve_e` the same number for every value of the target, and fails (`NameError`) on the same queries. -/
theorem C244_marginal {ρ : N → M} {τ : N → A → B} {bn : BayesNet N A} {bn' : BayesNet M B} (S : SameModel ρ τ bn bn') (wb : bn.WF) (wb' : bn'.WF)
    (h : HashOrder N) (h' : HashOrder M) (hE : HashOrder (N × A)) (hE' : HashOrder (M × B)) (target : N) (ev : Dict N A) (ht : target ∈ bn.V)
    (hte : target ∉ ev.keys) (hl : bn.LegalEvidence ev) :
    (∃ r r', marginalVE h hE bn target ev = .ok r ∧ marginalVE h' hE' bn' (ρ target) (renameEv ρ τ ev) = .ok r' ∧ r'.length = r.length ∧
      ∀ x ∈ bn.valuesOf target, r'[(bn'.valuesOf (ρ target)).idxOf (τ target x)]? = r[(bn.valuesOf target).idxOf x]?) ∨
    (marginalVE h hE bn target ev = .error .nameError ∧ marginalVE h' hE' bn' (ρ target) (renameEv ρ τ ev) = .error .nameError) := by
  have hk : ∀ k ∈ ev.keys, k ∈ bn.V := fun k hk => by
    obtain ⟨e, he, rfl⟩ := List.mem_map.1 hk
    exact (hl.legal e he).1
  have ht' := S.memV wb wb' ht
  have hte' : ρ target ∉ Dict.keys (renameEv ρ τ ev) := fun hx => hte ((S.keys_iff wb wb' hk ht).1 hx)
  have hl' := S.legal wb wb' hl
  have hp : (bn'.V.filter fun v => v ≠ ρ target ∧ v ∉ Dict.keys (renameEv ρ τ ev)).Perm
      ((bn.V.filter fun v => v ≠ target ∧ v ∉ ev.keys).map ρ) := by
    refine S.filter_perm wb wb' _ _ fun u hu => ?_
    have e1 : ρ u ≠ ρ target ↔ u ≠ target := not_congr ⟨fun e => S.inj wb wb' hu ht e, fun e => e ▸ rfl⟩
    simp only [e1, S.keys_iff wb wb' hk hu]
  have hO : ∀ x ∈ bn.V.filter (fun v => decide (v ≠ target ∧ v ∉ ev.keys)), x ∈ bn.V := fun x hx => (List.mem_filter.1 hx).1
  have hlk := S.all_linked wb wb' hO hp
  by_cases hc : ∀ u ∈ bn.V, ∀ v ∈ bn.V, bn.Linked (bn.V.filter fun v => v ≠ target ∧ v ∉ ev.keys) u v
  · left
    obtain ⟨r, hr⟩ := (C52_answered_iff h hE bn wb target ev ht hte hl).1 hc
    obtain ⟨r', hr'⟩ := (C52_answered_iff h' hE' bn' wb' (ρ target) (renameEv ρ τ ev) ht' hte' hl').1 (hlk.2 hc)
    obtain ⟨-, -, -, l1, m1⟩ := C13_marginal_exact h hE bn wb target ev hl.nodup r hr
    obtain ⟨-, -, -, l2, m2⟩ := C13_marginal_exact h' hE' bn' wb' (ρ target) _ hl'.nodup r' hr'
    refine ⟨r, r', hr, hr', by rw [l1, l2, S.card wb wb' ht], fun x hx => ?_⟩
    have hx' : τ target x ∈ bn'.valuesOf (ρ target) := (S.values target ht).mem_iff.2 (List.mem_map_of_mem hx)
    obtain ⟨a, ha1, ha2⟩ := exists_agrees hte hl ((bn.valuesOf target).idxOf x)
    obtain ⟨a', hb1, hb2⟩ := exists_agrees hte' hl' ((bn'.valuesOf (ρ target)).idxOf (τ target x))
    have lt1 : (bn.valuesOf target).idxOf x < bn.cardOf target := by rw [wb.card_len ht]; exact List.idxOf_lt_length_iff.2 hx
    have lt2 : (bn'.valuesOf (ρ target)).idxOf (τ target x) < bn'.cardOf (ρ target) := by rw [wb'.card_len ht']; exact List.idxOf_lt_length_iff.2 hx'
    have e1 := m1 a (ha1 ▸ lt1) ha2
    have e2 := m2 a' (hb1 ▸ lt2) hb2
    rw [ha1] at e1
    rw [hb1] at e2
    rw [e1, e2]
    congr 2
    unfold BayesNet.marginal
    rw [sumAll_perm hp _ (wb'.nodup.filter _)]
    refine S.sumAll_eq wb wb' (fun b b' hb => S.joint_eq wb wb' hb) _ hO a a' fun u hu hn => ?_
    by_cases hut : u = target
    · subst hut
      exact ⟨x, by rw [ha1]; exact List.getElem?_idxOf hx, by rw [hb1]; exact List.getElem?_idxOf hx'⟩
    · refine S.agrees_corr wb wb' ha2 hb2 ?_
      by_contra hue
      exact hn (List.mem_filter.2 ⟨hu, by simp [hut, hue]⟩)
  · right
    exact ⟨(C52_answered_iff h hE bn wb target ev ht hte hl).2 hc,
      (C52_answered_iff h' hE' bn' wb' (ρ target) (renameEv ρ τ ev) ht' hte' hl').2 fun hx => hc (hlk.1 hx)⟩

theorem joint_agree {bn : BayesNet N A} (wb : bn.WF) {a b : Asg N} (h : ∀ u ∈ bn.V, a u = b u) : bn.joint a = bn.joint b := by
  unfold BayesNet.joint
  congr 1
  refine List.map_congr_left fun v hv => prob_congr fun u hu => h u ?_
  rcases List.mem_cons.1 hu with rfl | hu
  · exact hv
  · exact wb.parents_mem v hv u hu

/-- Reading an answer of `ve_map`: named values for positions. -/
theorem named_of {bn : BayesNet N A} (wb : bn.WF) (hV : bn.V ≠ []) {d : Dict N A} {x : Asg N}
    (hx : ∀ v ∈ bn.V, x v < bn.cardOf v ∧ d.get? v = (bn.valuesOf v)[x v]?) :
    ∃ α : N → A, (∀ v ∈ bn.V, α v ∈ bn.valuesOf v ∧ d.get? v = some (α v) ∧ (bn.valuesOf v)[x v]? = some (α v)) ∧ bn.jointProb α = bn.joint x := by
  obtain ⟨v0, hv0⟩ := List.exists_mem_of_ne_nil _ hV
  obtain ⟨x0, -⟩ := List.exists_mem_of_ne_nil _ (wb.values_ne v0 hv0)
  have key : ∀ v ∈ bn.V, (bn.valuesOf v)[x v]? = some (((bn.valuesOf v)[x v]?).getD x0) := fun v hv => by
    have hlt : x v < (bn.valuesOf v).length := by rw [← wb.card_len hv]; exact (hx v hv).1
    rw [List.getElem?_eq_getElem hlt]; rfl
  refine ⟨fun v => ((bn.valuesOf v)[x v]?).getD x0, fun v hv => ⟨List.mem_of_getElem? (key v hv), (hx v hv).2.trans (key v hv), key v hv⟩, ?_⟩
  refine joint_agree wb fun u hu => ?_
  obtain ⟨q, hq⟩ := List.getElem?_eq_some_iff.1 (key u hu)
  simp only [positions]
  rw [← hq, List.Nodup.idxOf_getElem (wb.values_nodup u hu)]

/-- C244: `ve_map` on the two networks returns equally probable assignments; the same one, if only one is most probable. -/
theorem C244_map {ρ : N → M} {τ : N → A → B} {bn : BayesNet N A} {bn' : BayesNet M B} (S : SameModel ρ τ bn bn') (wb : bn.WF) (wb' : bn'.WF)
    (hnn : bn.Nonneg) (hV : bn.V ≠ []) (h : HashOrder N) (h' : HashOrder M) (hE : HashOrder (N × A)) (hE' : HashOrder (M × B))
    (ev : Dict N A) (hl : bn.LegalEvidence ev) :
    ∃ (d : Dict N A) (d' : Dict M B) (α : N → A) (α' : M → B), veMap h hE bn ev = .ok d ∧ veMap h' hE' bn' (renameEv ρ τ ev) = .ok d' ∧
      (∀ v ∈ bn.V, d.get? v = some (α v) ∧ d'.get? (ρ v) = some (α' (ρ v))) ∧ bn'.jointProb α' = bn.jointProb α ∧
      ((∀ β : N → A, (∀ v ∈ bn.V, β v ∈ bn.valuesOf v) → (∀ e ∈ ev, β e.1 = e.2) → bn.jointProb β = bn.jointProb α → ∀ v ∈ bn.V, β v = α v) →
        ∀ v ∈ bn.V, d'.get? (ρ v) = some (τ v (α v))) := by
  have hnn' := S.nonneg wb wb' hnn
  have hk : ∀ k ∈ ev.keys, k ∈ bn.V := fun k hk => by
    obtain ⟨e, he, rfl⟩ := List.mem_map.1 hk
    exact (hl.legal e he).1
  have hV' : bn'.V ≠ [] := fun e => by
    have := S.nodes.length_eq
    rw [e, List.length_map] at this
    exact hV (List.length_eq_zero_iff.1 this.symm)
  obtain ⟨d, x, a1, -, -, a4, -, a6, a7⟩ := C16_map_is_most_probable h hE bn wb hnn ev hl
  obtain ⟨d', x', b1, -, -, b4, -, b6, b7⟩ := C16_map_is_most_probable h' hE' bn' wb' hnn' _ (S.legal wb wb' hl)
  obtain ⟨α, p1, p2⟩ := named_of wb hV a4
  obtain ⟨α', q1, q2⟩ := named_of wb' hV' b4
  obtain ⟨y', hy⟩ := S.counterpart wb wb' (fun v hv => (a4 v hv).1)
  obtain ⟨y, hz⟩ := S.counterpart' wb wb' (fun v hv => (b4 v hv).1)
  have hyR : InRange bn'.cardOf bn'.V y' := fun m hm => by
    obtain ⟨u, hu, rfl⟩ := S.ofV wb wb' hm
    exact (S.corr_lt wb wb' hu (hy u hu)).2
  have hzR : InRange bn.cardOf bn.V y := fun u hu => (S.corr_lt wb wb' hu (hz u hu)).1
  have e1 := S.joint_eq wb wb' hy
  have e2 := S.joint_eq wb wb' hz
  have hyg := (S.agrees wb wb' hl fun u hu => hy u (hk u hu)).2 a6
  have hzg := (S.agrees wb wb' hl fun u hu => hz u (hk u hu)).1 b6
  have hj : bn'.joint x' = bn.joint x := le_antisymm (e2 ▸ a7 y hzR hzg) (e1 ▸ b7 y' hyR hyg)
  refine ⟨d, d', α, α', a1, b1, fun v hv => ⟨(p1 v hv).2.1, (q1 _ (S.memV wb wb' hv)).2.1⟩, by rw [p2, q2, hj], fun huniq v hv => ?_⟩
  -- the counterpart of `x'`, by name
  obtain ⟨β, r1, r2⟩ := named_of (d := (bn.V.map fun v => (v, ((bn.valuesOf v)[y v]?).getD (α v)) : Dict N A)) wb hV (x := y) fun v hv => ⟨hzR v hv, by
    have hlt : y v < (bn.valuesOf v).length := by rw [← wb.card_len hv]; exact hzR v hv
    have hkn : Dict.keys (bn.V.map fun v => (v, ((bn.valuesOf v)[y v]?).getD (α v)) : Dict N A) = bn.V := by simp [Dict.keys, List.map_map, Function.comp_def]
    rw [Dict.get?_of_mem (k := v) (v := ((bn.valuesOf v)[y v]?).getD (α v)) (by rw [hkn]; exact wb.nodup) (List.mem_map.2 ⟨v, hv, rfl⟩)]
    rw [List.getElem?_eq_getElem hlt]; rfl⟩
  have hβ := huniq β (fun v hv => (r1 v hv).1) (fun e he => by
    have := hzg e he
    rw [(r1 e.1 (hl.legal e he).1).2.2] at this
    exact Option.some.inj this) (by rw [r2, p2, ← e2, hj]) v hv
  obtain ⟨w, w1, w2⟩ := hz v hv
  rw [(r1 v hv).2.2] at w1
  cases w1
  rw [(b4 _ (S.memV wb wb' hv)).2, w2, hβ]

/-- C244: `ve_map(prob=True)` reports the same number on the two networks, and fails (`NameError`) for the same evidence. -/
theorem C244_map_prob {ρ : N → M} {τ : N → A → B} {bn : BayesNet N A} {bn' : BayesNet M B} (S : SameModel ρ τ bn bn') (wb : bn.WF) (wb' : bn'.WF)
    (hnn : bn.Nonneg) (hV : bn.V ≠ []) (h : HashOrder N) (h' : HashOrder M) (hE : HashOrder (N × A)) (hE' : HashOrder (M × B))
    (ev : Dict N A) (hl : bn.LegalEvidence ev) :
    (∃ q d d', veMapProb h hE bn ev = .ok (q, d) ∧ veMapProb h' hE' bn' (renameEv ρ τ ev) = .ok (q, d')) ∨
    (veMapProb h hE bn ev = .error .nameError ∧ veMapProb h' hE' bn' (renameEv ρ τ ev) = .error .nameError) := by
  have hnn' := S.nonneg wb wb' hnn
  have hk : ∀ k ∈ ev.keys, k ∈ bn.V := fun k hk => by
    obtain ⟨e, he, rfl⟩ := List.mem_map.1 hk
    exact (hl.legal e he).1
  have hV' : bn'.V ≠ [] := fun e => by
    have := S.nodes.length_eq
    rw [e, List.length_map] at this
    exact hV (List.length_eq_zero_iff.1 this.symm)
  have hl' := S.legal wb wb' hl
  have hp : (bn'.V.filter fun v => v ∉ Dict.keys (renameEv ρ τ ev)).Perm ((bn.V.filter fun v => v ∉ ev.keys).map ρ) :=
    S.filter_perm wb wb' _ _ fun u hu => by simp only [S.keys_iff wb wb' hk hu]
  have hlk := S.all_linked wb wb' (O := bn.V.filter fun v => v ∉ ev.keys) (fun x hx => (List.mem_filter.1 hx).1) hp
  by_cases hc : ∀ u ∈ bn.V, ∀ v ∈ bn.V, bn.Linked (bn.V.filter fun v => v ∉ ev.keys) u v
  · left
    obtain ⟨⟨q, d⟩, hr⟩ := (C53_map_prob_answered_iff h hE bn wb hnn ev hl hV).1 hc
    obtain ⟨⟨q', d'⟩, hr'⟩ := (C53_map_prob_answered_iff h' hE' bn' wb' hnn' _ hl' hV').1 (hlk.2 hc)
    obtain ⟨-, -, x, a4, a6, a5, -, a7⟩ := C17_map_prob h hE bn wb hnn ev hl.nodup q d hr
    obtain ⟨-, -, x', b4, b6, b5, -, b7⟩ := C17_map_prob h' hE' bn' wb' hnn' _ hl'.nodup q' d' hr'
    obtain ⟨y', hy⟩ := S.counterpart wb wb' (fun v hv => (a4 v hv).1)
    obtain ⟨y, hz⟩ := S.counterpart' wb wb' (fun v hv => (b4 v hv).1)
    have hyR : InRange bn'.cardOf bn'.V y' := fun m hm => by
      obtain ⟨u, hu, rfl⟩ := S.ofV wb wb' hm
      exact (S.corr_lt wb wb' hu (hy u hu)).2
    have hzR : InRange bn.cardOf bn.V y := fun u hu => (S.corr_lt wb wb' hu (hz u hu)).1
    have e1 := S.joint_eq wb wb' hy
    have e2 := S.joint_eq wb wb' hz
    have hyg := (S.agrees wb wb' hl fun u hu => hy u (hk u hu)).2 a6
    have hzg := (S.agrees wb wb' hl fun u hu => hz u (hk u hu)).1 b6
    have hj : bn'.joint x' = bn.joint x := le_antisymm (e2 ▸ a7 y hzR hzg) (e1 ▸ b7 y' hyR hyg)
    have hq : q' = q := by rw [a5, b5, hj]
    exact ⟨q, d, d', hr, hq ▸ hr'⟩
  · right
    exact ⟨(C53_map_prob_answered_iff h hE bn wb hnn ev hl hV).2 hc, (C53_map_prob_answered_iff h' hE' bn' wb' hnn' _ hl' hV').2 fun hx => hc (hlk.1 hx)⟩

/-- The network of `Props/Example.lean` written differently: other names, nodes 1, 0, 2 listed in that order, the parents of node 2 swapped, the values
of nodes 1 and 2 in another order. -/
def exAlt : BayesNet ℕ ℕ where
  V := [6, 7, 5]
  E := [(5, []), (6, [5]), (7, [5])]
  F := [(5, ⟨[6, 7], [131, 130], [4/5, 1/5, 1/2, 1/2, 0, 1, 1/4, 3/4, 2/3, 1/3, 1, 0]⟩),
        (6, ⟨[], [122, 120, 121], [1/6, 1/2, 1/3]⟩),
        (7, ⟨[], [110, 111], [1/4, 3/4]⟩)]

theorem exAlt_wf : exAlt.WF := .of_dec _ (by decide) (by decide)

theorem exAlt_same : SameModel (fun v => 7 - v) (fun _ x => x + 100) exNet exAlt where
  nodes := by decide
  values := by decide
  parents := by decide
  prob := by
    intro v hv α α' h
    have hv' : v = 0 ∨ v = 1 ∨ v = 2 := by simpa [exNet] using hv
    rcases hv' with rfl | rfl | rfl
    · have h0 := h 0 (by decide)
      have c0 : α 0 = 10 ∨ α 0 = 11 := by simpa [exNet, BayesNet.valuesOf, Dict.get?] using h0.1
      have e0 : α' 7 = α 0 + 100 := h0.2
      rcases c0 with c0 | c0 <;> rw [c0] at e0 <;>
        simp [condProb, BayesNet.prob, positions, enc, exNet, exAlt, BayesNet.valuesOf, BayesNet.cptOf, BayesNet.parentsOf, Dict.get?, c0, e0, List.idxOf, List.findIdx, List.findIdx.go]
    · have h1 := h 1 (by decide)
      have c1 : α 1 = 20 ∨ α 1 = 21 ∨ α 1 = 22 := by simpa [exNet, BayesNet.valuesOf, Dict.get?] using h1.1
      have e1 : α' 6 = α 1 + 100 := h1.2
      rcases c1 with c1 | c1 | c1 <;> rw [c1] at e1 <;>
        simp [condProb, BayesNet.prob, positions, enc, exNet, exAlt, BayesNet.valuesOf, BayesNet.cptOf, BayesNet.parentsOf, Dict.get?, c1, e1, List.idxOf, List.findIdx, List.findIdx.go]
    · have h0 := h 0 (by decide)
      have h1 := h 1 (by decide)
      have h2 := h 2 (by decide)
      have c0 : α 0 = 10 ∨ α 0 = 11 := by simpa [exNet, BayesNet.valuesOf, Dict.get?] using h0.1
      have c1 : α 1 = 20 ∨ α 1 = 21 ∨ α 1 = 22 := by simpa [exNet, BayesNet.valuesOf, Dict.get?] using h1.1
      have c2 : α 2 = 30 ∨ α 2 = 31 := by simpa [exNet, BayesNet.valuesOf, Dict.get?] using h2.1
      have e0 : α' 7 = α 0 + 100 := h0.2
      have e1 : α' 6 = α 1 + 100 := h1.2
      have e2 : α' 5 = α 2 + 100 := h2.2
      rcases c0 with c0 | c0 <;> rcases c1 with c1 | c1 | c1 <;> rcases c2 with c2 | c2 <;> rw [c0] at e0 <;> rw [c1] at e1 <;> rw [c2] at e2 <;>
        simp [condProb, BayesNet.prob, positions, enc, exNet, exAlt, BayesNet.valuesOf, BayesNet.cptOf, BayesNet.parentsOf, BayesNet.cardOf, Dict.get?, c0, e0, c1, e1, c2, e2, List.idxOf, List.findIdx, List.findIdx.go]

/-- C244 on an example: the numbers for 30 and 31 come in the other order. -/
example : marginalVE .id .id exNet 2 [(0, 11)] = .error .nameError ∧ marginalVE .id .rev exAlt 5 [(7, 111)] = .error .nameError ∧
    marginalVE .id .id exNet 2 [] = .ok [3729/10000, 6271/10000] ∧ marginalVE .rev .id exAlt 5 [] = .ok [6271/10000, 3729/10000] := by
  refine ⟨?_, ?_, ?_, ?_⟩ <;> decide +kernel

/-- C244 on an example: `ve_map` gives the same assignment. -/
example : veMap .id .id exNet [] = .ok [(2, 31), (1, 20), (0, 11)] ∧ veMap .id .id exAlt [] = .ok [(5, 131), (7, 111), (6, 120)] := by
  constructor <;> decide +kernel

end PyBN
