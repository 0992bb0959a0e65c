import Verif.Spec.Rename
import Verif.Props.Perturb

/-!
# Proofs about networks that are the same model written differently
-/

set_option linter.unusedSectionVars false

namespace PyBN
namespace BayesNet
variable {N A M B : Type _} [DecidableEq N] [DecidableEq A] [DecidableEq M] [DecidableEq B]

/-- Position `i` of `u` in the one network is position `i'` of `ρ u` in the other. -/
def Corr (ρ : N → M) (τ : N → A → B) (bn : BayesNet N A) (bn' : BayesNet M B) (u : N) (i i' : ℕ) : Prop :=
  ∃ x, (bn.valuesOf u)[i]? = some x ∧ (bn'.valuesOf (ρ u))[i']? = some (τ u x)

namespace SameModel
variable {ρ : N → M} {τ : N → A → B} {bn : BayesNet N A} {bn' : BayesNet M B} (S : SameModel ρ τ bn bn') (wb : bn.WF) (wb' : bn'.WF)
include S wb wb'

theorem inj {u v : N} (hu : u ∈ bn.V) (hv : v ∈ bn.V) (h : ρ u = ρ v) : u = v :=
  List.inj_on_of_nodup_map (S.nodes.nodup_iff.1 wb'.nodup) hu hv h

theorem memV {u : N} (hu : u ∈ bn.V) : ρ u ∈ bn'.V := S.nodes.mem_iff.2 (List.mem_map_of_mem hu)

theorem ofV {m : M} (hm : m ∈ bn'.V) : ∃ u ∈ bn.V, ρ u = m := by simpa using S.nodes.mem_iff.1 hm

theorem tinj {u : N} (hu : u ∈ bn.V) {x y : A} (hx : x ∈ bn.valuesOf u) (hy : y ∈ bn.valuesOf u) (h : τ u x = τ u y) : x = y :=
  List.inj_on_of_nodup_map ((S.values u hu).nodup_iff.1 (wb'.values_nodup _ (S.memV wb wb' hu))) hx hy h

theorem card {u : N} (hu : u ∈ bn.V) : bn'.cardOf (ρ u) = bn.cardOf u := by
  rw [wb'.card_len (S.memV wb wb' hu), wb.card_len hu, (S.values u hu).length_eq, List.length_map]

theorem total {u : N} (hu : u ∈ bn.V) {i : ℕ} (hi : i < bn.cardOf u) : ∃ i' < bn'.cardOf (ρ u), Corr ρ τ bn bn' u i i' := by
  rw [wb.card_len hu] at hi
  have hm : τ u ((bn.valuesOf u)[i]) ∈ bn'.valuesOf (ρ u) :=
    (S.values u hu).mem_iff.2 (List.mem_map_of_mem (List.getElem_mem hi))
  obtain ⟨i', hi', e⟩ := List.getElem_of_mem hm
  exact ⟨i', by rw [wb'.card_len (S.memV wb wb' hu)]; exact hi', _, List.getElem?_eq_getElem hi, by rw [List.getElem?_eq_getElem hi', e]⟩

theorem onto {u : N} (hu : u ∈ bn.V) {i' : ℕ} (hi : i' < bn'.cardOf (ρ u)) : ∃ i < bn.cardOf u, Corr ρ τ bn bn' u i i' := by
  rw [wb'.card_len (S.memV wb wb' hu)] at hi
  obtain ⟨x, hx, e⟩ := List.mem_map.1 ((S.values u hu).mem_iff.1 (List.getElem_mem hi))
  obtain ⟨i, hi', e'⟩ := List.getElem_of_mem hx
  exact ⟨i, by rw [wb.card_len hu]; exact hi', x, by rw [List.getElem?_eq_getElem hi', e'], by rw [List.getElem?_eq_getElem hi, e]⟩

theorem right_unique {u : N} (hu : u ∈ bn.V) {i i' j' : ℕ} (h : Corr ρ τ bn bn' u i i') (h' : Corr ρ τ bn bn' u i j') : i' = j' := by
  obtain ⟨x, h1, h2⟩ := h
  obtain ⟨y, h3, h4⟩ := h'
  rw [h1] at h3
  cases h3
  obtain ⟨p, hp⟩ := List.getElem?_eq_some_iff.1 h2
  obtain ⟨q, hq⟩ := List.getElem?_eq_some_iff.1 h4
  exact (List.Nodup.getElem_inj_iff (wb'.values_nodup _ (S.memV wb wb' hu))).1 (hp.trans hq.symm)

theorem left_unique {u : N} (hu : u ∈ bn.V) {i j i' : ℕ} (h : Corr ρ τ bn bn' u i i') (h' : Corr ρ τ bn bn' u j i') : i = j := by
  obtain ⟨x, h1, h2⟩ := h
  obtain ⟨y, h3, h4⟩ := h'
  rw [h2] at h4
  obtain ⟨p, hp⟩ := List.getElem?_eq_some_iff.1 h1
  obtain ⟨q, hq⟩ := List.getElem?_eq_some_iff.1 h3
  have hxy : x = y := S.tinj wb wb' hu (hp ▸ List.getElem_mem p) (hq ▸ List.getElem_mem q) (Option.some.inj h4)
  subst hxy
  exact (List.Nodup.getElem_inj_iff (wb.values_nodup u hu)).1 (hp.trans hq.symm)

theorem corr_lt {u : N} (hu : u ∈ bn.V) {i i' : ℕ} (h : Corr ρ τ bn bn' u i i') : i < bn.cardOf u ∧ i' < bn'.cardOf (ρ u) := by
  obtain ⟨x, h1, h2⟩ := h
  obtain ⟨p, -⟩ := List.getElem?_eq_some_iff.1 h1
  obtain ⟨q, -⟩ := List.getElem?_eq_some_iff.1 h2
  rw [wb.card_len hu, wb'.card_len (S.memV wb wb' hu)]
  exact ⟨p, q⟩

theorem prob_eq {v : N} (hv : v ∈ bn.V) {a : Asg N} {a' : Asg M} (h : ∀ u ∈ bn.V, Corr ρ τ bn bn' u (a u) (a' (ρ u))) :
    bn'.prob (ρ v) a' = bn.prob v a := by
  have fV : ∀ u ∈ bn.fam v, u ∈ bn.V := fun u hu => by
    rcases List.mem_cons.1 hu with rfl | hu
    · exact hv
    · exact wb.parents_mem v hv u hu
  obtain ⟨x0, -, -⟩ := h v hv
  have key := S.prob v hv (fun u => ((bn.valuesOf u)[a u]?).getD x0) (fun m => ((bn'.valuesOf m)[a' m]?).getD (τ v x0)) fun u hu => by
    obtain ⟨x, h1, h2⟩ := h u (fV u hu)
    simp only [h1, h2, Option.getD_some]
    exact ⟨List.mem_of_getElem? h1, trivial⟩
  unfold condProb at key
  rw [prob_congr (b := a), prob_congr (b := a')] at key
  · exact key
  · intro m hm
    have : ∃ u ∈ bn.V, ρ u = m := by
      rcases List.mem_cons.1 hm with rfl | hm
      · exact ⟨v, hv, rfl⟩
      · obtain ⟨u, hu, e⟩ := List.mem_map.1 ((S.parents v hv).mem_iff.1 hm)
        exact ⟨u, wb.parents_mem v hv u hu, e⟩
    obtain ⟨u, hu, rfl⟩ := this
    obtain ⟨x, -, h2⟩ := h u hu
    simp only [positions, h2, Option.getD_some]
    obtain ⟨q, hq⟩ := List.getElem?_eq_some_iff.1 h2
    rw [← hq, List.Nodup.idxOf_getElem (wb'.values_nodup _ (S.memV wb wb' hu))]
  · intro u hu
    obtain ⟨x, h1, -⟩ := h u (fV u hu)
    simp only [positions, h1, Option.getD_some]
    obtain ⟨q, hq⟩ := List.getElem?_eq_some_iff.1 h1
    rw [← hq, List.Nodup.idxOf_getElem (wb.values_nodup _ (fV u hu))]

theorem joint_eq {a : Asg N} {a' : Asg M} (h : ∀ u ∈ bn.V, Corr ρ τ bn bn' u (a u) (a' (ρ u))) : bn'.joint a' = bn.joint a := by
  unfold BayesNet.joint
  rw [(S.nodes.map fun v => bn'.prob v a').prod_eq, List.map_map]
  congr 1
  exact List.map_congr_left fun v hv => S.prob_eq wb wb' hv h

theorem sumAll_eq {F : Asg N → ℚ} {F' : Asg M → ℚ} (hF : ∀ a a', (∀ u ∈ bn.V, Corr ρ τ bn bn' u (a u) (a' (ρ u))) → F' a' = F a) :
    ∀ (L : List N), (∀ u ∈ L, u ∈ bn.V) → ∀ (a : Asg N) (a' : Asg M), (∀ u ∈ bn.V, u ∉ L → Corr ρ τ bn bn' u (a u) (a' (ρ u))) →
      sumAll bn'.cardOf (L.map ρ) F' a' = sumAll bn.cardOf L F a
  | [], _, a, a', h => hF a a' fun u hu => h u hu (by simp)
  | v :: L, hL, a, a', h => by
    have hv := hL v (by simp)
    have hT : ∀ i ∈ Finset.range (bn.cardOf v), ∃ i' < bn'.cardOf (ρ v), Corr ρ τ bn bn' v i i' := fun i hi => S.total wb wb' hv (Finset.mem_range.1 hi)
    symm
    simp only [List.map_cons, sumAll]
    refine Finset.sum_bij (fun i hi => (hT i hi).choose) (fun i hi => ?_) (fun i hi j hj e => ?_) (fun i' hi' => ?_) (fun i hi => ?_)
    · exact Finset.mem_range.2 (hT i hi).choose_spec.1
    · have h1 := (hT i hi).choose_spec.2
      have h2 := (hT j hj).choose_spec.2
      rw [← e] at h2
      exact S.left_unique wb wb' hv h1 h2
    · obtain ⟨i, hi, hc⟩ := S.onto wb wb' hv (Finset.mem_range.1 hi')
      exact ⟨i, Finset.mem_range.2 hi, S.right_unique wb wb' hv (hT i (Finset.mem_range.2 hi)).choose_spec.2 hc⟩
    · refine (sumAll_eq hF L (fun u hu => hL u (by simp [hu])) _ _ fun u hu huL => ?_).symm
      by_cases huv : u = v
      · subst huv
        simpa [Asg.upd] using (hT i hi).choose_spec.2
      · rw [Asg.upd_ne _ _ huv, Asg.upd_ne _ _ fun e => huv (S.inj wb wb' hu hv e)]
        exact h u hu (by simp [huv, huL])

/-- The unobserved nodes correspond. -/
theorem filter_perm (p : N → Bool) (p' : M → Bool) (h : ∀ u ∈ bn.V, p' (ρ u) = p u) :
    (bn'.V.filter p').Perm ((bn.V.filter p).map ρ) := by
  refine (S.nodes.filter p').trans ?_
  rw [List.filter_map]
  exact List.Perm.of_eq (congrArg _ (List.filter_congr fun u hu => h u hu))

theorem keys_iff {ev : Dict N A} (hk : ∀ k ∈ ev.keys, k ∈ bn.V) {u : N} (hu : u ∈ bn.V) : ρ u ∈ Dict.keys (renameEv ρ τ ev) ↔ u ∈ ev.keys := by
  have : Dict.keys (renameEv ρ τ ev) = ev.keys.map ρ := by simp [renameEv, Dict.keys, List.map_map, Function.comp_def]
  rw [this, List.mem_map]
  exact ⟨fun ⟨w, hw, e⟩ => S.inj wb wb' (hk w hw) hu e ▸ hw, fun h => ⟨u, h, rfl⟩⟩

theorem legal {ev : Dict N A} (hl : bn.LegalEvidence ev) : bn'.LegalEvidence (renameEv ρ τ ev) := by
  have hk : ∀ k ∈ ev.keys, k ∈ bn.V := fun k hk => by
    obtain ⟨e, he, rfl⟩ := List.mem_map.1 hk
    exact (hl.legal e he).1
  refine ⟨?_, fun e he => ?_⟩
  · have : Dict.keys (renameEv ρ τ ev) = ev.keys.map ρ := by simp [renameEv, Dict.keys, List.map_map, Function.comp_def]
    rw [this]
    exact List.Nodup.map_on (fun x hx y hy e => S.inj wb wb' (hk x hx) (hk y hy) e) hl.nodup
  · obtain ⟨e0, he0, rfl⟩ := List.mem_map.1 he
    obtain ⟨h1, h2⟩ := hl.legal e0 he0
    exact ⟨S.memV wb wb' h1, (S.values _ h1).mem_iff.2 (List.mem_map_of_mem h2)⟩

theorem agrees {ev : Dict N A} (hl : bn.LegalEvidence ev) {a : Asg N} {a' : Asg M} (h : ∀ u ∈ ev.keys, Corr ρ τ bn bn' u (a u) (a' (ρ u))) :
    bn'.Agrees (renameEv ρ τ ev) a' ↔ bn.Agrees ev a := by
  have hkV : ∀ e ∈ ev, Corr ρ τ bn bn' e.1 (a e.1) (a' (ρ e.1)) := fun e he => h e.1 (List.mem_map.2 ⟨e, he, rfl⟩)
  constructor
  · intro hg e he
    obtain ⟨x, h1, h2⟩ := hkV e he
    have := hg _ (List.mem_map.2 ⟨e, he, rfl⟩)
    dsimp only at this
    rw [h2] at this
    obtain ⟨e1, e2⟩ := hl.legal e he
    rw [h1, S.tinj wb wb' e1 (List.mem_of_getElem? h1) e2 (Option.some.inj this)]
  · intro hg e' he'
    obtain ⟨e, he, rfl⟩ := List.mem_map.1 he'
    obtain ⟨x, h1, h2⟩ := hkV e he
    have := hg e he
    rw [h1] at this
    cases this
    exact h2

theorem agrees_corr {ev : Dict N A} {a : Asg N} {a' : Asg M} (hg : bn.Agrees ev a) (hg' : bn'.Agrees (renameEv ρ τ ev) a')
    {u : N} (hu : u ∈ ev.keys) : Corr ρ τ bn bn' u (a u) (a' (ρ u)) := by
  obtain ⟨e, he, rfl⟩ := List.mem_map.1 hu
  exact ⟨e.2, hg e he, hg' _ (List.mem_map.2 ⟨e, he, rfl⟩)⟩

theorem fam_iff {u v : N} (hu : u ∈ bn.V) (hv : v ∈ bn.V) : ρ u ∈ bn'.fam (ρ v) ↔ u ∈ bn.fam v := by
  unfold BayesNet.fam
  rw [List.mem_cons, List.mem_cons, (S.parents v hv).mem_iff, List.mem_map]
  constructor
  · rintro (h | ⟨w, hw, e⟩)
    · exact .inl (S.inj wb wb' hu hv h)
    · exact .inr (S.inj wb wb' (wb.parents_mem v hv w hw) hu e ▸ hw)
  · rintro (rfl | h)
    · exact .inl rfl
    · exact .inr ⟨u, h, rfl⟩

theorem linked {O : List N} {O' : List M} (hO : ∀ x ∈ O, x ∈ bn.V) (hp : O'.Perm (O.map ρ)) {u v : N} (hu : u ∈ bn.V) (hv : v ∈ bn.V) :
    bn'.Linked O' (ρ u) (ρ v) ↔ bn.Linked O u v := by
  constructor
  · intro h
    have key : ∀ m, bn'.Linked O' (ρ u) m → ∃ w ∈ bn.V, ρ w = m ∧ bn.Linked O u w := by
      intro m hm
      induction hm with
      | refl => exact ⟨u, hu, rfl, .refl u⟩
      | step _ hw hx h1 h2 ih =>
        obtain ⟨w, hw1, rfl, hw3⟩ := ih
        obtain ⟨z, hz, rfl⟩ := S.ofV wb wb' hw
        obtain ⟨x, hx', rfl⟩ := List.mem_map.1 (hp.mem_iff.1 hx)
        exact ⟨z, hz, rfl, .step hw3 hz hx' ((S.fam_iff wb wb' (hO x hx') hw1).1 h1) ((S.fam_iff wb wb' (hO x hx') hz).1 h2)⟩
    obtain ⟨w, hw, e, hl⟩ := key _ h
    exact S.inj wb wb' hw hv e ▸ hl
  · intro h
    have key : ∀ w, bn.Linked O u w → w ∈ bn.V ∧ bn'.Linked O' (ρ u) (ρ w) := by
      intro w hw
      induction hw with
      | refl => exact ⟨hu, .refl _⟩
      | step _ hw hx h1 h2 ih =>
        exact ⟨hw, .step ih.2 (S.memV wb wb' hw) (hp.mem_iff.2 (List.mem_map_of_mem hx)) ((S.fam_iff wb wb' (hO _ hx) ih.1).2 h1)
          ((S.fam_iff wb wb' (hO _ hx) hw).2 h2)⟩
    exact (key v h).2

theorem all_linked {O : List N} {O' : List M} (hO : ∀ x ∈ O, x ∈ bn.V) (hp : O'.Perm (O.map ρ)) :
    (∀ u ∈ bn'.V, ∀ v ∈ bn'.V, bn'.Linked O' u v) ↔ ∀ u ∈ bn.V, ∀ v ∈ bn.V, bn.Linked O u v := by
  constructor
  · exact fun h u hu v hv => (S.linked wb wb' hO hp hu hv).1 (h _ (S.memV wb wb' hu) _ (S.memV wb wb' hv))
  · intro h u hu v hv
    obtain ⟨u, hu', rfl⟩ := S.ofV wb wb' hu
    obtain ⟨v, hv', rfl⟩ := S.ofV wb wb' hv
    exact (S.linked wb wb' hO hp hu' hv').2 (h u hu' v hv')

/-- A complete assignment has a counterpart. -/
theorem counterpart {a : Asg N} (ha : InRange bn.cardOf bn.V a) : ∃ a' : Asg M, ∀ u ∈ bn.V, Corr ρ τ bn bn' u (a u) (a' (ρ u)) := by
  classical
  have hT : ∀ u, ∃ i', u ∈ bn.V → Corr ρ τ bn bn' u (a u) i' := fun u => by
    by_cases hu : u ∈ bn.V
    · obtain ⟨i', _, h⟩ := S.total wb wb' hu (ha u hu)
      exact ⟨i', fun _ => h⟩
    · exact ⟨0, fun h => absurd h hu⟩
  refine ⟨fun m => if h : ∃ u ∈ bn.V, ρ u = m then (hT h.choose).choose else 0, fun u hu => ?_⟩
  have h : ∃ w ∈ bn.V, ρ w = ρ u := ⟨u, hu, rfl⟩
  dsimp only
  rw [dif_pos h]
  have e : h.choose = u := S.inj wb wb' h.choose_spec.1 hu h.choose_spec.2
  have key := (hT h.choose).choose_spec h.choose_spec.1
  generalize h.choose = w at e key ⊢
  subst e
  exact key

theorem counterpart' {a' : Asg M} (ha : InRange bn'.cardOf bn'.V a') : ∃ a : Asg N, ∀ u ∈ bn.V, Corr ρ τ bn bn' u (a u) (a' (ρ u)) := by
  have hT : ∀ u, ∃ i, u ∈ bn.V → Corr ρ τ bn bn' u i (a' (ρ u)) := fun u => by
    by_cases hu : u ∈ bn.V
    · obtain ⟨i, _, h⟩ := S.onto wb wb' hu (ha _ (S.memV wb wb' hu))
      exact ⟨i, fun _ => h⟩
    · exact ⟨0, fun h => absurd h hu⟩
  exact ⟨fun u => (hT u).choose, fun u hu => (hT u).choose_spec hu⟩

theorem nonneg (hn : bn.Nonneg) : bn'.Nonneg := by
  intro m hm x hx
  obtain ⟨v, hv, rfl⟩ := S.ofV wb wb' hm
  obtain ⟨k, hk, rfl⟩ := List.getElem_of_mem hx
  obtain ⟨a0, ha0, hk0⟩ := enc_surj (c := bn'.cardOf) (wb'.fam_nodup _ hm) (by rw [← wb'.cpt_len _ hm]; exact hk)
  have hR : InRange bn'.cardOf bn'.V (fun u => if u ∈ bn'.fam (ρ v) then a0 u else 0) := fun u hu => by
    dsimp only
    split
    · rename_i hf; exact ha0 u hf
    · rw [wb'.card_len hu]; exact List.length_pos_iff.2 (wb'.values_ne u hu)
  obtain ⟨a, ha⟩ := S.counterpart' wb wb' hR
  have e := S.prob_eq wb wb' (a' := fun u => if u ∈ bn'.fam (ρ v) then a0 u else 0) hv ha
  rw [prob_congr (b := a0) fun u hu => if_pos hu] at e
  have e2 : bn'.prob (ρ v) a0 = (bn'.cptOf (ρ v))[k] := by
    unfold BayesNet.prob
    rw [hk0, List.getElem?_eq_getElem hk]; rfl
  rw [← e2, e]
  unfold BayesNet.prob
  cases hc : (bn.cptOf v)[enc bn.cardOf (v :: bn.parentsOf v) a]? with
  | none => exact le_refl _
  | some y => exact hn v hv y (List.mem_of_getElem? hc)

theorem normalised (hn : bn.Normalised) : bn'.Normalised := by
  intro m hm a0 ha0
  obtain ⟨v, hv, rfl⟩ := S.ofV wb wb' hm
  have hR : InRange bn'.cardOf bn'.V (fun u => if u ∈ bn'.parentsOf (ρ v) then a0 u else 0) := fun u hu => by
    dsimp only
    split
    · rename_i hf; exact ha0 u hf
    · rw [wb'.card_len hu]; exact List.length_pos_iff.2 (wb'.values_ne u hu)
  obtain ⟨a, ha⟩ := S.counterpart' wb wb' hR
  have key := S.sumAll_eq wb wb' (F := bn.prob v) (F' := bn'.prob (ρ v)) (fun b b' hb => S.prob_eq wb wb' hv hb) [v] (by simpa using hv) a
    (fun u => if u ∈ bn'.parentsOf (ρ v) then a0 u else 0)
    fun u hu _ => ha u hu
  simp only [List.map_cons, List.map_nil, sumAll] at key
  rw [hn v hv a fun u hu => (S.corr_lt wb wb' (wb.parents_mem v hv u hu) (ha u (wb.parents_mem v hv u hu))).1] at key
  rw [← key]
  refine Finset.sum_congr rfl fun x _ => prob_congr fun u hu => ?_
  by_cases huv : u = ρ v
  · subst huv; simp [Asg.upd]
  · rw [Asg.upd_ne _ _ huv, Asg.upd_ne _ _ huv]
    rcases List.mem_cons.1 hu with e | hu
    · exact absurd e huv
    · exact (if_pos hu).symm

end SameModel
end BayesNet
end PyBN
