import Verif.Model.Clique
import Verif.Proofs.Prim
import Verif.Proofs.Junction
import Verif.Props.Graph
import Verif.Props.Chordal

/-!
# The structure of a clique tree: the graph of cliques and the assignment of factors
-/

set_option linter.unusedSectionVars false
namespace PyBN
namespace Clq
variable {N A : Type _} [DecidableEq N] [DecidableEq A]
open BayesNet Chordal

theorem new_scope_toFinset (l : List N) : (Clique.new l).scope.toFinset = l.toFinset := by
  ext v; simp [Clique.new]

theorem mem_new_scope (l : List N) (v : N) : v ∈ (Clique.new l).scope ↔ v ∈ l := by
  unfold Clique.new; simp

theorem sepset_card (l m : List N) : ((Clique.new l).sepset (Clique.new m)).length = (l.toFinset ∩ m.toFinset).card := by
  unfold Clique.sepset
  have hnd : ((Clique.new l).scope.filter (· ∈ (Clique.new m).scope)).Nodup := (List.nodup_dedup l).filter _
  rw [← List.toFinset_card_of_nodup hnd]
  congr 1
  ext v
  simp [Clique.new]

theorem weights_get (C : List (List N)) (i : ℕ) : Dict.get? (weights C) i = if i < C.length then
    some (((List.range C.length).filter (· ≠ i)).map fun j => (j, -((cl C i ∩ cl C j).card : ℚ))) else none := by
  unfold weights
  rw [Dict.get?_map_pair]
  simp only [List.mem_range, sepset_card]
  rfl

theorem weights_length (C : List (List N)) : (weights C).length = C.length := by unfold weights; simp

theorem weights_of (C : List (List N)) (i j : ℕ) : weightOf (weights C) i j = if i < C.length ∧ j < C.length ∧ i ≠ j then some (-((cl C i ∩ cl C j).card : ℚ)) else none := by
  unfold weightOf
  rw [weights_get]
  split_ifs with h1 h2 h2
  · simp only [Option.bind_some]
    rw [Dict.get?_map_pair (fun j => -((cl C i ∩ cl C j).card : ℚ)), if_pos]
    simp [h2.2.1, h2.2.2.symm]
  · simp only [Option.bind_some]
    rw [Dict.get?_map_pair (fun j => -((cl C i ∩ cl C j).card : ℚ)), if_neg]
    simp only [List.mem_filter, List.mem_range, decide_eq_true_eq]
    exact fun h => h2 ⟨h1, h.1, fun h' => h.2 h'.symm⟩
  · exact absurd h2.1 h1
  · rfl

theorem weights_input (C : List (List N)) (h0 : 0 < C.length) : MstInput (weights C) := by
  have hkeys : (weights C).keys = List.range C.length := by unfold weights; rw [Dict.keys_map_pair]
  have hin : ∀ a d, Dict.get? (weights C) a = some d → d.keys = (List.range C.length).filter (· ≠ a) := by
    intro a d h
    rw [weights_get] at h
    split_ifs at h
    rw [← Option.some.inj h, Dict.keys_map_pair]
  refine ⟨?_, ?_, by rw [weights_length]; exact h0, ?_, ?_⟩
  · rw [hkeys]; exact List.nodup_range
  · intro v; rw [hkeys, weights_length, List.mem_range]
  · intro a d h; rw [hin a d h]; exact List.nodup_range.filter _
  · intro a d h b hb
    rw [hin a d h] at hb
    rw [weights_length]
    exact List.mem_range.1 (List.mem_of_mem_filter hb)

theorem weights_reach (C : List (List N)) {v : ℕ} (hv : v < C.length) : Reach (unweighted (weights C)) 0 v := by
  by_cases h : v = 0
  · subst h; exact .refl
  · refine .single (unweighted_arc.2 ?_)
    rw [weights_of, if_pos ⟨by omega, hv, fun h' => h h'.symm⟩]
    rfl

theorem mst_empty (hQ : HashOrder (ℕ × ℚ)) : mst hQ (weights ([] : List (List N))) = .ok [] := rfl

theorem mem_nodesOf (g : List (N × N)) (v : N) : v ∈ nodesOf g ↔ Touched g v := by
  unfold nodesOf Touched Joined
  simp only [List.mem_toFinset, List.mem_append, List.mem_map]
  constructor
  · rintro (⟨p, hp, rfl⟩ | ⟨p, hp, rfl⟩)
    · exact ⟨p.2, Or.inl hp⟩
    · exact ⟨p.1, Or.inr hp⟩
  · rintro ⟨u, h | h⟩
    · exact Or.inl ⟨_, h, rfl⟩
    · exact Or.inr ⟨_, h, rfl⟩

theorem joined_symm {g : List (N × N)} {a b : N} (h : Joined g a b) : Joined g b a := h.symm

theorem chordalOn_of {g : List (N × N)} (h : IsChordal g) (W : Finset N) : ChordalOn (Joined g) W :=
  fun n hn c hc _ ha => h n hn c hc ha

/-- Facts about the list of cliques under the contract of `chordal_graph_cliques`. -/
theorem cliques_index {g : List (N × N)} {C : List (List N)} (hC : ListsMaxCliques g C) (hne : (nodesOf g).Nonempty) :
    (∀ i j, i < C.length → j < C.length → cl C i = cl C j → i = j) ∧
      (∀ K, IsMaxClique (Joined g) (nodesOf g) K ↔ ∃ i < C.length, cl C i = K) ∧ 0 < C.length ∧ C.length = (maxCliques (Joined g) (nodesOf g)).card := by
  have hcl : ∀ i (h : i < C.length), cl C i = (C.map List.toFinset)[i]'(by simpa using h) := by
    intro i h; unfold cl; simp [h]
  have hmaxne : ∀ K, IsMaxClique (Joined g) (nodesOf g) K → K.Nonempty := by
    intro K hK
    rw [Finset.nonempty_iff_ne_empty]
    rintro rfl
    obtain ⟨w, hw⟩ := hne
    obtain ⟨k, hk, -⟩ := hK.2 w hw (by simp)
    cases hk
  have hmax : ∀ K, IsMaxClique (Joined g) (nodesOf g) K ↔ ∃ i < C.length, cl C i = K := by
    intro K
    rw [show IsMaxClique (Joined g) (nodesOf g) K ↔ K.Nonempty ∧ IsMaxClique (Joined g) (nodesOf g) K from ⟨fun h => ⟨hmaxne K h, h⟩, fun h => h.2⟩, ← hC.2,
      List.mem_iff_getElem]
    constructor
    · rintro ⟨i, hi, he⟩
      have hi' : i < C.length := by simpa using hi
      exact ⟨i, hi', by rw [hcl i hi', he]⟩
    · rintro ⟨i, hi, he⟩
      exact ⟨i, by simpa using hi, by rw [← he, hcl i hi]⟩
  have hinj : ∀ i j, i < C.length → j < C.length → cl C i = cl C j → i = j := by
    intro i j hi hj h
    rw [hcl i hi, hcl j hj] at h
    exact (List.Nodup.getElem_inj_iff hC.1).1 h
  refine ⟨hinj, hmax, ?_, ?_⟩
  · obtain ⟨L, -, hL⟩ := IsClique.extend (adj := Joined g) (fun a b => joined_symm) (W := nodesOf g) _ ∅ rfl ⟨by simp, by simp⟩
    obtain ⟨i, hi, -⟩ := (hmax L).1 hL
    omega
  · have : maxCliques (Joined g) (nodesOf g) = (C.map List.toFinset).toFinset := by
      ext K
      rw [mem_maxCliques, List.mem_toFinset, hC.2]
      exact ⟨fun h => ⟨hmaxne K h, h⟩, fun h => h.2⟩
    rw [this, List.toFinset_card_of_nodup hC.1, List.length_map]

/-- No edges, no cliques. -/
theorem cliques_empty {g : List (N × N)} {C : List (List N)} (hC : ListsMaxCliques g C) (hne : ¬ (nodesOf g).Nonempty) : C = [] := by
  cases hc : C with
  | nil => rfl
  | cons K L =>
    exfalso
    have : K.toFinset ∈ C.map List.toFinset := by rw [hc]; simp
    obtain ⟨⟨v, hv⟩, h2, -⟩ := (hC.2 _).1 this
    exact hne ⟨v, h2.1 hv⟩

/-! ## Assignment of factors to cliques -/

theorem assignStep_ok (bn : BayesNet N A) (scope : List N) : ∀ (vs : List N) (va : Dict N Bool) (acc : List N), vs.Nodup →
    (∀ v ∈ vs, (Dict.get? va v).isSome ∧ bn.scope v = .ok (v :: bn.parentsOf v)) →
    ∃ va', assignStep bn scope vs va acc = .ok (acc ++ vs.filter (fun v => Dict.get? va v = some false ∧ v :: bn.parentsOf v ⊆ scope), va') ∧ va'.keys = va.keys ∧
      ∀ v, Dict.get? va' v = if v ∈ vs ∧ v :: bn.parentsOf v ⊆ scope then some true else Dict.get? va v := by
  intro vs
  induction vs with
  | nil => intro va acc _ _; exact ⟨va, by simp [assignStep], rfl, by simp⟩
  | cons u vs ih =>
    intro va acc hnd hvs
    rw [List.nodup_cons] at hnd
    obtain ⟨hs, hsc⟩ := hvs u (by simp)
    obtain ⟨b, hb⟩ := Option.isSome_iff_exists.1 hs
    unfold assignStep
    rw [Dict.get_of_get? hb, Py.bind_ok]
    cases b with
    | true =>
      simp only [if_true]
      obtain ⟨va', h1, h2, h3⟩ := ih va acc hnd.2 fun v hv => hvs v (by simp [hv])
      refine ⟨va', ?_, h2, ?_⟩
      · rw [h1]; simp [List.filter_cons, hb]
      · intro v
        rw [h3]
        by_cases hv : v = u
        · subst hv; simp only [hnd.1, false_and, if_false, hb, List.mem_cons, true_or, true_and]; split_ifs <;> rfl
        · simp [hv]
    | false =>
      simp only [Bool.false_eq_true, if_false]
      rw [hsc, Py.bind_ok]
      by_cases hsub : u :: bn.parentsOf u ⊆ scope
      · rw [if_pos hsub]
        have hne : ∀ v ∈ vs, v ≠ u := fun v hv h => hnd.1 (h ▸ hv)
        obtain ⟨va', h1, h2, h3⟩ := ih (va.set u true) (acc ++ [u]) hnd.2 fun v hv => ⟨by
          rw [Dict.get?_set_ne _ _ (hne v hv).symm]; exact (hvs v (by simp [hv])).1, (hvs v (by simp [hv])).2⟩
        refine ⟨va', ?_, ?_, ?_⟩
        · rw [h1]
          simp only [List.filter_cons, hb, hsub, true_and, decide_true, if_true, List.append_assoc, List.singleton_append]
          congr 3
          congr 1
          refine List.filter_congr fun v hv => ?_
          rw [Dict.get?_set_ne _ _ (hne v hv).symm]
        · rw [h2, Dict.keys_set, if_pos]
          rw [Dict.mem_keys_iff]; exact hs
        · intro v
          rw [h3]
          by_cases hv : v = u
          · subst hv; simp [hnd.1, hsub]
          · rw [Dict.get?_set_ne _ _ (Ne.symm hv)]; simp [hv]
      · rw [if_neg hsub]
        obtain ⟨va', h1, h2, h3⟩ := ih va acc hnd.2 fun v hv => hvs v (by simp [hv])
        refine ⟨va', ?_, h2, ?_⟩
        · rw [h1]; simp only [List.filter_cons, hsub, and_false, decide_false, Bool.false_eq_true, if_false]
        · intro v
          rw [h3]
          by_cases hv : v = u
          · subst hv; simp [hnd.1, hsub]
          · simp [hv]

/-- Each variable not yet assigned goes to the first clique containing its family. -/
theorem assignLoop_ok (h : HashOrder N) (bn : BayesNet N A) : ∀ (cs : List (ℕ × List N)) (va : Dict N Bool), va.keys.Nodup →
    (∀ v ∈ va.keys, bn.scope v = .ok (v :: bn.parentsOf v)) →
    ∃ asg, assignLoop h bn cs va = .ok asg ∧ asg.map Prod.fst = cs.map Prod.fst ∧ (∀ p ∈ asg, p.2.Nodup) ∧
      (∀ p ∈ asg, ∀ v ∈ p.2, Dict.get? va v = some false ∧ ∃ sc, (p.1, sc) ∈ cs ∧ v :: bn.parentsOf v ⊆ sc) ∧
      (asg.map Prod.snd).Pairwise List.Disjoint ∧
      ∀ v, Dict.get? va v = some false → (∃ p ∈ cs, v :: bn.parentsOf v ⊆ p.2) → ∃ p ∈ asg, v ∈ p.2 := by
  intro cs
  induction cs with
  | nil => intro va _ _; exact ⟨[], rfl, rfl, by simp, by simp, by simp, by simp⟩
  | cons p cs ih =>
    obtain ⟨i, scope⟩ := p
    intro va hnd hva
    have hperm := h.perm va.keys
    obtain ⟨va', h1, h2, h3⟩ := assignStep_ok bn scope (h.iter va.keys) va [] (hperm.nodup_iff.2 hnd) fun v hv => by
      rw [hperm.mem_iff] at hv
      exact ⟨Dict.mem_keys_iff.1 hv, hva v hv⟩
    obtain ⟨asg, a1, a2, a3, a4, a5, a6⟩ := ih va' (by rw [h2]; exact hnd) (by rw [h2]; exact hva)
    set A0 := (h.iter va.keys).filter (fun v => Dict.get? va v = some false ∧ v :: bn.parentsOf v ⊆ scope) with hA0
    have hmem : ∀ v, v ∈ A0 ↔ Dict.get? va v = some false ∧ v :: bn.parentsOf v ⊆ scope := by
      intro v
      rw [hA0, List.mem_filter, hperm.mem_iff, decide_eq_true_eq, Dict.mem_keys_iff]
      exact ⟨fun h => h.2, fun h => ⟨by rw [h.1]; rfl, h⟩⟩
    have hva' : ∀ v, Dict.get? va' v = some false → Dict.get? va v = some false ∧ ¬ (v :: bn.parentsOf v ⊆ scope) := by
      intro v hv
      rw [h3] at hv
      split_ifs at hv with hc
      · cases hv
      · refine ⟨hv, fun hs => hc ⟨?_, hs⟩⟩
        rw [hperm.mem_iff, Dict.mem_keys_iff, hv]; rfl
    refine ⟨(i, A0) :: asg, ?_, by simp [a2], ?_, ?_, ?_, ?_⟩
    · unfold assignLoop
      rw [h1, Py.bind_ok]; simp only [List.nil_append]
      rw [a1, Py.bind_ok]; rfl
    · intro p hp
      rcases List.mem_cons.1 hp with rfl | hp
      · exact (hperm.nodup_iff.2 hnd).filter _
      · exact a3 p hp
    · intro p hp v hv
      rcases List.mem_cons.1 hp with rfl | hp
      · exact ⟨((hmem v).1 hv).1, scope, by simp, ((hmem v).1 hv).2⟩
      · obtain ⟨b1, sc, b2, b3⟩ := a4 p hp v hv
        exact ⟨(hva' v b1).1, sc, by simp [b2], b3⟩
    · rw [List.map_cons, List.pairwise_cons]
      refine ⟨fun l hl => ?_, a5⟩
      obtain ⟨q, hq, rfl⟩ := List.mem_map.1 hl
      intro v hv hv'
      exact (hva' v (a4 q hq v hv').1).2 ((hmem v).1 hv).2
    · intro v hv hex
      by_cases hs : v :: bn.parentsOf v ⊆ scope
      · exact ⟨(i, A0), by simp, (hmem v).2 ⟨hv, hs⟩⟩
      · obtain ⟨p, hp, hps⟩ := hex
        rcases List.mem_cons.1 hp with rfl | hp
        · exact absurd hps hs
        · obtain ⟨q, hq, hvq⟩ := a6 v (by rw [h3, if_neg fun h => hs h.2]; exact hv) ⟨p, hp, hps⟩
          exact ⟨q, by simp [hq], hvq⟩

end Clq
end PyBN
