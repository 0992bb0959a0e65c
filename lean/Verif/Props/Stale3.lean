import Verif.Proofs.Stale6
import Verif.Props.Stale2

/-! # C264: `ve_map` on tables that are too long -/

set_option linter.unusedSectionVars false

namespace PyBN
variable {N A : Type _} [DecidableEq N] [DecidableEq A]
open HNet

theorem cut_base {bn : BayesNet N A} (sw : bn.ShapeWF) (hm : ∀ v ∈ bn.V, ∃ m, 0 < m ∧ (bn.cptOf v).length = bn.tableSize v * m) :
    bn.cut.WF ∧ Retab bn.cut bn bn.cptOf ∧ ∀ v ∈ bn.cut.V, ∃ t m, 0 < m ∧ bn.cptOf v = bn.cut.cptOf v ++ t ∧
      (bn.cptOf v).length = (bn.cut.cptOf v).length * m := by
  have r := cut_spec bn
  have hle : ∀ v ∈ bn.V, bn.tableSize v ≤ (bn.cptOf v).length := fun v hv => by
    obtain ⟨m, hm0, e⟩ := hm v hv
    rw [e]; exact Nat.le_mul_of_pos_right _ hm0
  refine ⟨r.wf sw fun v hv => by rw [List.length_take]; have := hle v hv; omega, ⟨rfl, fun v => ?_⟩, fun v hv => ?_⟩
  · rw [r.2 v]
    cases e : bn.F.get? v with
    | none => rfl
    | some d => simp [BayesNet.cptOf, e]
  · have hcc : bn.cut.cptOf v = (bn.cptOf v).take (bn.tableSize v) := r.cptOf ((sw.dom v).2 hv)
    obtain ⟨m, hm0, e⟩ := hm v hv
    refine ⟨(bn.cptOf v).drop (bn.tableSize v), m, hm0, by rw [hcc, List.take_append_drop], ?_⟩
    rw [hcc, List.length_take, e, Nat.min_eq_left (Nat.le_mul_of_pos_right _ hm0)]

/-- C264: on a network whose tables have a whole number of times as many entries as they should, every answer `ve_map` gives — the assignment, the
assignment with its probability, the value of a target — is the answer it gives when every table is cut to its first entries. -/
theorem C264_extra_entries (h : HashOrder N) (hE : HashOrder (N × A)) (bn : BayesNet N A) (sw : bn.ShapeWF)
    (hm : ∀ v ∈ bn.V, ∃ m, 0 < m ∧ (bn.cptOf v).length = bn.tableSize v * m) (ev : Dict N A) :
    bn.cut.WF ∧ (∀ d, veMap h hE bn ev = .ok d → veMap h hE bn.cut ev = .ok d) ∧
      (∀ x d, veMapProb h hE bn ev = .ok (x, d) → veMapProb h hE bn.cut ev = .ok (x, d)) ∧
      ∀ t x, veMapTarget h hE bn ev t = .ok x → veMapTarget h hE bn.cut ev t = .ok x := by
  obtain ⟨wc, r, hT⟩ := cut_base sw hm
  refine ⟨wc, fun d => veMap_over h hE r wc hT ev d, fun x d => veMapProb_over h hE r wc hT ev, fun t x hx => ?_⟩
  unfold veMapTarget at hx ⊢
  cases e : veMap h hE bn ev with
  | error e' => rw [e] at hx; cases hx
  | ok d =>
    rw [e] at hx
    rw [veMap_over h hE r wc hT ev d e]
    exact hx

/-- The joint of the cut network after an arc from the last parent is removed. -/
theorem cut_joint {bn bn' : BayesNet N A} (wb : bn.WF) {u v : N} {ps : List N} (hlast : bn.parentsOf v = ps ++ [u]) (rm : Removed bn bn' u v)
    {a : Asg N} (ha : InRange bn.cardOf bn.V a) : bn'.cut.joint a = bn.frozenJoint u v a := by
  have harc : u ∈ bn.parentsOf v := by rw [hlast]; simp
  have hv := parentsOf_mem_V wb harc
  have hfam := wb.fam_nodup v hv
  rw [hlast] at hfam
  have huv : u ≠ v := by
    rintro rfl
    exact (List.nodup_cons.1 hfam).1 (by simp)
  have hups : u ∉ ps := fun hh => by
    have := (List.nodup_cons.1 hfam).2
    rw [List.nodup_append] at this
    exact this.2.2 u hh u (by simp) rfl
  have hpar : bn'.parentsOf v = ps := by
    rw [rm.parents, if_pos rfl, hlast, List.erase_append_right _ hups]; simp
  have rc := cut_spec bn'
  have hcard : bn'.cut.cardOf = bn.cardOf := rc.cardOf.trans rm.card
  have hVc : bn'.cut.V = bn.V := rm.V
  unfold BayesNet.joint BayesNet.frozenJoint
  rw [hVc]
  congr 1
  apply List.map_congr_left
  intro w hw
  have hcpt : bn'.cut.cptOf w = (bn.cptOf w).take (bn'.tableSize w) := by
    rw [rc.cptOf ((rm.shape.dom w).2 (rm.V ▸ hw)), rm.tables]
  unfold BayesNet.prob
  rw [hcpt, hcard, rc.parentsOf]
  have hinw : ∀ x ∈ bn'.parentsOf w, x ∈ bn.V := fun x hx => rm.V ▸ rm.shape.parents_mem w (rm.V ▸ hw) x hx
  have hlt : enc bn.cardOf (w :: bn'.parentsOf w) a < bn'.tableSize w := by
    unfold BayesNet.tableSize; rw [rm.card]
    apply enc_lt
    intro x hx
    rcases List.mem_cons.1 hx with rfl | hx
    · exact ha _ hw
    · exact ha x (hinw x hx)
  rw [List.getElem?_take_of_lt hlt]
  split
  · rename_i hwv
    subst hwv
    rw [hlast, hpar]
    congr 2
    have hw' : u ∉ w :: ps := by
      intro hh
      rcases List.mem_cons.1 hh with hh | hh
      · exact huv hh
      · exact hups hh
    rw [← List.cons_append, enc_append, enc_upd_notMem hw']
    simp [enc, Asg.upd_self]
  · rename_i hwv
    rw [rm.parents, if_neg hwv]

/-- C264: after `remove_edge(u, v)`, `u` being the last parent of `v`, an answer of `ve_map` lists one legal value for every node, agrees with the
evidence, and is most probable for the joint in which `v` depends on its other parents as it did before when `u` has its first value. -/
theorem C264_after_remove_edge (hO : HashOrder N) (hE : HashOrder (N × A)) (h : Heap N A) (b : HNet N) (sep : Separate b) (inb : InBounds h b)
    (wb : (deref h b).WF) (we : (deref h b).EdgeWF) (hnn : (deref h b).Nonneg) (u v : N) (ps : List N)
    (hlast : (deref h b).parentsOf v = ps ++ [u]) (ev : Dict N A) (hn : ev.keys.Nodup) (d : Dict N A)
    (hd : veMap hO hE (deref (removeEdge h b u v).1.1 (removeEdge h b u v).1.2) ev = .ok d) :
    d.keys.Nodup ∧ (∀ w, w ∉ (deref h b).V → d.get? w = none) ∧ (∀ e ∈ ev, d.get? e.1 = some e.2) ∧
      ∃ x : Asg N, (∀ w ∈ (deref h b).V, x w < (deref h b).cardOf w ∧ d.get? w = ((deref h b).valuesOf w)[x w]?) ∧
        ∀ y, InRange (deref h b).cardOf (deref h b).V y → (deref h b).Agrees ev y →
          (deref h b).frozenJoint u v y ≤ (deref h b).frozenJoint u v x := by
  have harc : u ∈ (deref h b).parentsOf v := by rw [hlast]; simp
  have hv := parentsOf_mem_V wb harc
  obtain ⟨_, rm⟩ := removed_of sep inb wb we harc
  revert hd rm
  generalize deref (removeEdge h b u v).1.1 (removeEdge h b u v).1.2 = bn'
  revert wb we hlast harc hv hnn
  generalize deref h b = bn
  intro wb we hnn hlast harc hv hd rm
  have sz := rm.sizes wb harc
  obtain ⟨wc, he, _⟩ := C264_extra_entries hO hE bn' rm.shape (fun x hx => by
    rw [rm.V] at hx
    by_cases hxv : x = v
    · subst hxv; exact ⟨bn.cardOf u, wb.card_pos (wb.parents_mem x hv u harc), sz.2 hx⟩
    · exact ⟨1, by simp, by rw [sz.1 x hx hxv, mul_one]⟩) ev
  have hd := he d hd
  have rc := cut_spec bn'
  have hcard : bn'.cut.cardOf = bn.cardOf := rc.cardOf.trans rm.card
  have hVc : bn'.cut.V = bn.V := rm.V
  have hnc : bn'.cut.Nonneg := by
    intro w hw x hx
    rw [hVc] at hw
    rw [rc.cptOf ((rm.shape.dom w).2 (rm.V ▸ hw)), rm.tables] at hx
    exact hnn w hw x (List.mem_of_mem_take hx)
  have hvals : ∀ w, bn'.cut.valuesOf w = bn.valuesOf w := fun w => by rw [rc.valuesOf, rm.values]
  obtain ⟨d', x, e, h1, h2, h3, h4, _, h6⟩ := C16_map_is_most_probable hO hE bn'.cut wc hnc ev (C16_illegal_evidence_raises hO hE _ wc ev hn d hd)
  rw [hd] at e
  cases e
  rw [hVc] at h2 h3
  refine ⟨h1, h2, h4, x, fun w hw => ?_, fun y hy hag => ?_⟩
  · have := h3 w hw
    rw [hcard, hvals] at this
    exact this
  · rw [← cut_joint wb hlast rm hy, ← cut_joint wb hlast rm fun w hw => by have := (h3 w hw).1; rwa [hcard] at this]
    refine h6 y (by rw [hVc, hcard]; exact hy) fun e he' => ?_
    rw [hvals]; exact hag e he'

/-- Two nodes, node 1 depending on node 0, with the tables `t`. -/
def exPairNet (t : List ℚ) : BayesNet ℕ ℕ where
  V := [0, 1]
  E := [(0, [1]), (1, [])]
  F := [(0, ⟨[], [10, 11], [1/4, 3/4]⟩), (1, ⟨[0], [20, 21], t⟩)]

/-- `exPairNet` without its arc, as the code leaves it. -/
def exPairCut (t : List ℚ) : BayesNet ℕ ℕ :=
  deref (removeEdge (fresh (exPairNet t)).1 (fresh (exPairNet t)).2 0 1).1.1 (removeEdge (fresh (exPairNet t)).1 (fresh (exPairNet t)).2 0 1).1.2

/-- What can happen after `remove_edge`: an answer that is not the most probable assignment of the old network; and an exception where the cut
network is answered, when one of the extra entries is the largest of all. -/
example : veMap .id .id exTriNet [] = .ok [(2, 31), (1, 21), (0, 11)] ∧
    veMap .id .id (deref (removeEdge (fresh exTriNet).1 (fresh exTriNet).2 0 2).1.1 (removeEdge (fresh exTriNet).1 (fresh exTriNet).2 0 2).1.2) []
      = .ok [(2, 30), (1, 21), (0, 11)] ∧
    veMap .id .id (exPairCut [1/2, 1/2, 0, 1]) [] = .error .indexError ∧
    veMap .id .id (exPairCut [1/2, 1/2, 0, 1]).cut [] = .ok [(1, 20), (0, 11)] := by
  refine ⟨?_, ?_, ?_, ?_⟩ <;> decide +kernel

end PyBN
