import Verif.Proofs.Stale5
import Verif.Props.Stale

/-!
# C243: `ve_map` on tables that are too short
-/

set_option linter.unusedSectionVars false

namespace PyBN

open HNet Sampling
variable {N A : Type _} [DecidableEq N] [DecidableEq A]

/-- C243: if one table of a network with at least two nodes has too few entries, `ve_map(prob=True)` never returns; `ve_map` does not return
either as long as some parent of that node is not observed. -/
theorem C243_too_short (h : HashOrder N) (hE : HashOrder (N × A)) (bn : BayesNet N A) (sw : bn.ShapeWF) (hl : 2 ≤ bn.V.length)
    (v : N) (hv : v ∈ bn.V) (hs : (bn.cptOf v).length < bn.tableSize v) (ev : Dict N A) :
    (∀ r, veMapProb h hE bn ev ≠ .ok r) ∧ ((∃ u ∈ bn.parentsOf v, u ∉ ev.keys) → ∀ r, veMap h hE bn ev ≠ .ok r) :=
  ⟨veMapProb_stuck h hE sw hl hv hs ev, fun ⟨_, hu, hev⟩ => veMap_blocked h hE sw hv hs ev hu hev⟩

/-- C243: after `add_edge(u, v)` of a new arc, `u` having two or more values, no form of `ve_map` returns, whatever is observed. -/
theorem C243_after_add_edge (hO : HashOrder N) (hE : HashOrder (N × A)) (h : Heap N A) (b : HNet N) (sep : Separate b) (inb : InBounds h b)
    (wb : (deref h b).WF) (we : (deref h b).EdgeWF) (u v : N) (hu2 : 2 ≤ (deref h b).cardOf u) (hu : u ∈ (deref h b).V)
    (hv : v ∈ (deref h b).V) (hne : u ≠ v) (hnew : v ∉ (deref h b).childrenOf u) (ev : Dict N A) :
    (∀ r, veMap hO hE (deref (addEdge h b u v).1.1 (addEdge h b u v).1.2) ev ≠ .ok r) ∧
    (∀ r, veMapProb hO hE (deref (addEdge h b u v).1.1 (addEdge h b u v).1.2) ev ≠ .ok r) ∧
    (∀ t x, veMapTarget hO hE (deref (addEdge h b u v).1.1 (addEdge h b u v).1.2) ev t ≠ .ok x) := by
  obtain ⟨_, a⟩ := added_of sep inb wb we hu hv hne hnew
  have h1 := (a.sizes wb).2 hv
  have hpos : 0 < ((deref (addEdge h b u v).1.1 (addEdge h b u v).1.2).cptOf v).length := by
    rw [a.tables, wb.cpt_len v hv]
    exact Factor.prod_pos fun x hx => wb.card_pos (wb.fam_mem hv x hx)
  have hv' : v ∈ (deref (addEdge h b u v).1.1 (addEdge h b u v).1.2).V := by rw [a.V]; exact hv
  have hps := a.parents v
  rw [if_pos rfl] at hps
  have hlen : ((deref (addEdge h b u v).1.1 (addEdge h b u v).1.2).cptOf v).length *
      (deref (addEdge h b u v).1.1 (addEdge h b u v).1.2).cardOf u = (deref (addEdge h b u v).1.1 (addEdge h b u v).1.2).tableSize v := by
    rw [← h1, a.card]
  have key := veMap_noRoom hO hE a.shape hv' hps hlen hpos (by rw [a.card]; exact hu2) ev
  have hl : 2 ≤ (deref (addEdge h b u v).1.1 (addEdge h b u v).1.2).V.length := by
    rw [a.V]
    rcases hV : (deref h b).V with _ | ⟨x, _ | ⟨y, l⟩⟩
    · rw [hV] at hv; cases hv
    · rw [hV] at hv hu
      exact absurd ((List.mem_singleton.1 hu).trans (List.mem_singleton.1 hv).symm) hne
    · simp
  refine ⟨key, (C243_too_short hO hE _ a.shape hl v hv' ?_ ev).1, fun t x hx => ?_⟩
  · rw [← hlen]
    exact lt_mul_of_one_lt_right hpos (by rw [a.card]; omega)
  · unfold veMapTarget at hx
    cases e : veMap hO hE (deref (addEdge h b u v).1.1 (addEdge h b u v).1.2) ev with
    | error e' => rw [e] at hx; cases hx
    | ok r => exact key r e

/-- The fork with the arc 1 → 2 added, node 1 observed: `ve_map` does not return. -/
example : ∀ r, veMap .id .id exForkAdd [(1, 20)] ≠ .ok r := by
  have g := fresh_good exFork (structWF_of exFork_wf exFork_edgeWf) exFork_edgeWf.iff
  have hd : deref exForkH.1 exForkH.2 = exFork := fresh_deref exFork
  exact (C243_after_add_edge .id .id exForkH.1 exForkH.2 g.sep g.inb (hd ▸ exFork_wf) (hd ▸ exFork_edgeWf) 1 2 (by rw [hd]; decide)
    (by rw [hd]; decide) (by rw [hd]; decide) (by decide) (by rw [hd]; decide) [(1, 20)]).1

/-- Two unconnected nodes, the second with one number for two values. -/
def exStub : BayesNet ℕ ℕ where
  V := [0, 1]
  E := [(0, []), (1, [])]
  F := [(0, ⟨[], [10, 11], [1/4, 3/4]⟩), (1, ⟨[], [20, 21], [1]⟩)]

/-- Without an unobserved parent a short table can go unnoticed by `ve_map`: here it answers, and only `prob=True` fails. -/
example : veMap .id .id exStub [] = .ok [(1, 20), (0, 11)] ∧ (veMapProb .id .id exStub []).isOk = false := by
  constructor <;> decide +kernel

end PyBN
