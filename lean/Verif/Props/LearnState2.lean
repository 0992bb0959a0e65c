import Verif.Proofs.LearnState2
import Verif.Props.LearnState

/-!
# C251: the estimators over all nodes do not depend on the old parameters
-/

set_option linter.unusedSectionVars false

namespace PyBN
open BayesNet LearnState

theorem sameParents_of_map : ∀ {F G : Dict ℕ (NodeData ℕ ℤ)}, F.map (fun kv => (kv.1, kv.2.parents)) = G.map (fun kv => (kv.1, kv.2.parents)) → SameParents F G
  | [], [], _ => .nil
  | [], _ :: _, h => by cases h
  | _ :: _, [], h => by cases h
  | a :: F, b :: G, h => by
    rw [List.map_cons, List.map_cons, List.cons.injEq, Prod.mk.injEq] at h
    exact .cons h.1 (sameParents_of_map h.2)

theorem estimators_congr {bn bn' : BayesNet ℕ ℤ} (hV : bn.V = bn'.V) (hE' : bn.E = bn'.E) (hn : bn.F.keys.Nodup) (h : SameParents bn.F bn'.F)
    (hE : HashOrder (ℕ × ℤ)) (hI : HashOrder ℤ) (data : Data) (nodes : Option (List ℕ)) (hall : ∀ v ∈ bn.F.keys, v ∈ nodes.getD bn.V) :
    mleEstimator hE hI bn data nodes = mleEstimator hE hI bn' data nodes ∧ mleCounts hE hI bn data nodes = mleCounts hE hI bn' data nodes ∧
    ∀ equiv, bayesEstimator hE hI bn data equiv nodes = bayesEstimator hE hI bn' data equiv nodes := by
  have hl := fun fill => learn_congr hE hI fill hV hE' hn h data (nodes.getD bn.V) hall
  refine ⟨?_, ?_, fun equiv => ?_⟩
  · unfold mleEstimator; dsimp only; rw [hl, ← hV, ← hE']
  · unfold mleCounts; dsimp only; rw [hl, ← hV]
  · unfold bayesEstimator; dsimp only; rw [hl, ← hV]

/-- **C251** (1): what the estimators do when called for all nodes is determined by the data and by the structure of the network: two networks that differ only in the values and tables of
their nodes give the same result or the same exception. -/
theorem C251_old_parameters (bn bn' : BayesNet ℕ ℤ) (hV : bn'.V = bn.V) (hE' : bn'.E = bn.E)
    (hF : bn'.F.map (fun kv => (kv.1, kv.2.parents)) = bn.F.map (fun kv => (kv.1, kv.2.parents))) (hn : bn.F.keys.Nodup)
    (hE : HashOrder (ℕ × ℤ)) (hI : HashOrder ℤ) (data : Data) (nodes : Option (List ℕ)) (hall : ∀ v ∈ bn.F.keys, v ∈ nodes.getD bn.V) :
    mleEstimator hE hI bn' data nodes = mleEstimator hE hI bn data nodes ∧ mleCounts hE hI bn' data nodes = mleCounts hE hI bn data nodes ∧
    ∀ equiv, bayesEstimator hE hI bn' data equiv nodes = bayesEstimator hE hI bn data equiv nodes := by
  obtain ⟨h1, h2, h3⟩ := estimators_congr hV.symm hE'.symm hn (sameParents_of_map hF.symm) hE hI data nodes hall
  exact ⟨h1.symm, h2.symm, fun e => (h3 e).symm⟩

/-- **C251** (2): so a call of `mle_estimator` that raised, or was made for the counts, does no lasting damage: a later call for all nodes behaves as if it had not been made. -/
theorem C251_recovers (bn : BayesNet ℕ ℤ) (hn : bn.F.keys.Nodup) (gE : HashOrder (ℕ × ℤ)) (gI : HashOrder ℤ) (data0 : Data) (nodes0 : Option (List ℕ)) (counts : Bool)
    (hc : counts = true ∨ (mleAfter gE gI bn data0 nodes0 counts).2 ≠ none)
    (hE : HashOrder (ℕ × ℤ)) (hI : HashOrder ℤ) (data : Data) (nodes : Option (List ℕ)) (hall : ∀ v ∈ bn.F.keys, v ∈ nodes.getD bn.V) :
    mleEstimator hE hI (mleAfter gE gI bn data0 nodes0 counts).1 data nodes = mleEstimator hE hI bn data nodes ∧
    mleCounts hE hI (mleAfter gE gI bn data0 nodes0 counts).1 data nodes = mleCounts hE hI bn data nodes ∧
    ∀ equiv, bayesEstimator hE hI (mleAfter gE gI bn data0 nodes0 counts).1 data equiv nodes = bayesEstimator hE hI bn data equiv nodes := by
  obtain ⟨h1, h2, h3⟩ := mleAfter_parents gE gI bn data0 nodes0 counts hc
  obtain ⟨k1, k2, k3⟩ := estimators_congr h1.symm h2.symm hn h3 hE hI data nodes hall
  exact ⟨k1.symm, k2.symm, fun e => (k3 e).symm⟩

/-- The nodes have to be all nodes: the number of values of a parent that is not among them is read from the network. -/
theorem C251_all_nodes_needed : (mleCounts HashOrder.id HashOrder.id ⟨[0, 1], [(0, [1]), (1, [])], [(0, ⟨[], [0, 1], [1/2, 1/2]⟩), (1, ⟨[0], [0, 1], [1/4, 3/4, 1/3, 2/3]⟩)]⟩
      ⟨2, [[0, 1], [1, 1], [0, 0]]⟩ (some [1])).toOption ≠
    (mleCounts HashOrder.id HashOrder.id ⟨[0, 1], [(0, [1]), (1, [])], [(0, ⟨[], [0, 1, 2], [1/2, 1/2]⟩), (1, ⟨[0], [0, 1], [1/4, 3/4, 1/3, 2/3]⟩)]⟩
      ⟨2, [[0, 1], [1, 1], [0, 0]]⟩ (some [1])).toOption := by decide +kernel

/-- After the failed call with too few columns the network can be learned from `pairData`, with the expected result. -/
example : pairNet.F.keys.Nodup ∧ (mleAfter .id .id pairNet thinData none false).2 = some .indexError ∧ (∀ v ∈ pairNet.F.keys, v ∈ pairNet.V) ∧
    (mleEstimator .id .id (mleAfter .id .id pairNet thinData none false).1 pairData none).okAnd (fun b => decide (b.cptOf 0 = [66667/100000, 33333/100000])) = true :=
  ⟨by decide, by decide +kernel, by decide, by decide +kernel⟩

end PyBN
