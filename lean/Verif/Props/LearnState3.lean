import Verif.Proofs.LearnState3
import Verif.Props.LearnState2

/-!
# C265: what `bayes_estimator` leaves in the network
-/

set_option linter.unusedSectionVars false

namespace PyBN
open BayesNet LearnState

/-- **C265** (1): the in-place model agrees with the model whose outcome the other theorems are about. -/
theorem C265_outcome (hE : HashOrder (ℕ × ℤ)) (hI : HashOrder ℤ) (bn : BayesNet ℕ ℤ) (hn : bn.F.keys.Nodup) (data : Data) (equiv : Option ℚ)
    (nodes : Option (List ℕ)) (hnd : (nodes.getD bn.V).Nodup) :
    (match bayesAfter hE hI bn data equiv nodes with
      | (b', none) => Except.ok b'
      | (_, some e) => Except.error e) = bayesEstimator hE hI bn data equiv nodes := by
  rw [← bayesAfter_outcome hE hI bn hn data equiv nodes hnd]
  rcases bayesAfter hE hI bn data equiv nodes with ⟨c, _ | e⟩ <;> rfl

/-- **C265** (2): whether `bayes_estimator` returned or raised, and wherever it raised, a later call of an estimator for all nodes behaves as if the first call had not been made. -/
theorem C265_recovers (bn : BayesNet ℕ ℤ) (hn : bn.F.keys.Nodup) (gE : HashOrder (ℕ × ℤ)) (gI : HashOrder ℤ) (data0 : Data) (equiv0 : Option ℚ) (nodes0 : Option (List ℕ))
    (hE : HashOrder (ℕ × ℤ)) (hI : HashOrder ℤ) (data : Data) (nodes : Option (List ℕ)) (hall : ∀ v ∈ bn.F.keys, v ∈ nodes.getD bn.V) :
    mleEstimator hE hI (bayesAfter gE gI bn data0 equiv0 nodes0).1 data nodes = mleEstimator hE hI bn data nodes ∧
    mleCounts hE hI (bayesAfter gE gI bn data0 equiv0 nodes0).1 data nodes = mleCounts hE hI bn data nodes ∧
    ∀ equiv, bayesEstimator hE hI (bayesAfter gE gI bn data0 equiv0 nodes0).1 data equiv nodes = bayesEstimator hE hI bn data equiv nodes := by
  obtain ⟨h1, h2, h3⟩ := bayesAfter_keeps gE gI bn data0 equiv0 nodes0
  obtain ⟨k1, k2, k3⟩ := estimators_congr h1.symm h2.symm hn h3 hE hI data nodes hall
  exact ⟨k1.symm, k2.symm, fun e => (k3 e).symm⟩

/-- **C265** (3): `bayes_estimator` for all nodes is idempotent: the prior is not accumulated over calls. -/
theorem C265_idempotent (bn b' : BayesNet ℕ ℤ) (hn : bn.F.keys.Nodup) (hE : HashOrder (ℕ × ℤ)) (hI : HashOrder ℤ) (data : Data) (equiv : Option ℚ) (nodes : Option (List ℕ))
    (hnd : (nodes.getD bn.V).Nodup) (hall : ∀ v ∈ bn.F.keys, v ∈ nodes.getD bn.V) (h : bayesEstimator hE hI bn data equiv nodes = .ok b') :
    bayesEstimator hE hI b' data equiv nodes = .ok b' := by
  have h1 := bayesAfter_outcome hE hI bn hn data equiv nodes hnd
  rw [h] at h1
  have h2 : (bayesAfter hE hI bn data equiv nodes).1 = b' := by
    revert h1
    rcases bayesAfter hE hI bn data equiv nodes with ⟨c, _ | e⟩ <;> intro h1 <;> unfold outcome at h1 <;> cases h1
    rfl
  have h3 := (C265_recovers bn hn hE hI data equiv nodes hE hI data nodes hall).2.2 equiv
  rw [h2, h] at h3
  exact h3

/-- A network with one collider, and data in which one configuration of the two parents never occurs. -/
def hatNet : BayesNet ℕ ℤ := ⟨[0, 1, 2], [(0, [2]), (1, [2]), (2, [])],
  [(0, ⟨[], [0, 1], [1/2, 1/2]⟩), (1, ⟨[], [0, 1], [1/2, 1/2]⟩), (2, ⟨[0, 1], [0, 1], [1/2, 1/2, 1/2, 1/2, 1/2, 1/2, 1/2, 1/2]⟩)]⟩

def hatData : Data := ⟨3, [[1, 1, 0], [1, 0, 1], [0, 1, 1], [0, 1, 1]]⟩

/-- **C265** (4): with an equivalent sample size of 0 and a parent configuration that is never seen, `bayes_estimator` raises and leaves counts as the table of the node it was at, although the nodes before it are finished. -/
theorem C265_zero_prior : (bayesAfter .id .id hatNet hatData (some 0) none).2 = some .zeroDivision ∧
    (bayesAfter .id .id hatNet hatData (some 0) none).1.cptOf 1 = [1/4, 3/4] ∧
    (bayesAfter .id .id hatNet hatData (some 0) none).1.cptOf 2 = [0, 0, 0, 1, 0, 2, 1, 0] := by
  refine ⟨?_, ?_, ?_⟩ <;> decide +kernel

/-- After a call that raised for want of a second column the network can still be learned; and a second call changes nothing. -/
example : pairNet.F.keys.Nodup ∧ (pairNet.V).Nodup ∧ (bayesAfter .id .id pairNet thinData none none).2 = some .indexError ∧ (∀ v ∈ pairNet.F.keys, v ∈ pairNet.V) ∧
    (bayesEstimator .id .id (bayesAfter .id .id pairNet thinData none none).1 pairData none none).okAnd (fun b => decide (b.V = [0, 1])) = true :=
  ⟨by decide, by decide, by decide +kernel, by decide, by decide +kernel⟩

end PyBN
