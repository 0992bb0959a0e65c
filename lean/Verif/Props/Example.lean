import Verif.Spec.BayesNet
import Verif.Proofs.Dict

/-! A concrete network used as a witness that hypotheses can be met:  0 → 2 ← 1, with 2, 3 and 2 values. -/

namespace PyBN

/-- Well-formedness of a concrete network from decidable facts. -/
theorem BayesNet.WF.of_dec {N A : Type _} [DecidableEq N] [DecidableEq A] (bn : BayesNet N A)
    (h1 : bn.V.Nodup ∧ (∀ v ∈ bn.V, v ∈ bn.F.keys) ∧ (∀ v ∈ bn.F.keys, v ∈ bn.V))
    (h2 : ∀ v ∈ bn.V, (v :: bn.parentsOf v).Nodup ∧ (∀ p ∈ bn.parentsOf v, p ∈ bn.V) ∧ (bn.valuesOf v).Nodup ∧
      bn.valuesOf v ≠ [] ∧ (bn.cptOf v).length = ((v :: bn.parentsOf v).map bn.cardOf).prod) : bn.WF :=
  ⟨h1.1, fun v => by rw [← Dict.mem_keys_iff]; exact ⟨h1.2.2 v, h1.2.1 v⟩, fun v hv => (h2 v hv).1,
    fun v hv => (h2 v hv).2.1, fun v hv => (h2 v hv).2.2.1, fun v hv => (h2 v hv).2.2.2.1,
    fun v hv => (h2 v hv).2.2.2.2⟩

theorem BayesNet.EdgeWF.of_dec {N A : Type _} [DecidableEq N] [DecidableEq A] (bn : BayesNet N A)
    (h1 : bn.E.keys.Nodup ∧ (∀ v ∈ bn.V, v ∈ bn.E.keys) ∧ (∀ v ∈ bn.E.keys, v ∈ bn.V))
    (h2 : ∀ v ∈ bn.V, (bn.childrenOf v).Nodup)
    (h3 : ∀ u ∈ bn.E.keys, ∀ v ∈ bn.childrenOf u, u ∈ bn.parentsOf v)
    (h4 : ∀ v ∈ bn.F.keys, ∀ u ∈ bn.parentsOf v, v ∈ bn.childrenOf u) : bn.EdgeWF where
  dom := fun v => by rw [← Dict.mem_keys_iff]; exact ⟨h1.2.2 v, h1.2.1 v⟩
  keys_nodup := h1.1
  nodup := h2
  iff := by
    intro u v
    constructor
    · intro h
      refine h3 u ?_ v h
      rw [Dict.mem_keys_iff]
      unfold BayesNet.childrenOf at h
      cases hE : bn.E.get? u with
      | none => rw [hE] at h; simp at h
      | some => rfl
    · intro h
      refine h4 v ?_ u h
      rw [Dict.mem_keys_iff]
      unfold BayesNet.parentsOf at h
      cases hE : bn.F.get? v with
      | none => rw [hE] at h; simp at h
      | some => rfl

/-- Nodes 0 (values 10, 11), 1 (values 20, 21, 22), 2 (values 30, 31; parents 0, 1). -/
def exNet : BayesNet ℕ ℕ where
  V := [0, 1, 2]
  E := [(0, [2]), (1, [2]), (2, [])]
  F := [(0, ⟨[], [10, 11], [1/4, 3/4]⟩),
        (1, ⟨[], [20, 21, 22], [1/2, 1/3, 1/6]⟩),
        (2, ⟨[0, 1], [30, 31], [1/2, 1/2, 1/3, 2/3, 1, 0, 0, 1, 1/5, 4/5, 3/4, 1/4]⟩)]

theorem exNet_wf : exNet.WF := .of_dec _ (by decide) (by decide)

theorem exNet_edgeWf : exNet.EdgeWF := .of_dec _ (by decide) (by decide) (by decide) (by decide)

theorem exNet_nonneg : exNet.Nonneg := by
  unfold BayesNet.Nonneg; decide +kernel

end PyBN
