import Verif.Proofs.DSepWalk
import Mathlib.Data.List.Nodup
import Mathlib.Tactic.Push

/-!
# Proofs about d-separation
-/

namespace PyBN
namespace DSep
open Relation
variable {n : ℕ} {P : ℕ → ℕ → Prop} {S : Set ℕ} {x y : ℕ}

theorem IsDag.irrefl (d : IsDag n P) (v : ℕ) : ¬ P v v := fun h => d.acyclic v (.single h)
theorem IsDag.asymm (d : IsDag n P) {u v : ℕ} (h : P u v) : ¬ P v u := fun h' => d.acyclic u ((TransGen.single h).tail h')

theorem InBlanket.symm (h : InBlanket P x y) : InBlanket P y x := by
  rcases h with h | h | ⟨h, c, h1, h2⟩
  · exact .inr (.inl h)
  · exact .inl h
  · exact .inr (.inr ⟨h.symm, c, h2, h1⟩)

theorem InBlanket.ne (d : IsDag n P) (h : InBlanket P x y) : y ≠ x := by
  rintro rfl
  rcases h with h | h | ⟨h, -⟩
  · exact d.irrefl _ h
  · exact d.irrefl _ h
  · exact h rfl

theorem InBlanket.lt (d : IsDag n P) (h : InBlanket P x y) : y < n := by
  rcases h with h | h | ⟨-, c, -, h⟩
  · exact (d.lt _ _ h).1
  · exact (d.lt _ _ h).2
  · exact (d.lt _ _ h).1

/-- Adjacent variables are never separated. -/
theorem adjacent_not_separated (hne : x ≠ y) (h : Adjacent P x y) : ¬ Separated P x y S := by
  intro hs
  refine hs ⟨[x, y], rfl, rfl, ⟨by simpa using hne, by simpa using h, fun l1 a b c l2 e => ?_, fun l1 a b c l2 e => ?_⟩⟩ <;>
  · have := congrArg List.length e
    simp at this; omega

theorem three {x z y : ℕ} {l1 : List ℕ} {a b c : ℕ} {l2 : List ℕ} (e : [x, z, y] = l1 ++ a :: b :: c :: l2) : a = x ∧ b = z ∧ c = y := by
  have hl := congrArg List.length e
  simp at hl
  have : l1 = [] := List.eq_nil_of_length_eq_zero (by omega)
  subst this
  simp at e
  exact ⟨e.1.symm, e.2.1.symm, e.2.2.1.symm⟩

/-- Parents of a common child in the conditioning set are not separated. -/
theorem spouses_not_separated (d : IsDag n P) (hne : x ≠ y) {c : ℕ} (h1 : P x c) (h2 : P y c) (hc : c ∈ S) : ¬ Separated P x y S := by
  intro hs
  refine hs ⟨[x, c, y], rfl, rfl, ⟨?_, ?_, fun l1 a b e l2 he _ _ => ?_, fun l1 a b e l2 he hn => ?_⟩⟩
  · have : x ≠ c := fun e => d.irrefl c (e ▸ h1)
    have : c ≠ y := fun e => d.irrefl c (by rw [← e] at h2; exact h2)
    simp [*]
  · simp [Adjacent, h1, h2]
  · obtain ⟨-, rfl, -⟩ := three he
    exact ⟨b, hc, .refl⟩
  · obtain ⟨rfl, rfl, rfl⟩ := three he
    exact absurd ⟨h1, h2⟩ hn

/-- Two variables joined through a third one that is not a common child and not in the conditioning set are not separated. -/
theorem through_not_separated {z : ℕ} (hxz : x ≠ z) (hzy : z ≠ y) (hxy : x ≠ y) (h1 : Adjacent P x z) (h2 : Adjacent P z y) (hn : ¬ (P x z ∧ P y z)) (hz : z ∉ S) :
    ¬ Separated P x y S := by
  intro hs
  refine hs ⟨[x, z, y], rfl, rfl, ⟨by simp [*], by simp [*], fun l1 a b e l2 he ha hb => ?_, fun l1 a b e l2 he _ => ?_⟩⟩
  · obtain ⟨rfl, rfl, rfl⟩ := three he
    exact absurd ⟨ha, hb⟩ hn
  · obtain ⟨rfl, rfl, rfl⟩ := three he
    exact hz

/-- A variable outside the blanket is separated by every set containing the blanket. -/
theorem blanket_separates (d : IsDag n P) (hne : x ≠ y) (hy : ¬ InBlanket P x y) (hB : ∀ v, InBlanket P x v → v ∈ S) : Separated P x y S :=
  blanket_sep d.acyclic hne hy hB

/-- A member of the blanket is not separated by a set that contains the rest of it. -/
theorem blanket_dependent (d : IsDag n P) (hne : x ≠ y) (hy : InBlanket P x y) (hB : ∀ v, InBlanket P x v → v ≠ y → v ∈ S) : ¬ Separated P x y S := by
  rcases hy with h | h | ⟨_, c, h1, h2⟩
  · exact adjacent_not_separated hne (.inr h)
  · exact adjacent_not_separated hne (.inl h)
  · exact spouses_not_separated d hne h1 h2 (hB c (.inr (.inl h1)) fun e => d.irrefl y (by rw [e] at h2; exact h2))

/-- Two variables of which neither is a parent of the other are separated by the part of the blanket of one of them (`x`) that consists of ancestors of
the two. -/
theorem part_separates (d : IsDag n P) (hne : x ≠ y) (hadj : ¬ Adjacent P x y)
    (hS : ∀ v, v ∈ S ↔ InBlanket P x v ∧ v ≠ y ∧ (ReflTransGen P v x ∨ ReflTransGen P v y)) : Separated P x y S := by
  rintro ⟨l, h1, h2, t⟩
  have hba : ∀ v, Adjacent P x v → InBlanket P x v := fun v h => h.elim (fun h => .inr (.inl h)) .inl
  have hanc : ∀ b, (ReflTransGen P b y ∨ ∃ s ∈ S, ReflTransGen P b s) → ReflTransGen P b x ∨ ReflTransGen P b y := by
    rintro b (h | ⟨s, hs, h⟩)
    · exact .inr h
    · rcases ((hS s).1 hs).2.2 with h' | h'
      · exact .inl (h.trans h')
      · exact .inr (h.trans h')
  have hno : ∀ b, ReflTransGen P b x → P x b → False := fun b hb hx => d.acyclic x ((TransGen.single hx).trans_left hb)
  rcases l with _ | ⟨x', _ | ⟨v1, l⟩⟩
  · simp at h1
  · simp at h1 h2; exact hne (h1.symm.trans h2)
  · have hx : x' = x := by simpa using h1
    subst hx
    have hc := t.chain
    rw [List.isChain_cons_cons] at hc
    have hv1y : v1 ≠ y := fun e => hadj (e ▸ hc.1)
    have hv1 : v1 ∈ S := by
      rw [hS]
      refine ⟨hba _ hc.1, hv1y, ?_⟩
      rcases hc.1 with h | h
      · exact hanc v1 (descends l x' v1 _ [] t rfl h2 h)
      · exact .inl (.single h)
    rcases l with _ | ⟨v2, l⟩
    · exact hv1y (by simpa using h2)
    · have hcol : P x' v1 ∧ P v2 v1 := by
        by_contra hn
        exact t.other [] x' v1 v2 l rfl hn hv1
      have hnd := t.nodup
      have h12 : ReflTransGen P v1 y := by
        rcases ((hS v1).1 hv1).2.2 with h | h
        · exact (hno _ h hcol.1).elim
        · exact h
      rcases l with _ | ⟨v3, l⟩
      · have : v2 = y := by simpa using h2
        subst this
        exact d.acyclic v2 ((TransGen.single hcol.2).trans_left h12)
      · refine t.other [x'] v1 v2 v3 l rfl (fun h => d.asymm hcol.2 h.1) ((hS v2).2 ⟨?_, ?_, .inr (.head hcol.2 h12)⟩)
        · exact .inr (.inr ⟨fun e => by subst e; simp at hnd, v1, hcol.1, hcol.2⟩)
        · rintro rfl
          exact d.acyclic v2 ((TransGen.single hcol.2).trans_left h12)

/-- The local Markov property: the parents of `x` separate it from every other variable that is not a descendant. -/
theorem parents_separate (d : IsDag n P) (hy : ¬ ReflTransGen P x y) (hadj : ¬ P y x) (hS : ∀ v, v ∈ S ↔ P v x) : Separated P x y S :=
  parents_sep d.acyclic hy hadj hS

end DSep
end PyBN
