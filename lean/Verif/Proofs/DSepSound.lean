import Verif.Proofs.DSepWalk
import Verif.Proofs.SampleLearn
import Verif.Spec.CondIndep

/-!
# d-separation is sound for the joint probability of a network
-/

set_option linter.unusedSectionVars false

namespace PyBN
open BayesNet Relation
variable {N A : Type} [DecidableEq N] [DecidableEq A]

theorem isParent_mem {bn : BayesNet N A} (w : bn.WF) {u v : N} (h : bn.IsParent u v) : v ∈ bn.V := by
  rw [← w.dom]
  unfold BayesNet.IsParent BayesNet.parentsOf at h
  cases hg : bn.F.get? v with
  | none => rw [hg] at h; simp at h
  | some d => rfl

theorem acyclic_parents {bn : BayesNet N A} (w : bn.WF) (hac : bn.Acyclic) (v : N) : ¬ TransGen bn.IsParent v v := by
  obtain ⟨o, hp, ht⟩ := hac
  have hn : o.Nodup := hp.nodup_iff.2 w.nodup
  have h1 : ∀ u v, bn.IsParent u v → o.idxOf u < o.idxOf v := by
    intro u v h
    obtain ⟨o1, o2, rfl⟩ := List.append_of_mem (hp.mem_iff.2 (isParent_mem w h))
    have hu := ht o1 v o2 rfl u h
    have hv : v ∉ o1 := fun h0 => (List.nodup_append.1 hn).2.2 v h0 v (by simp) rfl
    rw [List.idxOf_append_of_mem hu, List.idxOf_append_of_notMem hv]
    have := List.idxOf_lt_length_of_mem hu
    omega
  have h2 : ∀ u v, TransGen bn.IsParent u v → o.idxOf u < o.idxOf v := by
    intro u v h
    induction h with
    | single h => exact h1 _ _ h
    | tail _ h ih => exact ih.trans (h1 _ _ h)
  exact fun h => absurd (h2 v v h) (lt_irrefl _)

theorem cardOf_mem {bn : BayesNet N A} (w : bn.WF) {v : N} {k : ℕ} (h : k < bn.cardOf v) : v ∈ bn.V := by
  rw [← w.dom]
  unfold BayesNet.cardOf at h
  cases hg : bn.F.get? v with
  | none => rw [hg] at h; simp at h
  | some d => rfl

/-- Nodes outside a set closed under parents can be dropped. -/
theorem barren {bn : BayesNet N A} (w : bn.WF) (hno : bn.Normalised) (hac : bn.Acyclic) (R : N → Bool)
    (hR : ∀ v, R v = true → ∀ p ∈ bn.parentsOf v, R p = true) {T : List N} (hT : ∀ t ∈ T, R t = true) {a : Asg N} (ha : InRange bn.cardOf T a) :
    margOf bn T a = sumAll bn.cardOf ((bn.V.filter R).filter fun u => u ∉ T) (fun b => ((bn.V.filter R).map fun u => bn.prob u b).prod) a := by
  obtain ⟨o, hp, ht⟩ := hac
  have hno' : o.Nodup := hp.nodup_iff.2 w.nodup
  unfold margOf
  have perm : (bn.V.filter fun u => u ∉ T).Perm ((bn.V.filter R).filter (fun u => u ∉ T) ++ o.filter fun u => !R u) := by
    have h1 := (List.filter_append_perm R (bn.V.filter fun u => u ∉ T)).symm
    refine h1.trans (List.Perm.append (by rw [List.filter_filter, List.filter_filter]; simp [Bool.and_comm]) ?_)
    rw [List.filter_filter]
    have : (bn.V.filter fun u => !R u && decide (u ∉ T)) = bn.V.filter fun u => !R u := by
      apply List.filter_congr
      intro u _
      by_cases hu : u ∈ T
      · simp [hT u hu]
      · simp [hu]
    rw [this]
    exact (hp.filter _).symm
  rw [sumAll_perm perm _ (w.nodup.filter _), sumAll_append]
  apply sumAll_congr _ ((w.nodup.filter _).filter _)
  intro b hb hr
  have hj : bn.joint = fun c => ((bn.V.filter R).map fun u => bn.prob u c).prod * ((o.filter fun u => !R u).map fun u => bn.prob u c).prod := by
    funext c
    unfold BayesNet.joint
    rw [← List.prod_append, ← List.map_append]
    refine List.Perm.prod_eq (List.Perm.map _ ?_)
    exact (List.filter_append_perm R bn.V).symm.trans (List.Perm.append_left _ (hp.filter _).symm)
  rw [hj, sumAll_mul_left]
  · rw [sumAll_suffix hno _ (bn.V.filter R)]
    · simp
    · rw [List.nodup_append]
      refine ⟨w.nodup.filter _, hno'.filter _, ?_⟩
      rintro u hu v hv rfl
      simp at hu hv
      simp [hu.2] at hv
    · intro v hv; exact hp.mem_iff.1 (List.mem_filter.1 hv).1
    · intro o1 v o2 he p hpv
      obtain ⟨l1, l2', rfl, e1, e2⟩ := List.filter_eq_append_iff.1 he
      obtain ⟨k1, k2, rfl, e3, e4, e5⟩ := List.filter_eq_cons_iff.1 e2
      have hm : p ∈ l1 ++ k1 := ht (l1 ++ k1) v k2 (by simp) p hpv
      have hV : p ∈ bn.V := hp.mem_iff.1 (by simp at hm ⊢; tauto)
      by_cases hRp : R p = true
      · simp [hV, hRp]
      · rcases List.mem_append.1 hm with h | h
        · have : p ∈ o1 := by rw [← e1]; simp [h, hRp]
          simp [this]
        · exact absurd (e3 p h) (by simp [hRp])
    · intro u hu
      by_cases huT : u ∈ T
      · rw [hb u (by simp [huT])]; exact ha u huT
      · exact hr u (by simp only [List.mem_filter] at hu ⊢; simp [hu, huT])
  · intro c d hcd
    apply prodProb_congr
    intro u hu x hx
    apply hcd
    have hRu := (List.mem_filter.1 hu).2
    have hRx : R x = true := by
      rcases List.mem_cons.1 hx with rfl | hx
      · exact hRu
      · exact hR u hRu x hx
    simp [hRx]

/-- Sums over disjoint sets of variables split. -/
theorem sumAll_split {c : N → ℕ} {LA LB : List N} {F G : Asg N → ℚ} (hA : LA.Nodup)
    (hF : ∀ a b : Asg N, (∀ u, u ∉ LB → a u = b u) → F a = F b) (hG : ∀ a b : Asg N, (∀ u, u ∉ LA → a u = b u) → G a = G b) (hd : ∀ u ∈ LB, u ∉ LA)
    (a : Asg N) : sumAll c (LA ++ LB) (fun b => F b * G b) a = sumAll c LA F a * sumAll c LB G a := by
  rw [sumAll_append]
  have h1 : ∀ b, sumAll c LB (fun b => F b * G b) b = F b * sumAll c LB G b := fun b => sumAll_mul_left hF G b
  have h2 : ∀ {LB : List N}, (∀ u ∈ LB, u ∉ LA) → ∀ {b b' : Asg N}, (∀ u, u ∉ LA → b u = b' u) → sumAll c LB G b = sumAll c LB G b' := by
    intro LB
    induction LB with
    | nil => intro _ b b' h; exact hG b b' h
    | cons v LB ih =>
      intro hd b b' h
      simp only [sumAll]
      apply Finset.sum_congr rfl
      intro x _
      apply ih (fun u hu => hd u (by simp [hu]))
      intro u hu
      by_cases huv : u = v
      · subst huv; simp [Asg.upd]
      · rw [Asg.upd_ne _ _ huv, Asg.upd_ne _ _ huv]; exact h u hu
  have h3 : sumAll c LA (sumAll c LB fun b => F b * G b) a = sumAll c LA (fun b => sumAll c LB G b * F b) a := by
    apply sumAll_congr _ hA
    intro b _ _
    rw [h1, mul_comm]
  rw [h3, sumAll_mul_left (fun b b' h => h2 hd h), mul_comm]

open Classical in
/-- d-separated nodes are conditionally independent. -/
theorem dsep_sound {bn : BayesNet N A} (w : bn.WF) (hno : bn.Normalised) (hac : bn.Acyclic) {X Y S : List N} (hXS : ∀ x ∈ X, x ∉ S)
    (hs : bn.Separates X Y S) : CondIndep bn X Y S := by
  intro a ha
  have hcyc := acyclic_parents w hac
  have hnr : ∀ {y}, y ∈ Y → _ := fun {y} hy => DSep.not_reach hcyc (S := {s | s ∈ S}) (X := {s | s ∈ X}) (Y := {s | s ∈ Y}) hXS hs (y := y) hy
  let R : N → Bool := fun v => decide (DSep.Relevant bn.IsParent {s | s ∈ S} {s | s ∈ X} {s | s ∈ Y} v)
  let I : N → Bool := fun v => decide (DSep.Reach bn.IsParent {s | s ∈ S} {s | s ∈ X} {s | s ∈ Y} v)
  have hR : ∀ v, R v = true ↔ DSep.Relevant bn.IsParent {s | s ∈ S} {s | s ∈ X} {s | s ∈ Y} v := fun v => by simp [R]
  have hI : ∀ v, I v = true ↔ DSep.Reach bn.IsParent {s | s ∈ S} {s | s ∈ X} {s | s ∈ Y} v := fun v => by simp [I]
  clear_value R I
  have hRx : ∀ x ∈ X, R x = true := fun x hx => (hR x).2 (.inl ⟨x, hx, .refl⟩)
  have hRy : ∀ y ∈ Y, R y = true := fun y hy => (hR y).2 (.inr (.inl ⟨y, hy, .refl⟩))
  have hRS : ∀ s ∈ S, R s = true := fun s hs => (hR s).2 (.inr (.inr ⟨s, hs, .refl⟩))
  have hRup : ∀ v, R v = true → ∀ p ∈ bn.parentsOf v, R p = true := fun v hv p hp => (hR p).2 (((hR v).1 hv).up hp)
  have hIx : ∀ x ∈ X, I x = true := fun x hx => (hI x).2 ⟨x, hx, .refl⟩
  have hIy : ∀ y ∈ Y, I y = false := by
    intro y hy
    cases h : I y with
    | false => rfl
    | true => exact absurd ((hI y).1 h) (hnr hy)
  -- a family that meets `I` lies in `I ∪ S`
  have fam : ∀ v, R v = true → ∀ u ∈ bn.fam v, I u = true → ∀ z ∈ bn.fam v, I z = true ∨ z ∈ S := by
    intro v hv u hu hIu z hz
    by_cases hzS : z ∈ S
    · exact .inr hzS
    · left
      by_cases hzu : z = u
      · rw [hzu]; exact hIu
      obtain ⟨x, hx, hxu⟩ := (hI u).1 hIu
      refine (hI z).2 ⟨x, hx, ReflTransGen.tail hxu ⟨⟨?_, ?_, ?_⟩, hzS⟩⟩
      · rcases List.mem_cons.1 hu with rfl | hu
        · exact (hR _).1 hv
        · exact (hR _).1 (hRup v hv u hu)
      · rcases List.mem_cons.1 hz with rfl | hz
        · exact (hR _).1 hv
        · exact (hR _).1 (hRup v hv z hz)
      · rcases List.mem_cons.1 hu with rfl | hu <;> rcases List.mem_cons.1 hz with rfl | hz
        · exact absurd rfl hzu
        · exact .inr (.inl hz)
        · exact .inl hu
        · exact .inr (.inr ⟨v, (hR v).1 hv, hu, hz⟩)
  let M : N → Bool := fun v => (bn.fam v).any I
  let F : Asg N → ℚ := fun b => (((bn.V.filter R).filter M).map fun u => bn.prob u b).prod
  let G : Asg N → ℚ := fun b => (((bn.V.filter R).filter fun u => !M u).map fun u => bn.prob u b).prod
  have key : ∀ T : List N, (∀ s ∈ S, s ∈ T) → (∀ t ∈ T, R t = true) → InRange bn.cardOf T a →
      margOf bn T a = sumAll bn.cardOf (((bn.V.filter R).filter I).filter fun u => u ∉ T) F a * sumAll bn.cardOf (((bn.V.filter R).filter fun u => !I u).filter fun u => u ∉ T) G a := by
    intro T hST hT hTa
    rw [barren w hno hac R hRup hT hTa]
    have perm : ((bn.V.filter R).filter fun u => u ∉ T).Perm ((((bn.V.filter R).filter I).filter fun u => u ∉ T) ++ (((bn.V.filter R).filter fun u => !I u).filter fun u => u ∉ T)) := by
      rw [← List.filter_append]
      exact (List.filter_append_perm I (bn.V.filter R)).symm.filter _
    have hFG : (fun b => ((bn.V.filter R).map fun u => bn.prob u b).prod) = fun b => F b * G b := by
      funext b
      simp only [F, G]
      rw [← List.prod_append, ← List.map_append]
      exact List.Perm.prod_eq (List.Perm.map _ (List.filter_append_perm M (bn.V.filter R)).symm)
    rw [sumAll_perm perm _ ((w.nodup.filter _).filter _), hFG]
    refine sumAll_split (((w.nodup.filter _).filter _).filter _) ?_ ?_ ?_ a
    · intro b b' h
      apply prodProb_congr
      intro u hu z hz
      apply h
      obtain ⟨hu1, hu2⟩ := List.mem_filter.1 hu
      obtain ⟨t, ht, htI⟩ := List.any_eq_true.1 hu2
      have hz' := fam u (List.mem_filter.1 hu1).2 t ht htI z hz
      intro hz
      simp only [List.mem_filter, Bool.not_eq_true', decide_eq_true_eq] at hz
      rcases hz' with h | h
      · rw [h] at hz; simp at hz
      · exact hz.2 (hST z h)
    · intro b b' h
      apply prodProb_congr
      intro u hu z hz
      apply h
      have hu2 := (List.mem_filter.1 hu).2
      intro hzI
      have : I z = true := (List.mem_filter.1 (List.mem_filter.1 hzI).1).2
      have hM : M u = true := List.any_eq_true.2 ⟨z, hz, this⟩
      simp [hM] at hu2
    · intro u hu hu'
      have h1 := (List.mem_filter.1 (List.mem_filter.1 hu).1).2
      have h2 := (List.mem_filter.1 (List.mem_filter.1 hu').1).2
      simp [h2] at h1
  have ra : ∀ {T : List N}, (∀ t ∈ T, t ∈ X ++ Y ++ S) → InRange bn.cardOf T a := fun h t ht => ha t (h t ht)
  have hT : ∀ t ∈ X ++ Y ++ S, R t = true := by
    intro t ht
    simp only [List.mem_append] at ht
    rcases ht with (ht | ht) | ht
    · exact hRx t ht
    · exact hRy t ht
    · exact hRS t ht
  have s0 : ∀ t ∈ S, t ∈ X ++ Y ++ S := by simp +contextual
  have s1 : ∀ t ∈ X ++ S, t ∈ X ++ Y ++ S := by simp only [List.mem_append]; tauto
  have s2 : ∀ t ∈ Y ++ S, t ∈ X ++ Y ++ S := by simp only [List.mem_append]; tauto
  rw [key (X ++ Y ++ S) s0 hT ha, key S (fun _ h => h) (fun t ht => hT t (s0 t ht)) (ra s0), key (X ++ S) (by simp +contextual) (fun t ht => hT t (s1 t ht)) (ra s1),
    key (Y ++ S) (by simp +contextual) (fun t ht => hT t (s2 t ht)) (ra s2)]
  have inI : ∀ u, u ∈ (bn.V.filter R).filter I → u ∉ Y := by
    intro u hu hY
    have := (List.mem_filter.1 hu).2
    rw [hIy u hY] at this; simp at this
  have outI : ∀ u, u ∈ (bn.V.filter R).filter (fun u => !I u) → u ∉ X := by
    intro u hu hX
    have := (List.mem_filter.1 hu).2
    simp [hIx u hX] at this
  have e1 : (((bn.V.filter R).filter I).filter fun u => u ∉ X ++ Y ++ S) = ((bn.V.filter R).filter I).filter fun u => u ∉ X ++ S :=
    List.filter_congr fun u hu => by simp [inI u hu]
  have e2 : (((bn.V.filter R).filter I).filter fun u => u ∉ S) = ((bn.V.filter R).filter I).filter fun u => u ∉ Y ++ S :=
    List.filter_congr fun u hu => by simp [inI u hu]
  have e3 : (((bn.V.filter R).filter fun u => !I u).filter fun u => u ∉ X ++ Y ++ S) = ((bn.V.filter R).filter fun u => !I u).filter fun u => u ∉ Y ++ S :=
    List.filter_congr fun u hu => by simp [outI u hu]
  have e4 : (((bn.V.filter R).filter fun u => !I u).filter fun u => u ∉ S) = ((bn.V.filter R).filter fun u => !I u).filter fun u => u ∉ X ++ S :=
    List.filter_congr fun u hu => by simp [outI u hu]
  rw [e1, e2, e3, e4]
  ring

end PyBN
