import Verif.Proofs.Chordal
import Verif.Spec.FillIn
import Mathlib.Data.Set.Card

/-!
# What `make_chordal` adds (Rose, Tarjan and Lueker's path lemma)
-/

set_option linter.unusedSectionVars false
namespace PyBN
namespace Chordal
variable {N A : Type _} [DecidableEq N] [DecidableEq A]

theorem Via.mono {E E' : N → N → Prop} {P Q : N → Prop} (hE : ∀ a b, E a b → E' a b) (hPQ : ∀ c, P c → Q c) {a b : N} (h : Via E P a b) : Via E' Q a b := by
  induction h with
  | edge h => exact .edge (hE _ _ h)
  | step h hc _ ih => exact .step (hE _ _ h) (hPQ _ hc) ih

theorem Via.trans {E : N → N → Prop} {P : N → Prop} {a c b : N} (h : Via E P a c) (hc : P c) (h' : Via E P c b) : Via E P a b := by
  induction h with
  | edge h => exact .step h hc h'
  | step h hd _ ih => exact .step h hd (ih hc h')

theorem Via.symm {E : N → N → Prop} {P : N → Prop} (hE : ∀ a b, E a b → E b a) {a b : N} (h : Via E P a b) : Via E P b a := by
  induction h with
  | edge h => exact .edge (hE _ _ h)
  | step h hc _ ih => exact ih.trans hc (.edge (hE _ _ h))

theorem Via.split {E : N → N → Prop} {P : N → Prop} {v a b : N} (h : Via E (fun c => P c ∨ c = v) a b) : Via E P a b ∨ (Via E P a v ∧ Via E P v b) := by
  induction h with
  | edge h => exact Or.inl (.edge h)
  | step h hc _ ih =>
    rcases hc with hc | rfl
    · rcases ih with ih | ⟨h1, h2⟩
      · exact Or.inl (.step h hc ih)
      · exact Or.inr ⟨.step h hc h1, h2⟩
    · rcases ih with ih | ⟨-, h2⟩
      · exact Or.inr ⟨.edge h, ih⟩
      · exact Or.inr ⟨.edge h, h2⟩

/-- The inner nodes allowed on a walk from `a` to `b` after `k` nodes of the order `o` were eliminated. -/
def Inner (o : List N) (k : ℕ) (a b c : N) : Prop := o.idxOf c < k ∧ o.idxOf c < o.idxOf a ∧ o.idxOf c < o.idxOf b

theorem fold_paths (h : HashOrder N) {e : List (N × N)} (o : List N) (ho : o.Nodup) : ∀ (vs pre : List N) (st : St N), o = pre ++ vs → Inv e (· ∈ pre) st →
    (∀ a b, a ≠ b → (Joined (e ++ st.added) a b ↔ Via (Joined e) (Inner o pre.length a b) a b)) →
    ∀ a b, a ≠ b → (Joined (e ++ (vs.foldl (step h) st).added) a b ↔ Via (Joined e) (Inner o o.length a b) a b)
  | [], pre, st, hp, I, hyp => by
      rw [List.append_nil] at hp
      subst hp
      exact hyp
  | v :: vs, pre, st, hp, I, hyp => by
      obtain ⟨I', s1, s2, s3⟩ := step_spec h I v
      rw [List.foldl_cons]
      have hp' : o = (pre ++ [v]) ++ vs := by rw [hp]; simp
      refine fold_paths h o ho vs (pre ++ [v]) _ hp' ?_ ?_
      · have : (fun x => x ∈ pre ++ [v]) = fun x => x ∈ pre ∨ x = v := by
          funext x; rw [List.mem_append, List.mem_singleton]
        rw [this]; exact I'
      · have hvpre : v ∉ pre := by rw [hp] at ho; exact fun hv => List.disjoint_of_nodup_append ho hv (by simp)
        have hiv : o.idxOf v = pre.length := by
          rw [hp, List.idxOf_append_of_notMem hvpre, List.idxOf_cons_self, Nat.add_zero]
        have hlt : ∀ c, o.idxOf c < pre.length ↔ c ∈ pre := by
          intro c
          by_cases hc : c ∈ pre
          · rw [hp, List.idxOf_append_of_mem hc]
            exact ⟨fun _ => hc, fun _ => List.idxOf_lt_length_iff.2 hc⟩
          · rw [hp, List.idxOf_append_of_notMem hc]
            exact ⟨fun h => absurd h (by omega), fun h => absurd h hc⟩
        have heq : ∀ c, o.idxOf c = pre.length → c = v := by
          intro c hc
          have hcl : o.idxOf c < o.length := by rw [hc, hp]; simp
          have h1 := List.getElem_idxOf hcl
          have hvl : o.idxOf v < o.length := by rw [hiv, hp]; simp
          have h2 := List.getElem_idxOf hvl
          have : o[o.idxOf c]'hcl = o[o.idxOf v]'hvl := by
            congr 1; rw [hc, hiv]
          rw [h1, h2] at this
          exact this
        have hgt : ∀ a, a ≠ v → a ∉ pre → o.idxOf v < o.idxOf a := by
          intro a hav hap
          have h1 := (hlt a).not.2 hap
          rcases Nat.lt_or_ge pre.length (o.idxOf a) with h2 | h2
          · rw [hiv]; exact h2
          · exact absurd (heq a (by omega)) hav
        have hJs : ∀ {g : List (N × N)} (a b : N), Joined g a b → Joined g b a := fun a b h => h.symm
        have htemp : ∀ a, Joined st.temp v a → a ∉ pre ∧ Joined (e ++ st.added) v a := by
          rintro a (ha | ha)
          · exact ⟨(I.fresh _ ha).2, Or.inl (I.sub _ ha)⟩
          · exact ⟨(I.fresh _ ha).1, Or.inr (I.sub _ ha)⟩
        have hkey : ∀ a b, a ≠ b → a ≠ v → b ≠ v → Joined st.temp v a → Joined st.temp v b →
            Via (Joined e) (Inner o (pre ++ [v]).length a b) a b := by
          intro a b hab hav hbv ha hb
          obtain ⟨hap, ha'⟩ := htemp a ha
          obtain ⟨hbp, hb'⟩ := htemp b hb
          have ga := hgt a hav hap
          have gb := hgt b hbv hbp
          have w1 := (hyp v a (fun e => hav e.symm)).1 ha'
          have w2 := (hyp v b (fun e => hbv e.symm)).1 hb'
          have hl : (pre ++ [v]).length = pre.length + 1 := by simp
          have w1' := (w1.symm (fun a b h => h.symm)).mono (E' := Joined e) (Q := Inner o (pre ++ [v]).length a b) (fun _ _ h => h)
            fun c ⟨c1, c2, c3⟩ => ⟨by omega, c3, by omega⟩
          have w2' := w2.mono (E' := Joined e) (Q := Inner o (pre ++ [v]).length a b) (fun _ _ h => h) fun c ⟨c1, c2, c3⟩ => ⟨by omega, by omega, c3⟩
          exact w1'.trans ⟨by omega, ga, gb⟩ w2'
        have hl : (pre ++ [v]).length = pre.length + 1 := by simp
        intro a b hab
        constructor
        · intro hJ
          have hold : Joined (e ++ st.added) a b → Via (Joined e) (Inner o (pre ++ [v]).length a b) a b := fun hJ =>
            ((hyp a b hab).1 hJ).mono (fun _ _ h => h) fun c ⟨c1, c2, c3⟩ => ⟨by omega, c2, c3⟩
          rcases hJ with hJ | hJ
          · rcases List.mem_append.1 hJ with hJ | hJ
            · exact .edge (Or.inl hJ)
            · rcases s2 _ hJ with hJ | ⟨_, h1, h2, h3, h4⟩
              · exact hold (Or.inl (List.mem_append_right _ hJ))
              · exact hkey a b hab h3 h4 h1 h2
          · rcases List.mem_append.1 hJ with hJ | hJ
            · exact .edge (Or.inr hJ)
            · rcases s2 _ hJ with hJ | ⟨_, h1, h2, h3, h4⟩
              · exact hold (Or.inr (List.mem_append_right _ hJ))
              · exact hkey a b hab h4 h3 h2 h1
        · intro hW
          have hup : Joined (e ++ st.added) a b → Joined (e ++ (step h st v).added) a b := by
            rintro (hJ | hJ)
            · rcases List.mem_append.1 hJ with hJ | hJ
              · exact Or.inl (List.mem_append_left _ hJ)
              · exact Or.inl (List.mem_append_right _ (s1 _ hJ))
            · rcases List.mem_append.1 hJ with hJ | hJ
              · exact Or.inr (List.mem_append_left _ hJ)
              · exact Or.inr (List.mem_append_right _ (s1 _ hJ))
          by_cases hlast : o.idxOf v < o.idxOf a ∧ o.idxOf v < o.idxOf b
          · have hW' : Via (Joined e) (fun c => Inner o pre.length a b c ∨ c = v) a b := hW.mono (fun _ _ h => h) fun c ⟨c1, c2, c3⟩ => by
              by_cases hc : o.idxOf c < pre.length
              · exact Or.inl ⟨hc, c2, c3⟩
              · exact Or.inr (heq c (by omega))
            rcases hW'.split with hW' | ⟨w1, w2⟩
            · exact hup ((hyp a b hab).2 hW')
            · have hav : a ≠ v := by rintro rfl; omega
              have hbv : b ≠ v := by rintro rfl; omega
              have hap : a ∉ pre := (hlt a).not.1 (by omega)
              have hbp : b ∉ pre := (hlt b).not.1 (by omega)
              have ja := (hyp a v hav).2 (w1.mono (fun _ _ h => h) fun c ⟨c1, c2, _⟩ => ⟨c1, c2, by omega⟩)
              have jb := (hyp v b (fun e => hbv e.symm)).2 (w2.mono (fun _ _ h => h) fun c ⟨c1, _, c3⟩ => ⟨c1, by omega, c3⟩)
              have keep : ∀ x, x ∉ pre → Joined (e ++ st.added) v x → Joined st.temp v x := by
                rintro x hx (hJ | hJ)
                · exact Or.inl (I.keep _ hJ hvpre hx)
                · exact Or.inr (I.keep _ hJ hx hvpre)
              rcases s3 a b hab hav hbv (keep a hap ja.symm) (keep b hbp jb) with hJ | hJ
              · exact Or.inl (List.mem_append_right _ hJ)
              · exact Or.inr (List.mem_append_right _ hJ)
          · refine hup ((hyp a b hab).2 (hW.mono (fun _ _ h => h) fun c ⟨c1, c2, c3⟩ => ⟨?_, c2, c3⟩))
            by_contra hc
            have := heq c (by omega)
            subst this
            exact hlast ⟨c2, c3⟩

theorem fillIn_paths (h : HashOrder N) (o : List N) (ho : o.Nodup) (e : List (N × N)) (a b : N) (hab : a ≠ b) :
    Joined (fillIn h o e) a b ↔ Via (Joined e) (fun c => o.idxOf c < o.idxOf a ∧ o.idxOf c < o.idxOf b) a b := by
  unfold fillIn
  rw [fold_paths h o ho o [] ⟨[], e⟩ (by simp) (by simpa using inv_init e) ?_ a b hab]
  · constructor
    · exact fun hW => hW.mono (fun _ _ h => h) fun c ⟨_, c2, c3⟩ => ⟨c2, c3⟩
    · refine fun hW => hW.mono (fun _ _ h => h) fun c ⟨c2, c3⟩ => ⟨?_, c2, c3⟩
      have := List.idxOf_le_length (a := a) (l := o)
      omega
  · intro a b hab
    simp only [List.append_nil, List.length_nil]
    constructor
    · exact fun h => .edge h
    · intro hW
      cases hW with
      | edge h => exact h
      | step _ hc _ => exact absurd hc.1 (by omega)

theorem insertBy_sorted {α : Type _} (key : α → ℕ) (x : α) (l : List α) (h : l.Pairwise fun a b => key a ≤ key b) :
    (insertBy key x l).Pairwise fun a b => key a ≤ key b := by
  induction l with
  | nil => simp [insertBy]
  | cons y l ih =>
    unfold insertBy
    rw [List.pairwise_cons] at h
    split_ifs with hxy
    · rw [List.pairwise_cons]
      refine ⟨fun z hz => ?_, List.pairwise_cons.2 h⟩
      rcases List.mem_cons.1 hz with hz | hz
      · exact hz ▸ hxy
      · exact le_trans hxy (h.1 z hz)
    · rw [List.pairwise_cons]
      refine ⟨fun z hz => ?_, ih h.2⟩
      rcases List.mem_cons.1 ((insertBy_perm key x l).mem_iff.1 hz) with hz | hz
      · exact hz ▸ le_of_lt (lt_of_not_ge hxy)
      · exact h.1 z hz

theorem sortBy_sorted {α : Type _} (key : α → ℕ) (l : List α) : (sortBy key l).Pairwise fun a b => key a ≤ key b := by
  induction l with
  | nil => exact .nil
  | cons x l ih => exact insertBy_sorted key x _ ih

theorem degree_ncard (e : List (N × N)) (v : N) : degree e v = Set.ncard {u | u ≠ v ∧ Joined e v u} := by
  have : {u | u ≠ v ∧ Joined e v u} = ((adjList v e).toFinset : Set N) := by
    ext u; simp [mem_adjList]
  rw [this, Set.ncard_coe_finset, List.card_toFinset]
  rfl

end Chordal
end PyBN
