import Verif.Model.Chordal
import Verif.Spec.Chordal
import Verif.Proofs.Dict
import Mathlib.Data.Fintype.Basic
import Mathlib.Data.ZMod.Basic
import Mathlib.Data.Finset.Max
import Mathlib.Tactic.LinearCombination

/-!
# `make_chordal`: elimination with fill-in gives a chordal graph
-/

set_option linter.unusedSectionVars false
namespace PyBN
namespace Chordal
variable {N A : Type _} [DecidableEq N] [DecidableEq A]

theorem Joined.symm {g : List (N × N)} {a b : N} (h : Joined g a b) : Joined g b a := Or.symm h

theorem mem_adjList {v a : N} {t : List (N × N)} : a ∈ adjList v t ↔ a ≠ v ∧ Joined t v a := by
  unfold adjList Joined
  rw [List.mem_flatMap]
  constructor
  · rintro ⟨⟨x, y⟩, he, ha⟩
    split at ha
    · rename_i hv
      rw [List.mem_filter] at ha
      obtain ⟨h1, h2⟩ := ha
      have hne : a ≠ v := by simpa using h2
      refine ⟨hne, ?_⟩
      simp only [List.mem_cons, List.not_mem_nil, or_false] at h1
      rcases hv with hv | hv <;> rcases h1 with h1 | h1
      · exact (hne (h1.trans hv.symm)).elim
      · left; rw [hv, h1]; exact he
      · right; rw [hv, h1]; exact he
      · exact (hne (h1.trans hv.symm)).elim
    · cases ha
  · rintro ⟨hne, h | h⟩
    · exact ⟨(v, a), h, by rw [if_pos (Or.inl rfl)]; simp [hne]⟩
    · exact ⟨(a, v), h, by rw [if_pos (Or.inr rfl)]; simp [hne]⟩

/-- What adding the pairs of `l` to the state has done. -/
structure Grow (l : List (N × N)) (st st' : St N) : Prop where
  added : ∀ x ∈ st.added, x ∈ st'.added
  temp : ∀ x ∈ st.temp, x ∈ st'.temp
  new : ∀ x ∈ st'.added, x ∈ st.added ∨ (x ∈ l ∧ x.1 ≠ x.2 ∧ x ∈ st'.temp)
  tempNew : ∀ x ∈ st'.temp, x ∈ st.temp ∨ (x ∈ l ∧ x ∈ st'.added)
  joined : ∀ x ∈ l, x.1 ≠ x.2 → Joined st'.added x.1 x.2

theorem Grow.refl (st : St N) : Grow [] st st := ⟨fun _ h => h, fun _ h => h, fun _ h => Or.inl h, fun _ h => Or.inl h, by simp⟩

theorem Grow.trans {l1 l2 : List (N × N)} {s1 s2 s3 : St N} (g1 : Grow l1 s1 s2) (g2 : Grow l2 s2 s3) : Grow (l1 ++ l2) s1 s3 where
  added x h := g2.added x (g1.added x h)
  temp x h := g2.temp x (g1.temp x h)
  new x h := by
    rcases g2.new x h with h | ⟨h, h', h''⟩
    · rcases g1.new x h with h | ⟨h, h', h''⟩
      · exact Or.inl h
      · exact Or.inr ⟨List.mem_append_left _ h, h', g2.temp x h''⟩
    · exact Or.inr ⟨List.mem_append_right _ h, h', h''⟩
  tempNew x h := by
    rcases g2.tempNew x h with h | ⟨h, h'⟩
    · rcases g1.tempNew x h with h | ⟨h, h'⟩
      · exact Or.inl h
      · exact Or.inr ⟨List.mem_append_left _ h, g2.added x h'⟩
    · exact Or.inr ⟨List.mem_append_right _ h, h'⟩
  joined x h hne := by
    rcases List.mem_append.1 h with h | h
    · rcases g1.joined x h hne with h | h
      · exact Or.inl (g2.added _ h)
      · exact Or.inr (g2.added _ h)
    · exact g2.joined x h hne

theorem Grow.one (a1 a2 : N) (st : St N) : Grow [(a1, a2)] st (addPair a1 a2 st) := by
  unfold addPair
  split
  · rename_i hne
    split
    · refine ⟨by simp +contextual, by simp +contextual, ?_, ?_, by simp [Joined]⟩
      · intro x hx
        simp only [List.mem_append, List.mem_singleton] at hx ⊢
        rcases hx with hx | rfl
        · exact Or.inl hx
        · exact Or.inr ⟨rfl, hne, Or.inr rfl⟩
      · intro x hx
        simp only [List.mem_append, List.mem_singleton] at hx ⊢
        rcases hx with hx | rfl
        · exact Or.inl hx
        · exact Or.inr ⟨rfl, Or.inr rfl⟩
    · rename_i hm
      refine ⟨fun x h => h, fun x h => h, fun x h => Or.inl h, fun x h => Or.inl h, ?_⟩
      intro x hx hxn
      rw [List.mem_singleton] at hx
      subst hx
      unfold Joined; tauto
  · rename_i hne
    refine ⟨fun x h => h, fun x h => h, fun x h => Or.inl h, fun x h => Or.inl h, ?_⟩
    intro x hx hxn
    rw [List.mem_singleton] at hx
    subst hx
    exact (hne hxn).elim

theorem Grow.inner (a1 : N) : ∀ (l : List N) (st : St N), Grow (l.map fun a2 => (a1, a2)) st (l.foldl (fun s a2 => addPair a1 a2 s) st)
  | [], st => Grow.refl st
  | a :: l, st => by
      rw [List.foldl_cons, List.map_cons]
      exact (Grow.one a1 a st).trans (Grow.inner a1 l _)

theorem Grow.outer (adj : List N) : ∀ (l : List N) (st : St N),
    Grow (l.flatMap fun a1 => adj.map fun a2 => (a1, a2)) st (l.foldl (fun s a1 => adj.foldl (fun s a2 => addPair a1 a2 s) s) st)
  | [], st => Grow.refl st
  | a :: l, st => by
      rw [List.foldl_cons, List.flatMap_cons]
      exact (Grow.inner a adj st).trans (Grow.outer adj l _)

/-- The state of the elimination after the nodes `done`. -/
structure Inv (e : List (N × N)) (done : N → Prop) (st : St N) : Prop where
  sub : ∀ x ∈ st.temp, x ∈ e ++ st.added
  keep : ∀ x ∈ e ++ st.added, ¬ done x.1 → ¬ done x.2 → x ∈ st.temp
  fresh : ∀ x ∈ st.temp, ¬ done x.1 ∧ ¬ done x.2

theorem step_spec (h : HashOrder N) {e : List (N × N)} {done : N → Prop} {st : St N} (I : Inv e done st) (v : N) :
    Inv e (fun x => done x ∨ x = v) (step h st v) ∧ (∀ x ∈ st.added, x ∈ (step h st v).added) ∧
    (∀ x ∈ (step h st v).added, x ∈ st.added ∨ (x.1 ≠ x.2 ∧ Joined st.temp v x.1 ∧ Joined st.temp v x.2 ∧ x.1 ≠ v ∧ x.2 ≠ v)) ∧
    (∀ a b, a ≠ b → a ≠ v → b ≠ v → Joined st.temp v a → Joined st.temp v b → Joined (step h st v).added a b) := by
  set adj := h.iter (adjList v st.temp).dedup with hadj
  have hm : ∀ a, a ∈ adj ↔ a ≠ v ∧ Joined st.temp v a := by
    intro a; rw [hadj, (h.perm _).mem_iff, List.mem_dedup, mem_adjList]
  have g := Grow.outer adj adj st
  set st' := adj.foldl (fun s a1 => adj.foldl (fun s a2 => addPair a1 a2 s) s) st with hst'
  have hl : ∀ x : N × N, x ∈ (adj.flatMap fun a1 => adj.map fun a2 => (a1, a2)) ↔ x.1 ∈ adj ∧ x.2 ∈ adj := by
    intro x
    rw [List.mem_flatMap]
    constructor
    · rintro ⟨a, ha, hx⟩
      obtain ⟨b, hb, rfl⟩ := List.mem_map.1 hx
      exact ⟨ha, hb⟩
    · rintro ⟨h1, h2⟩
      exact ⟨x.1, h1, List.mem_map.2 ⟨x.2, h2, rfl⟩⟩
  have hstep : step h st v = ⟨st'.added, st'.temp.filter fun e => v ≠ e.1 ∧ v ≠ e.2⟩ := rfl
  have hfr : ∀ a, Joined st.temp v a → ¬ done a := by
    rintro a (h | h)
    · exact (I.fresh _ h).2
    · exact (I.fresh _ h).1
  rw [hstep]
  refine ⟨⟨?_, ?_, ?_⟩, g.added, ?_, ?_⟩
  · intro x hx
    obtain ⟨hx, -⟩ := List.mem_filter.1 hx
    rcases g.tempNew x hx with hx | ⟨-, hx⟩
    · rcases List.mem_append.1 (I.sub x hx) with hx | hx
      · exact List.mem_append_left _ hx
      · exact List.mem_append_right _ (g.added x hx)
    · exact List.mem_append_right _ hx
  · intro x hx h1 h2
    push Not at h1 h2
    refine List.mem_filter.2 ⟨?_, by simpa using ⟨h1.2.symm, h2.2.symm⟩⟩
    rcases List.mem_append.1 hx with hx | hx
    · exact g.temp x (I.keep x (List.mem_append_left _ hx) h1.1 h2.1)
    · rcases g.new x hx with hx | ⟨-, -, hx⟩
      · exact g.temp x (I.keep x (List.mem_append_right _ hx) h1.1 h2.1)
      · exact hx
  · intro x hx
    obtain ⟨hx, hv⟩ := List.mem_filter.1 hx
    have hv' : v ≠ x.1 ∧ v ≠ x.2 := by simpa using hv
    rcases g.tempNew x hx with hx | ⟨hx, -⟩
    · have := I.fresh x hx
      exact ⟨fun hd => hd.elim this.1 (fun e => hv'.1 e.symm), fun hd => hd.elim this.2 (fun e => hv'.2 e.symm)⟩
    · obtain ⟨h1, h2⟩ := (hl x).1 hx
      have h1' := (hm _).1 h1
      have h2' := (hm _).1 h2
      exact ⟨fun hd => hd.elim (hfr _ h1'.2) h1'.1, fun hd => hd.elim (hfr _ h2'.2) h2'.1⟩
  · intro x hx
    rcases g.new x hx with hx | ⟨hx, hne, -⟩
    · exact Or.inl hx
    · obtain ⟨h1, h2⟩ := (hl x).1 hx
      have h1' := (hm _).1 h1
      have h2' := (hm _).1 h2
      exact Or.inr ⟨hne, h1'.2, h2'.2, h1'.1, h2'.1⟩
  · intro a b hab ha hb h1 h2
    exact g.joined (a, b) ((hl (a, b)).2 ⟨(hm a).2 ⟨ha, h1⟩, (hm b).2 ⟨hb, h2⟩⟩) hab

/-- What the whole elimination does. -/
theorem fold_spec (h : HashOrder N) {e : List (N × N)} : ∀ (vs : List N) {done : N → Prop} {st : St N}, Inv e done st →
    (∀ x ∈ st.added, x ∈ (vs.foldl (step h) st).added) ∧
    (∀ x ∈ (vs.foldl (step h) st).added, x ∈ st.added ∨ (x.1 ≠ x.2 ∧ ¬ done x.1 ∧ ¬ done x.2 ∧ Touched (e ++ st.added) x.1 ∧ Touched (e ++ st.added) x.2)) ∧
    (∀ vs1 v vs2, vs = vs1 ++ v :: vs2 → ¬ done v → v ∉ vs1 → ∀ a b, a ≠ b → a ≠ v → b ≠ v → ¬ done a → ¬ done b → a ∉ vs1 → b ∉ vs1 →
      Joined (e ++ (vs.foldl (step h) st).added) v a → Joined (e ++ (vs.foldl (step h) st).added) v b →
      Joined (e ++ (vs.foldl (step h) st).added) a b)
  | [], done, st, I => ⟨fun x h => h, fun x h => Or.inl h, by
      intro vs1 v vs2 h; simp at h⟩
  | w :: vs, done, st, I => by
      obtain ⟨I', s1, s2, s3⟩ := step_spec h I w
      obtain ⟨f1, f2, f3⟩ := fold_spec h vs I'
      rw [List.foldl_cons]
      have hJ : ∀ a, Joined st.temp w a → Touched (e ++ st.added) a := by
        rintro a (hh | hh)
        · exact ⟨w, Or.inr (I.sub _ hh)⟩
        · exact ⟨w, Or.inl (I.sub _ hh)⟩
      have hT : ∀ a, Touched (e ++ (step h st w).added) a → Touched (e ++ st.added) a := by
        rintro a ⟨u, hu | hu⟩
        · rcases List.mem_append.1 hu with hu | hu
          · exact ⟨u, Or.inl (List.mem_append_left _ hu)⟩
          · rcases s2 _ hu with hu | ⟨-, h1, h2, -⟩
            · exact ⟨u, Or.inl (List.mem_append_right _ hu)⟩
            · exact hJ a h1
        · rcases List.mem_append.1 hu with hu | hu
          · exact ⟨u, Or.inr (List.mem_append_left _ hu)⟩
          · rcases s2 _ hu with hu | ⟨-, h1, h2, -⟩
            · exact ⟨u, Or.inr (List.mem_append_right _ hu)⟩
            · exact hJ a h2
      have hfr : ∀ a, Joined st.temp w a → ¬ done a := by
        rintro a (h | h)
        · exact (I.fresh _ h).2
        · exact (I.fresh _ h).1
      refine ⟨fun x hx => f1 x (s1 x hx), ?_, ?_⟩
      · intro x hx
        rcases f2 x hx with hx | ⟨h0, h1, h2, h3, h4⟩
        · rcases s2 x hx with hx | ⟨h0, h1, h2, -⟩
          · exact Or.inl hx
          · exact Or.inr ⟨h0, hfr _ h1, hfr _ h2, hJ _ h1, hJ _ h2⟩
        · push Not at h1 h2
          exact Or.inr ⟨h0, h1.1, h2.1, hT _ h3, hT _ h4⟩
      · intro vs1 v vs2 hvs hv hv1 a b hab ha hb hda hdb ha1 hb1 hja hjb
        cases vs1 with
        | nil =>
          rw [List.nil_append, List.cons.injEq] at hvs
          obtain ⟨rfl, rfl⟩ := hvs
          -- edges at `w` are in `temp` now
          have key : ∀ x, x ≠ w → ¬ done x → Joined (e ++ (vs.foldl (step h) (step h st w)).added) w x → Joined st.temp w x := by
            intro x hxw hdx hj
            have old : ∀ p : N × N, p ∈ e ++ (vs.foldl (step h) (step h st w)).added → (p.1 = w ∨ p.2 = w) → p ∈ e ++ st.added := by
              intro p hp hw
              rcases List.mem_append.1 hp with hp | hp
              · exact List.mem_append_left _ hp
              · rcases f2 p hp with hp | ⟨-, h1, h2, -⟩
                · rcases s2 p hp with hp | ⟨-, -, -, h1, h2⟩
                  · exact List.mem_append_right _ hp
                  · rcases hw with hw | hw
                    · exact (h1 hw).elim
                    · exact (h2 hw).elim
                · rcases hw with hw | hw
                  · exact (h1 (Or.inr hw)).elim
                  · exact (h2 (Or.inr hw)).elim
            rcases hj with hj | hj
            · exact Or.inl (I.keep _ (old _ hj (Or.inl rfl)) hv hdx)
            · exact Or.inr (I.keep _ (old _ hj (Or.inr rfl)) hdx hv)
          rcases s3 a b hab ha hb (key a ha hda hja) (key b hb hdb hjb) with hj | hj
          · exact Or.inl (List.mem_append_right _ (f1 _ hj))
          · exact Or.inr (List.mem_append_right _ (f1 _ hj))
        | cons y vs1 =>
          rw [List.cons_append, List.cons.injEq] at hvs
          obtain ⟨rfl, rfl⟩ := hvs
          simp only [List.mem_cons, not_or] at hv1 ha1 hb1
          exact f3 vs1 v vs2 rfl (fun h => h.elim hv hv1.1) hv1.2 a b hab ha hb (fun h => h.elim hda ha1.1) (fun h => h.elim hdb hb1.1) ha1.2 hb1.2
            hja hjb

theorem inv_init (e : List (N × N)) : Inv e (fun _ => False) ⟨[], e⟩ := ⟨by simp, by simp, by simp⟩

theorem touched_fillIn (h : HashOrder N) (vs : List N) (e : List (N × N)) (a : N) : Touched (fillIn h vs e) a ↔ Touched e a := by
  obtain ⟨-, f2, -⟩ := fold_spec h vs (inv_init e)
  constructor
  · rintro ⟨u, hu | hu⟩
    · rcases List.mem_append.1 hu with hu | hu
      · exact ⟨u, Or.inl hu⟩
      · rcases f2 _ hu with hu | ⟨-, -, -, h1, -⟩
        · cases hu
        · simpa using h1
    · rcases List.mem_append.1 hu with hu | hu
      · exact ⟨u, Or.inr hu⟩
      · rcases f2 _ hu with hu | ⟨-, -, -, -, h1⟩
        · cases hu
        · simpa using h1
  · rintro ⟨u, hu | hu⟩
    · exact ⟨u, Or.inl (List.mem_append_left _ hu)⟩
    · exact ⟨u, Or.inr (List.mem_append_left _ hu)⟩

theorem fillIn_loops (h : HashOrder N) (vs : List N) (e : List (N × N)) (a : N) (ha : (a, a) ∈ fillIn h vs e) : (a, a) ∈ e := by
  obtain ⟨-, f2, -⟩ := fold_spec h vs (inv_init e)
  rcases List.mem_append.1 ha with ha | ha
  · exact ha
  · rcases f2 _ ha with ha | ⟨hne, -⟩
    · cases ha
    · exact (hne rfl).elim

/-- Elimination of every node in any order leaves a chordal graph. -/
theorem fillIn_chordal (h : HashOrder N) (vs : List N) (e : List (N × N)) (hvs : ∀ v, Touched e v → v ∈ vs) : IsChordal (fillIn h vs e) := by
  intro n hn c hc hcyc
  haveI : NeZero n := ⟨by omega⟩
  obtain ⟨-, -, f3⟩ := fold_spec h vs (inv_init e)
  have hin : ∀ i, c i ∈ vs := fun i => hvs _ ((touched_fillIn h vs e _).1 ⟨_, hcyc i⟩)
  obtain ⟨i, -, hi⟩ := Finset.exists_min_image (Finset.univ : Finset (ZMod n)) (fun i => vs.idxOf (c i)) ⟨0, Finset.mem_univ _⟩
  have hlt := List.idxOf_lt_length_of_mem (hin i)
  have hsplit : vs = vs.take (vs.idxOf (c i)) ++ c i :: vs.drop (vs.idxOf (c i) + 1) := by
    conv_lhs => rw [← List.take_append_drop (vs.idxOf (c i)) vs]
    rw [List.drop_eq_getElem_cons hlt, List.getElem_idxOf hlt]
  have hnot : ∀ j, c j ∉ vs.take (vs.idxOf (c i)) := by
    intro j hj
    obtain ⟨k, hk, hkj⟩ := List.getElem_of_mem hj
    rw [List.getElem_take] at hkj
    rw [List.length_take] at hk
    have hk' : k < vs.length := by omega
    have h1 : vs.idxOf (c j) ≤ k := by
      by_contra hcon
      have := List.not_of_lt_findIdx (xs := vs) (p := fun x => x == c j) (i := k) (by
        show k < vs.idxOf (c j)
        omega)
      rw [hkj] at this
      simp at this
    have := hi j (Finset.mem_univ _)
    omega
  have hcast : ∀ k : ℕ, 0 < k → k < n → (k : ZMod n) ≠ 0 := by
    intro k h0 h1 hk
    rw [ZMod.natCast_eq_zero_iff] at hk
    exact absurd (Nat.le_of_dvd h0 hk) (by omega)
  have h1 : (1 : ZMod n) ≠ 0 := by simpa using hcast 1 (by omega) (by omega)
  have h2 : (2 : ZMod n) ≠ 0 := by simpa using hcast 2 (by omega) (by omega)
  have h3 : (3 : ZMod n) ≠ 0 := by simpa using hcast 3 (by omega) (by omega)
  have ne1 : i - 1 ≠ i + 1 := fun hh => h2 (by linear_combination -hh)
  have ne2 : i - 1 ≠ i := fun hh => h1 (by linear_combination -hh)
  have ne3 : i + 1 ≠ i := fun hh => h1 (by linear_combination hh)
  have ja : Joined (fillIn h vs e) (c i) (c (i + 1)) := hcyc i
  have jb : Joined (fillIn h vs e) (c i) (c (i - 1)) := by
    have := hcyc (i - 1)
    rw [sub_add_cancel] at this
    exact this.symm
  have := f3 _ _ _ hsplit (by simp) (fun hm => hnot i hm) (c (i - 1)) (c (i + 1)) (fun hh => ne1 (hc hh)) (fun hh => ne2 (hc hh))
    (fun hh => ne3 (hc hh)) (by simp) (by simp) (fun hm => hnot _ hm) (fun hm => hnot _ hm) jb ja
  refine ⟨i - 1, i + 1, ne1, ?_, ?_, this⟩
  · intro hh; exact h3 (by linear_combination -hh)
  · intro hh; exact h1 (by linear_combination hh)

end Chordal
end PyBN
