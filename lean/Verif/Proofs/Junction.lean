import Verif.Proofs.Dirac
import Verif.Spec.Clique
import Mathlib.Data.Sym.Sym2
import Mathlib.Data.Finset.Sym

/-!
# A chordal graph has a junction tree, and fewer maximal cliques than vertices
-/

set_option linter.unusedSectionVars false
namespace PyBN
namespace Clq
open Chordal
variable {V : Type _} [DecidableEq V]

open Classical in
/-- All maximal cliques. -/
noncomputable def maxCliques (adj : V → V → Prop) (W : Finset V) : Finset (Finset V) := W.powerset.filter (IsMaxClique adj W)

theorem mem_maxCliques {adj : V → V → Prop} {W K : Finset V} : K ∈ maxCliques adj W ↔ IsMaxClique adj W K := by
  classical
  unfold maxCliques
  rw [Finset.mem_filter, Finset.mem_powerset]
  exact ⟨fun h => h.2, fun h => ⟨h.1.1, h⟩⟩

/-- Every clique is contained in a maximal one. -/
theorem IsClique.extend {adj : V → V → Prop} (sym : ∀ a b, adj a b → adj b a) {W : Finset V} : ∀ (n : ℕ) (K : Finset V), W.card - K.card = n → IsClique adj W K →
    ∃ L, K ⊆ L ∧ IsMaxClique adj W L := by
  intro n
  induction n using Nat.strong_induction_on with
  | _ n ih =>
    intro K hn hK
    by_cases h : ∀ w ∈ W, w ∉ K → ∃ k ∈ K, ¬ adj w k
    · exact ⟨K, subset_rfl, hK, h⟩
    · push Not at h
      obtain ⟨w, hw, hwK, hadj⟩ := h
      have hsub : insert w K ⊆ W := Finset.insert_subset hw hK.1
      have hc : (insert w K).card = K.card + 1 := Finset.card_insert_of_notMem hwK
      have hle := Finset.card_le_card hsub
      obtain ⟨L, hL, hm⟩ := ih (W.card - (insert w K).card) (by omega) (insert w K) rfl ⟨hsub, by
        intro a ha b hb hab
        rcases Finset.mem_insert.1 ha with ha' | ha'
        · rcases Finset.mem_insert.1 hb with hb' | hb'
          · exact (hab (ha'.trans hb'.symm)).elim
          · rw [ha']; exact hadj b hb'
        · rcases Finset.mem_insert.1 hb with hb' | hb'
          · rw [hb']; exact sym _ _ (hadj a ha')
          · exact hK.2 a ha' b hb' hab⟩
      exact ⟨L, (Finset.subset_insert _ _).trans hL, hm⟩

open Classical in
/-- The neighbours of `v` in `W`. -/
noncomputable def nbrs (adj : V → V → Prop) (W : Finset V) (v : V) : Finset V := W.filter (adj v)

theorem mem_nbrs {adj : V → V → Prop} {W : Finset V} {v a : V} : a ∈ nbrs adj W v ↔ a ∈ W ∧ adj v a := by
  classical
  unfold nbrs; rw [Finset.mem_filter]

/-- Maximal cliques after removing a simplicial vertex. -/
theorem maxCliques_simplicial {adj : V → V → Prop} (sym : ∀ a b, adj a b → adj b a) (irr : ∀ a, ¬ adj a a) {W : Finset V} {v : V}
    (hs : Simplicial adj W v) (K : Finset V) :
    IsMaxClique adj W K ↔ K = insert v (nbrs adj W v) ∨ (IsMaxClique adj (W.erase v) K ∧ K ≠ nbrs adj W v) := by
  have hvN : v ∉ nbrs adj W v := fun h => irr v (mem_nbrs.1 h).2
  have hNclique : IsClique adj (W.erase v) (nbrs adj W v) := by
    refine ⟨fun a ha => Finset.mem_erase.2 ⟨fun h => hvN (h ▸ ha), (mem_nbrs.1 ha).1⟩, fun a ha b hb hab => ?_⟩
    exact hs.2 a (mem_nbrs.1 ha).1 b (mem_nbrs.1 hb).1 (mem_nbrs.1 ha).2 (mem_nbrs.1 hb).2 hab
  constructor
  · rintro ⟨⟨hKW, hK⟩, hmax⟩
    by_cases hv : v ∈ K
    · left
      have h1 : K ⊆ insert v (nbrs adj W v) := by
        intro a ha
        by_cases hav : a = v
        · exact hav ▸ Finset.mem_insert_self _ _
        · exact Finset.mem_insert_of_mem (mem_nbrs.2 ⟨hKW ha, hK v hv a ha (Ne.symm hav)⟩)
      refine Finset.Subset.antisymm h1 ?_
      intro a ha
      by_contra haK
      rcases Finset.mem_insert.1 ha with rfl | haN
      · exact haK hv
      · obtain ⟨k, hk, hnk⟩ := hmax a (mem_nbrs.1 haN).1 haK
        apply hnk
        rcases Finset.mem_insert.1 (h1 hk) with rfl | hkN
        · exact sym _ _ (mem_nbrs.1 haN).2
        · exact hNclique.2 a haN k hkN (fun h => haK (h ▸ hk))
    · right
      refine ⟨⟨⟨fun a ha => Finset.mem_erase.2 ⟨fun h => hv (h ▸ ha), hKW ha⟩, hK⟩, fun w hw hwK => hmax w (Finset.mem_of_mem_erase hw) hwK⟩, ?_⟩
      rintro rfl
      obtain ⟨k, hk, hnk⟩ := hmax v hs.1 hv
      exact hnk (mem_nbrs.1 hk).2
  · rintro (rfl | ⟨⟨⟨hKW, hK⟩, hmax⟩, hne⟩)
    · refine ⟨⟨Finset.insert_subset hs.1 fun a ha => (mem_nbrs.1 ha).1, ?_⟩, ?_⟩
      · intro a ha b hb hab
        rcases Finset.mem_insert.1 ha with rfl | ha
        · rcases Finset.mem_insert.1 hb with rfl | hb
          · exact (hab rfl).elim
          · exact (mem_nbrs.1 hb).2
        · rcases Finset.mem_insert.1 hb with rfl | hb
          · exact sym _ _ (mem_nbrs.1 ha).2
          · exact hNclique.2 a ha b hb hab
      · intro w hw hwK
        refine ⟨v, Finset.mem_insert_self _ _, fun h => hwK (Finset.mem_insert_of_mem (mem_nbrs.2 ⟨hw, sym _ _ h⟩))⟩
    · have hvK : v ∉ K := fun h => (Finset.mem_erase.1 (hKW h)).1 rfl
      refine ⟨⟨hKW.trans (Finset.erase_subset _ _), hK⟩, ?_⟩
      intro w hw hwK
      by_cases hwv : w = v
      · subst hwv
        by_contra hcon
        push Not at hcon
        have hsub : K ⊆ nbrs adj W w := fun k hk => mem_nbrs.2 ⟨Finset.mem_of_mem_erase (hKW hk), hcon k hk⟩
        refine hne (Finset.Subset.antisymm hsub ?_)
        intro a ha
        by_contra haK
        obtain ⟨k, hk, hnk⟩ := hmax a (hNclique.1 ha) haK
        exact hnk (hNclique.2 a ha k (hsub hk) (fun h => haK (h ▸ hk)))
      · exact hmax w (Finset.mem_erase.2 ⟨hwv, hw⟩) hwK

/-- `J` joins cliques `K`, `L` by cliques of `M` containing `K ∩ L`. -/
def RIP (M : Finset (Finset V)) (J : Finset (Sym2 (Finset V))) : Prop :=
  ∀ K ∈ M, ∀ L ∈ M, Relation.ReflTransGen (fun a b => s(a, b) ∈ J ∧ a ∈ M ∧ b ∈ M ∧ K ∩ L ⊆ a ∧ K ∩ L ⊆ b) K L

theorem RIP.symm_walk {M : Finset (Finset V)} {J : Finset (Sym2 (Finset V))} {K L : Finset V}
    (h : Relation.ReflTransGen (fun a b => s(a, b) ∈ J ∧ a ∈ M ∧ b ∈ M ∧ K ∩ L ⊆ a ∧ K ∩ L ⊆ b) K L) :
    Relation.ReflTransGen (fun a b => s(a, b) ∈ J ∧ a ∈ M ∧ b ∈ M ∧ L ∩ K ⊆ a ∧ L ∩ K ⊆ b) L K := by
  have : ∀ x y, Relation.ReflTransGen (fun a b => s(a, b) ∈ J ∧ a ∈ M ∧ b ∈ M ∧ K ∩ L ⊆ a ∧ K ∩ L ⊆ b) x y →
      Relation.ReflTransGen (fun a b => s(a, b) ∈ J ∧ a ∈ M ∧ b ∈ M ∧ L ∩ K ⊆ a ∧ L ∩ K ⊆ b) y x := by
    intro x y h
    induction h with
    | refl => exact .refl
    | @tail b c _ hbc ih =>
      refine Relation.ReflTransGen.head ⟨?_, hbc.2.2.1, hbc.2.1, ?_, ?_⟩ ih
      · rw [Sym2.eq_swap]; exact hbc.1
      · rw [Finset.inter_comm]; exact hbc.2.2.2.2
      · rw [Finset.inter_comm]; exact hbc.2.2.2.1
  exact this _ _ h

/-- The family of maximal cliques of a chordal graph has a junction tree with one edge less than cliques. -/
theorem exists_junction {adj : V → V → Prop} (sym : ∀ a b, adj a b → adj b a) (irr : ∀ a, ¬ adj a a) : ∀ (n : ℕ) (W : Finset V), W.card = n →
    ChordalOn adj W → ∃ J : Finset (Sym2 (Finset V)), J.card + 1 ≤ (maxCliques adj W).card ∧ RIP (maxCliques adj W) J := by
  classical
  intro n
  induction n with
  | zero =>
    intro W hW _
    have hW0 : W = ∅ := Finset.card_eq_zero.1 hW
    have h1 : ∀ K, K ∈ maxCliques adj W ↔ K = ∅ := by
      intro K
      rw [mem_maxCliques, hW0]
      constructor
      · intro h; exact Finset.subset_empty.1 h.1.1
      · rintro rfl; exact ⟨⟨subset_rfl, by simp⟩, by simp⟩
    refine ⟨∅, ?_, ?_⟩
    · have : (∅ : Finset V) ∈ maxCliques adj W := (h1 _).2 rfl
      have := Finset.card_pos.2 ⟨_, this⟩
      simpa using this
    · intro K hK L hL
      rw [(h1 K).1 hK, (h1 L).1 hL]
  | succ n ih =>
    intro W hW hch
    obtain ⟨v, hs⟩ := exists_simplicial sym irr hch (Finset.card_pos.1 (by omega))
    have hWe : (W.erase v).card = n := by rw [Finset.card_erase_of_mem hs.1]; omega
    obtain ⟨J, hJc, hJ⟩ := ih (W.erase v) hWe (hch.mono (Finset.erase_subset _ _))
    set M' := maxCliques adj (W.erase v) with hM'
    set M := maxCliques adj W with hM
    set N := nbrs adj W v with hN
    have hvN : v ∉ N := fun h => irr v (mem_nbrs.1 h).2
    have hmem : ∀ K, K ∈ M ↔ K = insert v N ∨ (K ∈ M' ∧ K ≠ N) := by
      intro K
      rw [hM, hM', mem_maxCliques, mem_maxCliques]
      exact maxCliques_simplicial sym irr hs K
    have hvM' : ∀ K ∈ M', v ∉ K := by
      intro K hK h
      exact (Finset.mem_erase.1 ((mem_maxCliques.1 hK).1.1 h)).1 rfl
    have hK0 : insert v N ∉ M' := fun h => hvM' _ h (Finset.mem_insert_self _ _)
    by_cases hNM : N ∈ M'
    · -- replace `N` by `insert v N`
      let φ : Finset V → Finset V := fun K => if K = N then insert v N else K
      have hMeq : M = M'.image φ := by
        ext K
        rw [hmem, Finset.mem_image]
        constructor
        · rintro (rfl | ⟨hK, hne⟩)
          · exact ⟨N, hNM, by simp [φ]⟩
          · exact ⟨K, hK, by simp [φ, hne]⟩
        · rintro ⟨K', hK', rfl⟩
          by_cases h : K' = N
          · left; simp [φ, h]
          · right; simp only [φ, if_neg h]; exact ⟨hK', h⟩
      have hφinj : Set.InjOn φ M' := by
        intro K hK L hL h
        simp only [φ] at h
        split_ifs at h with p q q
        · rw [p, q]
        · exact (hK0 (h ▸ hL)).elim
        · exact (hK0 (h ▸ hK)).elim
        · exact h
      have hsub : ∀ K, K ⊆ φ K := by
        intro K
        simp only [φ]
        split_ifs with h
        · rw [h]; exact Finset.subset_insert _ _
        · exact subset_rfl
      have hφM : ∀ K ∈ M', φ K ∈ M := fun K hK => hMeq ▸ Finset.mem_image_of_mem _ hK
      refine ⟨J.image (Sym2.map φ), ?_, ?_⟩
      · have h1 := Finset.card_image_le (s := J) (f := Sym2.map φ)
        have h2 : M.card = M'.card := by rw [hMeq]; exact Finset.card_image_of_injOn hφinj
        omega
      · intro K hK L hL
        rw [hMeq] at hK hL
        obtain ⟨K', hK', rfl⟩ := Finset.mem_image.1 hK
        obtain ⟨L', hL', rfl⟩ := Finset.mem_image.1 hL
        by_cases hKL : K' = L'
        · rw [hKL]
        · have hint : φ K' ∩ φ L' ⊆ K' ∩ L' := by
            intro a ha
            rw [Finset.mem_inter] at ha ⊢
            simp only [φ] at ha
            split_ifs at ha with p q q
            · exact (hKL (p.trans q.symm)).elim
            · rcases Finset.mem_insert.1 ha.1 with rfl | h
              · exact (hvM' _ hL' ha.2).elim
              · exact ⟨p ▸ h, ha.2⟩
            · rcases Finset.mem_insert.1 ha.2 with rfl | h
              · exact (hvM' _ hK' ha.1).elim
              · exact ⟨ha.1, q ▸ h⟩
            · exact ha
          refine Relation.ReflTransGen.lift φ ?_ _ _ (hJ K' hK' L' hL')
          rintro a b ⟨hab, ha, hb, hKa, hKb⟩
          exact ⟨Finset.mem_image.2 ⟨s(a, b), hab, Sym2.map_mk ..⟩, hφM a ha, hφM b hb, hint.trans (hKa.trans (hsub a)), hint.trans (hKb.trans (hsub b))⟩
    · -- attach `insert v N` to a clique containing `N`
      have hNc : IsClique adj (W.erase v) N := by
        refine ⟨fun a ha => Finset.mem_erase.2 ⟨fun h => hvN (h ▸ ha), (mem_nbrs.1 ha).1⟩, fun a ha b hb hab => ?_⟩
        exact hs.2 a (mem_nbrs.1 ha).1 b (mem_nbrs.1 hb).1 (mem_nbrs.1 ha).2 (mem_nbrs.1 hb).2 hab
      obtain ⟨P, hNP, hP⟩ := IsClique.extend sym _ N rfl hNc
      have hPM' : P ∈ M' := mem_maxCliques.2 hP
      have hMeq : M = insert (insert v N) M' := by
        ext K
        rw [hmem, Finset.mem_insert]
        constructor
        · rintro (h | h)
          · exact Or.inl h
          · exact Or.inr h.1
        · rintro (h | h)
          · exact Or.inl h
          · exact Or.inr ⟨h, fun he => hNM (he ▸ h)⟩
      have hM'M : M' ⊆ M := hMeq ▸ Finset.subset_insert _ _
      have hK0M : insert v N ∈ M := hMeq ▸ Finset.mem_insert_self _ _
      have step : ∀ L ∈ M', Relation.ReflTransGen (fun a b => s(a, b) ∈ insert s(P, insert v N) J ∧ a ∈ M ∧ b ∈ M ∧ insert v N ∩ L ⊆ a ∧ insert v N ∩ L ⊆ b)
          (insert v N) L := by
        intro L hL
        have hint : insert v N ∩ L ⊆ P ∩ L := by
          intro a ha
          rw [Finset.mem_inter] at ha ⊢
          rcases Finset.mem_insert.1 ha.1 with rfl | h
          · exact (hvM' _ hL ha.2).elim
          · exact ⟨hNP h, ha.2⟩
        refine Relation.ReflTransGen.head (b := P) ⟨?_, hK0M, hM'M hPM', Finset.inter_subset_left, hint.trans Finset.inter_subset_left⟩ ?_
        · rw [Sym2.eq_swap]; exact Finset.mem_insert_self _ _
        · refine Relation.ReflTransGen.mono ?_ _ _ (hJ P hPM' L hL)
          rintro a b ⟨hab, ha, hb, hKa, hKb⟩
          exact ⟨Finset.mem_insert_of_mem hab, hM'M ha, hM'M hb, hint.trans hKa, hint.trans hKb⟩
      refine ⟨insert s(P, insert v N) J, ?_, ?_⟩
      · have h1 := Finset.card_insert_le s(P, insert v N) J
        have h2 : M.card = M'.card + 1 := by rw [hMeq]; exact Finset.card_insert_of_notMem hK0
        omega
      · intro K hK L hL
        rw [hMeq] at hK hL
        rcases Finset.mem_insert.1 hK with rfl | hK
        · rcases Finset.mem_insert.1 hL with rfl | hL
          · exact .refl
          · exact step L hL
        · rcases Finset.mem_insert.1 hL with rfl | hL
          · exact RIP.symm_walk (step K hK)
          · refine Relation.ReflTransGen.mono ?_ _ _ (hJ K hK L hL)
            rintro a b ⟨hab, ha, hb, hKa, hKb⟩
            exact ⟨Finset.mem_insert_of_mem hab, hM'M ha, hM'M hb, hKa, hKb⟩

/-- A chordal graph has at most as many maximal cliques as vertices, and fewer if it has an edge. -/
theorem card_maxCliques {adj : V → V → Prop} (sym : ∀ a b, adj a b → adj b a) (irr : ∀ a, ¬ adj a a) : ∀ (n : ℕ) (W : Finset V), W.card = n →
    ChordalOn adj W → W.Nonempty → (maxCliques adj W).card ≤ W.card ∧ ((∃ a ∈ W, ∃ b ∈ W, adj a b) → (maxCliques adj W).card < W.card) := by
  classical
  intro n
  induction n with
  | zero => intro W hW _ hne; rw [Finset.card_eq_zero.1 hW] at hne; exact absurd hne (by simp)
  | succ n ih =>
    intro W hW hch hne
    obtain ⟨v, hs⟩ := exists_simplicial sym irr hch hne
    have hWe : (W.erase v).card = n := by rw [Finset.card_erase_of_mem hs.1]; omega
    set N := nbrs adj W v with hN
    have hmem := maxCliques_simplicial sym irr hs
    have hvN : v ∉ N := fun h => irr v (mem_nbrs.1 h).2
    by_cases hW' : (W.erase v).Nonempty
    · obtain ⟨h1, h2⟩ := ih (W.erase v) hWe (hch.mono (Finset.erase_subset _ _)) hW'
      have hMle : (maxCliques adj W).card ≤ (maxCliques adj (W.erase v)).card + 1 := by
        refine le_trans (Finset.card_le_card (t := insert (insert v N) (maxCliques adj (W.erase v))) ?_) (Finset.card_insert_le _ _)
        intro K hK
        rcases (hmem K).1 (mem_maxCliques.1 hK) with h | h
        · exact h ▸ Finset.mem_insert_self _ _
        · exact Finset.mem_insert_of_mem (mem_maxCliques.2 h.1)
      refine ⟨by omega, ?_⟩
      intro hedge
      by_cases hNM : IsMaxClique adj (W.erase v) N
      · have : (maxCliques adj W).card ≤ (maxCliques adj (W.erase v)).card := by
          have hsub : maxCliques adj W ⊆ insert (insert v N) ((maxCliques adj (W.erase v)).erase N) := by
            intro K hK
            rcases (hmem K).1 (mem_maxCliques.1 hK) with h | h
            · exact h ▸ Finset.mem_insert_self _ _
            · exact Finset.mem_insert_of_mem (Finset.mem_erase.2 ⟨h.2, mem_maxCliques.2 h.1⟩)
          have h3 := Finset.card_le_card hsub
          have h4 := Finset.card_insert_le (insert v N) ((maxCliques adj (W.erase v)).erase N)
          have h5 := Finset.card_erase_of_mem (mem_maxCliques.2 hNM)
          have h6 : 0 < (maxCliques adj (W.erase v)).card := Finset.card_pos.2 ⟨_, mem_maxCliques.2 hNM⟩
          omega
        omega
      · have he : ∃ a ∈ W.erase v, ∃ b ∈ W.erase v, adj a b := by
          by_cases hN0 : N.Nonempty
          · obtain ⟨a, ha⟩ := hN0
            have haW : a ∈ W.erase v := Finset.mem_erase.2 ⟨fun h => hvN (h ▸ ha), (mem_nbrs.1 ha).1⟩
            -- `N` is not maximal
            have hNc : IsClique adj (W.erase v) N := by
              refine ⟨fun a ha => Finset.mem_erase.2 ⟨fun h => hvN (h ▸ ha), (mem_nbrs.1 ha).1⟩, fun a ha b hb hab => ?_⟩
              exact hs.2 a (mem_nbrs.1 ha).1 b (mem_nbrs.1 hb).1 (mem_nbrs.1 ha).2 (mem_nbrs.1 hb).2 hab
            have : ¬ ∀ w ∈ W.erase v, w ∉ N → ∃ k ∈ N, ¬ adj w k := fun h => hNM ⟨hNc, h⟩
            push Not at this
            obtain ⟨w, hw, -, hk⟩ := this
            exact ⟨w, hw, a, haW, hk a ha⟩
          · obtain ⟨a, ha, b, hb, hab⟩ := hedge
            have hno : ∀ c ∈ W, ¬ adj v c := fun c hc h => hN0 ⟨c, mem_nbrs.2 ⟨hc, h⟩⟩
            refine ⟨a, Finset.mem_erase.2 ⟨?_, ha⟩, b, Finset.mem_erase.2 ⟨?_, hb⟩, hab⟩
            · rintro rfl; exact hno b hb hab
            · rintro rfl; exact hno a ha (sym _ _ hab)
        have := h2 he
        omega
    · have hWv : W = {v} := by
        rw [Finset.not_nonempty_iff_eq_empty] at hW'
        ext a
        rw [Finset.mem_singleton]
        constructor
        · intro ha
          by_contra hav
          have : a ∈ W.erase v := Finset.mem_erase.2 ⟨hav, ha⟩
          rw [hW'] at this; simp at this
        · rintro rfl; exact hs.1
      have hle : (maxCliques adj W).card ≤ 1 := by
        rw [Finset.card_le_one]
        intro K hK L hL
        have key : ∀ K, IsMaxClique adj W K → K = {v} := by
          intro K hK
          rcases Finset.subset_singleton_iff.1 (hWv ▸ hK.1.1) with h | h
          · obtain ⟨k, hk, -⟩ := hK.2 v hs.1 (by rw [h]; simp)
            rw [h] at hk; simp at hk
          · exact h
        rw [key K (mem_maxCliques.1 hK), key L (mem_maxCliques.1 hL)]
      refine ⟨by rw [hW]; omega, ?_⟩
      rintro ⟨a, ha, b, hb, hab⟩
      rw [hWv, Finset.mem_singleton] at ha hb
      rw [ha, hb] at hab
      exact (irr v hab).elim

end Clq
end PyBN
