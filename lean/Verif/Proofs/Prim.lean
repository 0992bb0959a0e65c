import Verif.Proofs.Junction
import Verif.Proofs.Mst
import Mathlib.Tactic.Linarith
import Mathlib.Algebra.BigOperators.Group.Finset.Basic
import Mathlib.Algebra.Order.BigOperators.Group.Finset

/-!
# Prim's growth: exchange argument, minimality, running intersection
-/

set_option linter.unusedSectionVars false
namespace PyBN
namespace Clq
open Chordal

theorem rtg_symm {α : Type _} {r : α → α → Prop} (h : ∀ a b, r a b → r b a) {a b : α} (hab : Relation.ReflTransGen r a b) : Relation.ReflTransGen r b a := by
  induction hab with
  | refl => exact .refl
  | tail _ hbc ih => exact Relation.ReflTransGen.head (h _ _ hbc) ih

theorem rtg_repl {α : Type _} {r q : α → α → Prop} (h : ∀ a b, r a b → Relation.ReflTransGen q a b) {a b : α} (hab : Relation.ReflTransGen r a b) :
    Relation.ReflTransGen q a b := by
  induction hab with
  | refl => exact .refl
  | tail _ hbc ih => exact ih.trans (h _ _ hbc)

/-- Exchange: a walk inside `B` from `s ∈ R` to `t ∉ R` along `J` has an edge leaving `R`; replacing that edge by `s - t` keeps its ends linked inside `B`. -/
theorem exchange {J : Finset (Sym2 ℕ)} {B : ℕ → Prop} {R : List ℕ} {s t : ℕ} (hs : s ∈ R) (ht : t ∉ R) (hBs : B s)
    (hwalk : Relation.ReflTransGen (fun a b => s(a, b) ∈ J ∧ B b) s t) :
    ∃ s' t', s' ∈ R ∧ t' ∉ R ∧ s(s', t') ∈ J ∧ B s' ∧ B t' ∧
      Relation.ReflTransGen (fun a b => s(a, b) ∈ insert s(s, t) (J.erase s(s', t')) ∧ B a ∧ B b) s' t' := by
  classical
  obtain ⟨m, f, ⟨h0, hm, ha, hB⟩, hinj, -⟩ := PathIn.shortest (PathIn.of_reach (adj := fun a b => s(a, b) ∈ J) hBs hwalk)
  -- the first edge leaving `R`
  have hex : ∃ k, k < m ∧ f k ∈ R ∧ f (k + 1) ∉ R := by
    by_contra hcon
    push Not at hcon
    have : ∀ k ≤ m, f k ∈ R := by
      intro k
      induction k with
      | zero => intro _; rw [h0]; exact hs
      | succ k ih => intro hk; exact hcon k (by omega) (ih (by omega))
    exact ht (hm ▸ this m le_rfl)
  obtain ⟨k, hkm, hkR, hkR'⟩ := hex
  have hf_inj : ∀ i j, i ≤ m → j ≤ m → f i = f j → i = j := by
    intro i j hi hj he
    rcases lt_trichotomy i j with h | h | h
    · exact (hinj i j h hj he).elim
    · exact h
    · exact (hinj j i h hi he.symm).elim
  refine ⟨f k, f (k + 1), hkR, hkR', ha k hkm, hB k (by omega), hB (k + 1) (by omega), ?_⟩
  set Rel : ℕ → ℕ → Prop := fun a b => s(a, b) ∈ insert s(s, t) (J.erase s(f k, f (k + 1))) ∧ B a ∧ B b with hRel
  have hsym : ∀ a b, Rel a b → Rel b a := by
    rintro a b ⟨h1, h2, h3⟩
    exact ⟨by exact (Sym2.eq_swap (a := a) (b := b)) ▸ h1, h3, h2⟩
  have hedge : ∀ i < m, i ≠ k → Rel (f i) (f (i + 1)) := by
    intro i hi hik
    refine ⟨Finset.mem_insert_of_mem (Finset.mem_erase.2 ⟨?_, ha i hi⟩), hB i (by omega), hB (i + 1) (by omega)⟩
    intro he
    rcases Sym2.eq_iff.1 he with ⟨h1, -⟩ | ⟨h1, h2⟩
    · exact hik (hf_inj _ _ (by omega) (by omega) h1)
    · have := hf_inj _ _ (by omega) (by omega) h1
      have := hf_inj _ _ (by omega) (by omega) h2
      omega
  have hfirst : ∀ i ≤ k, Relation.ReflTransGen Rel (f 0) (f i) := by
    intro i
    induction i with
    | zero => intro _; exact .refl
    | succ i ih => intro hi; exact (ih (by omega)).tail (hedge i (by omega) (by omega))
  have hlast : ∀ i, k + 1 + i ≤ m → Relation.ReflTransGen Rel (f (k + 1)) (f (k + 1 + i)) := by
    intro i
    induction i with
    | zero => intro _; exact .refl
    | succ i ih => intro hi; exact (ih (by omega)).tail (hedge (k + 1 + i) (by omega) (by omega))
  have hst : Rel (f 0) (f m) := by
    rw [h0, hm]
    exact ⟨Finset.mem_insert_self _ _, hBs, hm ▸ hB m le_rfl⟩
  have h1 := rtg_symm hsym (hfirst k le_rfl)
  have h2 := hlast (m - (k + 1)) (by omega)
  rw [show k + 1 + (m - (k + 1)) = m by omega] at h2
  exact (h1.tail hst).trans (rtg_symm hsym h2)

/-- The set of undirected edges of a list of arcs. -/
def edgeSet (T : List (ℕ × ℕ)) : Finset (Sym2 ℕ) := (T.map fun p => s(p.1, p.2)).toFinset

theorem mem_edgeSet {T : List (ℕ × ℕ)} {a b : ℕ} : s(a, b) ∈ edgeSet T ↔ (a, b) ∈ T ∨ (b, a) ∈ T := by
  unfold edgeSet
  rw [List.mem_toFinset, List.mem_map]
  constructor
  · rintro ⟨⟨x, y⟩, hp, he⟩
    rcases Sym2.eq_iff.1 he with ⟨rfl, rfl⟩ | ⟨rfl, rfl⟩
    · exact Or.inl hp
    · exact Or.inr hp
  · rintro (h | h)
    · exact ⟨_, h, rfl⟩
    · exact ⟨_, h, Sym2.eq_swap⟩

/-- Facts about every stage of the growth. -/
theorem grown_basic {e : Dict ℕ (Dict ℕ ℚ)} {R : List ℕ} {T : List (ℕ × ℕ)} (h : Grown e 0 R T) :
    (∀ p ∈ T, p.1 ∈ R ∧ p.2 ∈ R) ∧ (edgeSet T).card = T.length ∧ R.length = T.length + 1 ∧ R.Nodup := by
  induction h with
  | start => simp [edgeSet]
  | @step R T s t w _ hs ht _ _ ih =>
    obtain ⟨h1, h2, h3, h4⟩ := ih
    refine ⟨?_, ?_, by simp [h3], ?_⟩
    · intro p hp
      rcases List.mem_append.1 hp with hp | hp
      · exact ⟨List.mem_append_left _ (h1 p hp).1, List.mem_append_left _ (h1 p hp).2⟩
      · rw [List.mem_singleton.1 hp]
        exact ⟨List.mem_append_left _ hs, by simp⟩
    · have : edgeSet (T ++ [(s, t)]) = insert s(s, t) (edgeSet T) := by
        unfold edgeSet
        ext x
        simp only [List.map_append, List.map_cons, List.map_nil, List.mem_toFinset, List.mem_append, List.mem_singleton, Finset.mem_insert]
        tauto
      rw [this, Finset.card_insert_of_notMem, h2, List.length_append]
      · rfl
      · intro hmem
        rcases mem_edgeSet.1 hmem with h | h
        · exact ht (h1 _ h).2
        · exact ht (h1 _ h).1
    · rw [List.nodup_append]
      refine ⟨h4, by simp, ?_⟩
      intro a ha b hb hab
      rw [List.mem_singleton.1 hb] at hab
      exact ht (hab ▸ ha)

variable {V : Type _} [DecidableEq V]

/-- Running intersection on indices below `n`. -/
def RIPn (n : ℕ) (C : ℕ → Finset V) (J : Finset (Sym2 ℕ)) : Prop :=
  ∀ i j, i < n → j < n → Relation.ReflTransGen (fun a b => s(a, b) ∈ J ∧ a < n ∧ b < n ∧ C i ∩ C j ⊆ C a ∧ C i ∩ C j ⊆ C b) i j

/-- A Prim run over the negated intersection sizes stays inside a junction tree. -/
theorem prim_rip {n : ℕ} {C : ℕ → Finset V} {e : Dict ℕ (Dict ℕ ℚ)}
    (hw : ∀ i j, i < n → j < n → i ≠ j → weightOf e i j = some (-((C i ∩ C j).card : ℚ)))
    (hdom : ∀ i j w, weightOf e i j = some w → j < n) (h0 : 0 < n)
    (hex : ∃ J, J.card + 1 ≤ n ∧ RIPn n C J) {R : List ℕ} {T : List (ℕ × ℕ)} (hG : Grown e 0 R T) :
    (∀ r ∈ R, r < n) ∧ ∃ J, J.card + 1 ≤ n ∧ RIPn n C J ∧ edgeSet T ⊆ J := by
  classical
  induction hG with
  | start =>
    obtain ⟨J, h1, h2⟩ := hex
    exact ⟨by simpa using h0, J, h1, h2, by simp [edgeSet]⟩
  | @step R T s t w hG hs ht hst hmin ih =>
    obtain ⟨hR, J, hc, hJ, hT⟩ := ih
    have hsn := hR s hs
    have htn := hdom s t w hst
    have hne : s ≠ t := fun h => ht (h ▸ hs)
    refine ⟨?_, ?_⟩
    · intro r hr
      rcases List.mem_append.1 hr with hr | hr
      · exact hR r hr
      · rw [List.mem_singleton.1 hr]; exact htn
    obtain ⟨s', t', hs', ht', hJ', ⟨hbs, hBs⟩, ⟨hbt, hBt⟩, hlink⟩ := exchange (J := J) (B := fun z => z < n ∧ C s ∩ C t ⊆ C z) hs ht ⟨hsn, Finset.inter_subset_left⟩
      (Relation.ReflTransGen.mono (fun a b h => ⟨h.1, h.2.2.1, h.2.2.2.2⟩) _ _ (hJ s t hsn htn))
    have hne' : s' ≠ t' := fun h => ht' (h ▸ hs')
    -- the intersection at the replaced edge is no larger
    have heq : C s ∩ C t = C s' ∩ C t' := by
      refine Finset.eq_of_subset_of_card_le (Finset.subset_inter hBs hBt) ?_
      have h1 := hmin s' hs' t' ht' _ (hw s' t' hbs hbt hne')
      rw [hw s t hsn htn hne, Option.some_inj] at hst
      rw [← hst] at h1
      have : ((C s' ∩ C t').card : ℚ) ≤ ((C s ∩ C t).card : ℚ) := by linarith
      exact_mod_cast this
    refine ⟨insert s(s, t) (J.erase s(s', t')), ?_, ?_, ?_⟩
    · have h1 := Finset.card_insert_le s(s, t) (J.erase s(s', t'))
      have h2 := Finset.card_erase_of_mem hJ'
      have h3 : 0 < J.card := Finset.card_pos.2 ⟨_, hJ'⟩
      omega
    · intro i j hi hj
      have hrepl : ∀ a b, (s(a, b) ∈ J ∧ a < n ∧ b < n ∧ C i ∩ C j ⊆ C a ∧ C i ∩ C j ⊆ C b) →
          Relation.ReflTransGen (fun a b => s(a, b) ∈ insert s(s, t) (J.erase s(s', t')) ∧ a < n ∧ b < n ∧ C i ∩ C j ⊆ C a ∧ C i ∩ C j ⊆ C b) a b := by
        rintro a b ⟨hab, han, hbn, ha, hb⟩
        have hsym : ∀ a b, (s(a, b) ∈ insert s(s, t) (J.erase s(s', t')) ∧ a < n ∧ b < n ∧ C i ∩ C j ⊆ C a ∧ C i ∩ C j ⊆ C b) → (s(b, a) ∈ insert s(s, t) (J.erase s(s', t')) ∧ b < n ∧ a < n ∧ C i ∩ C j ⊆ C b ∧ C i ∩ C j ⊆ C a) := by
          rintro a b ⟨h1, h2, h3, h4, h5⟩
          exact ⟨by exact (Sym2.eq_swap (a := a) (b := b)) ▸ h1, h3, h2, h5, h4⟩
        by_cases he : s(a, b) = s(s', t')
        · have hD : C i ∩ C j ⊆ C s ∩ C t := by
            rw [heq]
            rcases Sym2.eq_iff.1 he with ⟨rfl, rfl⟩ | ⟨rfl, rfl⟩
            · exact Finset.subset_inter ha hb
            · exact Finset.subset_inter hb ha
          have hl : Relation.ReflTransGen (fun a b => s(a, b) ∈ insert s(s, t) (J.erase s(s', t')) ∧ a < n ∧ b < n ∧ C i ∩ C j ⊆ C a ∧ C i ∩ C j ⊆ C b) s' t' :=
            Relation.ReflTransGen.mono (fun a b h => ⟨h.1, h.2.1.1, h.2.2.1, hD.trans h.2.1.2, hD.trans h.2.2.2⟩) _ _ hlink
          rcases Sym2.eq_iff.1 he with ⟨rfl, rfl⟩ | ⟨rfl, rfl⟩
          · exact hl
          · exact rtg_symm hsym hl
        · exact .single ⟨Finset.mem_insert_of_mem (Finset.mem_erase.2 ⟨he, hab⟩), han, hbn, ha, hb⟩
      exact rtg_repl hrepl (hJ i j hi hj)
    · intro x hx
      induction x using Sym2.ind with
      | _ a b =>
        rcases mem_edgeSet.1 hx with h | h
        all_goals
          rcases List.mem_append.1 h with h | h
        · refine Finset.mem_insert_of_mem (Finset.mem_erase.2 ⟨?_, hT (mem_edgeSet.2 (Or.inl h))⟩)
          intro he
          have hb := (grown_basic hG).1 _ h
          rcases Sym2.eq_iff.1 he with ⟨rfl, rfl⟩ | ⟨rfl, rfl⟩
          · exact ht' hb.2
          · exact ht' hb.1
        · rw [List.mem_singleton] at h; cases h; exact Finset.mem_insert_self _ _
        · refine Finset.mem_insert_of_mem (Finset.mem_erase.2 ⟨?_, hT (mem_edgeSet.2 (Or.inr h))⟩)
          intro he
          have hb := (grown_basic hG).1 _ h
          rcases Sym2.eq_iff.1 he with ⟨rfl, rfl⟩ | ⟨rfl, rfl⟩
          · exact ht' hb.1
          · exact ht' hb.2
        · rw [List.mem_singleton] at h; cases h
          rw [Sym2.eq_swap]; exact Finset.mem_insert_self _ _

/-- A complete Prim run is itself a junction tree. -/
theorem prim_rip_final {n : ℕ} {C : ℕ → Finset V} {e : Dict ℕ (Dict ℕ ℚ)}
    (hw : ∀ i j, i < n → j < n → i ≠ j → weightOf e i j = some (-((C i ∩ C j).card : ℚ)))
    (hdom : ∀ i j w, weightOf e i j = some w → j < n) (h0 : 0 < n)
    (hex : ∃ J, J.card + 1 ≤ n ∧ RIPn n C J) {R : List ℕ} {T : List (ℕ × ℕ)} (hG : Grown e 0 R T) (hfull : ∀ i < n, i ∈ R) :
    RIPn n C (edgeSet T) := by
  obtain ⟨-, J, hc, hJ, hT⟩ := prim_rip hw hdom h0 hex hG
  obtain ⟨-, h2, h3, h4⟩ := grown_basic hG
  have hlen : n ≤ R.length := by
    have : List.range n ⊆ R := fun i hi => hfull i (List.mem_range.1 hi)
    have := (List.subperm_of_subset (List.nodup_range (n := n)) this).length_le
    rwa [List.length_range] at this
  have : edgeSet T = J := Finset.eq_of_subset_of_card_le hT (by omega)
  rw [this]; exact hJ

/-- From a junction tree on sets to one on indices. -/
theorem rip_index {adj : V → V → Prop} {W : Finset V} {n : ℕ} {C : ℕ → Finset V} (hinj : ∀ i j, i < n → j < n → C i = C j → i = j)
    (hmax : ∀ K, IsMaxClique adj W K ↔ ∃ i < n, C i = K)
    (h : ∃ J : Finset (Sym2 (Finset V)), J.card + 1 ≤ (maxCliques adj W).card ∧ RIP (maxCliques adj W) J) : ∃ J, J.card + 1 ≤ n ∧ RIPn n C J := by
  classical
  obtain ⟨J, hc, hJ⟩ := h
  have hcard : (maxCliques adj W).card ≤ n := by
    have hsub : maxCliques adj W ⊆ (Finset.range n).image C := by
      intro K hK
      obtain ⟨i, hi, he⟩ := (hmax K).1 (mem_maxCliques.1 hK)
      exact Finset.mem_image.2 ⟨i, Finset.mem_range.2 hi, he⟩
    refine (Finset.card_le_card hsub).trans ?_
    refine Finset.card_image_le.trans ?_
    rw [Finset.card_range]
  let idx : Finset V → ℕ := fun K => if h : ∃ i < n, C i = K then h.choose else 0
  have hidx : ∀ i < n, idx (C i) = i := by
    intro i hi
    have hx : ∃ j < n, C j = C i := ⟨i, hi, rfl⟩
    simp only [idx, dif_pos hx]
    exact hinj _ _ hx.choose_spec.1 hi hx.choose_spec.2
  have hback : ∀ K ∈ maxCliques adj W, idx K < n ∧ C (idx K) = K := by
    intro K hK
    obtain ⟨i, hi, rfl⟩ := (hmax K).1 (mem_maxCliques.1 hK)
    rw [hidx i hi]; exact ⟨hi, rfl⟩
  refine ⟨J.image (Sym2.map idx), ?_, ?_⟩
  · have := Finset.card_image_le (s := J) (f := Sym2.map idx); omega
  · intro i j hi hj
    have hCi : C i ∈ maxCliques adj W := mem_maxCliques.2 ((hmax _).2 ⟨i, hi, rfl⟩)
    have hCj : C j ∈ maxCliques adj W := mem_maxCliques.2 ((hmax _).2 ⟨j, hj, rfl⟩)
    have := hJ _ hCi _ hCj
    have h2 : Relation.ReflTransGen (fun a b => s(a, b) ∈ J.image (Sym2.map idx) ∧ a < n ∧ b < n ∧ C i ∩ C j ⊆ C a ∧ C i ∩ C j ⊆ C b) (idx (C i)) (idx (C j)) := by
      refine Relation.ReflTransGen.lift idx ?_ _ _ this
      rintro a b ⟨hab, ha, hb, hKa, hKb⟩
      refine ⟨Finset.mem_image.2 ⟨_, hab, Sym2.map_mk ..⟩, (hback a ha).1, (hback b hb).1, ?_, ?_⟩
      · rw [(hback a ha).2]; exact hKa
      · rw [(hback b hb).2]; exact hKb
    rwa [hidx i hi, hidx j hj] at h2

/-! ## Minimality -/

/-- The edges `J` link all numbers below `n`. -/
def Spans (n : ℕ) (J : Finset (Sym2 ℕ)) : Prop :=
  ∀ i j, i < n → j < n → Relation.ReflTransGen (fun a b => s(a, b) ∈ J ∧ a < n ∧ b < n) i j

theorem prim_min {n : ℕ} {e : Dict ℕ (Dict ℕ ℚ)} (wt : Sym2 ℕ → ℚ) (hw : ∀ i j w, weightOf e i j = some w → wt s(i, j) = w ∧ j < n)
    (hsymm : ∀ i j w, weightOf e i j = some w → weightOf e j i = some w) (h0 : 0 < n)
    (J0 : Finset (Sym2 ℕ)) (hJ0e : ∀ a b, s(a, b) ∈ J0 → (weightOf e a b).isSome) (hJ0c : J0.card + 1 ≤ n) (hJ0 : Spans n J0)
    {R : List ℕ} {T : List (ℕ × ℕ)} (hG : Grown e 0 R T) :
    (∀ r ∈ R, r < n) ∧ ∃ J : Finset (Sym2 ℕ), (∀ a b, s(a, b) ∈ J → (weightOf e a b).isSome) ∧ J.card + 1 ≤ n ∧ Spans n J ∧ edgeSet T ⊆ J ∧
      ∑ x ∈ J, wt x ≤ ∑ x ∈ J0, wt x := by
  classical
  induction hG with
  | start => exact ⟨by simpa using h0, J0, hJ0e, hJ0c, hJ0, by simp [edgeSet], le_rfl⟩
  | @step R T s t w hG hs ht hst hmin ih =>
    obtain ⟨hR, J, hJe, hc, hJ, hT, hsum⟩ := ih
    have hsn := hR s hs
    have htn := (hw s t w hst).2
    refine ⟨?_, ?_⟩
    · intro r hr
      rcases List.mem_append.1 hr with hr | hr
      · exact hR r hr
      · rw [List.mem_singleton.1 hr]; exact htn
    by_cases hin : s(s, t) ∈ J
    · refine ⟨J, hJe, hc, hJ, ?_, hsum⟩
      intro x hx
      induction x using Sym2.ind with
      | _ a b =>
        rcases mem_edgeSet.1 hx with h | h
        all_goals
          rcases List.mem_append.1 h with h | h
        · exact hT (mem_edgeSet.2 (Or.inl h))
        · rw [List.mem_singleton] at h; cases h; exact hin
        · exact hT (mem_edgeSet.2 (Or.inr h))
        · rw [List.mem_singleton] at h; cases h
          rw [Sym2.eq_swap]; exact hin
    obtain ⟨s', t', hs', ht', hJ', hbs, hbt, hlink⟩ := exchange (J := J) (B := fun z => z < n) hs ht hsn
      (Relation.ReflTransGen.mono (fun a b h => ⟨h.1, h.2.2⟩) _ _ (hJ s t hsn htn))
    obtain ⟨w', hw'⟩ := Option.isSome_iff_exists.1 (hJe s' t' hJ')
    have hle : wt s(s, t) ≤ wt s(s', t') := by
      rw [(hw s t w hst).1, (hw s' t' w' hw').1]
      exact hmin s' hs' t' ht' w' hw'
    refine ⟨insert s(s, t) (J.erase s(s', t')), ?_, ?_, ?_, ?_, ?_⟩
    · intro a b hab
      rcases Finset.mem_insert.1 hab with h | h
      · rcases Sym2.eq_iff.1 h with ⟨rfl, rfl⟩ | ⟨rfl, rfl⟩
        · rw [hst]; rfl
        · rw [hsymm _ _ _ hst]; rfl
      · exact hJe a b (Finset.mem_of_mem_erase h)
    · have h1 := Finset.card_insert_le s(s, t) (J.erase s(s', t'))
      have h2 := Finset.card_erase_of_mem hJ'
      have h3 : 0 < J.card := Finset.card_pos.2 ⟨_, hJ'⟩
      omega
    · intro i j hi hj
      have hsym : ∀ a b, (s(a, b) ∈ insert s(s, t) (J.erase s(s', t')) ∧ a < n ∧ b < n) → (s(b, a) ∈ insert s(s, t) (J.erase s(s', t')) ∧ b < n ∧ a < n) := by
        rintro a b ⟨h1, h2, h3⟩
        exact ⟨by exact (Sym2.eq_swap (a := a) (b := b)) ▸ h1, h3, h2⟩
      have hrepl : ∀ a b, (s(a, b) ∈ J ∧ a < n ∧ b < n) →
          Relation.ReflTransGen (fun a b => s(a, b) ∈ insert s(s, t) (J.erase s(s', t')) ∧ a < n ∧ b < n) a b := by
        rintro a b ⟨hab, han, hbn⟩
        by_cases he : s(a, b) = s(s', t')
        · rcases Sym2.eq_iff.1 he with ⟨rfl, rfl⟩ | ⟨rfl, rfl⟩
          · exact hlink
          · exact rtg_symm hsym hlink
        · exact .single ⟨Finset.mem_insert_of_mem (Finset.mem_erase.2 ⟨he, hab⟩), han, hbn⟩
      exact rtg_repl hrepl (hJ i j hi hj)
    · intro x hx
      induction x using Sym2.ind with
      | _ a b =>
        rcases mem_edgeSet.1 hx with h | h
        all_goals
          rcases List.mem_append.1 h with h | h
        · refine Finset.mem_insert_of_mem (Finset.mem_erase.2 ⟨?_, hT (mem_edgeSet.2 (Or.inl h))⟩)
          intro he
          have hb := (grown_basic hG).1 _ h
          rcases Sym2.eq_iff.1 he with ⟨rfl, rfl⟩ | ⟨rfl, rfl⟩
          · exact ht' hb.2
          · exact ht' hb.1
        · rw [List.mem_singleton] at h; cases h; exact Finset.mem_insert_self _ _
        · refine Finset.mem_insert_of_mem (Finset.mem_erase.2 ⟨?_, hT (mem_edgeSet.2 (Or.inr h))⟩)
          intro he
          have hb := (grown_basic hG).1 _ h
          rcases Sym2.eq_iff.1 he with ⟨rfl, rfl⟩ | ⟨rfl, rfl⟩
          · exact ht' hb.1
          · exact ht' hb.2
        · rw [List.mem_singleton] at h; cases h
          rw [Sym2.eq_swap]; exact Finset.mem_insert_self _ _
    · refine le_trans ?_ hsum
      have h1 := Finset.sum_erase_add J wt hJ'
      rw [Finset.sum_insert fun h => hin (Finset.mem_of_mem_erase h)]; linarith

end Clq
end PyBN
