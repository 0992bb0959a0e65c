import Verif.Spec.DSep
import Mathlib.Data.List.Nodup
import Mathlib.Data.List.Duplicate
import Mathlib.Data.List.Basic
import Mathlib.Tactic.Push

/-!
# d-separation by paths implies separation in the moral graph of the ancestors
-/

namespace PyBN
namespace DSep
open Relation
variable {N : Type _} {P : N → N → Prop} {S X Y : Set N} {x y : N}

/-- `v` is an ancestor of (or in) `S`. -/
def Anc (P : N → N → Prop) (S : Set N) (v : N) : Prop := ∃ s ∈ S, ReflTransGen P v s

theorem Anc.up {u v : N} (h : Anc P S v) (huv : P u v) : Anc P S u := h.imp fun _ ⟨h1, h2⟩ => ⟨h1, .head huv h2⟩

/-- The condition at an inner vertex. -/
def Open (P : N → N → Prop) (S : Set N) (a b c : N) : Prop := (P a b → P c b → Anc P S b) ∧ (¬ (P a b ∧ P c b) → b ∉ S)

theorem Open.symm {a b c : N} (h : Open P S a b c) : Open P S c b a := ⟨fun h1 h2 => h.1 h2 h1, fun hn => h.2 fun ⟨h1, h2⟩ => hn ⟨h2, h1⟩⟩

/-- Every inner vertex is open. -/
def AllOpen (P : N → N → Prop) (S : Set N) (l : List N) : Prop := ∀ l1 a b c l2, l = l1 ++ a :: b :: c :: l2 → Open P S a b c

theorem AllOpen.nil : AllOpen P S [] := by rintro (_ | ⟨_, _⟩) a b c l2 h <;> simp at h
theorem AllOpen.one (v : N) : AllOpen P S [v] := by
  intro l1 a b c l2 h
  have := congrArg List.length h
  simp at this; omega
theorem AllOpen.two (u v : N) : AllOpen P S [u, v] := by
  intro l1 a b c l2 h
  have := congrArg List.length h
  simp at this; omega

theorem AllOpen.cons {a b c : N} {l : List N} : AllOpen P S (a :: b :: c :: l) ↔ Open P S a b c ∧ AllOpen P S (b :: c :: l) := by
  constructor
  · intro h
    refine ⟨h [] a b c l rfl, fun l1 a' b' c' l2 e => h (a :: l1) a' b' c' l2 (by rw [e]; rfl)⟩
  · rintro ⟨h1, h2⟩ l1 a' b' c' l2 e
    rcases l1 with _ | ⟨z, l1⟩
    · simp at e; obtain ⟨rfl, rfl, rfl, _⟩ := e; exact h1
    · simp at e; exact h2 l1 a' b' c' l2 e.2

theorem AllOpen.tail {a : N} {l : List N} (h : AllOpen P S (a :: l)) : AllOpen P S l :=
  fun l1 a' b' c' l2 e => h (a :: l1) a' b' c' l2 (by rw [e]; rfl)

theorem AllOpen.right {l1 l2 : List N} (h : AllOpen P S (l1 ++ l2)) : AllOpen P S l2 :=
  fun k1 a b c k2 e => h (l1 ++ k1) a b c k2 (by rw [e, List.append_assoc])

theorem AllOpen.left {l1 l2 : List N} (h : AllOpen P S (l1 ++ l2)) : AllOpen P S l1 :=
  fun k1 a b c k2 e => h k1 a b c (k2 ++ l2) (by rw [e]; simp)

/-- Gluing at `v`. -/
theorem AllOpen.glue {v : N} {l2 : List N} : ∀ {l1 : List N}, AllOpen P S (l1 ++ [v]) → AllOpen P S (v :: l2) →
    (∀ a c k1 k2, l1 = k1 ++ [a] → l2 = c :: k2 → Open P S a v c) → AllOpen P S (l1 ++ v :: l2)
  | [], _, h2, _ => h2
  | [a], _, h2, h3 => by
      rcases l2 with _ | ⟨c, l2⟩
      · exact AllOpen.two _ _
      · exact AllOpen.cons.2 ⟨h3 a c [] l2 rfl rfl, h2⟩
  | a :: b :: l1, h1, h2, h3 => by
      have ih := AllOpen.glue (l1 := b :: l1) (v := v) (l2 := l2) h1.tail h2 fun a' c k1 k2 e e' => h3 a' c (a :: k1) k2 (by rw [e]; rfl) e'
      rcases l1 with _ | ⟨d, l1⟩
      · exact AllOpen.cons.2 ⟨(AllOpen.cons.1 h1).1, ih⟩
      · exact AllOpen.cons.2 ⟨(AllOpen.cons.1 h1).1, ih⟩

/-- An open walk that starts downwards ends below its start, or its start is an ancestor of `S`. -/
theorem down_walk : ∀ (l : List N) (a b z : N), (a :: b :: l).IsChain (Adjacent P) → AllOpen P S (a :: b :: l) → (a :: b :: l).getLast? = some z → P a b →
    TransGen P a z ∨ Anc P S a
  | [], a, b, z, _, _, hl, hab => by
      simp at hl
      exact .inl (.single (hl ▸ hab))
  | c :: l, a, b, z, hc, ho, hl, hab => by
      rw [List.isChain_cons_cons] at hc
      obtain ⟨o1, o2⟩ := AllOpen.cons.1 ho
      rcases (List.isChain_cons_cons.1 hc.2).1 with hbc | hcb
      · rcases down_walk l b c z hc.2 o2 (by simpa using hl) hbc with h | h
        · exact .inl (.head hab h)
        · exact .inr (h.up hab)
      · exact .inr ((o1.1 hab hcb).up hab)

theorem last_loop (l2 : List N) (v : N) : (v :: (l2 ++ [v])).getLast? = some v := by
  have : v :: (l2 ++ [v]) = (v :: l2) ++ [v] := rfl
  rw [this, List.getLast?_append]; rfl

/-- Cutting a loop out of an open walk leaves an open walk. -/
theorem splice (hac : ∀ v, ¬ TransGen P v v) {l1 l2 l3 : List N} {v : N} (hc : (l1 ++ v :: l2 ++ v :: l3).IsChain (Adjacent P))
    (ho : AllOpen P S (l1 ++ v :: l2 ++ v :: l3)) : (l1 ++ v :: l3).IsChain (Adjacent P) ∧ AllOpen P S (l1 ++ v :: l3) := by
  have hR : (v :: l3).IsChain (Adjacent P) := (List.isChain_append.1 hc).2.1
  have hL : (l1 ++ v :: l2).IsChain (Adjacent P) := (List.isChain_append.1 hc).1
  have hL' := List.isChain_append.1 hL
  refine ⟨List.isChain_append.2 ⟨hL'.1, hR, ?_⟩, ?_⟩
  · intro a ha b hb
    simp at hb
    exact hL'.2.2 a ha b (by simp [hb])
  · have o1 : AllOpen P S (l1 ++ [v]) := by
      have : AllOpen P S ((l1 ++ [v]) ++ (l2 ++ v :: l3)) := by simpa using ho
      exact this.left
    have o3 : AllOpen P S (v :: l3) := ho.right
    refine AllOpen.glue o1 o3 ?_
    rintro a c k1 k2 rfl rfl
    -- the vertices after the first and before the second `v`
    have hloop : (v :: (l2 ++ [v])).IsChain (Adjacent P) ∧ AllOpen P S (v :: (l2 ++ [v])) := by
      constructor
      · have : (k1 ++ [a] ++ (v :: (l2 ++ [v]) ++ (c :: k2))).IsChain (Adjacent P) := by simpa using hc
        exact (List.isChain_append.1 (List.isChain_append.1 this).2.1).1
      · have : AllOpen P S (k1 ++ [a] ++ (v :: (l2 ++ [v]) ++ (c :: k2))) := by simpa using ho
        exact this.right.left
    obtain ⟨b, r, hb⟩ : ∃ b r, l2 ++ [v] = b :: r := by cases l2 <;> simp
    obtain ⟨r', d, hd⟩ : ∃ r' d, v :: l2 = r' ++ [d] := by
      rcases List.eq_nil_or_concat (v :: l2) with h | ⟨r', d, h⟩
      · simp at h
      · exact ⟨r', d, by simpa using h⟩
    have oa : Open P S a v b := by
      refine ho k1 a v b (r ++ c :: k2) ?_
      have : l2 ++ v :: c :: k2 = b :: (r ++ c :: k2) := by
        have := congrArg (· ++ c :: k2) hb
        simpa using this
      simp [this]
    have oc : Open P S d v c := by
      refine ho (k1 ++ [a] ++ r') d v c k2 ?_
      have : k1 ++ [a] ++ (v :: l2) ++ v :: c :: k2 = k1 ++ [a] ++ (r' ++ [d]) ++ v :: c :: k2 := by rw [hd]
      simpa using this
    constructor
    · intro hav hcv
      by_cases hbv : P b v
      · exact oa.1 hav hbv
      · rw [hb] at hloop
        have hadj := (List.isChain_cons_cons.1 hloop.1).1
        have hvb : P v b := hadj.resolve_right hbv
        rcases down_walk r v b v hloop.1 hloop.2 (by rw [← hb]; exact last_loop l2 v) hvb with h | h
        · exact absurd h (hac v)
        · exact h
    · intro hn
      by_cases hav : P a v
      · exact oc.2 fun h => hn ⟨hav, h.2⟩
      · exact oa.2 fun h => hav h.1

/-- An open walk contains an active trail. -/
theorem trail_of_walk (hac : ∀ v, ¬ TransGen P v v) : ∀ (k : ℕ) (l : List N), l.length ≤ k → l.IsChain (Adjacent P) → AllOpen P S l →
    l.head? = some x → l.getLast? = some y → ∃ l', l'.head? = some x ∧ l'.getLast? = some y ∧ ActiveTrail P S l'
  | 0, l, hk, _, _, hx, _ => by
      have : l = [] := List.eq_nil_of_length_eq_zero (by omega)
      rw [this] at hx
      simp at hx
  | k + 1, l, hk, hc, ho, hx, hy => by
      by_cases hn : l.Nodup
      · exact ⟨l, hx, hy, hn, hc, fun l1 a b c l2 e => (ho l1 a b c l2 e).1, fun l1 a b c l2 e => (ho l1 a b c l2 e).2⟩
      · obtain ⟨v, hv⟩ : ∃ v, v ∈ l ∧ ∃ l1 l2 l3, l = l1 ++ v :: l2 ++ v :: l3 := by
          rw [← List.exists_duplicate_iff_not_nodup] at hn
          obtain ⟨v, hv⟩ := hn
          refine ⟨v, hv.mem, ?_⟩
          clear hc ho hx hy hk
          induction hv with
          | cons_mem h => obtain ⟨s, t, rfl⟩ := List.append_of_mem h; exact ⟨[], s, t, rfl⟩
          | cons_duplicate _ ih => obtain ⟨l1, l2, l3, rfl⟩ := ih; exact ⟨_ :: l1, l2, l3, rfl⟩
        obtain ⟨-, l1, l2, l3, rfl⟩ := hv
        obtain ⟨h1, h2⟩ := splice hac hc ho
        refine trail_of_walk hac k _ ?_ h1 h2 ?_ ?_
        · simp at hk ⊢; omega
        · rw [← hx]; cases l1 <;> simp
        · rw [← hy, List.getLast?_append, List.getLast?_append (l' := v :: l3), List.getLast?_cons]; rfl

/-- The ancestors of `X`, `Y` and `S`. -/
def Relevant (P : N → N → Prop) (S X Y : Set N) (v : N) : Prop := Anc P X v ∨ Anc P Y v ∨ Anc P S v

theorem Relevant.up {u v : N} (h : Relevant P S X Y v) (huv : P u v) : Relevant P S X Y u := by
  rcases h with h | h | h
  · exact .inl (h.up huv)
  · exact .inr (.inl (h.up huv))
  · exact .inr (.inr (h.up huv))

/-- Neighbours in the moral graph of the relevant vertices: joined by an arc, or by a common child. -/
def Moral (P : N → N → Prop) (S X Y : Set N) (u v : N) : Prop :=
  Relevant P S X Y u ∧ Relevant P S X Y v ∧ (P u v ∨ P v u ∨ ∃ c, Relevant P S X Y c ∧ P u c ∧ P v c)

/-- Reachable from `X` in the moral graph without entering `S`. -/
def Reach (P : N → N → Prop) (S X Y : Set N) (v : N) : Prop := ∃ x ∈ X, ReflTransGen (fun u v => Moral P S X Y u v ∧ v ∉ S) x v

/-- An open walk from `X`, written backwards. -/
structure Walk (P : N → N → Prop) (S X : Set N) (l : List N) : Prop where
  chain : l.IsChain (Adjacent P)
  all : AllOpen P S l
  last : ∃ x ∈ X, l.getLast? = some x

/-- A walk that arrives at `v` against an arc (or has not left `X`). -/
def Up (P : N → N → Prop) (S X : Set N) (v : N) : Prop := ∃ l, Walk P S X (v :: l) ∧ ∀ p l', l = p :: l' → P v p

/-- A walk that arrives at `v` along an arc. -/
def Down (P : N → N → Prop) (S X : Set N) (v : N) : Prop := ∃ p l, Walk P S X (v :: p :: l) ∧ P p v

theorem Walk.extend {v w : N} {l : List N} (h : Walk P S X (v :: l)) (hadj : Adjacent P w v) (hop : ∀ p l', l = p :: l' → Open P S w v p) :
    Walk P S X (w :: v :: l) := by
  refine ⟨List.isChain_cons_cons.2 ⟨hadj, h.chain⟩, ?_, by simpa only [List.getLast?_cons_cons] using h.last⟩
  rcases l with _ | ⟨p, l⟩
  · exact AllOpen.two _ _
  · exact AllOpen.cons.2 ⟨hop p l rfl, h.all⟩

section
variable (hac : ∀ v, ¬ TransGen P v v)
include hac

theorem asymm' {u v : N} (h : P u v) : ¬ P v u := fun h' => hac u ((TransGen.single h).tail h')

theorem Up.down {v w : N} (h : Up P S X v) (hv : v ∉ S) (hvw : P v w) : Down P S X w := by
  obtain ⟨l, hw, hl⟩ := h
  exact ⟨v, l, hw.extend (.inr hvw) fun p l' e => ⟨fun h1 _ => absurd h1 (asymm' hac hvw), fun _ => hv⟩, hvw⟩

theorem Up.up {v w : N} (h : Up P S X v) (hv : v ∉ S) (hwv : P w v) : Up P S X w := by
  obtain ⟨l, hw, hl⟩ := h
  refine ⟨v :: l, hw.extend (.inl hwv) fun p l' e => ⟨fun _ h2 => absurd h2 (asymm' hac (hl p l' e)), fun _ => hv⟩, fun p l' e => ?_⟩
  simp at e
  exact e.1 ▸ hwv

theorem Down.down {v w : N} (h : Down P S X v) (hv : v ∉ S) (hvw : P v w) : Down P S X w := by
  obtain ⟨p, l, hw, hl⟩ := h
  exact ⟨v, p :: l, hw.extend (.inr hvw) fun p l' e => ⟨fun h1 _ => absurd h1 (asymm' hac hvw), fun _ => hv⟩, hvw⟩

omit hac in
theorem Down.up {v w : N} (h : Down P S X v) (hv : Anc P S v) (hwv : P w v) : Up P S X w := by
  obtain ⟨p, l, hw, hl⟩ := h
  refine ⟨v :: p :: l, hw.extend (.inl hwv) fun p' l' e => ⟨fun _ _ => hv, fun hn => absurd ⟨hwv, ?_⟩ hn⟩, fun p' l' e => ?_⟩
  · injection e with e1 _; exact e1 ▸ hwv
  · injection e with e1 _; exact e1 ▸ hl

/-- From an ancestor of `X` that is no ancestor of `S` one can go up from `X`. -/
theorem up_of_anc {v : N} (h : Anc P X v) (hv : ¬ Anc P S v) : Up P S X v := by
  obtain ⟨x, hx, h⟩ := h
  induction h using ReflTransGen.head_induction_on with
  | refl => exact ⟨[], ⟨by simp, AllOpen.one _, x, hx, rfl⟩, by simp⟩
  | head huv _ ih =>
    have hn : ¬ Anc P S _ := fun h => hv (h.up huv)
    exact (ih hn).up hac (fun hs => hn ⟨_, hs, .refl⟩) huv

/-- Going down without meeting `S`. -/
theorem down_all {v : N} (h : Anc P Y v) (hv : ¬ Anc P S v) (hw : Down P S X v) : ∃ y ∈ Y, Down P S X y := by
  obtain ⟨y, hy, h⟩ := h
  refine ⟨y, hy, ?_⟩
  induction h using ReflTransGen.head_induction_on with
  | refl => exact hw
  | head huv _ ih =>
    exact ih (fun h => hv (h.up huv)) (hw.down hac (fun hs => hv ⟨_, hs, .refl⟩) huv)

/-- Vertices reachable in the moral graph are reached by open walks, or `Y` is. -/
theorem walk_of_reach {v : N} (h : Reach P S X Y v) (hX : ∀ x ∈ X, x ∉ S) : v ∉ S ∧ ((∃ y ∈ Y, Down P S X y) ∨ Down P S X v ∨ Up P S X v) := by
  obtain ⟨x, hx, h⟩ := h
  induction h with
  | refl => exact ⟨hX x hx, .inr (.inr ⟨[], ⟨by simp, AllOpen.one _, x, hx, rfl⟩, by simp⟩)⟩
  | @tail v w _ hvw ih =>
    obtain ⟨hvR, hm, hwS⟩ : Relevant P S X Y v ∧ _ ∧ w ∉ S := ⟨hvw.1.1, hvw.1.2.2, hvw.2⟩
    obtain ⟨hvS, ih⟩ := ih
    refine ⟨hwS, ?_⟩
    -- at a common child
    have child : ∀ c, Relevant P S X Y c → P w c → Down P S X c → (∃ y ∈ Y, Down P S X y) ∨ Down P S X w ∨ Up P S X w := by
      intro c hc hwc hd
      by_cases hcS : Anc P S c
      · exact .inr (.inr (hd.up hcS hwc))
      · rcases hc with hc | hc | hc
        · exact .inr (.inr ((up_of_anc hac hc hcS).up hac (fun hs => hcS ⟨_, hs, .refl⟩) hwc))
        · exact .inl (down_all hac hc hcS hd)
        · exact absurd hc hcS
    have fromUp : Up P S X v → (∃ y ∈ Y, Down P S X y) ∨ Down P S X w ∨ Up P S X w := by
      intro hu
      rcases hm with h1 | h1 | ⟨c, hc, h1, h2⟩
      · exact .inr (.inl (hu.down hac hvS h1))
      · exact .inr (.inr (hu.up hac hvS h1))
      · exact child c hc h2 (hu.down hac hvS h1)
    rcases ih with h0 | hd | hu
    · exact .inl h0
    · rcases hm with h1 | h1 | ⟨c, hc, h1, h2⟩
      · exact .inr (.inl (hd.down hac hvS h1))
      · by_cases hcS : Anc P S v
        · exact .inr (.inr (hd.up hcS h1))
        · rcases hvR with hc | hc | hc
          · exact fromUp (up_of_anc hac hc hcS)
          · exact .inl (down_all hac hc hcS hd)
          · exact absurd hc hcS
      · exact child c hc h2 (hd.down hac hvS h1)
    · exact fromUp hu

/-- Separation by paths implies separation in the moral graph of the ancestors. -/
theorem not_reach (hX : ∀ x ∈ X, x ∉ S) (hs : ∀ x ∈ X, ∀ y ∈ Y, Separated P x y S) {y : N} (hy : y ∈ Y) : ¬ Reach P S X Y y := by
  intro hr
  have hwalk : ∃ y ∈ Y, ∃ l, Walk P S X (y :: l) := by
    rcases (walk_of_reach hac hr hX).2 with ⟨y', hy', p, l, h, -⟩ | ⟨p, l, h, -⟩ | ⟨l, h, -⟩
    · exact ⟨y', hy', _, h⟩
    · exact ⟨y, hy, _, h⟩
    · exact ⟨y, hy, _, h⟩
  obtain ⟨y, hy, l, hw⟩ := hwalk
  obtain ⟨x, hx, hlast⟩ := hw.last
  obtain ⟨l', h1, h2, t⟩ := trail_of_walk (x := y) (y := x) hac _ _ le_rfl hw.chain hw.all rfl hlast
  refine hs x hx y hy ⟨l'.reverse, by rw [List.head?_reverse]; exact h2, by rw [List.getLast?_reverse]; exact h1, ?_⟩
  have rev : ∀ {l1 a b c l2}, l'.reverse = l1 ++ a :: b :: c :: l2 → l' = l2.reverse ++ c :: b :: a :: l1.reverse := by
    intro l1 a b c l2 e
    have := congrArg List.reverse e
    simpa using this
  refine ⟨by simpa using t.nodup, ?_, fun l1 a b c l2 e h1 h2 => t.collider _ _ _ _ _ (rev e) h2 h1, fun l1 a b c l2 e hn => t.other _ _ _ _ _ (rev e) fun h => hn ⟨h.2, h.1⟩⟩
  rw [List.isChain_reverse]
  exact t.chain.imp fun a b h => h.symm

end

/-- A path that starts downwards and is active reaches its end going down, or passes an ancestor of the conditioning set below its start. -/
theorem descends : ∀ (l : List N) (a b : N) (L l1 : List N), ActiveTrail P S L → L = l1 ++ a :: b :: l → L.getLast? = some y → P a b →
    ReflTransGen P b y ∨ ∃ s ∈ S, ReflTransGen P b s := by
  intro l
  induction l with
  | nil =>
    intro a b L l1 t e h2 hab
    left
    rw [e] at h2
    have : b = y := by simpa [List.getLast?_append] using h2
    exact this ▸ .refl
  | cons c l ih =>
    intro a b L l1 t e h2 hab
    by_cases hcb : P c b
    · exact .inr (t.collider l1 a b c l e hab hcb)
    · have hc := t.chain
      rw [e] at hc
      have hbc : P b c := by
        have := (List.isChain_append.1 hc).2.1
        rw [List.isChain_cons_cons, List.isChain_cons_cons] at this
        exact this.2.1.resolve_right hcb
      rcases ih b c L (l1 ++ [a]) t (by rw [e]; simp) h2 hbc with h | ⟨s, hs, h⟩
      · exact .inl (.head hbc h)
      · exact .inr ⟨s, hs, .head hbc h⟩

/-- Separation is symmetric. -/
theorem Separated.symm (h : Separated P x y S) : Separated P y x S := by
  rintro ⟨l, h1, h2, t⟩
  refine h ⟨l.reverse, by simpa using h2, by simpa using h1, ⟨List.nodup_reverse.2 t.nodup, ?_, fun l1 a b c l2 e ha hb => ?_, fun l1 a b c l2 e hn => ?_⟩⟩
  · rw [List.isChain_reverse]
    exact t.chain.imp fun _ _ h => h.symm
  · have := congrArg List.reverse e
    exact t.collider l2.reverse c b a l1.reverse (by simpa using this) hb ha
  · have := congrArg List.reverse e
    exact t.other l2.reverse c b a l1.reverse (by simpa using this) fun h => hn ⟨h.2, h.1⟩

/-- A variable outside the blanket is separated by every set containing the blanket. -/
theorem blanket_sep (hac : ∀ v, ¬ TransGen P v v) (hne : x ≠ y) (hy : ¬ InBlanket P x y) (hB : ∀ v, InBlanket P x v → v ∈ S) : Separated P x y S := by
  rintro ⟨l, h1, h2, t⟩
  have hadj : ∀ v, Adjacent P x v → InBlanket P x v := fun v h => h.elim (fun h => .inr (.inl h)) .inl
  rcases l with _ | ⟨x', _ | ⟨v1, l⟩⟩
  · simp at h1
  · simp at h1 h2; exact hne (h1.symm.trans h2)
  · have hx : x' = x := by simpa using h1
    subst hx
    have hc := t.chain
    rw [List.isChain_cons_cons] at hc
    rcases l with _ | ⟨v2, l⟩
    · have : v1 = y := by simpa using h2
      exact hy (this ▸ hadj _ hc.1)
    · have hcol : P x' v1 ∧ P v2 v1 := by
        by_contra hn
        exact t.other [] x' v1 v2 l rfl hn (hB _ (hadj _ hc.1))
      have hnd := t.nodup
      have hv2 : InBlanket P x' v2 := .inr (.inr ⟨fun e => by subst e; simp at hnd, v1, hcol.1, hcol.2⟩)
      rcases l with _ | ⟨v3, l⟩
      · have : v2 = y := by simpa using h2
        exact hy (this ▸ hv2)
      · exact t.other [x'] v1 v2 v3 l rfl (fun h => asymm' hac hcol.2 h.1) (hB _ hv2)

/-- The local Markov property: the parents of `x` separate it from every other variable that is not a descendant. -/
theorem parents_sep (hac : ∀ v, ¬ TransGen P v v) (hy : ¬ ReflTransGen P x y) (hadj : ¬ P y x) (hS : ∀ v, v ∈ S ↔ P v x) : Separated P x y S := by
  rintro ⟨l, h1, h2, t⟩
  rcases l with _ | ⟨x', _ | ⟨v1, l⟩⟩
  · simp at h1
  · simp at h1 h2; exact hy (by rw [← h1, h2])
  · have hx : x' = x := by simpa using h1
    subst hx
    have hc := t.chain
    rw [List.isChain_cons_cons] at hc
    rcases hc.1 with h | h
    · rcases descends l x' v1 _ [] t rfl h2 h with h' | ⟨s, hs, h'⟩
      · exact hy (.head h h')
      · exact hac x' (((TransGen.single h).trans_left h').tail ((hS s).1 hs))
    · rcases l with _ | ⟨v2, l⟩
      · have : v1 = y := by simpa using h2
        exact hadj (this ▸ h)
      · exact t.other [] x' v1 v2 l rfl (fun h' => asymm' hac h h'.1) ((hS _).2 h)

end DSep
end PyBN
