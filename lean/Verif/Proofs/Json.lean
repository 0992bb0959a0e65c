import Verif.Model.Json
import Verif.Proofs.Dict
import Mathlib.Tactic.Linarith
import Mathlib.Tactic.Ring

/-!
# JSON: reading back what was written; truncated documents
-/

set_option linter.unusedSectionVars false

namespace PyBN
namespace Json

mutual
/-- Fuel needed for a value. -/
def need : Json → ℕ
  | .sc _ => 1
  | .arr l => needA l + 1
  | .obj l => needO l + 1
/-- Fuel needed for the elements. -/
def needA : List Json → ℕ
  | [] => 0
  | x :: l => need x + needA l + 1
/-- Fuel needed for the members. -/
def needO : List (String × Json) → ℕ
  | [] => 0
  | (_, v) :: l => need v + needO l + 1
end

theorem toks_ne_rbrack (j : Json) (r : List Tok) : ∀ t, toks j ++ t ≠ .rbrack :: r := by
  intro t h; cases j <;> simp [toks] at h

mutual
theorem pVal_toks : ∀ (j : Json) (f : ℕ) (rest : List Tok), need j ≤ f → pVal f (toks j ++ rest) = some (j, rest)
  | .sc s, f, rest, hf => by
      obtain ⟨g, rfl⟩ : ∃ g, f = g + 1 := ⟨f - 1, by simp [need] at hf; omega⟩
      simp [toks, pVal]
  | .arr [], f, rest, hf => by
      obtain ⟨g, rfl⟩ : ∃ g, f = g + 1 := ⟨f - 1, by simp [need] at hf; omega⟩
      simp [toks, arrToks, pVal]
  | .arr (x :: l), f, rest, hf => by
      obtain ⟨g, rfl⟩ : ∃ g, f = g + 1 := ⟨f - 1, by simp [need] at hf; omega⟩
      have h := pElems_toks x l g rest (by simp [need] at hf; omega)
      have hne : ∀ r, toks x ++ (arrRest l ++ .rbrack :: rest) ≠ .rbrack :: r := fun r => toks_ne_rbrack x r _
      simp only [toks, arrToks, List.cons_append, List.append_assoc, List.nil_append, pVal]
      rw [h]; rfl
  | .obj [], f, rest, hf => by
      obtain ⟨g, rfl⟩ : ∃ g, f = g + 1 := ⟨f - 1, by simp [need] at hf; omega⟩
      simp [toks, objToks, pVal]
  | .obj ((k, v) :: l), f, rest, hf => by
      obtain ⟨g, rfl⟩ : ∃ g, f = g + 1 := ⟨f - 1, by simp [need] at hf; omega⟩
      have h := pMembers_toks k v l g rest (by simp [need] at hf; omega)
      simp only [toks, objToks, List.cons_append, List.append_assoc, List.nil_append, pVal]
      rw [h]; rfl
  termination_by j => sizeOf j
theorem pElems_toks : ∀ (x : Json) (l : List Json) (f : ℕ) (rest : List Tok), needA (x :: l) ≤ f →
    pElems f (toks x ++ (arrRest l ++ .rbrack :: rest)) = some (x :: l, rest)
  | x, [], f, rest, hf => by
      obtain ⟨g, rfl⟩ : ∃ g, f = g + 1 := ⟨f - 1, by simp [needA] at hf; omega⟩
      rw [pElems, pVal_toks x g _ (by simp [needA] at hf; omega)]
      simp [arrRest]
  | x, y :: l, f, rest, hf => by
      obtain ⟨g, rfl⟩ : ∃ g, f = g + 1 := ⟨f - 1, by simp [needA] at hf; omega⟩
      rw [pElems, pVal_toks x g _ (by simp [needA] at hf; omega)]
      have h := pElems_toks y l g rest (by simp [needA] at hf ⊢; omega)
      simp [arrRest, h]
  termination_by x l => sizeOf x + sizeOf l
theorem pMembers_toks : ∀ (k : String) (v : Json) (l : List (String × Json)) (f : ℕ) (rest : List Tok), needO ((k, v) :: l) ≤ f →
    pMembers f (.sc (.str k) :: .colon :: (toks v ++ (objRest l ++ .rbrace :: rest))) = some ((k, v) :: l, rest)
  | k, v, [], f, rest, hf => by
      obtain ⟨g, rfl⟩ : ∃ g, f = g + 1 := ⟨f - 1, by simp [needO] at hf; omega⟩
      simp only [pMembers]
      rw [pVal_toks v g _ (by simp [needO] at hf; omega)]
      simp [objRest]
  | k, v, (k', v') :: l, f, rest, hf => by
      obtain ⟨g, rfl⟩ : ∃ g, f = g + 1 := ⟨f - 1, by simp [needO] at hf; omega⟩
      simp only [pMembers]
      rw [pVal_toks v g _ (by simp [needO] at hf; omega)]
      have h := pMembers_toks k' v' l g rest (by simp [needO] at hf ⊢; omega)
      simp [objRest, h]
  termination_by k v l => sizeOf v + sizeOf l
end

mutual
theorem need_le : ∀ j : Json, need j ≤ (toks j).length
  | .sc _ => by simp [need, toks]
  | .arr [] => by simp [need, needA, toks, arrToks]
  | .arr (x :: l) => by
      have := needA_le x l
      rw [need]; simp only [toks, arrToks, List.length_cons, List.length_append, List.length_nil] at this ⊢; omega
  | .obj [] => by simp [need, needO, toks, objToks]
  | .obj ((k, v) :: l) => by
      have := needO_le k v l
      rw [need]; simp only [toks, objToks, List.length_cons, List.length_append, List.length_nil] at this ⊢; omega
  termination_by j => sizeOf j
theorem needA_le : ∀ (x : Json) (l : List Json), needA (x :: l) ≤ (toks x).length + (arrRest l).length + 1
  | x, [] => by have := need_le x; simp [needA, arrRest]; omega
  | x, y :: l => by
      have h1 := need_le x; have h2 := needA_le y l
      rw [needA]; simp only [arrRest, List.length_cons, List.length_append] at h2 ⊢; omega
  termination_by x l => sizeOf x + sizeOf l
theorem needO_le : ∀ (k : String) (v : Json) (l : List (String × Json)), needO ((k, v) :: l) ≤ (toks v).length + (objRest l).length + 1
  | k, v, [] => by have := need_le v; simp [needO, objRest]; omega
  | _, v, (k, w) :: l => by
      have h1 := need_le v; have h2 := needO_le k w l
      rw [needO]; simp only [objRest, List.length_cons, List.length_append] at h2 ⊢; omega
  termination_by k v l => sizeOf v + sizeOf l
end

/-- Reading back a document that was written completely. -/
theorem loads_toks (j : Json) : loads (toks j) = .ok j := by
  unfold loads
  have h := pVal_toks j ((toks j).length + 1) [] (by have := need_le j; omega)
  rw [List.append_nil] at h
  rw [h]

/-! ## truncation -/

/-- Opening minus closing brackets. -/
def depth : List Tok → ℤ
  | [] => 0
  | .lbrace :: l | .lbrack :: l => 1 + depth l
  | .rbrace :: l | .rbrack :: l => depth l - 1
  | .comma :: l | .colon :: l | .sc _ :: l => depth l

theorem depth_append (a b : List Tok) : depth (a ++ b) = depth a + depth b := by
  induction a with
  | nil => simp [depth]
  | cons t a ih => cases t <;> simp only [List.cons_append, depth, ih] <;> ring

/-- Balanced, and no prefix closes more than it opens. -/
def Bal (l : List Tok) : Prop := depth l = 0 ∧ ∀ p q, l = p ++ q → 0 ≤ depth p

theorem Bal.nil : Bal [] := ⟨rfl, fun p q h => by
  have := (List.append_eq_nil_iff.1 h.symm).1; subst this; exact le_refl _⟩

theorem Bal.append {a b : List Tok} (ha : Bal a) (hb : Bal b) : Bal (a ++ b) := by
  refine ⟨by rw [depth_append, ha.1, hb.1]; rfl, fun p q h => ?_⟩
  rcases List.append_eq_append_iff.1 h with ⟨c, rfl, h2⟩ | ⟨c, h1, rfl⟩
  · rw [depth_append, ha.1]; have := hb.2 _ _ h2; linarith
  · exact ha.2 _ _ h1

theorem Bal.neutral {a : List Tok} (t : Tok) (ht : ∀ l, depth (t :: l) = depth l) (ha : Bal a) : Bal (t :: a) := by
  refine ⟨by rw [ht, ha.1], fun p q h => ?_⟩
  cases p with
  | nil => exact le_refl _
  | cons x p =>
    simp only [List.cons_append, List.cons.injEq] at h
    obtain ⟨rfl, h⟩ := h
    rw [ht]; exact ha.2 _ _ h

theorem Bal.wrap {a : List Tok} (o c : Tok) (ho : ∀ l, depth (o :: l) = 1 + depth l) (hc : ∀ l, depth (c :: l) = depth l - 1) (ha : Bal a) :
    Bal (o :: (a ++ [c])) ∧ ∀ p q, o :: (a ++ [c]) = p ++ q → p ≠ [] → q ≠ [] → 1 ≤ depth p := by
  have key : ∀ p q, o :: (a ++ [c]) = p ++ q → p ≠ [] → q ≠ [] → 1 ≤ depth p := by
    intro p q h hp hq
    cases p with
    | nil => exact absurd rfl hp
    | cons x p =>
      simp only [List.cons_append, List.cons.injEq] at h
      obtain ⟨rfl, h⟩ := h
      rw [ho]
      have : ∃ r, a = p ++ r := by
        rcases List.append_eq_append_iff.1 h with ⟨d, rfl, h2⟩ | ⟨d, h1, _⟩
        · cases d with
          | nil => exact ⟨[], by simp⟩
          | cons y d =>
            simp only [List.cons_append, List.cons.injEq] at h2
            obtain ⟨_, h2⟩ := h2
            exact absurd (List.append_eq_nil_iff.1 h2.symm).2 hq
        · exact ⟨d, h1⟩
      obtain ⟨r, hr⟩ := this
      have := ha.2 p r hr
      linarith
  refine ⟨⟨?_, fun p q h => ?_⟩, key⟩
  · rw [ho, depth_append, ha.1, hc]; simp [depth]
  · by_cases hp : p = []
    · subst hp; exact le_refl _
    by_cases hq : q = []
    · subst hq
      rw [List.append_nil] at h
      rw [← h, ho, depth_append, ha.1, hc]; simp [depth]
    · have := key p q h hp hq; linarith

mutual
theorem toks_bal : ∀ j : Json, Bal (toks j)
  | .sc s => by rw [toks]; exact Bal.nil.neutral _ fun _ => rfl
  | .arr l => by rw [toks]; exact ((arrToks_bal l).wrap _ _ (fun _ => rfl) fun _ => rfl).1
  | .obj l => by rw [toks]; exact ((objToks_bal l).wrap _ _ (fun _ => rfl) fun _ => rfl).1
  termination_by j => sizeOf j
theorem arrToks_bal : ∀ l : List Json, Bal (arrToks l)
  | [] => by rw [arrToks]; exact Bal.nil
  | x :: l => by rw [arrToks]; exact (toks_bal x).append (arrRest_bal l)
  termination_by l => sizeOf l
theorem arrRest_bal : ∀ l : List Json, Bal (arrRest l)
  | [] => by rw [arrRest]; exact Bal.nil
  | x :: l => by rw [arrRest]; exact ((toks_bal x).append (arrRest_bal l)).neutral _ fun _ => rfl
  termination_by l => sizeOf l
theorem objToks_bal : ∀ l : List (String × Json), Bal (objToks l)
  | [] => by rw [objToks]; exact Bal.nil
  | (k, v) :: l => by
      rw [objToks]
      exact (((toks_bal v).append (objRest_bal l)).neutral _ fun _ => rfl).neutral _ fun _ => rfl
  termination_by l => sizeOf l
theorem objRest_bal : ∀ l : List (String × Json), Bal (objRest l)
  | [] => by rw [objRest]; exact Bal.nil
  | (k, v) :: l => by
      rw [objRest]
      exact ((((toks_bal v).append (objRest_bal l)).neutral _ fun _ => rfl).neutral _ fun _ => rfl).neutral _ fun _ => rfl
  termination_by l => sizeOf l
end

/-- A successful parse consumes a prefix with as many closing as opening brackets. -/
theorem parse_depth : ∀ f : ℕ,
    (∀ ts j r, pVal f ts = some (j, r) → depth ts = depth r) ∧
    (∀ ts l r, pElems f ts = some (l, r) → depth ts = depth r - 1) ∧
    (∀ ts l r, pMembers f ts = some (l, r) → depth ts = depth r - 1)
  | 0 => ⟨fun _ _ _ h => by simp [pVal] at h, fun _ _ _ h => by simp [pElems] at h, fun _ _ _ h => by simp [pMembers] at h⟩
  | f + 1 => by
      obtain ⟨h1, h2, h3⟩ := parse_depth f
      refine ⟨fun ts j r h => ?_, fun ts l r h => ?_, fun ts l r h => ?_⟩
      · rw [pVal.eq_def] at h; simp only at h
        split at h
        · cases h; rfl
        · cases h; simp [depth]
        · obtain ⟨q, hq, hh⟩ := Option.map_eq_some_iff.1 h
          cases hh
          have := h2 _ _ _ hq
          simp only [depth, this]; ring
        · cases h; simp [depth]
        · obtain ⟨q, hq, hh⟩ := Option.map_eq_some_iff.1 h
          cases hh
          have := h3 _ _ _ hq
          simp only [depth, this]; ring
        · cases h
      · rw [pElems] at h
        obtain ⟨q, hq, hh⟩ := Option.bind_eq_some_iff.1 h
        have := h1 _ _ _ hq
        rw [this]
        split at hh
        · next he => cases hh; rw [he]; rfl
        · next he =>
          obtain ⟨p, hp, hh⟩ := Option.map_eq_some_iff.1 hh
          cases hh
          rw [he, depth]; exact h2 _ _ _ hp
        · cases hh
      · rw [pMembers.eq_def] at h; simp only at h
        split at h
        · obtain ⟨q, hq, hh⟩ := Option.bind_eq_some_iff.1 h
          have := h1 _ _ _ hq
          simp only [depth, this]
          split at hh
          · next he => cases hh; rw [he]; rfl
          · next he =>
            obtain ⟨p, hp, hh⟩ := Option.map_eq_some_iff.1 hh
            cases hh
            rw [he, depth]; exact h3 _ _ _ hp
          · cases hh
        · cases h

/-- An object cut short anywhere is not JSON. -/
theorem loads_truncated (l : List (String × Json)) (p q : List Tok) (h : toks (.obj l) = p ++ q) (hq : q ≠ []) :
    loads p = .error .valueError := by
  unfold loads
  split
  · next j hp =>
    exfalso
    have hd := (parse_depth _).1 _ _ _ hp
    simp only [depth] at hd
    by_cases hne : p = []
    · subst hne; simp [pVal] at hp
    · rw [toks] at h
      have := ((objToks_bal l).wrap .lbrace .rbrace (fun _ => rfl) fun _ => rfl).2 p q h hne hq
      omega
  · rfl

end Json
end PyBN
