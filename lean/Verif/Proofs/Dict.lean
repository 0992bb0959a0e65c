import Verif.Py.Basic

/-! Lemmas about the Python primitives. -/

set_option linter.unusedSectionVars false

namespace PyBN
namespace Dict
variable {K V : Type _} [DecidableEq K]

@[simp] theorem get?_nil (k : K) : get? ([] : Dict K V) k = none := rfl

theorem get?_cons (k' : K) (v : V) (d : Dict K V) (k : K) :
    get? ((k', v) :: d) k = if k' = k then some v else get? d k := rfl

theorem get_of_get? {d : Dict K V} {k : K} {v : V} (h : get? d k = some v) : get d k = .ok v := by
  simp [get, h]

theorem get_of_none {d : Dict K V} {k : K} (h : get? d k = none) : get d k = .error .keyError := by
  simp [get, h]

theorem get_eq_ok {d : Dict K V} {k : K} {v : V} : get d k = .ok v ↔ get? d k = some v := by
  unfold get; cases get? d k <;> simp

theorem get_eq_error {d : Dict K V} {k : K} {e : PyErr} (h : get d k = .error e) : get? d k = none := by
  unfold get at h; cases h' : get? d k <;> simp [h'] at h ⊢

theorem get?_set (d : Dict K V) (k : K) (v : V) (k' : K) :
    get? (set d k v) k' = if k = k' then some v else get? d k' := by
  induction d with
  | nil => simp [set, get?]
  | cons kv d ih =>
    obtain ⟨a, b⟩ := kv
    simp only [set]
    by_cases h : a = k
    · subst h; by_cases h2 : a = k' <;> simp [get?_cons, h2]
    · simp only [if_neg h, get?_cons, ih]
      by_cases h2 : a = k'
      · subst h2; simp [Ne.symm h]
      · simp [h2]

@[simp] theorem get?_set_self (d : Dict K V) (k : K) (v : V) : get? (set d k v) k = some v := by
  simp [get?_set]

theorem get?_set_ne (d : Dict K V) {k k' : K} (v : V) (h : k ≠ k') : get? (set d k v) k' = get? d k' := by
  simp [get?_set, h]

theorem mem_keys_iff {d : Dict K V} {k : K} : k ∈ keys d ↔ (get? d k).isSome := by
  induction d with
  | nil => simp [keys]
  | cons kv d ih =>
    obtain ⟨a, b⟩ := kv
    simp only [keys, List.map_cons, List.mem_cons, get?_cons]
    by_cases h : a = k
    · simp [h]
    · simp only [if_neg h, ← ih, keys]
      constructor
      · rintro (h' | h')
        · exact absurd h'.symm h
        · exact h'
      · exact Or.inr

theorem get?_eq_none_iff {d : Dict K V} {k : K} : get? d k = none ↔ k ∉ keys d := by
  rw [mem_keys_iff]; cases get? d k <;> simp

theorem keys_set (d : Dict K V) (k : K) (v : V) :
    keys (set d k v) = if k ∈ keys d then keys d else keys d ++ [k] := by
  induction d with
  | nil => simp [set, keys]
  | cons kv d ih =>
    obtain ⟨a, b⟩ := kv
    simp only [set]
    by_cases h : a = k
    · subst h; simp [keys]
    · rw [if_neg h]
      simp only [keys, List.map_cons, List.mem_cons] at ih ⊢
      rw [ih]
      by_cases hk : k ∈ List.map Prod.fst d <;> simp [hk, Ne.symm h]

theorem nodup_keys_set {d : Dict K V} (hd : (keys d).Nodup) (k : K) (v : V) : (keys (set d k v)).Nodup := by
  rw [keys_set]; split
  · exact hd
  · rename_i h
    rw [List.nodup_append]
    refine ⟨hd, by simp, ?_⟩
    intro a ha b hb; simp at hb; subst hb; rintro rfl; exact h ha

theorem mem_keys_set {d : Dict K V} {k k' : K} {v : V} : k' ∈ keys (set d k v) ↔ k' = k ∨ k' ∈ keys d := by
  rw [keys_set]; split
  · rename_i h; constructor
    · exact Or.inr
    · rintro (rfl | h') <;> assumption
  · simp [or_comm]

theorem get?_erase {d : Dict K V} (hd : (keys d).Nodup) (k k' : K) :
    get? (erase d k) k' = if k = k' then none else get? d k' := by
  induction d with
  | nil => simp [erase]
  | cons kv d ih =>
    obtain ⟨a, b⟩ := kv
    simp only [keys, List.map_cons, List.nodup_cons] at hd
    simp only [erase]
    by_cases h : a = k
    · subst h
      rw [if_pos rfl]
      by_cases h2 : a = k'
      · subst h2; rw [if_pos rfl]; exact get?_eq_none_iff.2 hd.1
      · simp [get?_cons, h2]
    · rw [if_neg h]; simp only [get?_cons]
      rw [ih hd.2]
      by_cases h2 : a = k'
      · subst h2; simp [Ne.symm h]
      · simp [h2]

theorem keys_erase_sublist (d : Dict K V) (k : K) : (keys (erase d k)).Sublist (keys d) := by
  induction d with
  | nil => simp [erase, keys]
  | cons kv d ih =>
    obtain ⟨a, b⟩ := kv
    simp only [erase]
    split
    · simp [keys]
    · simpa [keys] using ih

theorem nodup_keys_erase {d : Dict K V} (hd : (keys d).Nodup) (k : K) : (keys (erase d k)).Nodup :=
  hd.sublist (keys_erase_sublist d k)

theorem del_of_mem {d : Dict K V} {k : K} (h : (get? d k).isSome) : del d k = .ok (erase d k) := by
  unfold del; cases h' : get? d k <;> simp [h'] at h ⊢

theorem nodup_keys_update {e : Dict K V} : ∀ {d : Dict K V}, (keys d).Nodup → (keys (update d e)).Nodup := by
  induction e with
  | nil => intro d h; simpa [update] using h
  | cons kv e ih => intro d h; simpa [update] using ih (nodup_keys_set h kv.1 kv.2)

theorem update_cons (d : Dict K V) (kv : K × V) (e : Dict K V) :
    update d (kv :: e) = update (set d kv.1 kv.2) e := rfl

theorem get?_update {e : Dict K V} (he : (keys e).Nodup) : ∀ (d : Dict K V) (k : K),
    get? (update d e) k = match get? e k with | some v => some v | none => get? d k := by
  induction e with
  | nil => intro d k; rfl
  | cons kv e ih =>
    obtain ⟨a, b⟩ := kv
    simp only [keys, List.map_cons, List.nodup_cons] at he
    intro d k
    rw [update_cons, ih he.2, get?_cons, get?_set]
    by_cases h : a = k
    · subst h
      have : get? e a = none := get?_eq_none_iff.2 he.1
      simp [this]
    · simp [h]

theorem get?_map_pair {l : List K} (f : K → V) (k : K) :
    get? (l.map fun v => (v, f v)) k = if k ∈ l then some (f k) else none := by
  induction l with
  | nil => simp
  | cons a l ih =>
    simp only [List.map_cons, get?_cons, ih, List.mem_cons]
    by_cases h : a = k
    · subst h; simp
    · simp [h, Ne.symm h]

theorem keys_map_pair {l : List K} (f : K → V) : keys (l.map fun v => (v, f v)) = l := by
  simp [keys, Function.comp_def]

theorem get?_mem {d : Dict K V} {k : K} {v : V} (h : get? d k = some v) : (k, v) ∈ d := by
  induction d with
  | nil => simp at h
  | cons kv d ih =>
    obtain ⟨a, b⟩ := kv
    rw [get?_cons] at h
    split at h
    · rename_i h'; simp at h; subst h' h; simp
    · exact List.mem_cons_of_mem _ (ih h)

theorem get?_of_mem {d : Dict K V} (hd : (keys d).Nodup) {k : K} {v : V} (h : (k, v) ∈ d) : get? d k = some v := by
  induction d with
  | nil => simp at h
  | cons kv d ih =>
    obtain ⟨a, b⟩ := kv
    simp only [keys, List.map_cons, List.nodup_cons] at hd
    rw [get?_cons]
    rcases List.mem_cons.1 h with h | h
    · simp only [Prod.mk.injEq] at h; obtain ⟨rfl, rfl⟩ := h; simp
    · have : a ≠ k := by
        rintro rfl; exact hd.1 (List.mem_map.2 ⟨_, h, rfl⟩)
      rw [if_neg this]; exact ih hd.2 h

theorem vals_eq_map {d : Dict K V} (hd : (keys d).Nodup) (g : K → V) (hg : ∀ k ∈ keys d, get? d k = some (g k)) :
    vals d = (keys d).map g := by
  simp only [vals, keys, List.map_map]
  apply List.map_congr_left
  intro kv hkv
  have h1 := get?_of_mem hd (k := kv.1) (v := kv.2) hkv
  have h2 := hg kv.1 (List.mem_map.2 ⟨_, hkv, rfl⟩)
  rw [h1] at h2; simpa using h2

end Dict

theorem pyIdx_nat {α : Type _} {l : List α} {n : ℕ} {x : α} (h : l[n]? = some x) : pyIdx l (n : ℤ) = .ok x := by
  simp [pyIdx, h]

theorem pyIndex_ok {α : Type _} [DecidableEq α] {l : List α} {x : α} {n : ℕ} :
    pyIndex l x = .ok n ↔ l[n]? = some x ∧ ∀ m < n, l[m]? ≠ some x := by
  induction l generalizing n with
  | nil => simp [pyIndex]
  | cons y l ih =>
    simp only [pyIndex]
    by_cases h : y = x
    · subst h
      rw [if_pos rfl]
      constructor
      · intro h; simp at h; subst h; simp
      · rintro ⟨-, h2⟩
        cases n with
        | zero => rfl
        | succ n => exact absurd (by simp) (h2 0 (by omega))
    · rw [if_neg h]
      cases n with
      | zero =>
        simp only [List.getElem?_cons_zero, Option.some.injEq, h, false_and, iff_false]
        cases pyIndex l x <;> simp
      | succ n =>
        have := ih (n := n)
        simp only [List.getElem?_cons_succ]
        constructor
        · intro h'
          have h'' : pyIndex l x = .ok n := by
            revert h'; cases pyIndex l x <;> simp
          obtain ⟨h1, h2⟩ := this.1 h''
          refine ⟨h1, ?_⟩
          intro m hm
          cases m with
          | zero => simpa using h
          | succ m => simpa using h2 m (by omega)
        · rintro ⟨h1, h2⟩
          rw [this.2 ⟨h1, fun m hm => by simpa using h2 (m + 1) (by omega)⟩]

theorem pyIndex_of_mem {α : Type _} [DecidableEq α] {l : List α} {x : α} (h : x ∈ l) :
    ∃ n, pyIndex l x = .ok n ∧ n < l.length ∧ l[n]? = some x := by
  induction l with
  | nil => simp at h
  | cons y l ih =>
    simp only [pyIndex]
    by_cases hy : y = x
    · exact ⟨0, by simp [hy]⟩
    · rw [if_neg hy]
      obtain ⟨n, h1, h2, h3⟩ := ih (by simpa [Ne.symm hy] using h)
      exact ⟨n + 1, by simp [h1], by simpa using h2, by simpa using h3⟩

theorem pyRemove_of_mem {α : Type _} [DecidableEq α] {l : List α} {x : α} (h : x ∈ l) :
    pyRemove l x = .ok (l.erase x) := by simp [pyRemove, h]

theorem insertBy_perm {α : Type _} (key : α → ℕ) (x : α) (l : List α) : (insertBy key x l).Perm (x :: l) := by
  induction l with
  | nil => exact List.Perm.refl _
  | cons y l ih =>
    simp only [insertBy]; split
    · exact List.Perm.refl _
    · exact (ih.cons y).trans (List.Perm.swap x y l)

theorem sortBy_perm {α : Type _} (key : α → ℕ) (l : List α) : (sortBy key l).Perm l := by
  induction l with
  | nil => exact List.Perm.refl _
  | cons x l ih => exact (insertBy_perm key x _).trans (ih.cons x)

/-- `mapM`-free sequencing lemma: `bind` on `ok`. -/
@[simp] theorem Py.bind_ok {α β : Type _} (x : α) (f : α → Py β) : ((Except.ok x : Py α) >>= f) = f x := rfl

@[simp] theorem Py.bind_error {α β : Type _} (e : PyErr) (f : α → Py β) :
    ((Except.error e : Py α) >>= f) = .error e := rfl

@[simp] theorem Py.pure_eq {α : Type _} (x : α) : (pure x : Py α) = .ok x := rfl

end PyBN

namespace PyBN

/-- Used to evaluate concrete examples: the computation succeeds and its result satisfies `p`. -/
def Py.okAnd {α : Type _} (m : Py α) (p : α → Bool) : Bool := match m with | .ok x => p x | .error _ => false

theorem Py.of_okAnd {α : Type _} {m : Py α} {p : α → Bool} (h : m.okAnd p = true) : ∃ x, m = .ok x ∧ p x = true := by
  cases m with
  | error e => cases h
  | ok x => exact ⟨x, rfl, h⟩

end PyBN
