import Verif.Model.Constraint
import Verif.Spec.Constraint
import Verif.Proofs.Net2
import Verif.Proofs.Sample3

/-! Lemmas for constraint-based structure learning: dictionaries of lists, `resolve_markov_blanket`. -/

set_option linter.unusedSectionVars false

namespace PyBN

theorem mem_combinations {α : Type _} {s : List α} : ∀ {l : List α} {k : ℕ}, s ∈ combinations l k ↔ s.Sublist l ∧ s.length = k
  | _, 0 => by
      simp only [combinations, List.mem_singleton]
      constructor
      · rintro rfl; exact ⟨List.nil_sublist _, rfl⟩
      · exact fun h => List.length_eq_zero_iff.1 h.2
  | [], k + 1 => by
      simp only [combinations, List.not_mem_nil, List.sublist_nil, false_iff]
      rintro ⟨rfl, h⟩; simp at h
  | x :: l, k + 1 => by
      simp only [combinations, List.mem_append, List.mem_map, mem_combinations (l := l)]
      constructor
      · rintro (⟨t, ⟨h1, h2⟩, rfl⟩ | ⟨h1, h2⟩)
        · exact ⟨h1.cons_cons x, by simp [h2]⟩
        · exact ⟨h1.cons x, h2⟩
      · rintro ⟨h1, h2⟩
        cases h1 with
        | cons _ h => exact .inr ⟨h, h2⟩
        | cons_cons _ h => exact .inl ⟨_, ⟨h, by simpa using h2⟩, rfl⟩

theorem arc_iff_nb {e : Dict ℕ (List ℕ)} {x y : ℕ} : Arc e x y ↔ y ∈ nb e x := by
  unfold Arc nb
  cases h : Dict.get? e x with
  | none => simp
  | some l => simp

namespace Constraint

theorem get_nb {e : Dict ℕ (List ℕ)} {x : ℕ} (h : x ∈ e.keys) : e.get x = .ok (nb e x) := by
  obtain ⟨l, hl⟩ := Option.isSome_iff_exists.1 (Dict.mem_keys_iff.1 h)
  rw [Dict.get_of_get? hl]; unfold nb; rw [hl]; rfl

theorem mem_keys_of_nb {e : Dict ℕ (List ℕ)} {x y : ℕ} (h : y ∈ nb e x) : x ∈ e.keys := by
  unfold nb at h
  rw [Dict.mem_keys_iff]
  cases hE : Dict.get? e x with
  | none => rw [hE] at h; cases h
  | some => rfl

theorem nb_set (e : Dict ℕ (List ℕ)) (x : ℕ) (l : List ℕ) (a : ℕ) : nb (e.set x l) a = if a = x then l else nb e a := by
  unfold nb
  by_cases h : a = x
  · subst h; rw [Dict.get?_set_self, if_pos rfl]; rfl
  · rw [Dict.get?_set_ne _ _ (Ne.symm h), if_neg h]

theorem keys_set_mem {e : Dict ℕ (List ℕ)} {x : ℕ} (h : x ∈ e.keys) (l : List ℕ) : (e.set x l).keys = e.keys := by
  rw [Dict.keys_set, if_pos h]

theorem appendAt_ok {e : Dict ℕ (List ℕ)} {x : ℕ} (h : x ∈ e.keys) (y : ℕ) :
    appendAt e x y = .ok (e.set x (nb e x ++ [y])) := by
  unfold appendAt; rw [get_nb h]; rfl

theorem removeAt_ok {e : Dict ℕ (List ℕ)} {x y : ℕ} (h : y ∈ nb e x) :
    removeAt e x y = .ok (e.set x ((nb e x).erase y)) := by
  unfold removeAt; rw [get_nb (mem_keys_of_nb h)]
  simp only [Py.bind_ok, pyRemove, if_pos h]; rfl

theorem removeAt_error {e : Dict ℕ (List ℕ)} {x y : ℕ} (hx : x ∈ e.keys) (h : y ∉ nb e x) :
    removeAt e x y = .error .valueError := by
  unfold removeAt; rw [get_nb hx]
  simp only [Py.bind_ok, pyRemove, if_neg h]; rfl

theorem emptyGraph_keys (n : ℕ) : (emptyGraph n).keys = List.range n := by
  unfold emptyGraph
  rw [Dict.ofPairs_eq (by rw [Dict.keys_map_pair]; exact List.nodup_range), Dict.keys_map_pair]

theorem emptyGraph_nb (n x : ℕ) : nb (emptyGraph n) x = [] := by
  unfold emptyGraph nb
  rw [Dict.ofPairs_eq (by rw [Dict.keys_map_pair]; exact List.nodup_range), Dict.get?_map_pair]
  split_ifs <;> rfl

theorem link_ok {n : ℕ} {e : Dict ℕ (List ℕ)} (u : Undirected n e) {x y : ℕ} (hx : x < n) (hy : y < n) :
    ∃ e', link e x y = .ok e' ∧ Undirected n e' ∧ ∀ a b, b ∈ nb e' a ↔ b ∈ nb e a ∨ (a = x ∧ b = y) ∨ (a = y ∧ b = x) := by
  have hxk : x ∈ e.keys := u.keys.mem_iff.2 (List.mem_range.2 hx)
  have hyk : y ∈ e.keys := u.keys.mem_iff.2 (List.mem_range.2 hy)
  unfold link
  rw [get_nb hxk, get_nb hyk]
  simp only [Py.bind_ok]
  by_cases h : y ∈ nb e x
  · have h' : x ∈ nb e y := u.symm _ _ h
    rw [if_neg (fun hh => hh.1 h)]
    simp only [Py.bind_ok, Py.pure_eq, get_nb hyk]
    rw [if_neg (fun hh => hh h')]
    refine ⟨e, rfl, u, fun a b => ⟨.inl, ?_⟩⟩
    rintro (h1 | ⟨rfl, rfl⟩ | ⟨rfl, rfl⟩) <;> assumption
  · have h' : x ∉ nb e y := fun hh => h (u.symm _ _ hh)
    rw [if_pos ⟨h, h'⟩, appendAt_ok hxk]
    have hyk1 : y ∈ (e.set x (nb e x ++ [y])).keys := by rw [keys_set_mem hxk]; exact hyk
    simp only [Py.bind_ok, get_nb hyk1, nb_set]
    by_cases hxy : y = x
    · subst hxy
      rw [if_pos rfl, if_neg (by simp)]
      refine ⟨_, rfl, ?_, ?_⟩
      · have hm : ∀ a b, b ∈ nb (e.set y (nb e y ++ [y])) a ↔ b ∈ nb e a ∨ (a = y ∧ b = y) := by
          intro a b; rw [nb_set]
          by_cases ha : a = y
          · subst ha; simp
          · simp [ha]
        refine ⟨by rw [keys_set_mem hxk]; exact u.keys, ?_, ?_, ?_⟩
        · intro a; rw [nb_set]
          split_ifs
          · exact List.nodup_append.2 ⟨u.nodup y, by simp, by rintro b hb _ hc rfl; simp at hc; subst hc; exact h hb⟩
          · exact u.nodup a
        · intro a b; rw [hm, hm]; rintro (h1 | h1)
          · exact .inl (u.symm _ _ h1)
          · exact .inr h1.symm
        · intro a b; rw [hm]; rintro (h1 | h1)
          · exact u.lt _ _ h1
          · omega
      · intro a b; rw [nb_set]
        by_cases ha : a = y
        · subst ha; simp
        · simp [ha]
    · rw [if_neg hxy, if_pos h', appendAt_ok hyk1]
      refine ⟨_, rfl, ?_⟩
      have hm : ∀ a b, b ∈ nb ((e.set x (nb e x ++ [y])).set y (nb (e.set x (nb e x ++ [y])) y ++ [x])) a ↔
          b ∈ nb e a ∨ (a = x ∧ b = y) ∨ (a = y ∧ b = x) := by
        intro a b
        simp only [nb_set, if_neg hxy]
        by_cases ha : a = y
        · subst ha; simp [hxy]
        · by_cases ha' : a = x
          · subst ha'; simp [ha]
          · simp [ha, ha']
      refine ⟨⟨by rw [keys_set_mem hyk1, keys_set_mem hxk]; exact u.keys, ?_, ?_, ?_⟩, hm⟩
      · intro a
        simp only [nb_set, if_neg hxy]
        split_ifs
        · exact List.nodup_append.2 ⟨u.nodup y, by simp, by rintro b hb _ hc rfl; simp at hc; subst hc; exact h' hb⟩
        · exact List.nodup_append.2 ⟨u.nodup x, by simp, by rintro b hb _ hc rfl; simp at hc; subst hc; exact h hb⟩
        · exact u.nodup a
      · intro a b; rw [hm, hm]; rintro (h1 | h1 | h1)
        · exact .inl (u.symm _ _ h1)
        · exact .inr (.inr h1.symm)
        · exact .inr (.inl h1.symm)
      · intro a b; rw [hm]; rintro (h1 | h1 | h1)
        · exact u.lt _ _ h1
        · omega
        · omega

theorem candidates_ok {n : ℕ} {mb : Dict ℕ (List ℕ)} (hm : IsBlankets n mb) {x y : ℕ} (hx : x < n) (hy : y < n) :
    candidates mb x y = .ok (candidateSet mb x y) := by
  unfold candidates
  rw [get_nb (Dict.mem_keys_iff.2 (hm.total x hx)), get_nb (Dict.mem_keys_iff.2 (hm.total y hy))]
  rfl

theorem direct_iff {gt : List ℕ → Bool} {t : List ℕ} {x y : ℕ} :
    direct gt t x y = true ↔ ∀ s, s.Sublist t → s.length < t.length → gt (x :: y :: s) = false := by
  simp only [direct, List.all_eq_true, List.mem_range, mem_combinations, Bool.not_eq_true']
  constructor
  · intro h s hs hl; exact h _ hl s ⟨hs, rfl⟩
  · rintro h i hi s ⟨hs, rfl⟩; exact h s hs hi

theorem resolveRow_ok {gt : List ℕ → Bool} {n : ℕ} {mb : Dict ℕ (List ℕ)} (hm : IsBlankets n mb) {x : ℕ} (hx : x < n) :
    ∀ (ys : List ℕ) (e : Dict ℕ (List ℕ)), (∀ y ∈ ys, y < n) → Undirected n e →
    ∃ e', resolveRow gt mb x ys e = .ok e' ∧ Undirected n e' ∧ ∀ a b, b ∈ nb e' a ↔ b ∈ nb e a ∨
      ∃ y ∈ ys, direct gt (candidateSet mb x y) x y = true ∧ ((a = x ∧ b = y) ∨ (a = y ∧ b = x))
  | [], e, _, u => ⟨e, rfl, u, by simp⟩
  | y :: ys, e, hys, u => by
      simp only [resolveRow, candidates_ok hm hx (hys y (by simp)), Py.bind_ok]
      by_cases hd : direct gt (candidateSet mb x y) x y = true
      · rw [if_pos hd]
        obtain ⟨e1, q1, q2, q3⟩ := link_ok u hx (hys y (by simp))
        rw [q1]
        obtain ⟨e', r1, r2, r3⟩ := resolveRow_ok hm hx ys e1 (fun z hz => hys z (by simp [hz])) q2
        refine ⟨e', r1, r2, fun a b => ?_⟩
        rw [r3, q3]
        constructor
        · rintro ((h | h) | ⟨z, hz, h⟩)
          · exact .inl h
          · exact .inr ⟨y, by simp, hd, h⟩
          · exact .inr ⟨z, by simp [hz], h⟩
        · rintro (h | ⟨z, hz, h1, h2⟩)
          · exact .inl (.inl h)
          · rcases List.mem_cons.1 hz with rfl | hz
            · exact .inl (.inr h2)
            · exact .inr ⟨z, hz, h1, h2⟩
      · rw [if_neg hd]
        obtain ⟨e', r1, r2, r3⟩ := resolveRow_ok (gt := gt) hm hx ys e (fun z hz => hys z (by simp [hz])) u
        refine ⟨e', r1, r2, fun a b => ?_⟩
        rw [r3]
        constructor
        · rintro (h | ⟨z, hz, h⟩)
          · exact .inl h
          · exact .inr ⟨z, by simp [hz], h⟩
        · rintro (h | ⟨z, hz, h1, h2⟩)
          · exact .inl h
          · rcases List.mem_cons.1 hz with rfl | hz
            · exact absurd h1 hd
            · exact .inr ⟨z, hz, h1, h2⟩

theorem resolveLoop_ok {gt : List ℕ → Bool} {n : ℕ} {mb : Dict ℕ (List ℕ)} (hm : IsBlankets n mb) :
    ∀ (xs : List ℕ) (e : Dict ℕ (List ℕ)), (∀ x ∈ xs, x < n) → Undirected n e →
    ∃ e', resolveLoop gt mb xs e = .ok e' ∧ Undirected n e' ∧ ∀ a b, b ∈ nb e' a ↔ b ∈ nb e a ∨
      ∃ x ∈ xs, ∃ y ∈ nb mb x, direct gt (candidateSet mb x y) x y = true ∧ ((a = x ∧ b = y) ∨ (a = y ∧ b = x))
  | [], e, _, u => ⟨e, rfl, u, by simp⟩
  | x :: xs, e, hxs, u => by
      simp only [resolveLoop, get_nb (Dict.mem_keys_iff.2 (hm.total x (hxs x (by simp)))), Py.bind_ok]
      obtain ⟨e1, q1, q2, q3⟩ := resolveRow_ok (gt := gt) hm (hxs x (by simp)) (nb mb x) e (fun y hy => hm.lt x y hy) u
      obtain ⟨e', r1, r2, r3⟩ := resolveLoop_ok (gt := gt) hm xs e1 (fun z hz => hxs z (by simp [hz])) q2
      refine ⟨e', by rw [q1]; exact r1, r2, fun a b => ?_⟩
      rw [r3, q3]
      constructor
      · rintro ((h | ⟨y, h⟩) | ⟨z, hz, h⟩)
        · exact .inl h
        · exact .inr ⟨x, by simp, y, h⟩
        · exact .inr ⟨z, by simp [hz], h⟩
      · rintro (h | ⟨z, hz, h⟩)
        · exact .inl (.inl h)
        · rcases List.mem_cons.1 hz with rfl | hz
          · exact .inl (.inr h)
          · exact .inr ⟨z, hz, h⟩

theorem emptyGraph_undirected (n : ℕ) : Undirected n (emptyGraph n) where
  keys := by rw [emptyGraph_keys]
  nodup := fun x => by rw [emptyGraph_nb]; simp
  symm := fun x y h => by rw [emptyGraph_nb] at h; cases h
  lt := fun x y h => by rw [emptyGraph_nb] at h; cases h

/-! ## `gs` -/

theorem growPass_spec (lt : List ℕ → Bool) (x : ℕ) : ∀ (ys s : List ℕ) (f : Bool), s.Nodup → x ∉ s →
    (growPass lt x ys s f).1.Nodup ∧ x ∉ (growPass lt x ys s f).1 ∧ s <+: (growPass lt x ys s f).1 ∧
    (∀ y ∈ (growPass lt x ys s f).1, y ∈ s ∨ y ∈ ys) ∧
    ((growPass lt x ys s f).2 = false → f = false ∧ (growPass lt x ys s f).1 = s ∧
      ∀ y ∈ ys, x ≠ y → y ∉ s → lt (x :: y :: s) = false) ∧
    ((growPass lt x ys s f).2 = true → f = true ∨ s.length < (growPass lt x ys s f).1.length)
  | [], s, f, hn, hx => by
      refine ⟨hn, hx, List.prefix_rfl, fun y hy => .inl hy, fun h => ⟨h, rfl, by simp⟩, fun h => .inl h⟩
  | y :: ys, s, f, hn, hx => by
      by_cases hc : x ≠ y ∧ y ∉ s ∧ lt (x :: y :: s) = true
      · rw [growPass, if_pos hc]
        have hn' : (s ++ [y]).Nodup :=
          List.nodup_append.2 ⟨hn, by simp, by rintro b hb _ hc' rfl; simp at hc'; subst hc'; exact hc.2.1 hb⟩
        have hx' : x ∉ s ++ [y] := by simp [hx, hc.1]
        obtain ⟨h1, h2, h3, h4, h5, h6⟩ := growPass_spec lt x ys (s ++ [y]) true hn' hx'
        refine ⟨h1, h2, (List.prefix_append _ _).trans h3, fun z hz => ?_, fun hf => absurd (h5 hf).1 (by simp), fun _ => .inr ?_⟩
        · rcases h4 z hz with h | h
          · rcases List.mem_append.1 h with h | h
            · exact .inl h
            · simp at h; exact .inr (by simp [h])
          · exact .inr (by simp [h])
        · have := h3.length_le
          simp at this; omega
      · rw [growPass, if_neg hc]
        obtain ⟨h1, h2, h3, h4, h5, h6⟩ := growPass_spec lt x ys s f hn hx
        refine ⟨h1, h2, h3, fun z hz => (h4 z hz).imp_right (by intro h; simp [h]), fun hf => ?_, h6⟩
        obtain ⟨p1, p2, p3⟩ := h5 hf
        refine ⟨p1, p2, fun z hz hxz hzs => ?_⟩
        rcases List.mem_cons.1 hz with rfl | hz
        · by_contra hb
          exact hc ⟨hxz, hzs, by simpa using hb⟩
        · exact p3 z hz hxz hzs

theorem nodup_lt_length {s : List ℕ} {n : ℕ} (hn : s.Nodup) (h : ∀ y ∈ s, y < n) : s.length ≤ n := by
  have := (List.subperm_of_subset hn (l₂ := List.range n) fun y hy => List.mem_range.2 (h y hy)).length_le
  simpa using this

/-- What the growing loop returns. -/
structure Grew (lt : List ℕ → Bool) (n x : ℕ) (s : List ℕ) : Prop where
  nodup : s.Nodup
  self : x ∉ s
  bound : ∀ y ∈ s, y < n
  stop : ∀ y < n, x ≠ y → y ∉ s → lt (x :: y :: s) = false

theorem growLoop_ok (lt : List ℕ → Bool) (n x : ℕ) : ∀ (fuel : ℕ) (s : List ℕ), s.Nodup → x ∉ s → (∀ y ∈ s, y < n) →
    n < fuel + s.length → ∃ s', growLoop lt n x fuel s = .ok s' ∧ Grew lt n x s'
  | 0, s, hn, _, hl, hf => by
      have := nodup_lt_length hn hl
      omega
  | fuel + 1, s, hn, hx, hl, hf => by
      obtain ⟨h1, h2, h3, h4, h5, h6⟩ := growPass_spec lt x (List.range n) s false hn hx
      have hl' : ∀ y ∈ (growPass lt x (List.range n) s false).1, y < n := fun y hy => by
        rcases h4 y hy with h | h
        · exact hl y h
        · exact List.mem_range.1 h
      rw [growLoop]
      by_cases hb : (growPass lt x (List.range n) s false).2 = true
      · simp only [hb, if_true]
        refine growLoop_ok lt n x fuel _ h1 h2 hl' ?_
        rcases h6 hb with h | h
        · cases h
        · omega
      · simp only [hb, if_false, Bool.false_eq_true]
        obtain ⟨_, p2, p3⟩ := h5 (by simpa using hb)
        refine ⟨_, rfl, h1, h2, hl', ?_⟩
        rw [p2]
        exact fun y hy hxy hys => p3 y (List.mem_range.2 hy) hxy hys

theorem shrinkPass_spec (lt : List ℕ → Bool) (x : ℕ) (s : List ℕ) : ∀ ys : List ℕ,
    ((shrinkPass lt x s ys).2 = true ↔ ∃ y ∈ ys, lt (x :: y :: s.erase y) = false) ∧
    ((∀ y ∈ ys, lt (x :: y :: s.erase y) = true) → (shrinkPass lt x s ys).1 = ys)
  | [] => by simp [shrinkPass]
  | y :: ys => by
      obtain ⟨h1, h2⟩ := shrinkPass_spec lt x s ys
      rw [shrinkPass]
      by_cases hb : lt (x :: y :: s.erase y) = true
      · simp only [hb, if_true]
        refine ⟨by simp [h1, hb], fun h => by rw [h2 fun z hz => h z (by simp [hz])]⟩
      · simp only [hb, if_false, Bool.false_eq_true]
        refine ⟨by simp only [List.mem_cons, true_iff]; exact ⟨y, .inl rfl, by simpa using hb⟩, fun h => absurd (h y (by simp)) hb⟩

theorem shrinkLoop_diverges {lt : List ℕ → Bool} {x : ℕ} {s : List ℕ} (h : ∃ y ∈ s, lt (x :: y :: s.erase y) = false) :
    ∀ fuel, shrinkLoop lt x s fuel = .error .diverges
  | 0 => rfl
  | fuel + 1 => by
      rw [shrinkLoop]
      simp only [((shrinkPass_spec lt x s s).1).2 h, if_true]
      exact shrinkLoop_diverges h fuel

theorem shrinkLoop_ok {lt : List ℕ → Bool} {x : ℕ} {s : List ℕ} (h : ∀ y ∈ s, lt (x :: y :: s.erase y) = true) (fuel : ℕ) :
    shrinkLoop lt x s (fuel + 1) = .ok s := by
  rw [shrinkLoop]
  have : (shrinkPass lt x s s).2 = false := by
    by_contra hb
    obtain ⟨y, hy, hyf⟩ := ((shrinkPass_spec lt x s s).1).1 (by simpa using hb)
    rw [h y hy] at hyf; cases hyf
  simp only [this, if_false, Bool.false_eq_true, (shrinkPass_spec lt x s s).2 h]

/-- More fuel does not change the growing loop once it has ended. -/
theorem growLoop_mono (lt : List ℕ → Bool) (n x : ℕ) : ∀ (fuel fuel' : ℕ) (s s' : List ℕ), fuel ≤ fuel' →
    growLoop lt n x fuel s = .ok s' → growLoop lt n x fuel' s = .ok s'
  | 0, _, _, _, _, h => by cases h
  | fuel + 1, 0, _, _, hle, _ => by omega
  | fuel + 1, fuel' + 1, s, s', hle, h => by
      rw [growLoop] at h ⊢
      by_cases hb : (growPass lt x (List.range n) s false).2 = true
      · simp only [hb, if_true] at h ⊢
        exact growLoop_mono lt n x fuel fuel' _ _ (by omega) h
      · simp only [hb, if_false, Bool.false_eq_true] at h ⊢
        exact h

end Constraint
end PyBN
