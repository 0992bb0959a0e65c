import Verif.Model.Bif
import Verif.Spec.Bif
import Verif.Proofs.Net
import Mathlib.Data.List.Infix

/-!
# Reading BIF files: words, keywords, rows
-/

set_option linter.unusedSectionVars false
namespace PyBN
namespace Bif

/-! ### Substrings -/

theorem hasSub_iff (w s : Str) : hasSub w s = true ↔ w <:+: s := by
  induction s with
  | nil => simp [hasSub]
  | cons c s ih => rw [hasSub, Bool.or_eq_true, ih, List.isPrefixOf_iff_prefix, List.infix_cons_iff]

theorem hasSub_false (w s : Str) : hasSub w s = false ↔ ¬ w <:+: s := by
  rw [← hasSub_iff]; simp

theorem infix_sep {w a b : Str} {c : Char} (hc : c ∉ w) (h : w <:+: a ++ c :: b) : w <:+: a ∨ w <:+: b := by
  obtain ⟨s, t, h⟩ := h
  rcases List.append_eq_append_iff.1 h with ⟨a', h1, h2⟩ | ⟨c', h1, h2⟩
  · left
    exact ⟨s, a', by rw [h1]⟩
  · rcases List.append_eq_append_iff.1 h1 with ⟨x, h3, h4⟩ | ⟨x, h3, h4⟩
    · -- a = s ++ x, w = x ++ c'
      cases c' with
      | nil => left; exact ⟨s, [], by rw [h3, h4]; simp⟩
      | cons d c' =>
        rw [List.cons_append, List.cons.injEq] at h2
        obtain ⟨rfl, -⟩ := h2
        exact (hc (by rw [h4]; simp)).elim
    · -- s = a ++ x, c' = x ++ w
      subst h4
      cases x with
      | nil =>
        cases w with
        | nil => left; exact List.nil_infix
        | cons d w =>
          rw [List.nil_append, List.cons_append, List.cons.injEq] at h2
          obtain ⟨rfl, -⟩ := h2
          exact (hc (by simp)).elim
      | cons d x =>
        right
        rw [List.cons_append, List.cons_append, List.cons.injEq] at h2
        exact ⟨x, t, h2.2.symm⟩

/-! ### Words -/

theorem wordsAux_sep {c : Char} (hc : isSpace c = true) (b : Str) : ∀ (a acc : Str), wordsAux (a ++ c :: b) acc = wordsAux a acc ++ words b
  | [], acc => by
      show wordsAux (c :: b) acc = (if acc = [] then [] else [acc.reverse]) ++ words b
      rw [show wordsAux (c :: b) acc = if isSpace c then (if acc = [] then wordsAux b [] else acc.reverse :: wordsAux b []) else wordsAux b (c :: acc) from rfl, if_pos hc]
      by_cases h : acc = []
      · rw [if_pos h, if_pos h]; rfl
      · rw [if_neg h, if_neg h]; rfl
  | d :: a, acc => by
      rw [List.cons_append, wordsAux, wordsAux]
      by_cases hd : isSpace d = true
      · rw [if_pos hd, if_pos hd]
        by_cases h : acc = []
        · rw [if_pos h, if_pos h, wordsAux_sep hc b a []]
        · rw [if_neg h, if_neg h, wordsAux_sep hc b a []]; rfl
      · rw [if_neg hd, if_neg hd, wordsAux_sep hc b a (d :: acc)]

theorem wordsAux_clean : ∀ (w acc : Str), (∀ c ∈ w, isSpace c = false) → (w ≠ [] ∨ acc ≠ []) → wordsAux w acc = [acc.reverse ++ w]
  | [], acc, _, h => by
      rw [wordsAux, if_neg (by simpa using h)]; simp
  | c :: w, acc, hw, _ => by
      rw [wordsAux, if_neg (by rw [hw c (by simp)]; simp), wordsAux_clean w (c :: acc) (fun x hx => hw x (by simp [hx])) (Or.inr (by simp))]
      simp

theorem infix_wordsAux {w : Str} (hne : w ≠ []) (hw : ∀ c ∈ w, isSpace c = false) : ∀ (s acc : Str), w <:+: acc.reverse ++ s →
    ∃ x ∈ wordsAux s acc, w <:+: x
  | [], acc, h => by
      rw [List.append_nil] at h
      have : acc ≠ [] := fun e => hne (by rw [e] at h; simpa using h)
      rw [wordsAux, if_neg this]
      exact ⟨acc.reverse, by simp, h⟩
  | c :: s, acc, h => by
      rw [wordsAux]
      by_cases hc : isSpace c = true
      · rw [if_pos hc]
        have hcw : c ∉ w := fun hm => by rw [hw c hm] at hc; cases hc
        rcases infix_sep hcw h with h | h
        · have : acc ≠ [] := fun e => hne (by rw [e] at h; simpa using h)
          rw [if_neg this]
          exact ⟨acc.reverse, by simp, h⟩
        · obtain ⟨x, hx, hwx⟩ := infix_wordsAux hne hw s [] (by simpa using h)
          refine ⟨x, ?_, hwx⟩
          split
          · exact hx
          · exact List.mem_cons_of_mem _ hx
      · rw [if_neg hc]
        exact infix_wordsAux hne hw s (c :: acc) (by simpa using h)

/-- A character that separates words once `cs` are blanked. -/
def sep (cs : List Char) (c : Char) : Bool := isSpace c || decide (c ∈ cs)

/-- The words of a line with `cs` blanked. -/
def W (cs : List Char) (s : Str) : List Str := words (blank cs s)

theorem blank_append (cs : List Char) (a b : Str) : blank cs (a ++ b) = blank cs a ++ blank cs b := by unfold blank; rw [List.map_append]

theorem W_sep {cs : List Char} {c : Char} (hc : sep cs c = true) (a b : Str) : W cs (a ++ c :: b) = W cs a ++ W cs b := by
  unfold W
  rw [blank_append]
  have : blank cs (c :: b) = (if c ∈ cs then ' ' else c) :: blank cs b := rfl
  rw [this]
  have hs : isSpace (if c ∈ cs then ' ' else c) = true := by
    unfold sep at hc
    split
    · rfl
    · rename_i h
      simpa [h] using hc
  exact wordsAux_sep hs _ _ []

theorem W_nil (cs : List Char) : W cs [] = [] := rfl

/-- The first character separates. -/
def starts (cs : List Char) (s : Str) : Bool := (s.head?.map (sep cs)).getD true

/-- The last character separates. -/
def ends (cs : List Char) (s : Str) : Bool := (s.getLast?.map (sep cs)).getD true

theorem W_append {cs : List Char} {a b : Str} (h : ends cs a = true ∨ starts cs b = true) : W cs (a ++ b) = W cs a ++ W cs b := by
  rcases h with h | h
  · rcases List.eq_nil_or_concat a with rfl | ⟨a', c, rfl⟩
    · rw [W_nil]; rfl
    · rw [List.concat_eq_append] at h ⊢
      have hc : sep cs c = true := by simpa [ends] using h
      rw [List.append_assoc, List.singleton_append, W_sep hc, W_sep hc, W_nil, List.append_nil]
  · cases b with
    | nil => rw [W_nil, List.append_nil, List.append_nil]
    | cons c b =>
      have hc : sep cs c = true := by simpa [starts] using h
      have : W cs (c :: b) = W cs b := by
        have := W_sep hc [] b
        rw [W_nil] at this; simpa using this
      rw [W_sep hc, this]

/-- The characters a clean word does not contain. -/
def forbidden : List Char := [' ', '\t', '\n', '\r', '\x0b', '\x0c', ',', ';', '(', ')', '{', '}']

theorem isSpace_clean {w : Str} (h : Clean w) : ∀ c ∈ w, isSpace c = false := by
  intro c hc
  have := h.2 c hc
  simp only [List.mem_cons, List.not_mem_nil, or_false, not_or] at this
  unfold isSpace
  simp only [Bool.or_eq_false_iff, beq_eq_false_iff_ne, ne_eq]
  tauto

theorem blank_clean {cs : List Char} {w : Str} (hcs : ∀ c ∈ cs, c ∈ forbidden) (h : Clean w) : blank cs w = w := by
  unfold blank
  conv_rhs => rw [← List.map_id w]
  refine List.map_congr_left fun c hc => ?_
  rw [if_neg fun hm => h.2 c hc (hcs c hm)]; rfl

theorem W_clean {cs : List Char} {w : Str} (hcs : ∀ c ∈ cs, c ∈ forbidden) (h : Clean w) : W cs w = [w] := by
  unfold W
  rw [blank_clean hcs h]
  unfold words
  rw [wordsAux_clean w [] (isSpace_clean h) (Or.inl h.1)]; rfl

theorem W_commaSep {cs : List Char} (hcs : ∀ c ∈ cs, c ∈ forbidden) (hcomma : ',' ∈ cs) : ∀ l : List Str, (∀ w ∈ l, Clean w) → W cs (commaSep l) = l
  | [], _ => rfl
  | [w], h => W_clean hcs (h w (by simp))
  | w :: x :: l, h => by
      have hstart : starts cs ", ".toList = true := by
        show (some (sep cs ',')).getD true = true
        simp [sep, hcomma]
      have hend : ends cs (w ++ ", ".toList) = true := by
        have : (w ++ ", ".toList).getLast? = some ' ' := by simp
        unfold ends; rw [this]; rfl
      rw [commaSep, W_append (Or.inl hend), W_append (Or.inr hstart), W_clean hcs (h w (by simp)),
        W_commaSep hcs hcomma (x :: l) fun y hy => h y (by simp [hy])]
      · have : W cs ", ".toList = [] := by
          unfold W blank words
          have : (", ".toList.map fun x => if x ∈ cs then ' ' else x) = [' ', ' '] := by
            simp [hcomma]
          rw [this]; rfl
        rw [this]; rfl
      · simp

theorem mem_commaSep {c : Char} : ∀ l : List Str, c ∈ commaSep l → c = ',' ∨ c = ' ' ∨ ∃ w ∈ l, c ∈ w
  | [], h => by cases h
  | [w], h => Or.inr (Or.inr ⟨w, by simp, h⟩)
  | w :: x :: l, h => by
      rw [commaSep] at h
      · rcases List.mem_append.1 h with h | h
        · rcases List.mem_append.1 h with h | h
          · exact Or.inr (Or.inr ⟨w, by simp, h⟩)
          · simp at h; tauto
        · rcases mem_commaSep (x :: l) h with h | h | ⟨y, hy, h⟩
          · exact Or.inl h
          · exact Or.inr (Or.inl h)
          · exact Or.inr (Or.inr ⟨y, by simp [hy], h⟩)
      · simp

theorem ends_append {cs : List Char} {a b : Str} (hb : b ≠ []) (h : ends cs b = true) : ends cs (a ++ b) = true := by
  unfold ends at h ⊢
  rw [List.getLast?_append]
  cases hl : b.getLast? with
  | none => rw [List.getLast?_eq_none_iff] at hl; exact (hb hl).elim
  | some x => rw [hl] at h; exact h

/-! ### The lines of a document -/

theorem comma_forb : ∀ c ∈ [','], c ∈ forbidden := by decide
theorem all_forb : ∀ c ∈ [',', ';', '(', ')'], c ∈ forbidden := by decide
theorem two_forb : ∀ c ∈ [',', ';'], c ∈ forbidden := by decide

theorem words_declLine {n : Str} (h : Clean n) : words ("variable ".toList ++ n ++ " {\n".toList) = ["variable".toList, n, "{".toList] := by
  have e : ∀ s, words s = W [] s := fun s => by unfold W blank; simp
  rw [e, W_append (Or.inr (by decide)), W_append (Or.inl (by decide)), W_clean (by simp) h]
  have e1 : W [] "variable ".toList = ["variable".toList] := by decide
  have e2 : W [] " {\n".toList = ["{".toList] := by decide
  rw [e1, e2]; rfl

theorem W_typeLine {cnt : Str} {vs : List Str} (hc : Clean cnt) (hv : ∀ x ∈ vs, Clean x) :
    innerSlice 6 1 (W [','] ("  type discrete [ ".toList ++ cnt ++ " ] { ".toList ++ commaSep vs ++ " };\n".toList)) = vs := by
  rw [W_append (Or.inr (by decide)), W_append (Or.inl (ends_append (by decide) (by decide))), W_append (Or.inr (by decide)),
    W_append (Or.inl (by decide)), W_clean comma_forb hc, W_commaSep comma_forb (by simp) vs hv]
  have e1 : W [','] "  type discrete [ ".toList = ["type".toList, "discrete".toList, "[".toList] := by decide
  have e2 : W [','] " ] { ".toList = ["]".toList, "{".toList] := by decide
  have e3 : W [','] " };\n".toList = ["};".toList] := by decide
  rw [e1, e2, e3]
  unfold innerSlice
  simp

/-- The words of the head of a probability block. -/
def headWords (v : Var) : List Str :=
  ["probability".toList, "(".toList, v.name] ++ (if v.parents = [] then [] else "|".toList :: v.parents) ++ [")".toList, "{".toList]

theorem W_headLine {v : Var} (hn : Clean v.name) (hp : ∀ p ∈ v.parents, Clean p) : W [','] (headLine v) = headWords v := by
  unfold headLine headWords
  have e1 : W [','] "probability ( ".toList = ["probability".toList, "(".toList] := by decide
  have e2 : W [','] " ) {\n".toList = [")".toList, "{".toList] := by decide
  have e3 : W [','] " | ".toList = ["|".toList] := by decide
  split
  · rw [W_append (Or.inr (by decide)), W_append (Or.inl (by decide)), W_clean comma_forb hn, e1, e2]; rfl
  · rw [W_append (Or.inr (by decide)), W_append (Or.inl (ends_append (by decide) (by decide))), W_append (Or.inr (by decide)),
      W_append (Or.inl (by decide)), W_clean comma_forb hn, e1, e2, e3, W_commaSep comma_forb (by simp) _ hp]
    simp

theorem head_child (v : Var) : pyIdx (headWords v) 2 = .ok v.name := by unfold headWords; split <;> rfl

theorem head_parents (v : Var) : innerSlice 4 2 (headWords v) = v.parents := by
  unfold headWords innerSlice
  split
  · rename_i h; rw [h]; rfl
  · simp

theorem kw_infix_head {w : Str} (hne : w ≠ []) (hw : ∀ c ∈ w, c ∉ forbidden) {v : Var} (hn : Clean v.name) (hp : ∀ p ∈ v.parents, Clean p)
    (h : w <:+: headLine v) : ∃ x ∈ headWords v, w <:+: x := by
  rw [← W_headLine hn hp]
  have hsp : ∀ c ∈ w, isSpace c = false := isSpace_clean ⟨hne, hw⟩
  refine infix_wordsAux hne hsp _ [] ?_
  obtain ⟨s, t, h⟩ := h
  refine ⟨blank [','] s, blank [','] t, ?_⟩
  rw [← h, blank_append, blank_append, blank_clean comma_forb ⟨hne, hw⟩]; rfl

theorem probability_in_head (v : Var) : hasSub "probability".toList (headLine v) = true := by
  rw [hasSub_iff]
  unfold headLine
  have e1 : "probability ( ".toList = "probability".toList ++ " ( ".toList := by decide
  split
  · rw [e1]; exact ⟨[], " ( ".toList ++ v.name ++ " ) {\n".toList, by simp⟩
  · rw [e1]; exact ⟨[], " ( ".toList ++ v.name ++ " | ".toList ++ commaSep v.parents ++ " ) {\n".toList, by simp⟩

theorem variable_in_head {v : Var} (hn : Clean v.name) (hp : ∀ p ∈ v.parents, Clean p) :
    hasSub "variable".toList (headLine v) = true ↔ Mentions "variable".toList v.name ∨ ∃ p ∈ v.parents, Mentions "variable".toList p := by
  rw [hasSub_iff]
  unfold Mentions
  constructor
  · intro h
    obtain ⟨x, hx, hw⟩ := kw_infix_head (by decide) (by decide) hn hp h
    unfold headWords at hx
    simp only [List.mem_append, List.mem_cons, List.not_mem_nil, or_false] at hx
    have no : ∀ s : Str, hasSub "variable".toList s = false → x = s → False := by
      intro s hs e
      rw [hasSub_false] at hs
      exact hs (e ▸ hw)
    rcases hx with (((h | h | rfl) | h) | h | h)
    · exact (no _ (by decide) h).elim
    · exact (no _ (by decide) h).elim
    · exact Or.inl hw
    · split at h
      · cases h
      · rcases List.mem_cons.1 h with h | h
        · exact (no _ (by decide) h).elim
        · exact Or.inr ⟨x, h, hw⟩
    · exact (no _ (by decide) h).elim
    · exact (no _ (by decide) h).elim
  · have hc : ∀ (l : List Str) (p : Str), p ∈ l → p <:+: commaSep l := by
      intro l
      induction l with
      | nil => intro p h; cases h
      | cons w l ih =>
        intro p hp
        cases l with
        | nil => rw [List.mem_singleton] at hp; subst hp; exact List.infix_rfl
        | cons y l =>
          rw [commaSep]
          · rcases List.mem_cons.1 hp with rfl | hp
            · exact ⟨[], ", ".toList ++ commaSep (y :: l), by simp⟩
            · exact (ih p hp).trans ⟨w ++ ", ".toList, [], by simp⟩
          · simp
    have hname : v.name <:+: headLine v := by
      unfold headLine
      split
      · exact ⟨"probability ( ".toList, " ) {\n".toList, rfl⟩
      · exact ⟨"probability ( ".toList, " | ".toList ++ commaSep v.parents ++ " ) {\n".toList, by simp⟩
    rintro (h | ⟨p, hpm, h⟩)
    · exact h.trans hname
    · refine h.trans ((hc _ p hpm).trans ?_)
      unfold headLine
      rw [if_neg (List.ne_nil_of_mem hpm)]
      exact ⟨"probability ( ".toList ++ v.name ++ " | ".toList, " ) {\n".toList, by simp⟩

theorem W_rowLine_prior {fmt : Fmt} {v : Var} {r : List Str × List ℚ} (hv : v.parents = []) (hn : ∀ q ∈ r.2, Clean (fmt.num q)) :
    (W [',', ';'] (rowLine fmt v r)).drop 1 = r.2.map fmt.num := by
  unfold rowLine
  rw [if_pos hv, W_append (Or.inr (by decide)), W_append (Or.inl (by decide)), W_commaSep two_forb (by simp) _ (by simpa using hn)]
  have e1 : W [',', ';'] "  table ".toList = ["table".toList] := by decide
  have e2 : W [',', ';'] ";\n".toList = [] := by decide
  rw [e1, e2]
  simp

theorem W_rowLine_cond {fmt : Fmt} {v : Var} {r : List Str × List ℚ} (hv : v.parents ≠ []) (hl : ∀ x ∈ r.1, Clean x)
    (hn : ∀ q ∈ r.2, Clean (fmt.num q)) : W [',', ';', '(', ')'] (rowLine fmt v r) = r.1 ++ r.2.map fmt.num := by
  unfold rowLine
  rw [if_neg hv, W_append (Or.inr (by decide)), W_append (Or.inl (ends_append (by decide) (by decide))), W_append (Or.inr (by decide)),
    W_append (Or.inl (by decide)), W_commaSep all_forb (by simp) (r.2.map fmt.num) (by simpa using hn), W_commaSep all_forb (by simp) r.1 hl]
  have e1 : W [',', ';', '(', ')'] "  (".toList = [] := by decide
  have e2 : W [',', ';', '(', ')'] ") ".toList = [] := by decide
  have e3 : W [',', ';', '(', ')'] ";\n".toList = [] := by decide
  rw [e1, e2, e3]
  simp

theorem brace_rowLine {fmt : Fmt} {v : Var} {r : List Str × List ℚ} (hv : v.parents ≠ []) (hl : ∀ x ∈ r.1, Clean x)
    (hn : ∀ q ∈ r.2, Clean (fmt.num q)) : hasSub "}".toList (rowLine fmt v r) = false := by
  rw [hasSub_false]
  intro h
  have hm : '}' ∈ rowLine fmt v r := h.subset (by decide)
  unfold rowLine at hm
  rw [if_neg hv] at hm
  simp only [List.mem_append] at hm
  have hcs : ∀ l : List Str, (∀ w ∈ l, Clean w) → '}' ∉ commaSep l := by
    intro l hl hm
    rcases mem_commaSep l hm with h | h | ⟨w, hw, h⟩
    · exact absurd h (by decide)
    · exact absurd h (by decide)
    · exact (hl w hw).2 _ h (by decide)
  rcases hm with (((h | h) | h) | h) | h
  · exact absurd h (by decide)
  · exact hcs _ hl h
  · exact absurd h (by decide)
  · exact hcs _ (by simpa using hn) h
  · exact absurd h (by decide)

/-! ### The loops -/

theorem rowsLoop_length {fl : Str → Option ℚ} {width : Py ℕ} : ∀ {lines : List Str} {r}, rowsLoop fl width lines = .ok r → r.2.length ≤ lines.length
  | [], r, h => by cases h
  | line :: rest, r, h => by
      rw [rowsLoop] at h
      split at h
      · cases h; simp
      · cases hw : width with
        | error e => rw [hw] at h; cases h
        | ok k =>
          rw [hw, Py.bind_ok] at h
          cases hm : pyMap (float fl) (lastK k (words (blank [',', ';', '(', ')'] line))) with
          | error e => rw [hm] at h; cases h
          | ok row =>
            rw [hm, Py.bind_ok] at h
            cases hr : rowsLoop fl (.ok k) rest with
            | error e => rw [hr] at h; cases h
            | ok q =>
              rw [hr, Py.bind_ok] at h
              cases h
              have := rowsLoop_length hr
              simp only [List.length_cons]; omega

/-- The loop with just enough fuel. -/
def run (fl : Str → Option ℚ) (lines : List Str) (st : St) : Py St := loop fl lines.length lines st

theorem loop_fuel (fl : Str → Option ℚ) : ∀ (n : ℕ) (lines : List Str) (st : St) (f : ℕ), lines.length ≤ n → lines.length ≤ f →
    loop fl f lines st = run fl lines st := by
  intro n
  induction n with
  | zero =>
    intro lines st f h0 hf
    have : lines = [] := List.length_eq_zero_iff.1 (by omega)
    subst this
    cases f <;> rfl
  | succ n ih =>
    intro lines st f h0 hf
    cases lines with
    | nil => cases f <;> rfl
    | cons line rest =>
      obtain ⟨f, rfl⟩ : ∃ g, f = g + 1 := ⟨f - 1, by simp at hf; omega⟩
      simp only [List.length_cons] at h0 hf
      have ht : rest.tail.length ≤ rest.length := by simp
      unfold run
      rw [List.length_cons, loop, loop]
      split
      · cases pyIdx (words line) 1 with
        | error e => rfl
        | ok name =>
          simp only [Py.bind_ok]
          rw [ih _ _ f (by omega) (by omega), ih _ _ rest.length (by omega) (by omega)]
      · split
        · cases pyIdx (words (blank [','] line)) 2 with
          | error e => rfl
          | ok child =>
            simp only [Py.bind_ok]
            split
            · cases st.cpt.get child with
              | error e => rfl
              | ok c =>
                simp only [Py.bind_ok]
                cases pyMap (float fl) ((words (blank [',', ';'] (readline rest))).drop 1) with
                | error e => rfl
                | ok row =>
                  simp only [Py.bind_ok]
                  rw [ih _ _ f (by omega) (by omega), ih _ _ rest.length (by omega) (by omega)]
            · cases st.parents.get child with
              | error e => rfl
              | ok p =>
                simp only [Py.bind_ok]
                cases hr : rowsLoop fl st.width rest with
                | error e => rfl
                | ok r =>
                  simp only [Py.bind_ok]
                  have := rowsLoop_length hr
                  cases st.cpt.get child with
                  | error e => rfl
                  | ok c =>
                    simp only [Py.bind_ok]
                    rw [ih _ _ f (by omega) (by omega), ih _ _ rest.length (by omega) (by omega)]
        · rw [ih _ _ f (by omega) (by omega), ih _ _ rest.length (by omega) (by omega)]

theorem run_nil (fl : Str → Option ℚ) (st : St) : run fl [] st = .ok st := rfl

theorem run_variable (fl : Str → Option ℚ) {line : Str} {rest : List Str} {st : St} (h : hasSub "variable".toList line = true) :
    run fl (line :: rest) st = (do
      let name ← pyIdx (words line) 1
      run fl rest.tail ⟨st.parents.set name [], st.cpt.set name [], st.vals.set name (innerSlice 6 1 (W [','] (readline rest))), some name⟩) := by
  conv_lhs => unfold run
  rw [List.length_cons, loop, if_pos h]
  cases pyIdx (words line) 1 with
  | error e => rfl
  | ok name =>
    simp only [Py.bind_ok]
    exact loop_fuel fl rest.length _ _ _ (by simp) (by simp)

theorem run_prob (fl : Str → Option ℚ) {line : Str} {rest : List Str} {st : St} (h : hasSub "variable".toList line = false)
    (h' : hasSub "probability".toList line = true) :
    run fl (line :: rest) st = (do
      let child ← pyIdx (W [','] line) 2
      if innerSlice 4 2 (W [','] line) = [] then do
        let c ← st.cpt.get child
        let row ← pyMap (float fl) ((W [',', ';'] (readline rest)).drop 1)
        run fl rest.tail { st with cpt := st.cpt.set child (c ++ [row]) }
      else do
        let p ← st.parents.get child
        let r ← rowsLoop fl st.width rest
        let c ← st.cpt.get child
        run fl r.2 { st with parents := st.parents.set child (p ++ innerSlice 4 2 (W [','] line)), cpt := st.cpt.set child (c ++ r.1) }) := by
  conv_lhs => unfold run
  rw [List.length_cons, loop, if_neg (by rw [h]; simp), if_pos h']
  show (do
      let child ← pyIdx (W [','] line) 2
      if innerSlice 4 2 (W [','] line) = [] then _ else _) = _
  cases pyIdx (W [','] line) 2 with
  | error e => rfl
  | ok child =>
    simp only [Py.bind_ok]
    split
    · cases st.cpt.get child with
      | error e => rfl
      | ok c =>
        simp only [Py.bind_ok]
        show (do let row ← pyMap (float fl) ((W [',', ';'] (readline rest)).drop 1); _) = _
        cases pyMap (float fl) ((W [',', ';'] (readline rest)).drop 1) with
        | error e => rfl
        | ok row =>
          simp only [Py.bind_ok]
          exact loop_fuel fl rest.length _ _ _ (by simp) (by simp)
    · cases st.parents.get child with
      | error e => rfl
      | ok p =>
        simp only [Py.bind_ok]
        cases hr : rowsLoop fl st.width rest with
        | error e => rfl
        | ok r =>
          simp only [Py.bind_ok]
          have := rowsLoop_length hr
          cases st.cpt.get child with
          | error e => rfl
          | ok c =>
            simp only [Py.bind_ok]
            exact loop_fuel fl rest.length _ _ _ (by omega) (by omega)

theorem run_skip (fl : Str → Option ℚ) {line : Str} {rest : List Str} {st : St} (h : hasSub "variable".toList line = false)
    (h' : hasSub "probability".toList line = false) : run fl (line :: rest) st = run fl rest st := by
  conv_lhs => unfold run
  rw [List.length_cons, loop, if_neg (by rw [h]; simp), if_neg (by rw [h']; simp)]
  exact loop_fuel fl rest.length _ _ _ le_rfl le_rfl

end Bif
end PyBN
