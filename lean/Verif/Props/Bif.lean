import Verif.Proofs.Bif3
import Verif.Proofs.Distance
import Verif.Props.Structure

/-!
# Reading `.bif` and `.mat` files (C102–C108)
-/

set_option linter.unusedSectionVars false
namespace PyBN
namespace Bif

/-- `float` of a written number is that number. -/
def Reads (fl : List Char → Option ℚ) (fmt : Fmt) (doc : List Var) : Prop := ∀ v ∈ doc, ∀ r ∈ v.rows, ∀ q ∈ r.2, fl (fmt.num q) = some q

instance (w : List Char) : Decidable (Clean w) := by unfold Clean; infer_instance
instance (a b : List Char) : Decidable (Mentions a b) := by unfold Mentions; infer_instance

/-! ## Examples -/

/-- Numbers of the examples. -/
def fmtEx : Fmt := ⟨fun q => if q = 1/2 then "0.5".toList else if q = 1/4 then "0.25".toList else if q = 3/4 then "0.75".toList else "0".toList,
  fun n => if n = 2 then "2".toList else "3".toList⟩

/-- `float` on the words of the examples. -/
def flEx (w : List Char) : Option ℚ :=
  if w = "0.5".toList then some (1/2) else if w = "0.25".toList then some (1/4) else if w = "0.75".toList then some (3/4) else if w = "0".toList then some 0
  else none

/-- A cause with two values and an effect with two values. -/
def docEx : List Var :=
  [⟨"Rain".toList, ["yes".toList, "no".toList], [], [([], [1/4, 3/4])]⟩,
   ⟨"Wet".toList, ["yes".toList, "no".toList], ["Rain".toList], [(["yes".toList], [3/4, 1/4]), (["no".toList], [1/2, 1/2])]⟩]

/-- An effect with three values, declared before a variable with two. -/
def docMixed : List Var :=
  [⟨"Grass".toList, ["dry".toList, "damp".toList, "wet".toList], ["Rain".toList],
     [(["yes".toList], [1/4, 1/4, 1/2]), (["no".toList], [1/2, 1/4, 1/4])]⟩,
   ⟨"Rain".toList, ["yes".toList, "no".toList], [], [([], [1/4, 3/4])]⟩]

/-- The three-valued variable declared last. -/
def docShort : List Var :=
  [⟨"Wet".toList, ["yes".toList, "no".toList], ["Rain".toList],
     [(["light".toList], [3/4, 1/4]), (["hard".toList], [3/4, 1/4]), (["none".toList], [1/2, 1/2])]⟩,
   ⟨"Rain".toList, ["light".toList, "hard".toList, "none".toList], [], [([], [1/4, 1/4, 1/2])]⟩]

/-- A variable called `variables`. -/
def docKeyword : List Var :=
  [⟨"Rain".toList, ["yes".toList, "no".toList], [], [([], [1/4, 3/4])]⟩,
   ⟨"variables".toList, ["yes".toList, "no".toList], [], [([], [1/2, 1/2])]⟩]

theorem docEx_ok : DocOk fmtEx docEx ∧ Plain docEx ∧ Reads flEx fmtEx docEx := by
  refine ⟨⟨by decide, by decide, by decide, by decide, ?_, by decide, by decide +kernel, by decide⟩, by unfold Plain; decide, by unfold Reads; decide +kernel⟩
  intro v hv hp
  simp only [docEx, List.mem_cons, List.not_mem_nil, or_false] at hv
  rcases hv with rfl | rfl
  · exact ⟨_, rfl⟩
  · cases hp

theorem docMixed_ok : DocOk fmtEx docMixed ∧ Plain docMixed ∧ Reads flEx fmtEx docMixed := by
  refine ⟨⟨by decide, by decide, by decide, by decide, ?_, by decide, by decide +kernel, by decide⟩, by unfold Plain; decide, by unfold Reads; decide +kernel⟩
  intro v hv hp
  simp only [docMixed, List.mem_cons, List.not_mem_nil, or_false] at hv
  rcases hv with rfl | rfl
  · cases hp
  · exact ⟨_, rfl⟩

theorem docShort_ok : DocOk fmtEx docShort ∧ Plain docShort ∧ Reads flEx fmtEx docShort := by
  refine ⟨⟨by decide, by decide, by decide, by decide, ?_, by decide, by decide +kernel, by decide⟩, by unfold Plain; decide, by unfold Reads; decide +kernel⟩
  intro v hv hp
  simp only [docShort, List.mem_cons, List.not_mem_nil, or_false] at hv
  rcases hv with rfl | rfl
  · cases hp
  · exact ⟨_, rfl⟩

theorem docKeyword_ok : DocOk fmtEx docKeyword ∧ Reads flEx fmtEx docKeyword := by
  refine ⟨⟨by decide, by decide, by decide, by decide, ?_, by decide, by decide +kernel, by decide⟩, by unfold Reads; decide +kernel⟩
  intro v hv hp
  simp only [docKeyword, List.mem_cons, List.not_mem_nil, or_false] at hv
  rcases hv with rfl | rfl
  · exact ⟨_, rfl⟩
  · exact ⟨_, rfl⟩

/-! ## C103: rows are cut to the number of values of the last declared variable -/

/-- C103: if every conditional row has at least as many numbers as the **last declared** variable has values (`K > 0`), `read_bif` returns a
network in which every conditional row is cut to its last `K` numbers; everything else is as in the file. -/
theorem C103_rows_cut (h : HashOrder (List Char)) (fl : List Char → Option ℚ) (fmt : Fmt) (doc : List Var) (hne : doc ≠ []) (ok : DocOk fmt doc)
    (hpl : Plain doc) (hrd : Reads fl fmt doc) (hK : lastCard doc ≠ 0)
    (hlen : ∀ v ∈ doc, v.parents ≠ [] → ∀ r ∈ v.rows, lastCard doc ≤ r.2.length) :
    ∃ bn, readBif h fl (render fmt doc) = .ok bn ∧ bn.F.keys.Perm (doc.map Var.name) ∧ bn.E.keys.Perm (doc.map Var.name) ∧
      (∀ v ∈ doc, bn.F.get? v.name = some ⟨v.parents, v.values,
        (v.rows.map fun r => if v.parents = [] then r.2 else r.2.drop (r.2.length - lastCard doc)).flatten⟩) ∧
      (∀ u w, Arc bn.E u w ↔ ∃ v ∈ doc, v.name = w ∧ u ∈ v.parents) ∧ topsort h bn.E none = .ok bn.V ∧
      (NoCycle bn.E → bn.V.Perm (doc.map Var.name)) := by
  obtain ⟨bn, b1, b2, b3, b4, b5, b6, b7⟩ := read_render h fl hne ok hpl
    (fun v => v.rows.map fun r => if v.parents = [] then r.2 else lastK (lastCard doc) r.2) (by
      intro v hv
      refine pyMap_ok fun r hr => ?_
      exact rowOf_ok (fun hp => ⟨hK, hlen v hv hp r hr⟩) (hrd v hv r hr))
  refine ⟨bn, b1, b3, b2, ?_, b5, b6, b7⟩
  intro v hv
  rw [b4 v hv]
  have : ∀ r : List (List Char) × List ℚ, lastK (lastCard doc) r.2 = r.2.drop (r.2.length - lastCard doc) := by
    intro r; unfold lastK; rw [if_neg hK]
  simp only [this]

/-- The hypotheses of C103 are met by a network whose three-valued variable loses a third of its table. -/
theorem C103_example (h : HashOrder (List Char)) : ∃ bn, readBif h flEx (render fmtEx docMixed) = .ok bn ∧
    bn.F.get? "Grass".toList = some ⟨["Rain".toList], ["dry".toList, "damp".toList, "wet".toList], [1/4, 1/2, 1/4, 1/4]⟩ := by
  obtain ⟨bn, b1, -, -, b4, -⟩ := C103_rows_cut h flEx fmtEx docMixed (by decide) docMixed_ok.1 docMixed_ok.2.1 docMixed_ok.2.2 (by decide) (by decide)
  refine ⟨bn, b1, ?_⟩
  have := b4 _ (List.mem_cons_self)
  rw [show "Grass".toList = (Var.mk "Grass".toList ["dry".toList, "damp".toList, "wet".toList] ["Rain".toList]
     [(["yes".toList], [1/4, 1/4, 1/2]), (["no".toList], [1/2, 1/4, 1/4])]).name from rfl, this]
  decide +kernel

theorem rowOf_total (fl : Str → Option ℚ) (fmt : Fmt) (K : ℕ) (v : Var) (r : List Str × List ℚ) :
    rowOf fl fmt K v r = .error .valueError ∨ ∃ y, rowOf fl fmt K v r = .ok y := by
  unfold rowOf
  generalize (if v.parents = [] then r.2.map fmt.num else lastK K (r.1 ++ r.2.map fmt.num)) = l
  by_cases h : ∃ w ∈ l, fl w = none
  · exact Or.inl (pyMap_float_err h)
  · right
    push Not at h
    refine ⟨l.map fun w => (fl w).getD 0, pyMap_ok fun w hw => ?_⟩
    unfold float
    cases hf : fl w with
    | none => exact (h w hw hf).elim
    | some q => rfl

theorem tableOf_total (fl : Str → Option ℚ) (fmt : Fmt) (K : ℕ) (v : Var) :
    tableOf fl fmt K v = .error .valueError ∨ ∃ y, tableOf fl fmt K v = .ok y := by
  unfold tableOf
  by_cases h : ∃ r ∈ v.rows, rowOf fl fmt K v r = .error .valueError
  · left
    rw [BayesNet.pyMap_error (fun r _ => rowOf_total fl fmt K v r) h]; rfl
  · right
    push Not at h
    have : ∀ r ∈ v.rows, ∃ y, rowOf fl fmt K v r = .ok y := fun r hr => (rowOf_total fl fmt K v r).resolve_left (h r hr)
    classical
    rw [pyMap_ok (g := fun r => if hr : ∃ y, rowOf fl fmt K v r = .ok y then hr.choose else []) (fun r hr => by
      rw [dif_pos (this r hr)]; exact (this r hr).choose_spec)]
    exact ⟨_, rfl⟩

/-- C103: if some conditional row is shorter than the last declared variable's number of values, and its last label is not a number, `read_bif`
raises `ValueError` on the whole file. -/
theorem C103_value_error (h : HashOrder (List Char)) (fl : List Char → Option ℚ) (fmt : Fmt) (doc : List Var) (ok : DocOk fmt doc)
    (hpl : Plain doc) {v : Var} (hv : v ∈ doc) (hp : v.parents ≠ []) {r : List (List Char) × List ℚ} (hr : r ∈ v.rows)
    (hlen : r.2.length < lastCard doc) (hlab : ∀ x ∈ r.1, fl x = none) :
    readBif h fl (render fmt doc) = .error .valueError := by
  rw [readBif_run, run_render fl (List.ne_nil_of_mem hv) ok hpl]
  rw [BayesNet.pyMap_error (fun u _ => tableOf_total fl fmt _ u) ⟨v, hv, ?_⟩]
  · rfl
  · unfold tableOf
    rw [BayesNet.pyMap_error (e := .valueError) (fun u _ => rowOf_total fl fmt _ v u) ⟨r, hr, ?_⟩]
    · rfl
    · have hne := (ok.label v hv hp r hr).1
      obtain ⟨l, x, hx⟩ := (List.eq_nil_or_concat r.1).resolve_left hne
      rw [List.concat_eq_append] at hx
      exact rowOf_err hp (Or.inr hlen) ⟨l, x, hx, hlab x (by rw [hx]; simp)⟩

/-- The hypotheses are met. -/
theorem C103_value_error_example (h : HashOrder (List Char)) : readBif h flEx (render fmtEx docShort) = .error .valueError :=
  C103_value_error h flEx fmtEx docShort docShort_ok.1 docShort_ok.2.1 (List.mem_cons_self) (by decide) (List.mem_cons_self) (by decide) (by decide)

/-! ## C102: reading back the network of the file -/

/-- C102, for files in which every conditional row has as many numbers as the last declared variable has values: `read_bif` returns exactly
the network of the file (its variables, values, parents, tables and arcs).  Missing: files with variables of different cardinalities (false,
`C102_false` and C103) and names containing `variable` (C104). -/
theorem C102_read_bif_partial (h : HashOrder (List Char)) (fl : List Char → Option ℚ) (fmt : Fmt) (doc : List Var) (ok : DocOk fmt doc)
    (hpl : ∀ v ∈ doc, ¬ Mentions "variable".toList v.name) (hrd : Reads fl fmt doc) (hK : lastCard doc ≠ 0)
    (hlen : ∀ v ∈ doc, v.parents ≠ [] → ∀ r ∈ v.rows, r.2.length = lastCard doc) :
    ∃ bn, readBif h fl (render fmt doc) = .ok bn ∧ bn.F.keys.Perm (doc.map Var.name) ∧ bn.E.keys.Perm (doc.map Var.name) ∧
      (∀ v ∈ doc, bn.F.get? v.name = some ⟨v.parents, v.values, (v.rows.map Prod.snd).flatten⟩) ∧
      (∀ u w, Arc bn.E u w ↔ ∃ v ∈ doc, v.name = w ∧ u ∈ v.parents) ∧ topsort h bn.E none = .ok bn.V ∧
      (NoCycle bn.E → bn.V.Perm (doc.map Var.name)) := by
  have hne : doc ≠ [] := fun e => hK (by rw [e]; rfl)
  obtain ⟨bn, b1, b2, b3, b4, b5, b6, b7⟩ := C103_rows_cut h fl fmt doc hne ok hpl hrd hK (fun v hv hp r hr => (hlen v hv hp r hr).ge)
  refine ⟨bn, b1, b2, b3, ?_, b5, b6, b7⟩
  intro v hv
  rw [b4 v hv]
  have : (v.rows.map fun r => if v.parents = [] then r.2 else r.2.drop (r.2.length - lastCard doc)) = v.rows.map Prod.snd := by
    apply List.map_congr_left
    intro r hr
    by_cases hp : v.parents = []
    · rw [if_pos hp]
    · rw [if_neg hp, hlen v hv hp r hr, Nat.sub_self, List.drop_zero]
  rw [this]

/-- The hypotheses of C102 are met. -/
theorem C102_example (h : HashOrder (List Char)) : ∃ bn, readBif h flEx (render fmtEx docEx) = .ok bn ∧
    bn.F.get? "Wet".toList = some ⟨["Rain".toList], ["yes".toList, "no".toList], [3/4, 1/4, 1/2, 1/2]⟩ ∧ Arc bn.E "Rain".toList "Wet".toList := by
  obtain ⟨bn, b1, -, -, b4, b5, -⟩ := C102_read_bif_partial h flEx fmtEx docEx docEx_ok.1 docEx_ok.2.1 docEx_ok.2.2 (by decide) (by decide)
  have hm : (Var.mk "Wet".toList ["yes".toList, "no".toList] ["Rain".toList] [(["yes".toList], [3/4, 1/4]), (["no".toList], [1/2, 1/2])]) ∈ docEx := by
    unfold docEx; simp
  refine ⟨bn, b1, ?_, (b5 _ _).2 ⟨_, hm, rfl, by simp⟩⟩
  rw [show "Wet".toList = (Var.mk "Wet".toList ["yes".toList, "no".toList] ["Rain".toList]
    [(["yes".toList], [3/4, 1/4]), (["no".toList], [1/2, 1/2])]).name from rfl, b4 _ hm]
  rfl

/-- C102 is false of the code: on a file with a three-valued child and a two-valued variable declared last the table read has four
entries instead of six. -/
theorem C102_false : ∃ doc : List Var, DocOk fmtEx doc ∧ Plain doc ∧ Reads flEx fmtEx doc ∧
    (∀ v ∈ doc, ∀ r ∈ v.rows, r.2.length = v.values.length) ∧
    ∀ h, ∃ bn, readBif h flEx (render fmtEx doc) = .ok bn ∧ ∃ v ∈ doc, ∃ d, bn.F.get? v.name = some d ∧ d.cpt ≠ (v.rows.map Prod.snd).flatten := by
  refine ⟨docMixed, docMixed_ok.1, docMixed_ok.2.1, docMixed_ok.2.2, by decide, fun h => ?_⟩
  obtain ⟨bn, h1, h2⟩ := C103_example h
  exact ⟨bn, h1, _, List.mem_cons_self, _, h2, by decide +kernel⟩

/-! ## C108: the labels of the rows are ignored -/

/-- C108: two files that differ only in the labels of their conditional rows are read as the same network: the order of the rows in the file
decides, not their labels. -/
theorem C108_labels_ignored (h : HashOrder (List Char)) (fl : List Char → Option ℚ) (fmt : Fmt) (doc doc' : List Var) (ok : DocOk fmt doc)
    (ok' : DocOk fmt doc') (hpl : ∀ v ∈ doc, ¬ Mentions "variable".toList v.name) (hrd : Reads fl fmt doc) (hK : lastCard doc ≠ 0)
    (hlen : ∀ v ∈ doc, v.parents ≠ [] → ∀ r ∈ v.rows, lastCard doc ≤ r.2.length)
    (hsame : doc'.map (fun v => (v.name, v.values, v.parents, v.rows.map Prod.snd)) =
      doc.map (fun v => (v.name, v.values, v.parents, v.rows.map Prod.snd))) :
    readBif h fl (render fmt doc') = readBif h fl (render fmt doc) := by
  have hne : doc ≠ [] := fun e => hK (by rw [e]; rfl)
  have hne' : doc' ≠ [] := by
    intro e; rw [e] at hsame; exact hne (by simpa using hsame.symm)
  have hcard : lastCard doc' = lastCard doc := by
    have e : ∀ d : List Var, lastCard d = ((d.map (fun v => (v.name, v.values, v.parents, v.rows.map Prod.snd))).getLast?.map fun x => x.2.1.length).getD 0 := by
      intro d; unfold lastCard; rw [List.getLast?_map, Option.map_map]; rfl
    rw [e, e, hsame]
  have htr : ∀ v' ∈ doc', ∃ v ∈ doc, v.name = v'.name ∧ v.parents = v'.parents ∧ v.rows.map Prod.snd = v'.rows.map Prod.snd := by
    intro v' hv'
    have : (v'.name, v'.values, v'.parents, v'.rows.map Prod.snd) ∈ doc'.map (fun v => (v.name, v.values, v.parents, v.rows.map Prod.snd)) :=
      List.mem_map.2 ⟨v', hv', rfl⟩
    rw [hsame] at this
    obtain ⟨v, hv, e⟩ := List.mem_map.1 this
    simp only [Prod.mk.injEq] at e
    exact ⟨v, hv, e.1, e.2.2.1, e.2.2.2⟩
  have hpl' : Plain doc' := by
    intro v' hv'
    obtain ⟨v, hv, e, -⟩ := htr v' hv'
    rw [← e]; exact hpl v hv
  have hrow : ∀ v' ∈ doc', ∀ r' ∈ v'.rows, ∃ v ∈ doc, v.parents = v'.parents ∧ ∃ r ∈ v.rows, r.2 = r'.2 := by
    intro v' hv' r' hr'
    obtain ⟨v, hv, -, e2, e3⟩ := htr v' hv'
    have : r'.2 ∈ v'.rows.map Prod.snd := List.mem_map.2 ⟨r', hr', rfl⟩
    rw [← e3] at this
    obtain ⟨r, hr, e⟩ := List.mem_map.1 this
    exact ⟨v, hv, e2, r, hr, e⟩
  rw [readBif_run, readBif_run, run_render fl hne ok hpl, run_render fl hne' ok' hpl']
  have key : ∀ d : List Var, (∀ v ∈ d, ∀ r ∈ v.rows, (v.parents ≠ [] → lastCard doc ≤ r.2.length) ∧ ∀ q ∈ r.2, fl (fmt.num q) = some q) →
      pyMap (tableOf fl fmt (lastCard doc)) d = .ok ((d.map (fun v => (v.name, v.values, v.parents, v.rows.map Prod.snd))).map fun x =>
        (x.1, x.2.2.2.map fun ps => if x.2.2.1 = [] then ps else lastK (lastCard doc) ps)) := by
    intro d hd
    rw [List.map_map]
    refine pyMap_ok fun v hv => ?_
    unfold tableOf
    rw [pyMap_ok (g := fun r => if v.parents = [] then r.2 else lastK (lastCard doc) r.2) (fun r hr =>
      rowOf_ok (fun hp => ⟨hK, (hd v hv r hr).1 hp⟩) (hd v hv r hr).2)]
    simp only [Py.bind_ok, Py.pure_eq, Function.comp, List.map_map]
    rfl
  rw [hcard, key doc (fun v hv r hr => ⟨fun hp => hlen v hv hp r hr, hrd v hv r hr⟩), key doc' (fun v' hv' r' hr' => by
    obtain ⟨v, hv, e1, r, hr, e2⟩ := hrow v' hv' r' hr'
    rw [← e1, ← e2]
    exact ⟨fun hp => hlen v hv hp r hr, hrd v hv r hr⟩), hsame]
  have e1 : ∀ d : List Var, (d.map fun v => (v.name, v.parents)) =
    (d.map (fun v => (v.name, v.values, v.parents, v.rows.map Prod.snd))).map fun x => (x.1, x.2.2.1) := by
    intro d; rw [List.map_map]; rfl
  have e2 : ∀ d : List Var, (d.map fun v => (v.name, v.values)) =
    (d.map (fun v => (v.name, v.values, v.parents, v.rows.map Prod.snd))).map fun x => (x.1, x.2.1) := by
    intro d; rw [List.map_map]; rfl
  have e3 : ∀ d : List Var, (declState d).last = (d.map (fun v => (v.name, v.values, v.parents, v.rows.map Prod.snd))).getLast?.map fun x => x.1 := by
    intro d; unfold declState; rw [List.getLast?_map, Option.map_map]; rfl
  rw [e1 doc', e2 doc', e3 doc', e1 doc, e2 doc, e3 doc, hsame]

/-- `docEx` with the labels of the two rows of `Wet` exchanged. -/
def docSwapped : List Var :=
  [⟨"Rain".toList, ["yes".toList, "no".toList], [], [([], [1/4, 3/4])]⟩,
   ⟨"Wet".toList, ["yes".toList, "no".toList], ["Rain".toList], [(["no".toList], [3/4, 1/4]), (["yes".toList], [1/2, 1/2])]⟩]

/-- The hypotheses of C108 are met by a file with exchanged labels, which means another distribution. -/
theorem C108_example (h : HashOrder (List Char)) : readBif h flEx (render fmtEx docSwapped) = readBif h flEx (render fmtEx docEx) := by
  refine C108_labels_ignored h flEx fmtEx docEx docSwapped docEx_ok.1 ?_ docEx_ok.2.1 docEx_ok.2.2 (by decide) (by decide) rfl
  refine ⟨by decide, by decide, by decide, by decide, ?_, by decide, by decide +kernel, by decide⟩
  intro v hv hp
  simp only [docSwapped, List.mem_cons, List.not_mem_nil, or_false] at hv
  rcases hv with rfl | rfl
  · exact ⟨_, rfl⟩
  · cases hp

/-! ## C104: names containing `variable` -/

theorem loop_keys (fl : Str → Option ℚ) (k : Str) : ∀ (n : ℕ) (lines : List Str) (st st' : St), loop fl n lines st = .ok st' →
    k ∈ st.vals.keys → k ∈ st'.vals.keys := by
  intro n
  induction n with
  | zero =>
    intro lines st st' h hk
    cases lines with
    | nil => rw [loop] at h; cases h; exact hk
    | cons => cases h
  | succ n ih =>
    intro lines st st' h hk
    cases lines with
    | nil => rw [loop] at h; cases h; exact hk
    | cons line rest =>
      rw [loop] at h
      split at h
      · cases hn : pyIdx (words line) 1 with
        | error e => rw [hn] at h; cases h
        | ok name =>
          rw [hn, Py.bind_ok] at h
          exact ih _ _ _ h (Dict.mem_keys_set.2 (Or.inr hk))
      · split at h
        · cases hn : pyIdx (words (blank [','] line)) 2 with
          | error e => rw [hn] at h; cases h
          | ok child =>
            rw [hn, Py.bind_ok] at h
            simp only at h
            split at h
            · cases hc : st.cpt.get child with
              | error e => rw [hc] at h; cases h
              | ok c =>
                rw [hc, Py.bind_ok] at h
                cases hm : pyMap (float fl) ((words (blank [',', ';'] (readline rest))).drop 1) with
                | error e => rw [hm] at h; cases h
                | ok row =>
                  rw [hm, Py.bind_ok] at h
                  exact ih _ _ _ h hk
            · cases hp : st.parents.get child with
              | error e => rw [hp] at h; cases h
              | ok p =>
                rw [hp, Py.bind_ok] at h
                cases hr : rowsLoop fl st.width rest with
                | error e => rw [hr] at h; cases h
                | ok r =>
                  rw [hr, Py.bind_ok] at h
                  cases hc : st.cpt.get child with
                  | error e => rw [hc] at h; cases h
                  | ok c =>
                    rw [hc, Py.bind_ok] at h
                    exact ih _ _ _ h hk
        · exact ih _ _ _ h hk

theorem ofPairs_keys {K V : Type _} [DecidableEq K] {k : K} (l : List (K × V)) : ∀ d : Dict K V, k ∈ Dict.keys (Dict.update d l) ↔ k ∈ d.keys ∨ k ∈ l.map Prod.fst := by
  induction l with
  | nil => intro d; simp [Dict.update]
  | cons kv l ih =>
    intro d
    rw [Dict.update_cons, ih, Dict.mem_keys_set, List.map_cons, List.mem_cons]
    tauto

theorem pyMap_fst {α β : Type _} {f : α → Py (α × β)} (hf : ∀ x y, f x = .ok y → y.1 = x) : ∀ {l : List α} {r}, pyMap f l = .ok r → r.map Prod.fst = l
  | [], r, h => by rw [pyMap] at h; cases h; rfl
  | x :: l, r, h => by
      rw [pyMap] at h
      cases hx : f x with
      | error e => rw [hx] at h; cases h
      | ok y =>
        rw [hx, Py.bind_ok] at h
        cases hl : pyMap f l with
        | error e => rw [hl] at h; cases h
        | ok ys =>
          rw [hl, Py.bind_ok] at h
          cases h
          rw [List.map_cons, hf x y hx, pyMap_fst hf hl]

theorem build_keys {h : HashOrder Str} {st : St} {bn} (hb : build h st = .ok bn) {k : Str} (hk : k ∈ st.vals.keys) : k ∈ bn.F.keys := by
  unfold build at hb
  cases hm : pyMap (entryOf st (h.iter st.vals.keys)) (h.iter st.vals.keys) with
  | error e => rw [hm] at hb; cases hb
  | ok es =>
    rw [hm, Py.bind_ok] at hb
    have hfst := pyMap_fst (f := entryOf st (h.iter st.vals.keys)) (by
      intro x y hy
      unfold entryOf at hy
      cases h1 : childrenIn st x (h.iter st.vals.keys) with
      | error e => rw [h1] at hy; cases hy
      | ok a =>
        rw [h1, Py.bind_ok] at hy
        cases h2 : st.parents.get x with
        | error e => rw [h2] at hy; cases hy
        | ok b =>
          rw [h2, Py.bind_ok] at hy
          cases h3 : st.vals.get x with
          | error e => rw [h3] at hy; cases hy
          | ok c =>
            rw [h3, Py.bind_ok] at hy
            cases h4 : st.cpt.get x with
            | error e => rw [h4] at hy; cases hy
            | ok d => rw [h4, Py.bind_ok] at hy; cases hy; rfl) hm
    simp only at hb
    cases ht : topsort h (Dict.ofPairs (es.map fun x => (x.1, x.2.1))) none with
    | error e => rw [ht] at hb; cases hb
    | ok v =>
      rw [ht, Py.bind_ok] at hb
      cases hb
      show k ∈ Dict.keys (Dict.update [] _)
      rw [ofPairs_keys, List.map_map]
      right
      have : es.map (Prod.fst ∘ fun x => (x.1, x.2.2)) = es.map Prod.fst := rfl
      rw [this, hfst]
      exact (h.perm _).mem_iff.2 hk

/-- C104: if the name of a variable, or of one of its parents, contains the word `variable`, `read_bif` never returns the network of the
file: either it raises, or the network it returns has a node called `(`. -/
theorem C104_spurious_node (h : HashOrder (List Char)) (fl : List Char → Option ℚ) (fmt : Fmt) (doc : List Var) (ok : DocOk fmt doc)
    (hm : ∃ v ∈ doc, Mentions "variable".toList v.name ∨ ∃ p ∈ v.parents, Mentions "variable".toList p) (bn : BayesNet (List Char) (List Char))
    (hb : readBif h fl (render fmt doc) = .ok bn) : "(".toList ∈ bn.F.keys ∧ "(".toList ∉ doc.map Var.name := by
  have hnot : "(".toList ∉ doc.map Var.name := by
    intro hc
    obtain ⟨v, hv, e⟩ := List.mem_map.1 hc
    have := (ok.name v hv).2 '(' (by rw [e]; decide)
    exact this (by decide)
  refine ⟨?_, hnot⟩
  -- the first offending block
  have hsplit : ∀ d : List Var, (∃ v ∈ d, Mentions "variable".toList v.name ∨ ∃ p ∈ v.parents, Mentions "variable".toList p) →
      ∃ pre v post, d = pre ++ v :: post ∧ (∀ u ∈ pre, ¬ Mentions "variable".toList u.name ∧ ∀ p ∈ u.parents, ¬ Mentions "variable".toList p) ∧
        (Mentions "variable".toList v.name ∨ ∃ p ∈ v.parents, Mentions "variable".toList p) := by
    intro d
    induction d with
    | nil => rintro ⟨v, hv, -⟩; cases hv
    | cons u d ih =>
      intro hd
      by_cases hu : Mentions "variable".toList u.name ∨ ∃ p ∈ u.parents, Mentions "variable".toList p
      · exact ⟨[], u, d, rfl, by simp, hu⟩
      · obtain ⟨v, hv, hd⟩ := hd
        rcases List.mem_cons.1 hv with rfl | hv
        · exact (hu hd).elim
        · obtain ⟨pre, w, post, e, h1, h2⟩ := ih ⟨v, hv, hd⟩
          refine ⟨u :: pre, w, post, by rw [e]; rfl, ?_, h2⟩
          intro x hx
          rcases List.mem_cons.1 hx with rfl | hx
          · push Not at hu; exact hu
          · exact h1 x hx
  obtain ⟨pre, v, post, rfl, h1, h2⟩ := hsplit doc hm
  have hvm : v ∈ pre ++ v :: post := by simp
  have hcp : ∀ p ∈ v.parents, Clean p := by
    intro p hp
    obtain ⟨u, hu, rfl⟩ := List.mem_map.1 (ok.parents v hvm p hp)
    exact ok.name u hu
  have hr : render fmt (pre ++ v :: post) = ["network unknown {\n".toList, "}\n".toList] ++ (pre ++ v :: post).flatMap (declLines fmt) ++
      (pre.flatMap (probLines fmt) ++ (headLine v :: ((v.rows.map (rowLine fmt v) ++ ["}\n".toList]) ++ post.flatMap (probLines fmt)))) := by
    unfold render
    rw [List.flatMap_append (xs := pre) (f := probLines fmt), List.flatMap_cons (f := probLines fmt)]; rfl
  rw [hr, readBif_run, run_prefix fl (by simp) ok (fun u hu => (h1 u hu).1) (fun u hu => (h1 u hu).2)] at hb
  cases ht : pyMap (tableOf fl fmt (lastCard (pre ++ v :: post))) pre with
  | error e => rw [ht] at hb; cases hb
  | ok ts =>
    rw [ht, Py.bind_ok, run_variable fl ((variable_in_head (ok.name v hvm) hcp).2 h2)] at hb
    have hw : pyIdx (words (headLine v)) 1 = .ok "(".toList := by
      have e : ∀ s, words s = W [] s := fun s => by unfold W blank; simp
      have : ∃ l, words (headLine v) = "probability".toList :: "(".toList :: l := by
        have e1 : W [] "probability ( ".toList = ["probability".toList, "(".toList] := by decide
        unfold headLine
        split
        · rw [e, List.append_assoc, W_append (Or.inl (by decide)), e1]; exact ⟨_, rfl⟩
        · rw [e, List.append_assoc, List.append_assoc, List.append_assoc, W_append (Or.inl (by decide)), e1]; exact ⟨_, rfl⟩
      obtain ⟨l, hl⟩ := this
      rw [hl]; rfl
    rw [hw, Py.bind_ok] at hb
    cases hrun : run fl _ _ with
    | error e => rw [hrun] at hb; cases hb
    | ok st =>
      rw [hrun, Py.bind_ok] at hb
      exact build_keys hb (loop_keys fl _ _ _ _ _ hrun (Dict.mem_keys_set.2 (Or.inl rfl)))

/-- The hypotheses of C104 are met: this file is read, into three nodes. -/
theorem C104_example : ∃ bn, readBif HashOrder.id flEx (render fmtEx docKeyword) = .ok bn ∧ bn.V.length = 3 ∧ "(".toList ∈ bn.F.keys := by
  have : (readBif HashOrder.id flEx (render fmtEx docKeyword)).okAnd (fun bn => decide (bn.V.length = 3)) = true := by decide +kernel
  obtain ⟨bn, h1, h2⟩ := Py.of_okAnd this
  exact ⟨bn, h1, by simpa using h2, (C104_spurious_node _ flEx fmtEx docKeyword docKeyword_ok.1 (by decide) bn h1).1⟩

/-! ## C105: incomplete files -/

theorem rowsLoop_eof (fl : Str → Option ℚ) (fmt : Fmt) (K : ℕ) {v : Var} (hv : v.parents ≠ []) :
    ∀ rows : List (List Str × List ℚ), (∀ r ∈ rows, ∀ x ∈ r.1, Clean x) → (∀ r ∈ rows, ∀ q ∈ r.2, Clean (fmt.num q)) →
      (∀ r ∈ rows, ∃ y, rowOf fl fmt K v r = .ok y) → rowsLoop fl (.ok K) (rows.map (rowLine fmt v)) = .error .diverges
  | [], _, _, _ => rfl
  | r :: rows, h1, h2, h3 => by
      rw [List.map_cons, rowsLoop, if_neg (by rw [brace_rowLine hv (h1 r (by simp)) (h2 r (by simp))]; simp), Py.bind_ok]
      have e : words (blank [',', ';', '(', ')'] (rowLine fmt v r)) = r.1 ++ r.2.map fmt.num :=
        W_rowLine_cond hv (h1 r (by simp)) (h2 r (by simp))
      have e' : pyMap (float fl) (lastK K (r.1 ++ r.2.map fmt.num)) = rowOf fl fmt K v r := by unfold rowOf; rw [if_neg hv]
      obtain ⟨y, hy⟩ := h3 r (by simp)
      rw [e, e', hy, Py.bind_ok, rowsLoop_eof fl fmt K hv rows (fun x hx => h1 x (by simp [hx])) (fun x hx => h2 x (by simp [hx]))
        (fun x hx => h3 x (by simp [hx]))]
      rfl

/-- The first lines of the file up to the blocks of `pre`. -/
def upTo (fmt : Fmt) (pre post : List Var) : List (List Char) :=
  ["network unknown {\n".toList, "}\n".toList] ++ (pre ++ post).flatMap (declLines fmt) ++ pre.flatMap (probLines fmt)

/-- C105: a file that ends inside a conditional table (after its head and `j` of its rows) makes `read_bif` run for ever. -/
theorem C105_cut_in_table (h : HashOrder (List Char)) (fl : List Char → Option ℚ) (fmt : Fmt) (pre post : List Var) (v : Var) (j : ℕ)
    (ok : DocOk fmt (pre ++ v :: post)) (hpl : Plain (pre ++ v :: post)) (hrd : Reads fl fmt (pre ++ v :: post))
    (hK : lastCard (pre ++ v :: post) ≠ 0) (hlen : ∀ u ∈ pre ++ v :: post, u.parents ≠ [] → ∀ r ∈ u.rows, lastCard (pre ++ v :: post) ≤ r.2.length)
    (hp : v.parents ≠ []) :
    (upTo fmt pre (v :: post) ++ headLine v :: (v.rows.take j).map (rowLine fmt v)) <+: render fmt (pre ++ v :: post) ∧
    readBif h fl (upTo fmt pre (v :: post) ++ headLine v :: (v.rows.take j).map (rowLine fmt v)) = .error .diverges := by
  have hvm : v ∈ pre ++ v :: post := by simp
  have hin : ∀ u ∈ pre, u ∈ pre ++ v :: post := fun u hu => List.mem_append_left _ hu
  constructor
  · unfold upTo render
    rw [List.flatMap_append (xs := pre) (f := probLines fmt), List.flatMap_cons (f := probLines fmt)]
    refine ⟨(v.rows.drop j).map (rowLine fmt v) ++ ["}\n".toList] ++ post.flatMap (probLines fmt), ?_⟩
    have : v.rows.map (rowLine fmt v) = (v.rows.take j).map (rowLine fmt v) ++ (v.rows.drop j).map (rowLine fmt v) := by
      rw [← List.map_append, List.take_append_drop]
    have e : probLines fmt v = headLine v :: (((v.rows.take j).map (rowLine fmt v) ++ (v.rows.drop j).map (rowLine fmt v)) ++ ["}\n".toList]) := by
      rw [← this]; rfl
    rw [e]
    simp only [List.append_assoc, List.cons_append]
  · have hcp : ∀ u ∈ pre ++ v :: post, ∀ p ∈ u.parents, Clean p ∧ ¬ Mentions "variable".toList p := by
      intro u hu p hp
      obtain ⟨w, hw, rfl⟩ := List.mem_map.1 (ok.parents u hu p hp)
      exact ⟨ok.name w hw, hpl w hw⟩
    unfold upTo
    rw [List.append_assoc, readBif_run, run_prefix fl (by simp) ok (fun u hu => hpl u (hin u hu)) (fun u hu p hp => (hcp u (hin u hu) p hp).2)]
    have hrow : ∀ u ∈ pre ++ v :: post, ∀ r ∈ u.rows, rowOf fl fmt (lastCard (pre ++ v :: post)) u r =
        .ok (if u.parents = [] then r.2 else lastK (lastCard (pre ++ v :: post)) r.2) := fun u hu r hr =>
      rowOf_ok (fun hp => ⟨hK, hlen u hu hp r hr⟩) (hrd u hu r hr)
    have hts : ∃ ts, pyMap (tableOf fl fmt (lastCard (pre ++ v :: post))) pre = .ok ts ∧ ts.map Prod.fst = pre.map Var.name := by
      refine ⟨_, pyMap_ok (g := fun u => (u.name, u.rows.map fun r => if u.parents = [] then r.2 else lastK (lastCard (pre ++ v :: post)) r.2)) fun u hu => ?_, ?_⟩
      · unfold tableOf
        rw [pyMap_ok fun r hr => hrow u (hin u hu) r hr]; rfl
      · rw [List.map_map]; rfl
    obtain ⟨ts, hts, hfst⟩ := hts
    rw [hts, Py.bind_ok]
    have hv : hasSub "variable".toList (headLine v) = false := by
      rw [Bool.eq_false_iff]
      intro hh
      rcases (variable_in_head (ok.name v hvm) (fun p hp => (hcp v hvm p hp).1)).1 hh with hh | ⟨p, hp, hh⟩
      · exact hpl v hvm hh
      · exact (hcp v hvm p hp).2 hh
    have hnm : v.name ∉ pre.map Var.name := by
      have := ok.nodup
      rw [List.map_append, List.map_cons] at this
      intro hm
      exact (List.disjoint_of_nodup_append this) hm (by simp)
    rw [run_prob fl hv (probability_in_head v), W_headLine (ok.name v hvm) (fun p hp => (hcp v hvm p hp).1), head_child, Py.bind_ok, head_parents, if_neg hp]
    simp only [List.map_cons]
    rw [get_mid _ _ _ _ (by simpa [Dict.keys, List.map_map, Function.comp_def] using hnm), Py.bind_ok]
    have hw : St.width ⟨pre.map (fun v => (v.name, v.parents)) ++ (v.name, []) :: post.map (fun v => (v.name, [])),
        ts ++ (v.name, []) :: post.map (fun v => (v.name, [])), (pre ++ v :: post).map fun v => (v.name, v.values),
        (declState (pre ++ v :: post)).last⟩ = .ok (lastCard (pre ++ v :: post)) := width_doc (by simp) ok.nodup _ _
    rw [hw, rowsLoop_eof fl fmt _ hp (v.rows.take j) (fun r hr => (ok.label v hvm hp r (List.mem_of_mem_take hr)).2)
      (fun r hr => ok.num v hvm r (List.mem_of_mem_take hr)) (fun r hr => ⟨_, hrow v hvm r (List.mem_of_mem_take hr)⟩)]
    rfl

/-- C105: a file that ends between two probability blocks is read without complaint: the variables whose blocks are missing have no parents
and an empty table. -/
theorem C105_cut_between (h : HashOrder (List Char)) (fl : List Char → Option ℚ) (fmt : Fmt) (pre post : List Var) (hne : pre ++ post ≠ [])
    (ok : DocOk fmt (pre ++ post)) (hpl : Plain (pre ++ post)) (hrd : Reads fl fmt (pre ++ post))
    (hK : lastCard (pre ++ post) ≠ 0) (hlen : ∀ u ∈ pre ++ post, u.parents ≠ [] → ∀ r ∈ u.rows, r.2.length = lastCard (pre ++ post)) :
    upTo fmt pre post <+: render fmt (pre ++ post) ∧
    ∃ bn, readBif h fl (upTo fmt pre post) = .ok bn ∧ bn.F.keys.Perm ((pre ++ post).map Var.name) ∧
      (∀ v ∈ pre, bn.F.get? v.name = some ⟨v.parents, v.values, (v.rows.map Prod.snd).flatten⟩) ∧
      (∀ v ∈ post, bn.F.get? v.name = some ⟨[], v.values, []⟩) ∧
      (∀ u w, Arc bn.E u w ↔ ∃ v ∈ pre, v.name = w ∧ u ∈ v.parents) := by
  have hin : ∀ u ∈ pre, u ∈ pre ++ post := fun u hu => List.mem_append_left _ hu
  constructor
  · unfold upTo render
    rw [List.flatMap_append (xs := pre) (ys := post) (f := probLines fmt)]
    exact ⟨post.flatMap (probLines fmt), by simp⟩
  · have hcp : ∀ u ∈ pre ++ post, ∀ p ∈ u.parents, Clean p ∧ ¬ Mentions "variable".toList p := by
      intro u hu p hp
      obtain ⟨w, hw, rfl⟩ := List.mem_map.1 (ok.parents u hu p hp)
      exact ⟨ok.name w hw, hpl w hw⟩
    have := run_prefix fl hne ok (fun u hu => hpl u (hin u hu)) (fun u hu p hp => (hcp u (hin u hu) p hp).2) []
    rw [List.append_nil] at this
    unfold upTo
    rw [readBif_run, this]
    have hrow : ∀ u ∈ pre, ∀ r ∈ u.rows, rowOf fl fmt (lastCard (pre ++ post)) u r = .ok r.2 := by
      intro u hu r hr
      rw [rowOf_ok (fun hp => ⟨hK, (hlen u (hin u hu) hp r hr).ge⟩) (hrd u (hin u hu) r hr)]
      split
      · rfl
      · rename_i hp
        rw [lastK_self (hlen u (hin u hu) hp r hr)]
    have hts : pyMap (tableOf fl fmt (lastCard (pre ++ post))) pre = .ok (pre.map fun u => (u.name, u.rows.map Prod.snd)) := by
      refine pyMap_ok fun u hu => ?_
      unfold tableOf
      rw [pyMap_ok fun r hr => hrow u hu r hr]; rfl
    rw [hts, Py.bind_ok]
    let strip : Var → Var := fun v => ⟨v.name, v.values, [], []⟩
    have hnames : (pre ++ post.map strip).map Var.name = (pre ++ post).map Var.name := by
      rw [List.map_append, List.map_append, List.map_map]; rfl
    obtain ⟨bn, b1, b2, b3, b4, b5, -⟩ := build_doc h (pre ++ post.map strip) (declState (pre ++ post)).last (fun u => u.rows.map Prod.snd)
      (by rw [hnames]; exact ok.nodup) (by
        intro u hu p hp
        rw [hnames]
        rcases List.mem_append.1 hu with hu | hu
        · exact ok.parents u (hin u hu) p hp
        · obtain ⟨w, hw, rfl⟩ := List.mem_map.1 hu
          cases hp)
    simp only [List.map_append, List.map_map] at b1
    refine ⟨bn, ?_, by rw [← hnames]; exact b3, fun v hv => b4 v (by simp [hv]), fun v hv => ?_, fun u w => ?_⟩
    · rw [run_nil, Py.bind_ok, List.map_append]
      exact b1
    · have := b4 (strip v) (List.mem_append_right _ (List.mem_map.2 ⟨v, hv, rfl⟩))
      exact this
    · rw [b5]
      constructor
      · rintro ⟨v, hv, e, hu⟩
        rcases List.mem_append.1 hv with hv | hv
        · exact ⟨v, hv, e, hu⟩
        · obtain ⟨w, hw, rfl⟩ := List.mem_map.1 hv
          cases hu
      · rintro ⟨v, hv, e, hu⟩
        exact ⟨v, List.mem_append_left _ hv, e, hu⟩

/-- The hypotheses of both parts of C105 are met by `docEx`. -/
theorem C105_example (h : HashOrder (List Char)) :
    (∃ lines, lines <+: render fmtEx docEx ∧ readBif h flEx lines = .error .diverges) ∧
    ∃ lines bn, lines <+: render fmtEx docEx ∧ readBif h flEx lines = .ok bn ∧ bn.F.get? "Wet".toList = some ⟨[], ["yes".toList, "no".toList], []⟩ := by
  have hd : docEx = [⟨"Rain".toList, ["yes".toList, "no".toList], [], [([], [1/4, 3/4])]⟩] ++
    [⟨"Wet".toList, ["yes".toList, "no".toList], ["Rain".toList], [(["yes".toList], [3/4, 1/4]), (["no".toList], [1/2, 1/2])]⟩] := rfl
  obtain ⟨o1, o2, o3⟩ := docEx_ok
  rw [hd] at o1 o2 o3
  constructor
  · exact ⟨_, C105_cut_in_table h flEx fmtEx _ _ _ 1 o1 o2 o3 (by decide) (by decide) (by decide)⟩
  · obtain ⟨p, bn, h1, -, -, h4, -⟩ := C105_cut_between h flEx fmtEx _ _ (by decide) o1 o2 o3 (by decide) (by decide)
    exact ⟨_, bn, p, h1, h4 _ List.mem_cons_self⟩

/-! ## C106: adjacency matrices -/

theorem foldl_set_nil (fs : List Str) : ∀ e : Dict Str (List Str), e.keys.Nodup → (∀ k l, e.get? k = some l → l = []) →
    let e' := fs.foldl (fun e f => e.set f []) e
    e'.keys.Nodup ∧ (∀ k l, e'.get? k = some l → l = []) ∧ ∀ k, k ∈ e'.keys ↔ k ∈ e.keys ∨ k ∈ fs := by
  induction fs with
  | nil => intro e h1 h2; exact ⟨h1, h2, by simp⟩
  | cons f fs ih =>
    intro e h1 h2
    obtain ⟨a, b, c⟩ := ih (e.set f []) (Dict.nodup_keys_set h1 f []) (by
      intro k l hk
      rw [Dict.get?_set] at hk
      split at hk
      · cases hk; rfl
      · exact h2 k l hk)
    refine ⟨a, b, fun k => ?_⟩
    show k ∈ (fs.foldl (fun e f => e.set f []) (e.set f [])).keys ↔ _
    rw [c, Dict.mem_keys_set, List.mem_cons]; tauto

/-- C106: `read_mat` returns, for every file whatsoever, a network without edges: its nodes are the texts before the first blank of each line,
each once, without values and with empty tables.  The matrix is ignored. -/
theorem C106_read_mat (h : HashOrder (List Char)) (lines : List (List Char)) :
    ∃ bn, readMat h lines = .ok bn ∧ bn.V.Nodup ∧ (∀ n, n ∈ bn.V ↔ ∃ line ∈ lines, n = line.takeWhile (· ≠ ' ')) ∧
      (∀ u v, ¬ Arc bn.E u v) ∧ ∀ n ∈ bn.V, bn.F.get? n = some ⟨[], [], []⟩ := by
  have he : lines.foldl (fun (e : Dict Str (List Str)) line => e.set (firstField line) []) [] =
      (lines.map firstField).foldl (fun (e : Dict Str (List Str)) f => e.set f []) [] := by rw [List.foldl_map]
  unfold readMat
  rw [he]
  obtain ⟨h1, h2, h3⟩ := foldl_set_nil (lines.map firstField) [] (by simp [Dict.keys]) (by simp)
  set E := (lines.map firstField).foldl (fun (e : Dict Str (List Str)) f => e.set f []) [] with hE
  have hna : ∀ u v, ¬ Arc E u v := by
    rintro u v ⟨l, hl, hv⟩
    rw [h2 u l hl] at hv; cases hv
  obtain ⟨bn, b1, b2, b3, b4, b5, b6⟩ := C23_set_structure (A := Str) h E none h1 (fun u v ha => (hna u v ha).elim) (by
    intro v hv
    obtain ⟨b, hb, -⟩ := Relation.TransGen.head'_iff.1 hv
    exact hna _ _ hb) (by simp)
  refine ⟨bn, b1, b2.nodup_iff.2 h1, fun n => ?_, by rw [b3]; exact hna, fun n hn => ?_⟩
  · rw [b2.mem_iff, h3]
    simp only [Dict.keys, List.map_nil, List.not_mem_nil, false_or, List.mem_map, firstField]
    constructor
    · rintro ⟨l, hl, rfl⟩; exact ⟨l, hl, rfl⟩
    · rintro ⟨l, hl, rfl⟩; exact ⟨l, hl, rfl⟩
  · have hs := (b4 n).2 hn
    obtain ⟨d, hd⟩ := Option.isSome_iff_exists.1 hs
    have hp : bn.parentsOf n = [] := by
      rw [List.eq_nil_iff_forall_not_mem]
      intro u hu
      have := ((b5 n hn).2 u).1 hu
      refine hna u n ?_
      unfold BayesNet.childrenOf at this
      rw [b3] at this
      cases hg : Dict.get? E u with
      | none => rw [hg] at this; cases this
      | some l => rw [hg] at this; exact ⟨l, hg, this⟩
    have hc := (b6.1 n hn).1
    have hv := b6.2 rfl n
    unfold BayesNet.parentsOf at hp
    unfold BayesNet.cptOf at hc
    unfold BayesNet.valuesOf at hv
    rw [hd] at hp hc hv ⊢
    obtain ⟨a, b, c⟩ := d
    simp only [Option.map_some, Option.getD_some] at hp hc hv
    subst hp hc hv
    rfl

/-- C106 on a matrix with an arc, which is lost. -/
theorem C106_example (h : HashOrder (List Char)) : ∃ bn, readMat h ["A 0 1\n".toList, "B 0 0\n".toList] = .ok bn ∧
    bn.V.Perm ["A".toList, "B".toList] ∧ ∀ u v, ¬ Arc bn.E u v := by
  obtain ⟨bn, h1, h2, h3, h4, -⟩ := C106_read_mat h ["A 0 1\n".toList, "B 0 0\n".toList]
  refine ⟨bn, h1, ?_, h4⟩
  rw [List.perm_ext_iff_of_nodup h2 (by decide)]
  intro n
  rw [h3]
  have e1 : "A 0 1\n".toList.takeWhile (· ≠ ' ') = "A".toList := by decide
  have e2 : "B 0 0\n".toList.takeWhile (· ≠ ' ') = "B".toList := by decide
  constructor
  · rintro ⟨l, hl, rfl⟩
    simp only [List.mem_cons, List.not_mem_nil, or_false] at hl
    rcases hl with rfl | rfl
    · rw [e1]; simp
    · rw [e2]; simp
  · intro hn
    simp only [List.mem_cons, List.not_mem_nil, or_false] at hn
    rcases hn with rfl | rfl
    · exact ⟨"A 0 1\n".toList, by simp, e1.symm⟩
    · exact ⟨"B 0 0\n".toList, by simp, e2.symm⟩

/-! ## C107: the choice of the reader -/

/-- C107: `read_bn` goes by the first of `.bif`, `.bn`, `.mat` that occurs *anywhere* in the path (also in a directory name), in this
order of preference; for other paths it returns nothing. -/
theorem C107_read_bn (path : List Char) :
    (chooseReader path = .bif ↔ ".bif".toList <:+: path) ∧
    (chooseReader path = .bn ↔ ¬ ".bif".toList <:+: path ∧ ".bn".toList <:+: path) ∧
    (chooseReader path = .mat ↔ ¬ ".bif".toList <:+: path ∧ ¬ ".bn".toList <:+: path ∧ ".mat".toList <:+: path) ∧
    (chooseReader path = .unknown ↔ ¬ ".bif".toList <:+: path ∧ ¬ ".bn".toList <:+: path ∧ ¬ ".mat".toList <:+: path) := by
  simp only [← hasSub_iff]
  unfold chooseReader
  cases hasSub ".bif".toList path <;> cases hasSub ".bn".toList path <;> cases hasSub ".mat".toList path <;> simp

/-- C107: a network saved as `.bn` in a directory whose name contains `.bif` goes to the BIF reader. -/
theorem C107_example : chooseReader "nets.bif/asia.bn".toList = .bif := by decide

end Bif
end PyBN
