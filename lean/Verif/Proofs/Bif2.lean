import Verif.Proofs.Bif
import Verif.Proofs.Sample3

/-!
# Reading BIF files: whole documents
-/

set_option linter.unusedSectionVars false
namespace PyBN
namespace Bif

theorem set_absent {K V : Type _} [DecidableEq K] (d : Dict K V) (k : K) (v : V) (h : k ∉ d.keys) : d.set k v = d ++ [(k, v)] := by
  induction d with
  | nil => rfl
  | cons kv d ih =>
    obtain ⟨k', v'⟩ := kv
    simp only [Dict.keys, List.map_cons, List.mem_cons, not_or] at h
    rw [Dict.set, if_neg (fun e => h.1 e.symm), ih h.2]; rfl

theorem set_mid {K V : Type _} [DecidableEq K] (d1 d2 : Dict K V) (k : K) (x y : V) (h : k ∉ d1.keys) :
    Dict.set (d1 ++ (k, x) :: d2) k y = d1 ++ (k, y) :: d2 := by
  induction d1 with
  | nil => simp [Dict.set]
  | cons kv d1 ih =>
    obtain ⟨k', v'⟩ := kv
    simp only [Dict.keys, List.map_cons, List.mem_cons, not_or] at h
    rw [List.cons_append, Dict.set, if_neg (fun e => h.1 e.symm), ih h.2]; rfl

theorem get_mid {K V : Type _} [DecidableEq K] (d1 d2 : Dict K V) (k : K) (x : V) (h : k ∉ d1.keys) :
    Dict.get (d1 ++ (k, x) :: d2) k = .ok x := by
  induction d1 with
  | nil => simp [Dict.get, Dict.get?]
  | cons kv d1 ih =>
    obtain ⟨k', v'⟩ := kv
    simp only [Dict.keys, List.map_cons, List.mem_cons, not_or] at h
    have : Dict.get (((k', v') :: d1) ++ (k, x) :: d2) k = Dict.get (d1 ++ (k, x) :: d2) k := by
      unfold Dict.get
      rw [List.cons_append, Dict.get?_cons, if_neg (fun e => h.1 e.symm)]
    rw [this, ih h.2]

/-- The state after the declarations. -/
def declState (doc : List Var) : St :=
  ⟨doc.map fun v => (v.name, []), doc.map fun v => (v.name, []), doc.map fun v => (v.name, v.values), doc.getLast?.map Var.name⟩

theorem brace_skip (fl : Str → Option ℚ) (rest : List Str) (st : St) : run fl ("}\n".toList :: rest) st = run fl rest st :=
  run_skip fl (by decide) (by decide)

theorem run_decls (fl : Str → Option ℚ) (fmt : Fmt) (rest : List Str) : ∀ (todo done : List Var), ((done ++ todo).map Var.name).Nodup →
    (∀ v ∈ todo, Clean v.name) → (∀ v ∈ todo, ∀ x ∈ v.values, Clean x) → (∀ v ∈ todo, Clean (fmt.count v.values.length)) →
    run fl (todo.flatMap (declLines fmt) ++ rest) (declState done) = run fl rest (declState (done ++ todo))
  | [], done, _, _, _, _ => by simp
  | v :: todo, done, hn, h1, h2, h3 => by
      have hnot : v.name ∉ done.map Var.name := by
        rw [List.map_append, List.map_cons] at hn
        intro hm
        exact (List.disjoint_of_nodup_append hn) hm (by simp)
      rw [List.flatMap_cons]
      have hv : hasSub "variable".toList ("variable ".toList ++ v.name ++ " {\n".toList) = true := by
        rw [hasSub_iff]
        exact ⟨[], " ".toList ++ v.name ++ " {\n".toList, by simp⟩
      rw [show declLines fmt v ++ todo.flatMap (declLines fmt) ++ rest = ("variable ".toList ++ v.name ++ " {\n".toList) ::
        ("  type discrete [ ".toList ++ fmt.count v.values.length ++ " ] { ".toList ++ commaSep v.values ++ " };\n".toList) ::
        "}\n".toList :: (todo.flatMap (declLines fmt) ++ rest) from rfl]
      rw [run_variable fl hv, words_declLine (h1 v (by simp))]
      rw [show pyIdx ["variable".toList, v.name, "{".toList] 1 = .ok v.name from rfl, Py.bind_ok]
      simp only [readline, List.headD_cons, List.tail_cons]
      rw [W_typeLine (h3 v (by simp)) (h2 v (by simp)), brace_skip]
      have key : (⟨(declState done).parents.set v.name [], (declState done).cpt.set v.name [], (declState done).vals.set v.name v.values,
          some v.name⟩ : St) = declState (done ++ [v]) := by
        unfold declState
        have hk : ∀ {α : Type} (f : Var → α), v.name ∉ Dict.keys (done.map fun u => (u.name, f u)) := by
          intro α f
          simpa [Dict.keys, List.map_map, Function.comp_def] using hnot
        simp only
        rw [set_absent _ _ _ (hk fun _ => []), set_absent _ _ _ (hk fun _ => []), set_absent _ _ _ (hk fun u => u.values)]
        simp
      rw [key, run_decls fl fmt rest todo (done ++ [v]) (by simpa using hn) (fun u hu => h1 u (by simp [hu])) (fun u hu => h2 u (by simp [hu]))
        (fun u hu => h3 u (by simp [hu]))]
      simp

/-- What the reader makes of one row: all the numbers of a prior, the last `K` words of a conditional row. -/
def rowOf (fl : Str → Option ℚ) (fmt : Fmt) (K : ℕ) (v : Var) (r : List Str × List ℚ) : Py (List ℚ) :=
  pyMap (float fl) (if v.parents = [] then r.2.map fmt.num else lastK K (r.1 ++ r.2.map fmt.num))

/-- The table the reader makes for one variable. -/
def tableOf (fl : Str → Option ℚ) (fmt : Fmt) (K : ℕ) (v : Var) : Py (Str × List (List ℚ)) := do
  let t ← pyMap (rowOf fl fmt K v) v.rows
  pure (v.name, t)

theorem rowsLoop_rows (fl : Str → Option ℚ) (fmt : Fmt) (K : ℕ) {v : Var} (hv : v.parents ≠ []) (rest : List Str) :
    ∀ rows : List (List Str × List ℚ), (∀ r ∈ rows, ∀ x ∈ r.1, Clean x) → (∀ r ∈ rows, ∀ q ∈ r.2, Clean (fmt.num q)) →
      rowsLoop fl (.ok K) (rows.map (rowLine fmt v) ++ "}\n".toList :: rest) = (do
        let t ← pyMap (rowOf fl fmt K v) rows
        pure (t, rest))
  | [], _, _ => by
      rw [List.map_nil, List.nil_append, rowsLoop, if_pos (by decide)]; rfl
  | r :: rows, h1, h2 => by
      rw [List.map_cons, List.cons_append, rowsLoop, if_neg (by rw [brace_rowLine hv (h1 r (by simp)) (h2 r (by simp))]; simp), Py.bind_ok]
      have e : words (blank [',', ';', '(', ')'] (rowLine fmt v r)) = r.1 ++ r.2.map fmt.num :=
        W_rowLine_cond hv (h1 r (by simp)) (h2 r (by simp))
      have e' : pyMap (float fl) (lastK K (r.1 ++ r.2.map fmt.num)) = rowOf fl fmt K v r := by unfold rowOf; rw [if_neg hv]
      rw [e, e', rowsLoop_rows fl fmt K hv rest rows (fun x hx => h1 x (by simp [hx])) (fun x hx => h2 x (by simp [hx])), pyMap]
      cases rowOf fl fmt K v r with
      | error e => rfl
      | ok row =>
        simp only [Py.bind_ok]
        cases pyMap (rowOf fl fmt K v) rows with
        | error e => rfl
        | ok t => rfl

/-- What one probability block does to the state, for a document without trouble in its names. -/
theorem run_block (fl : Str → Option ℚ) (fmt : Fmt) (K : ℕ) {v : Var} (rest : List Str) (P1 P2 : Dict Str (List Str))
    (C1 C2 : Dict Str (List (List ℚ))) (vals : Dict Str (List Str)) (last : Option Str) (hP : v.name ∉ P1.keys) (hC : v.name ∉ C1.keys)
    (hw : v.parents ≠ [] → (⟨P1, C1, vals, last⟩ : St).width = .ok K) (hn : Clean v.name) (hp : ∀ p ∈ v.parents, Clean p)
    (hvar : ¬ Mentions "variable".toList v.name) (hvar' : ∀ p ∈ v.parents, ¬ Mentions "variable".toList p)
    (hprior : v.parents = [] → ∃ ps, v.rows = [([], ps)])
    (hlab : v.parents ≠ [] → ∀ r ∈ v.rows, ∀ x ∈ r.1, Clean x) (hnum : ∀ r ∈ v.rows, ∀ q ∈ r.2, Clean (fmt.num q)) :
    run fl (probLines fmt v ++ rest) ⟨P1 ++ (v.name, []) :: P2, C1 ++ (v.name, []) :: C2, vals, last⟩ = (do
      let t ← tableOf fl fmt K v
      run fl rest ⟨P1 ++ (v.name, v.parents) :: P2, C1 ++ t :: C2, vals, last⟩) := by
  have hv : hasSub "variable".toList (headLine v) = false := by
    rw [Bool.eq_false_iff]
    intro h
    rcases (variable_in_head hn hp).1 h with h | ⟨p, hp, h⟩
    · exact hvar h
    · exact hvar' p hp h
  unfold probLines
  rw [List.cons_append, run_prob fl hv (probability_in_head v), W_headLine hn hp, head_child, Py.bind_ok, head_parents]
  simp only
  rw [get_mid _ _ _ _ hC, get_mid _ _ _ _ hP]
  simp only [Py.bind_ok]
  by_cases hpar : v.parents = []
  · rw [if_pos hpar]
    obtain ⟨ps, hr⟩ := hprior hpar
    rw [hr] at hnum ⊢
    simp only [List.map_cons, List.map_nil, List.cons_append, List.nil_append, readline, List.headD_cons, List.tail_cons]
    rw [W_rowLine_prior hpar (hnum _ (by simp))]
    have e' : pyMap (float fl) (ps.map fmt.num) = rowOf fl fmt K v ([], ps) := by unfold rowOf; rw [if_pos hpar]
    unfold tableOf
    rw [hr, pyMap, pyMap, e']
    cases rowOf fl fmt K v ([], ps) with
    | error e => rfl
    | ok row =>
      simp only [Py.bind_ok, Py.pure_eq, brace_skip]
      rw [set_mid _ _ _ _ _ hC, hpar]
  · rw [if_neg hpar]
    have hw' : St.width ⟨P1 ++ (v.name, []) :: P2, C1 ++ (v.name, []) :: C2, vals, last⟩ = .ok K := hw hpar
    rw [hw', List.append_assoc, List.singleton_append, rowsLoop_rows fl fmt K hpar rest v.rows (hlab hpar) hnum]
    unfold tableOf
    cases pyMap (rowOf fl fmt K v) v.rows with
    | error e => rfl
    | ok t =>
      simp only [Py.bind_ok, Py.pure_eq, List.nil_append]
      rw [set_mid _ _ _ _ _ hP, set_mid _ _ _ _ _ hC]

theorem tableOf_fst {fl : Str → Option ℚ} {fmt : Fmt} {K : ℕ} {v : Var} {t} (h : tableOf fl fmt K v = .ok t) : t.1 = v.name := by
  unfold tableOf at h
  cases hm : pyMap (rowOf fl fmt K v) v.rows with
  | error e => rw [hm] at h; cases h
  | ok r => rw [hm] at h; cases h; rfl

theorem run_blocks_mid (fl : Str → Option ℚ) (fmt : Fmt) (K : ℕ) (rest : List Str) (vals : Dict Str (List Str)) (last : Option Str)
    (P2 : Dict Str (List Str)) (C2 : Dict Str (List (List ℚ)))
    (hw : ∀ P C, (⟨P, C, vals, last⟩ : St).width = .ok K) : ∀ (todo : List Var) (P1 : Dict Str (List Str)) (C1 : Dict Str (List (List ℚ))),
    (todo.map Var.name).Nodup → (∀ v ∈ todo, v.name ∉ P1.keys) → (∀ v ∈ todo, v.name ∉ C1.keys) →
    (∀ v ∈ todo, Clean v.name) → (∀ v ∈ todo, ∀ p ∈ v.parents, Clean p) →
    (∀ v ∈ todo, ¬ Mentions "variable".toList v.name) → (∀ v ∈ todo, ∀ p ∈ v.parents, ¬ Mentions "variable".toList p) →
    (∀ v ∈ todo, v.parents = [] → ∃ ps, v.rows = [([], ps)]) →
    (∀ v ∈ todo, v.parents ≠ [] → ∀ r ∈ v.rows, ∀ x ∈ r.1, Clean x) → (∀ v ∈ todo, ∀ r ∈ v.rows, ∀ q ∈ r.2, Clean (fmt.num q)) →
    run fl (todo.flatMap (probLines fmt) ++ rest) ⟨P1 ++ (todo.map (fun v => (v.name, [])) ++ P2), C1 ++ (todo.map (fun v => (v.name, [])) ++ C2), vals, last⟩ = (do
      let ts ← pyMap (tableOf fl fmt K) todo
      run fl rest ⟨P1 ++ (todo.map (fun v => (v.name, v.parents)) ++ P2), C1 ++ (ts ++ C2), vals, last⟩)
  | [], P1, C1, _, _, _, _, _, _, _, _, _, _ => by simp [pyMap, Py.bind_ok]
  | v :: todo, P1, C1, hnd, hP, hC, h1, h2, h3, h4, h5, h6, h7 => by
      have hnot : ∀ u ∈ todo, u.name ≠ v.name := by
        intro u hu e
        rw [List.map_cons, List.nodup_cons] at hnd
        exact hnd.1 (e ▸ List.mem_map.2 ⟨u, hu, rfl⟩)
      rw [List.flatMap_cons, List.append_assoc, List.map_cons, List.map_cons, List.cons_append, List.cons_append]
      rw [run_block fl fmt K _ P1 _ C1 _ vals last (hP v (by simp)) (hC v (by simp)) (fun _ => hw _ _) (h1 v (by simp)) (h2 v (by simp))
        (h3 v (by simp)) (h4 v (by simp)) (h5 v (by simp)) (h6 v (by simp)) (h7 v (by simp)), pyMap]
      cases ht : tableOf fl fmt K v with
      | error e => rfl
      | ok t =>
        simp only [Py.bind_ok]
        have a1 : P1 ++ (v.name, v.parents) :: (todo.map (fun v => (v.name, ([] : List Str))) ++ P2) =
            (P1 ++ [(v.name, v.parents)]) ++ (todo.map (fun v => (v.name, [])) ++ P2) := by simp
        have a2 : C1 ++ t :: (todo.map (fun v => (v.name, ([] : List (List ℚ)))) ++ C2) = (C1 ++ [t]) ++ (todo.map (fun v => (v.name, [])) ++ C2) := by
          simp
        rw [a1, a2]
        rw [run_blocks_mid fl fmt K rest vals last P2 C2 hw todo (P1 ++ [(v.name, v.parents)]) (C1 ++ [t]) (List.nodup_cons.1 (by simpa using hnd)).2]
        · cases pyMap (tableOf fl fmt K) todo with
          | error e => rfl
          | ok ts => simp [Py.bind_ok, Py.pure_eq]
        · intro u hu hm
          simp only [Dict.keys, List.map_append, List.mem_append, List.map_cons, List.map_nil, List.mem_singleton] at hm
          rcases hm with hm | hm
          · exact hP u (by simp [hu]) hm
          · exact hnot u hu hm
        · intro u hu hm
          simp only [Dict.keys, List.map_append, List.mem_append, List.map_cons, List.map_nil, List.mem_singleton] at hm
          rcases hm with hm | hm
          · exact hC u (by simp [hu]) hm
          · exact hnot u hu (hm.trans (tableOf_fst ht))
        · exact fun u hu => h1 u (by simp [hu])
        · exact fun u hu => h2 u (by simp [hu])
        · exact fun u hu => h3 u (by simp [hu])
        · exact fun u hu => h4 u (by simp [hu])
        · exact fun u hu => h5 u (by simp [hu])
        · exact fun u hu => h6 u (by simp [hu])
        · exact fun u hu => h7 u (by simp [hu])

/-- No name mentions the keyword. -/
def Plain (doc : List Var) : Prop := ∀ v ∈ doc, ¬ Mentions "variable".toList v.name

theorem network_skip (fl : Str → Option ℚ) (rest : List Str) (st : St) :
    run fl (["network unknown {\n".toList, "}\n".toList] ++ rest) st = run fl rest st := by
  rw [List.cons_append, List.singleton_append, run_skip fl (by decide) (by decide), brace_skip]

theorem width_doc {doc : List Var} (hne : doc ≠ []) (hnd : (doc.map Var.name).Nodup) (P C) :
    (⟨P, C, (declState doc).vals, (declState doc).last⟩ : St).width = .ok (lastCard doc) := by
  obtain ⟨d, v, rfl⟩ := (List.eq_nil_or_concat doc).resolve_left hne
  rw [List.concat_eq_append] at hnd ⊢
  unfold declState St.width lastCard
  simp only [List.getLast?_append, List.getLast?_singleton, Option.some_or, Option.map_some, Option.getD_some, List.map_append, List.map_cons,
    List.map_nil]
  rw [get_mid]
  · rfl
  · rw [List.map_append] at hnd
    intro hm
    simp only [Dict.keys, List.map_map, Function.comp_def] at hm
    exact (List.disjoint_of_nodup_append hnd) hm (by simp)

/-- Reading any document without trouble in its names. -/
theorem run_render (fl : Str → Option ℚ) {fmt : Fmt} {doc : List Var} (hne : doc ≠ []) (ok : DocOk fmt doc) (hpl : Plain doc) :
    run fl (render fmt doc) ⟨[], [], [], none⟩ = (do
      let ts ← pyMap (tableOf fl fmt (lastCard doc)) doc
      pure ⟨doc.map fun v => (v.name, v.parents), ts, doc.map fun v => (v.name, v.values), (declState doc).last⟩) := by
  have hcp : ∀ v ∈ doc, ∀ p ∈ v.parents, Clean p := by
    intro v hv p hp
    obtain ⟨u, hu, rfl⟩ := List.mem_map.1 (ok.parents v hv p hp)
    exact ok.name u hu
  unfold render
  rw [List.append_assoc, network_skip]
  have h0 : (⟨[], [], [], none⟩ : St) = declState [] := rfl
  rw [h0, run_decls fl fmt _ doc [] (by simpa using ok.nodup) ok.name ok.values ok.count, List.nil_append]
  have := run_blocks_mid fl fmt (lastCard doc) [] (declState doc).vals (declState doc).last [] [] (fun P C => width_doc hne ok.nodup P C) doc [] []
    ok.nodup (by simp [Dict.keys]) (by simp [Dict.keys]) ok.name hcp hpl
    (by
      intro v hv p hp
      obtain ⟨u, hu, rfl⟩ := List.mem_map.1 (ok.parents v hv p hp)
      exact hpl u hu)
    ok.prior (fun v hv hp r hr => (ok.label v hv hp r hr).2) ok.num
  simp only [List.append_nil, List.nil_append] at this
  exact this

theorem readBif_run (h : HashOrder Str) (fl : Str → Option ℚ) (lines : List Str) :
    readBif h fl lines = (do let st ← run fl lines ⟨[], [], [], none⟩; build h st) := rfl

end Bif
end PyBN
