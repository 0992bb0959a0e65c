import Verif.Proofs.Bif2
import Verif.Props.Graph

/-!
# Reading BIF files: the network
-/

set_option linter.unusedSectionVars false
namespace PyBN
namespace Bif

theorem get?_doc {α : Type _} {doc : List Var} (hnd : (doc.map Var.name).Nodup) (f : Var → α) {v : Var} (hv : v ∈ doc) :
    Dict.get? (doc.map fun v => (v.name, f v)) v.name = some (f v) := by
  refine Dict.get?_of_mem ?_ (List.mem_map.2 ⟨v, hv, rfl⟩)
  simpa [Dict.keys, List.map_map, Function.comp_def] using hnd

theorem childrenIn_ok (st : St) (rv : Str) (g : Str → List Str) : ∀ keys : List Str, (∀ c ∈ keys, st.parents.get c = .ok (g c)) →
    childrenIn st rv keys = .ok (keys.filter fun c => decide (rv ∈ g c))
  | [], _ => rfl
  | c :: cs, h => by
      rw [childrenIn, h c (by simp), Py.bind_ok, childrenIn_ok st rv g cs (fun x hx => h x (by simp [hx])), Py.bind_ok, List.filter_cons]
      by_cases hm : rv ∈ g c
      · simp [hm, Py.pure_eq]
      · simp [hm, Py.pure_eq]

/-- The network made from a finished state. -/
theorem build_ok (h : HashOrder Str) (st : St) (names : List Str) (hnd : names.Nodup) (hk : st.vals.keys = names)
    (p : Str → List Str) (vs : Str → List Str) (t : Str → List (List ℚ)) (hp : ∀ n ∈ names, st.parents.get n = .ok (p n))
    (hv : ∀ n ∈ names, st.vals.get n = .ok (vs n)) (hc : ∀ n ∈ names, st.cpt.get n = .ok (t n)) (hcl : ∀ n ∈ names, ∀ q ∈ p n, q ∈ names) :
    ∃ bn, build h st = .ok bn ∧ bn.E.keys.Perm names ∧ bn.F.keys.Perm names ∧ (∀ n ∈ names, bn.F.get? n = some ⟨p n, vs n, (t n).flatten⟩) ∧
      (∀ u v, Arc bn.E u v ↔ v ∈ names ∧ u ∈ p v) ∧ topsort h bn.E none = .ok bn.V ∧ (NoCycle bn.E → bn.V.Perm names) := by
  have hperm := h.perm names
  have hm : ∀ n, n ∈ h.iter names ↔ n ∈ names := fun n => hperm.mem_iff
  have hnd' : (h.iter names).Nodup := hperm.nodup_iff.2 hnd
  set ch : Str → List Str := fun n => (h.iter names).filter fun c => decide (n ∈ p c) with hch
  have hes : pyMap (entryOf st (h.iter names)) (h.iter names) = .ok ((h.iter names).map fun n => (n, ch n, ⟨p n, vs n, (t n).flatten⟩)) := by
    refine pyMap_ok fun n hn => ?_
    have hn' := (hm n).1 hn
    unfold entryOf
    rw [childrenIn_ok st n p _ (fun c hc' => hp c ((hm c).1 hc')), Py.bind_ok, hp n hn', Py.bind_ok, hv n hn', Py.bind_ok, hc n hn', Py.bind_ok]
    rfl
  set e : Dict Str (List Str) := (h.iter names).map fun n => (n, ch n) with he
  have hek : e.keys = h.iter names := by rw [he, Dict.keys_map_pair]
  have harc : ∀ u v, Arc e u v ↔ v ∈ names ∧ u ∈ p v := by
    intro u v
    unfold Arc
    rw [he, Dict.get?_map_pair]
    constructor
    · rintro ⟨l, h1, h2⟩
      split at h1
      · cases h1
        rw [hch, List.mem_filter] at h2
        exact ⟨(hm v).1 h2.1, by simpa using h2.2⟩
      · cases h1
    · rintro ⟨h1, h2⟩
      refine ⟨ch u, by rw [if_pos ((hm u).2 (hcl v h1 u h2))], ?_⟩
      rw [hch, List.mem_filter]
      exact ⟨(hm v).2 h1, by simpa using h2⟩
  have hck : ChildrenAreKeys e := fun u v ha => by rw [hek]; exact (hm v).2 ((harc u v).1 ha).1
  obtain ⟨l, hl, -⟩ := C26_topsort_general h e (by rw [hek]; exact hnd') hck
  refine ⟨⟨l, e, (h.iter names).map fun n => (n, ⟨p n, vs n, (t n).flatten⟩)⟩, ?_, by rw [hek]; exact hperm, ?_, ?_, harc, hl, ?_⟩
  · unfold build
    rw [hk, hes, Py.bind_ok]
    simp only [List.map_map, Function.comp_def]
    rw [Dict.ofPairs_eq (l := (h.iter names).map fun n => (n, ch n)) (by rw [Dict.keys_map_pair]; exact hnd'),
      Dict.ofPairs_eq (l := (h.iter names).map fun n => (n, (⟨p n, vs n, (t n).flatten⟩ : NodeData Str Str))) (by rw [Dict.keys_map_pair]; exact hnd')]
    rw [← he, hl]; rfl
  · rw [Dict.keys_map_pair]; exact hperm
  · intro n hn
    show Dict.get? ((h.iter names).map fun n => (n, (⟨p n, vs n, (t n).flatten⟩ : NodeData Str Str))) n = _
    rw [Dict.get?_map_pair, if_pos ((hm n).2 hn)]
  · intro hac
    obtain ⟨l', h1, h2⟩ := C26_topsort_all_nodes h e (by rw [hek]; exact hnd') hck hac
    rw [hl] at h1; cases h1
    rw [hek] at h2
    exact h2.trans hperm

/-- The network made from a state given by a document and its tables. -/
theorem build_doc (h : HashOrder Str) (doc : List Var) (last : Option Str) (g : Var → List (List ℚ)) (hnd : (doc.map Var.name).Nodup)
    (hpar : ∀ v ∈ doc, ∀ p ∈ v.parents, p ∈ doc.map Var.name) :
    ∃ bn, build h ⟨doc.map fun v => (v.name, v.parents), doc.map fun v => (v.name, g v), doc.map fun v => (v.name, v.values), last⟩ = .ok bn ∧
      bn.E.keys.Perm (doc.map Var.name) ∧ bn.F.keys.Perm (doc.map Var.name) ∧
      (∀ v ∈ doc, bn.F.get? v.name = some ⟨v.parents, v.values, (g v).flatten⟩) ∧
      (∀ u w, Arc bn.E u w ↔ ∃ v ∈ doc, v.name = w ∧ u ∈ v.parents) ∧ topsort h bn.E none = .ok bn.V ∧
      (NoCycle bn.E → bn.V.Perm (doc.map Var.name)) := by
  have hget : ∀ {α : Type} (f : Var → α) (d : α), ∀ v ∈ doc, ((Dict.get? (doc.map fun v => (v.name, f v)) v.name).getD d) = f v := by
    intro α f d v hv
    rw [get?_doc hnd f hv]; rfl
  have hok : ∀ {α : Type} (f : Var → α) (d : α), ∀ n ∈ doc.map Var.name, Dict.get (doc.map fun v => (v.name, f v)) n =
      .ok ((Dict.get? (doc.map fun v => (v.name, f v)) n).getD d) := by
    intro α f d n hn
    obtain ⟨v, hv, rfl⟩ := List.mem_map.1 hn
    rw [hget f d v hv, Dict.get_of_get? (get?_doc hnd f hv)]
  obtain ⟨bn, b1, b2, b3, b4, b5, b6, b7⟩ := build_ok h ⟨doc.map fun v => (v.name, v.parents), doc.map fun v => (v.name, g v),
    doc.map fun v => (v.name, v.values), last⟩ (doc.map Var.name) hnd (by simp [Dict.keys, List.map_map, Function.comp_def])
    (fun n => (Dict.get? (doc.map fun v => (v.name, v.parents)) n).getD []) (fun n => (Dict.get? (doc.map fun v => (v.name, v.values)) n).getD [])
    (fun n => (Dict.get? (doc.map fun v => (v.name, g v)) n).getD []) (hok _ _) (hok _ _) (hok _ _)
    (by
      intro n hn q hq
      obtain ⟨v, hv, rfl⟩ := List.mem_map.1 hn
      simp only [hget Var.parents [] v hv] at hq
      exact hpar v hv q hq)
  refine ⟨bn, b1, b2, b3, ?_, ?_, b6, b7⟩
  · intro v hv
    rw [b4 v.name (List.mem_map.2 ⟨v, hv, rfl⟩)]
    simp only [hget Var.parents [] v hv, hget Var.values [] v hv, hget g [] v hv]
  · intro u w
    rw [b5]
    constructor
    · rintro ⟨hw, hu⟩
      obtain ⟨v, hv, rfl⟩ := List.mem_map.1 hw
      simp only [hget Var.parents [] v hv] at hu
      exact ⟨v, hv, rfl, hu⟩
    · rintro ⟨v, hv, rfl, hu⟩
      refine ⟨List.mem_map.2 ⟨v, hv, rfl⟩, ?_⟩
      simp only [hget Var.parents [] v hv]
      exact hu

/-- Reading a document all of whose rows can be read. -/
theorem read_render (h : HashOrder Str) (fl : Str → Option ℚ) {fmt : Fmt} {doc : List Var} (hne : doc ≠ []) (ok : DocOk fmt doc) (hpl : Plain doc)
    (g : Var → List (List ℚ)) (hg : ∀ v ∈ doc, pyMap (rowOf fl fmt (lastCard doc) v) v.rows = .ok (g v)) :
    ∃ bn, readBif h fl (render fmt doc) = .ok bn ∧ bn.E.keys.Perm (doc.map Var.name) ∧ bn.F.keys.Perm (doc.map Var.name) ∧
      (∀ v ∈ doc, bn.F.get? v.name = some ⟨v.parents, v.values, (g v).flatten⟩) ∧
      (∀ u w, Arc bn.E u w ↔ ∃ v ∈ doc, v.name = w ∧ u ∈ v.parents) ∧ topsort h bn.E none = .ok bn.V ∧
      (NoCycle bn.E → bn.V.Perm (doc.map Var.name)) := by
  have hts : pyMap (tableOf fl fmt (lastCard doc)) doc = .ok (doc.map fun v => (v.name, g v)) := by
    refine pyMap_ok fun v hv => ?_
    unfold tableOf
    rw [hg v hv]; rfl
  rw [readBif_run, run_render fl hne ok hpl, hts, Py.bind_ok, Py.pure_eq, Py.bind_ok]
  exact build_doc h doc _ g ok.nodup ok.parents

/-- The state in front of the block of a variable: the blocks before it have been read. -/
theorem run_prefix (fl : Str → Option ℚ) {fmt : Fmt} {pre post : List Var} (hne : pre ++ post ≠ []) (ok : DocOk fmt (pre ++ post)) (hpl : Plain pre)
    (hpl' : ∀ v ∈ pre, ∀ p ∈ v.parents, ¬ Mentions "variable".toList p) (rest : List Str) :
    run fl (["network unknown {\n".toList, "}\n".toList] ++ (pre ++ post).flatMap (declLines fmt) ++ (pre.flatMap (probLines fmt) ++ rest))
      ⟨[], [], [], none⟩ = (do
      let ts ← pyMap (tableOf fl fmt (lastCard (pre ++ post))) pre
      run fl rest ⟨pre.map (fun v => (v.name, v.parents)) ++ post.map (fun v => (v.name, [])), ts ++ post.map (fun v => (v.name, [])),
        (pre ++ post).map fun v => (v.name, v.values), (declState (pre ++ post)).last⟩) := by
  have hin : ∀ v ∈ pre, v ∈ pre ++ post := fun v hv => List.mem_append_left _ hv
  have hnd := ok.nodup
  rw [List.map_append] at hnd
  have hcp : ∀ v ∈ pre, ∀ p ∈ v.parents, Clean p := by
    intro v hv p hp
    obtain ⟨u, hu, rfl⟩ := List.mem_map.1 (ok.parents v (hin v hv) p hp)
    exact ok.name u hu
  rw [List.append_assoc, network_skip]
  have h0 : (⟨[], [], [], none⟩ : St) = declState [] := rfl
  rw [h0, run_decls fl fmt _ (pre ++ post) [] (by simpa using ok.nodup) ok.name ok.values ok.count, List.nil_append]
  have key := run_blocks_mid fl fmt (lastCard (pre ++ post)) rest (declState (pre ++ post)).vals (declState (pre ++ post)).last
    (post.map fun v => (v.name, [])) (post.map fun v => (v.name, []))
    (fun P C => width_doc hne ok.nodup P C) pre [] []
    (List.Nodup.of_append_left hnd) (by simp [Dict.keys]) (by simp [Dict.keys]) (fun v hv => ok.name v (hin v hv)) hcp hpl hpl'
    (fun v hv => ok.prior v (hin v hv)) (fun v hv hp r hr => (ok.label v (hin v hv) hp r hr).2) (fun v hv => ok.num v (hin v hv))
  simp only [List.nil_append] at key
  unfold declState at key ⊢
  simp only [List.map_append] at key ⊢
  exact key

theorem pyMap_float {fl : Str → Option ℚ} {num : ℚ → Str} : ∀ {l : List ℚ}, (∀ q ∈ l, fl (num q) = some q) → pyMap (float fl) (l.map num) = .ok l
  | [], _ => rfl
  | q :: l, h => by
      rw [List.map_cons, pyMap, pyMap_float (fun x hx => h x (by simp [hx]))]
      unfold float
      rw [h q (by simp)]; rfl

theorem pyMap_float_err {fl : Str → Option ℚ} : ∀ {l : List Str}, (∃ w ∈ l, fl w = none) → pyMap (float fl) l = .error .valueError
  | [], h => by obtain ⟨w, hw, _⟩ := h; cases hw
  | x :: l, h => by
      rw [pyMap]
      cases hx : fl x with
      | none => rw [show float fl x = .error .valueError by unfold float; rw [hx]]; rfl
      | some q =>
        rw [show float fl x = .ok q by unfold float; rw [hx], Py.bind_ok, pyMap_float_err (l := l)]
        · rfl
        · obtain ⟨w, hw, h⟩ := h
          rcases List.mem_cons.1 hw with rfl | hw
          · rw [hx] at h; cases h
          · exact ⟨w, hw, h⟩

theorem lastK_append {α : Type _} {k : ℕ} {a b : List α} (h0 : k ≠ 0) (h : k ≤ b.length) : lastK k (a ++ b) = lastK k b := by
  unfold lastK
  rw [if_neg h0, if_neg h0, List.length_append, List.drop_append, List.drop_eq_nil_of_le (by omega), List.nil_append]
  congr 1
  omega

theorem lastK_map {α β : Type _} (f : α → β) (k : ℕ) (l : List α) : lastK k (l.map f) = (lastK k l).map f := by
  unfold lastK
  split <;> simp

theorem lastK_mem {α : Type _} {k : ℕ} {l : List α} {x : α} (h : x ∈ lastK k l) : x ∈ l := by
  unfold lastK at h
  split at h
  · exact h
  · exact List.mem_of_mem_drop h

theorem lastK_self {α : Type _} {k : ℕ} {l : List α} (h : l.length = k) : lastK k l = l := by
  unfold lastK
  split
  · rfl
  · rw [h]; simp

theorem rowOf_ok {fl : Str → Option ℚ} {fmt : Fmt} {K : ℕ} {v : Var} {r : List Str × List ℚ} (h0 : v.parents ≠ [] → K ≠ 0 ∧ K ≤ r.2.length)
    (hnum : ∀ q ∈ r.2, fl (fmt.num q) = some q) : rowOf fl fmt K v r = .ok (if v.parents = [] then r.2 else lastK K r.2) := by
  unfold rowOf
  split
  · exact pyMap_float hnum
  · rename_i hp
    obtain ⟨h1, h2⟩ := h0 hp
    rw [lastK_append h1 (by simpa using h2), lastK_map, pyMap_float fun q hq => hnum q (lastK_mem hq)]

theorem rowOf_err {fl : Str → Option ℚ} {fmt : Fmt} {K : ℕ} {v : Var} {r : List Str × List ℚ} (hp : v.parents ≠ []) (hK : K = 0 ∨ r.2.length < K)
    (hl : ∃ l x, r.1 = l ++ [x] ∧ fl x = none) : rowOf fl fmt K v r = .error .valueError := by
  obtain ⟨l, x, hr, hx⟩ := hl
  unfold rowOf
  rw [if_neg hp, hr]
  refine pyMap_float_err ⟨x, ?_, hx⟩
  unfold lastK
  split
  · simp
  · rcases hK with h | h
    · contradiction
    · simp only [List.length_append, List.length_map, List.length_cons, List.length_nil]
      rw [List.append_assoc, List.drop_append]
      rw [show [x] ++ List.map fmt.num r.2 = x :: List.map fmt.num r.2 from rfl]
      rw [show l.length + (0 + 1) + r.2.length - K - l.length = 0 by omega]
      simp

end Bif
end PyBN
