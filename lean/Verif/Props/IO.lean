import Verif.Proofs.Json
import Std.Data.String.ToInt
import Verif.Proofs.Sample3
import Verif.Props.Graph
import Verif.Spec.BayesNet

/-!
# C44, C85, C86: the `.bn` file format
-/

namespace PyBN
open IO

/-- A string name. -/
def IsStr (x : Scalar) : Prop := ∃ s, x = .str s
/-- An integer name (as produced by the learning functions). -/
def IsInt (x : Scalar) : Prop := ∃ i, x = .int i

namespace IO

theorem items_ok {V : Type} (h : HashOrder Scalar) {d : Dict Scalar V} : ∃ l : Dict Scalar V,
    items h d = .ok l ∧ l.keys = h.iter d.keys ∧ ∀ kv ∈ l, Dict.get? d kv.1 = some kv.2 := by
  have key : ∀ ks : List Scalar, (∀ k ∈ ks, k ∈ d.keys) → ∃ l : Dict Scalar V,
      pyMap (fun k => do let v ← d.get k; pure (k, v)) ks = .ok l ∧ l.keys = ks ∧ ∀ kv ∈ l, Dict.get? d kv.1 = some kv.2 := by
    intro ks
    induction ks with
    | nil => intro _; exact ⟨[], rfl, rfl, by simp⟩
    | cons k ks ih =>
      intro hk
      obtain ⟨l, h1, h2, h3⟩ := ih fun x hx => hk x (by simp [hx])
      obtain ⟨v, hv⟩ := Option.isSome_iff_exists.1 (Dict.mem_keys_iff.1 (hk k (by simp)))
      refine ⟨(k, v) :: l, ?_, by simp only [Dict.keys, List.map_cons] at h2 ⊢; rw [h2], ?_⟩
      · rw [pyMap, Dict.get_of_get? hv, Py.bind_ok, h1]; rfl
      · intro kv hkv
        rcases List.mem_cons.1 hkv with rfl | hkv
        · exact hv
        · exact h3 kv hkv
  exact key (h.iter d.keys) fun k hk => (h.perm _).mem_iff.1 hk

/-- The same entries in another order. -/
theorem get?_of_items {V : Type} {d l : Dict Scalar V} (hd : d.keys.Nodup) (hp : l.keys.Perm d.keys)
    (hl : ∀ kv ∈ l, Dict.get? d kv.1 = some kv.2) (k : Scalar) : Dict.get? l k = Dict.get? d k := by
  cases hk : Dict.get? d k with
  | none =>
    have : k ∉ l.keys := fun h => by
      have := Dict.mem_keys_iff.1 (hp.mem_iff.1 h); rw [hk] at this; cases this
    rw [Dict.mem_keys_iff] at this
    simpa using this
  | some v =>
    have hm : k ∈ l.keys := hp.mem_iff.2 (Dict.mem_keys_iff.2 (by rw [hk]; rfl))
    obtain ⟨w, hw⟩ := Option.isSome_iff_exists.1 (Dict.mem_keys_iff.1 hm)
    have := hl _ (Dict.get?_mem hw)
    simp only [hk] at this; rw [hw, this]

theorem asScalars_map (l : List Scalar) : asScalars (l.map .sc) = .ok l := by
  induction l with
  | nil => rfl
  | cons x l ih => simp only [List.map_cons, asScalars, ih, Py.bind_ok]; rfl

theorem asList_jList (l : List Scalar) : asList (jList l) = .ok l := asScalars_map l

theorem asNode_jNode (d : NodeData Scalar Scalar) : asNode (jNode d) = .ok d := by
  have h1 : asList (.arr (d.cpt.map fun q => .sc (.num q))) = .ok (d.cpt.map .num) := by
    have := asScalars_map (d.cpt.map .num)
    rw [List.map_map] at this; exact this
  have h2 : pyMap asNum (d.cpt.map Scalar.num) = .ok d.cpt := by
    induction d.cpt with
    | nil => rfl
    | cons q l ih => simp only [List.map_cons, pyMap, asNum, ih, Py.bind_ok]; rfl
  have e : Dict.ofPairs [("cpt", Json.arr (d.cpt.map fun q => .sc (.num q))), ("parents", jList d.parents), ("values", jList d.values)] =
    [("cpt", Json.arr (d.cpt.map fun q => .sc (.num q))), ("parents", jList d.parents), ("values", jList d.values)] :=
    Dict.ofPairs_eq (show ["cpt", "parents", "values"].Nodup by decide)
  unfold asNode jNode asObj
  simp only [Py.bind_ok, e]
  have g1 : Dict.get ([("cpt", Json.arr (d.cpt.map fun q => .sc (.num q))), ("parents", jList d.parents), ("values", jList d.values)] : Dict String Json) "cpt" = .ok (Json.arr (d.cpt.map fun q => .sc (.num q))) := rfl
  have g2 : Dict.get ([("cpt", Json.arr (d.cpt.map fun q => .sc (.num q))), ("parents", jList d.parents), ("values", jList d.values)] : Dict String Json) "parents" = .ok (jList d.parents) := rfl
  have g3 : Dict.get ([("cpt", Json.arr (d.cpt.map fun q => .sc (.num q))), ("parents", jList d.parents), ("values", jList d.values)] : Dict String Json) "values" = .ok (jList d.values) := rfl
  simp only [g1, g2, g3, Py.bind_ok, h1, h2, asList_jList]; rfl

/-- Reading a dictionary back: every key has become the string under which it was written. -/
theorem asDict_ok {V : Type} (fl : ℚ → String) {f : Json → Py V} {g : V → Json} (hfg : ∀ v, f (g v) = .ok v) (l : Dict Scalar V)
    (hn : (l.keys.map (keyText fl)).Nodup) :
    asDict f (.obj (l.map fun kv => (keyText fl kv.1, g kv.2))) = .ok (l.map fun kv => (Scalar.str (keyText fl kv.1), kv.2)) := by
  have hk : (Dict.keys (l.map fun kv => (keyText fl kv.1, g kv.2))) = l.keys.map (keyText fl) := by
    simp [Dict.keys, List.map_map, Function.comp_def]
  unfold asDict asObj
  simp only [Py.bind_ok]
  rw [Dict.ofPairs_eq (by rw [hk]; exact hn)]
  have hm : pyMap (fun kv : String × Json => do let v ← f kv.2; pure (Scalar.str kv.1, v)) (l.map fun kv => (keyText fl kv.1, g kv.2)) =
      .ok (l.map fun kv => (Scalar.str (keyText fl kv.1), kv.2)) := by
    clear hn hk
    induction l with
    | nil => rfl
    | cons kv l ih => simp only [List.map_cons, pyMap, hfg, Py.bind_ok, ih]; rfl
  rw [hm, Py.bind_ok, Dict.ofPairs_eq]; · rfl
  have : Dict.keys (l.map fun kv => (Scalar.str (keyText fl kv.1), kv.2)) = (l.keys.map (keyText fl)).map Scalar.str := by
    simp [Dict.keys, List.map_map, Function.comp_def]
  rw [this]
  exact hn.map fun a b hab => Scalar.str.inj hab

theorem map_str_id {V : Type} (fl : ℚ → String) {l : Dict Scalar V} (hs : ∀ k ∈ l.keys, IsStr k) :
    l.map (fun kv => (Scalar.str (keyText fl kv.1), kv.2)) = l := by
  conv_rhs => rw [← List.map_id l]
  apply List.map_congr_left
  intro kv hkv
  obtain ⟨s, hs'⟩ := hs kv.1 (List.mem_map.2 ⟨kv, hkv, rfl⟩)
  obtain ⟨k, v⟩ := kv
  simp only at hs'; subst hs'; rfl

theorem fromJson_doc {jv je jf : Json} {v : List Scalar} {e : Dict Scalar (List Scalar)} {f : Dict Scalar (NodeData Scalar Scalar)}
    (h1 : asList jv = .ok v) (h2 : asDict asList je = .ok e) (h3 : asDict asNode jf = .ok f) :
    fromJson (.obj [("V", jv), ("E", je), ("F", jf)]) = .ok ⟨v, e, f⟩ := by
  unfold fromJson asObj
  simp only [Py.bind_ok, Dict.ofPairs_eq (l := [("V", jv), ("E", je), ("F", jf)]) (show ["V", "E", "F"].Nodup by decide)]
  have g1 : Dict.get ([("V", jv), ("E", je), ("F", jf)] : Dict String Json) "V" = .ok jv := rfl
  have g2 : Dict.get ([("V", jv), ("E", je), ("F", jf)] : Dict String Json) "E" = .ok je := rfl
  have g3 : Dict.get ([("V", jv), ("E", je), ("F", jf)] : Dict String Json) "F" = .ok jf := rfl
  simp only [g1, g2, g3, Py.bind_ok, h1, h2, h3]; rfl

end IO

/-- C44: writing a network with string names to a `.bn` file and reading it back gives the same edges, parents, values and tables; its
node list is what `topsort` makes of the edges.  If the network is acyclic that list has the same nodes, and the joint
distribution is the same. -/
theorem C44_bn_roundtrip (fl : ℚ → String) (h h' : HashOrder Scalar) (bn : BayesNet Scalar Scalar) (hE : bn.E.keys.Nodup)
    (hF : bn.F.keys.Nodup) (hsE : ∀ k ∈ bn.E.keys, IsStr k) (hsF : ∀ k ∈ bn.F.keys, IsStr k) (hcl : ChildrenAreKeys bn.E) :
    ∃ file bn', writeBn fl h bn = .ok file ∧ readBn h' file = .ok bn' ∧ (∀ v, bn'.E.get? v = bn.E.get? v) ∧
      (∀ v, bn'.F.get? v = bn.F.get? v) ∧ bn'.E.keys.Perm bn.E.keys ∧ bn'.F.keys.Perm bn.F.keys ∧ topsort h' bn'.E none = .ok bn'.V ∧
      (NoCycle bn.E → bn'.V.Perm bn.E.keys ∧ (bn.V.Perm bn.E.keys → ∀ a, bn'.joint a = bn.joint a)) := by
  obtain ⟨es, e1, e2, e3⟩ := items_ok h (d := bn.E)
  obtain ⟨fs, f1, f2, f3⟩ := items_ok h (d := bn.F)
  have hesP : es.keys.Perm bn.E.keys := e2 ▸ h.perm _
  have hfsP : fs.keys.Perm bn.F.keys := f2 ▸ h.perm _
  have hses : ∀ k ∈ es.keys, IsStr k := fun k hk => hsE k (hesP.mem_iff.1 hk)
  have hsfs : ∀ k ∈ fs.keys, IsStr k := fun k hk => hsF k (hfsP.mem_iff.1 hk)
  have hinj : ∀ l : List Scalar, l.Nodup → (∀ k ∈ l, IsStr k) → (l.map (keyText fl)).Nodup := by
    intro l hl hs
    refine hl.map_on fun a ha b hb hab => ?_
    obtain ⟨s, rfl⟩ := hs a ha
    obtain ⟨t, rfl⟩ := hs b hb
    simp only [keyText] at hab; rw [hab]
  have hEg : ∀ v, Dict.get? es v = Dict.get? bn.E v := get?_of_items hE hesP e3
  have hFg : ∀ v, Dict.get? fs v = Dict.get? bn.F v := get?_of_items hF hfsP f3
  have harc : ∀ a b, Arc es a b ↔ Arc bn.E a b := fun a b => by unfold Arc; rw [hEg]
  have hclE : ChildrenAreKeys es := fun a b hab => hesP.mem_iff.2 (hcl a b ((harc a b).1 hab))
  obtain ⟨V', hV', _⟩ := C26_topsort_general h' es (hesP.nodup_iff.2 hE) hclE
  have hdoc : fromJson (.obj [("V", jList bn.V), ("E", .obj (es.map fun kv => (keyText fl kv.1, jList kv.2))),
      ("F", .obj (fs.map fun kv => (keyText fl kv.1, jNode kv.2)))]) = .ok ⟨bn.V, es, fs⟩ := by
    refine fromJson_doc (asList_jList _) ?_ ?_
    · rw [asDict_ok fl asList_jList es (hinj _ (hesP.nodup_iff.2 hE) hses), map_str_id fl hses]
    · rw [asDict_ok fl asNode_jNode fs (hinj _ (hfsP.nodup_iff.2 hF) hsfs), map_str_id fl hsfs]
  refine ⟨(Json.obj [("V", jList bn.V), ("E", .obj (es.map fun kv => (keyText fl kv.1, jList kv.2))),
      ("F", .obj (fs.map fun kv => (keyText fl kv.1, jNode kv.2)))]).toks, ⟨V', es, fs⟩, ?_, ?_, hEg, hFg, hesP, hfsP, hV', fun hac => ?_⟩
  · unfold writeBn toJson
    simp only [e1, f1, Py.bind_ok]; rfl
  · unfold readBn
    rw [Json.loads_toks]
    simp only [hdoc, Py.bind_ok, hV']; rfl
  · have hacE : NoCycle es := by
      have : Arc es = Arc bn.E := by funext a b; exact propext (harc a b)
      unfold NoCycle; rw [this]; exact hac
    obtain ⟨l, hl, hlp⟩ := C26_topsort_all_nodes h' es (hesP.nodup_iff.2 hE) hclE hacE
    rw [hV'] at hl; cases hl
    refine ⟨hlp.trans hesP, fun hVp a => ?_⟩
    have hp : ∀ v, BayesNet.prob (⟨V', es, fs⟩ : BayesNet Scalar Scalar) v a = bn.prob v a := by
      intro v
      have hc : BayesNet.cardOf (⟨V', es, fs⟩ : BayesNet Scalar Scalar) = bn.cardOf := by
        funext u; unfold BayesNet.cardOf; simp only [hFg]
      unfold BayesNet.prob BayesNet.cptOf BayesNet.parentsOf
      rw [hc]; simp only [hFg]
    unfold BayesNet.joint
    simp only [hp]
    exact ((hlp.trans (hesP.trans hVp.symm)).map _).prod_eq

/-- Witness: a two-node network. -/
def exIO : BayesNet Scalar Scalar :=
  ⟨[.str "a", .str "b"], [(.str "a", [.str "b"]), (.str "b", [])],
   [(.str "a", ⟨[], [.str "t", .str "f"], [1/4, 3/4]⟩), (.str "b", ⟨[.str "a"], [.int 0, .int 1], [1/2, 1/2, 1/3, 2/3]⟩)]⟩

example : exIO.E.keys.Nodup ∧ exIO.F.keys.Nodup ∧ (∀ k ∈ exIO.E.keys, IsStr k) ∧ (∀ k ∈ exIO.F.keys, IsStr k) ∧ ChildrenAreKeys exIO.E ∧
    NoCycle exIO.E := by
  have harc : ∀ u v, Arc exIO.E u v → u = .str "a" ∧ v = .str "b" := by
    rintro u v ⟨l, hl, hv⟩
    have hm := Dict.get?_mem hl
    simp only [exIO, List.mem_cons, Prod.mk.injEq, List.not_mem_nil, or_false] at hm
    rcases hm with ⟨rfl, rfl⟩ | ⟨rfl, rfl⟩
    · simpa using hv
    · cases hv
  refine ⟨by decide, by decide, ?_, ?_, ?_, ?_⟩
  · intro k hk; simp [exIO, Dict.keys] at hk; rcases hk with rfl | rfl <;> exact ⟨_, rfl⟩
  · intro k hk; simp [exIO, Dict.keys] at hk; rcases hk with rfl | rfl <;> exact ⟨_, rfl⟩
  · intro u v huv; obtain ⟨_, rfl⟩ := harc u v huv; decide
  · intro v hv
    have h1 : ∀ {x y}, Relation.TransGen (Arc exIO.E) x y → x = .str "a" ∧ y = .str "b" := by
      intro x y hxy
      induction hxy with
      | single h => exact harc _ _ h
      | tail _ h ih => exact ⟨ih.1, (harc _ _ h).2⟩
    obtain ⟨h2, h3⟩ := h1 hv
    rw [h2] at h3; exact absurd h3 (by decide)

/-- C85: a network whose nodes are integers (what all the learning functions return) cannot be read back as soon as it has an edge: the keys
of the file are strings, the children are integers, and `topsort` raises `KeyError`. -/
theorem C85_int_names (fl : ℚ → String) (h h' : HashOrder Scalar) (bn : BayesNet Scalar Scalar) (hE : bn.E.keys.Nodup)
    (hF : bn.F.keys.Nodup) (hsE : ∀ k ∈ bn.E.keys, IsInt k) (hsF : ∀ k ∈ bn.F.keys, IsInt k)
    (hch : ∀ u v, Arc bn.E u v → IsInt v) (u v : Scalar) (huv : Arc bn.E u v) :
    ∃ file, writeBn fl h bn = .ok file ∧ readBn h' file = .error .keyError := by
  obtain ⟨es, e1, e2, e3⟩ := items_ok h (d := bn.E)
  obtain ⟨fs, f1, f2, f3⟩ := items_ok h (d := bn.F)
  have hesP : es.keys.Perm bn.E.keys := e2 ▸ h.perm _
  have hfsP : fs.keys.Perm bn.F.keys := f2 ▸ h.perm _
  have hinj : ∀ l : List Scalar, l.Nodup → (∀ k ∈ l, IsInt k) → (l.map (keyText fl)).Nodup := by
    intro l hl hs
    refine hl.map_on fun a ha b hb hab => ?_
    obtain ⟨s, rfl⟩ := hs a ha
    obtain ⟨t, rfl⟩ := hs b hb
    simp only [keyText] at hab
    rw [Int.repr_injective hab]
  have hEg : ∀ v, Dict.get? es v = Dict.get? bn.E v := get?_of_items hE hesP e3
  let es' : Dict Scalar (List Scalar) := es.map fun kv => (Scalar.str (keyText fl kv.1), kv.2)
  have hkn : es'.keys.Nodup := by
    have : es'.keys = (es.keys.map (keyText fl)).map Scalar.str := by simp [es', Dict.keys, List.map_map, Function.comp_def]
    rw [this]
    exact (hinj _ (hesP.nodup_iff.2 hE) fun k hk => hsE k (hesP.mem_iff.1 hk)).map fun a b hab => Scalar.str.inj hab
  have hks : ∀ k ∈ es'.keys, IsStr k := by
    intro k hk
    simp only [es', Dict.keys, List.map_map, List.mem_map, Function.comp_def] at hk
    obtain ⟨kv, _, rfl⟩ := hk; exact ⟨_, rfl⟩
  have hchild : ∀ a b, Arc es' a b → IsInt b := by
    rintro a b ⟨l, hl, hb⟩
    have hm := Dict.get?_mem hl
    simp only [es', List.mem_map, Prod.mk.injEq] at hm
    obtain ⟨kv, hkv, _, rfl⟩ := hm
    exact hch kv.1 b ⟨kv.2, e3 kv hkv, hb⟩
  have hdoc : fromJson (.obj [("V", jList bn.V), ("E", .obj (es.map fun kv => (keyText fl kv.1, jList kv.2))),
      ("F", .obj (fs.map fun kv => (keyText fl kv.1, jNode kv.2)))]) =
      .ok ⟨bn.V, es', fs.map fun kv => (Scalar.str (keyText fl kv.1), kv.2)⟩ := by
    refine fromJson_doc (asList_jList _) ?_ ?_
    · exact asDict_ok fl asList_jList es (hinj _ (hesP.nodup_iff.2 hE) fun k hk => hsE k (hesP.mem_iff.1 hk))
    · exact asDict_ok fl asNode_jNode fs (hinj _ (hfsP.nodup_iff.2 hF) fun k hk => hsF k (hfsP.mem_iff.1 hk))
  -- the arc of the file
  obtain ⟨l, hl, hvl⟩ := huv
  have hul : (u, l) ∈ es := Dict.get?_mem (by rw [hEg]; exact hl)
  have hul' : (Scalar.str (keyText fl u), l) ∈ es' := List.mem_map.2 ⟨(u, l), hul, rfl⟩
  have hget : Dict.get? es' (Scalar.str (keyText fl u)) = some l := Dict.get?_of_mem hkn hul'
  have hvint : IsInt v := hch u v ⟨l, hl, hvl⟩
  -- the queue loop fails as soon as an integer is waiting
  have bfs : ∀ (fuel : ℕ) (q vis : List Scalar), q.length + pend es' vis ≤ fuel → (∀ x ∈ vis, x ∈ es'.keys) →
      ((∃ x ∈ q, x ∉ es'.keys) ∨ (Scalar.str (keyText fl u) ∈ q ∧ Scalar.str (keyText fl u) ∉ vis)) →
      bfsLoop es' fuel q vis = .error .keyError := by
    intro fuel
    induction fuel with
    | zero =>
      intro q vis hf _ hq
      cases q with
      | nil => rcases hq with ⟨x, hx, _⟩ | ⟨hx, _⟩ <;> cases hx
      | cons => simp at hf
    | succ fuel ih =>
      intro q vis hf hvis hq
      cases q with
      | nil => rcases hq with ⟨x, hx, _⟩ | ⟨hx, _⟩ <;> cases hx
      | cons x q =>
        rw [bfsLoop]
        by_cases hx : x ∈ vis
        · rw [if_pos hx]
          apply ih q vis (by simp at hf; omega) hvis
          rcases hq with ⟨y, hy, hyk⟩ | ⟨hy, hyv⟩
          · rcases List.mem_cons.1 hy with rfl | hy
            · exact absurd (hvis _ hx) hyk
            · exact .inl ⟨y, hy, hyk⟩
          · rcases List.mem_cons.1 hy with rfl | hy
            · exact absurd hx hyv
            · exact .inr ⟨hy, hyv⟩
        · rw [if_neg hx]
          by_cases hxk : x ∈ es'.keys
          · obtain ⟨c, hc⟩ := get_of_mem_keys hxk
            rw [Dict.get_of_get? hc, Py.bind_ok]
            apply ih
            · have := pend_step hc hx; simp at hf ⊢; omega
            · intro y hy
              rcases List.mem_append.1 hy with hy | hy
              · exact hvis y hy
              · simp at hy; subst hy; exact hxk
            · rcases hq with ⟨y, hy, hyk⟩ | ⟨hy, hyv⟩
              · rcases List.mem_cons.1 hy with rfl | hy
                · exact absurd hxk hyk
                · exact .inl ⟨y, by simp [hy], hyk⟩
              · by_cases hxu : Scalar.str (keyText fl u) = x
                · subst hxu
                  rw [hget] at hc; cases hc
                  refine .inl ⟨v, by simp [hvl], fun hk => ?_⟩
                  obtain ⟨s, hs⟩ := hks v hk
                  obtain ⟨i, hi⟩ := hvint
                  rw [hs] at hi; cases hi
                · rcases List.mem_cons.1 hy with hy | hy
                  · exact absurd hy hxu
                  · refine .inr ⟨by simp [hy], ?_⟩
                    simp [hyv, hxu]
          · have : Dict.get? es' x = none := by rw [Dict.mem_keys_iff] at hxk; simpa using hxk
            rw [Dict.get_of_none this]; rfl
  refine ⟨(Json.obj [("V", jList bn.V), ("E", .obj (es.map fun kv => (keyText fl kv.1, jList kv.2))),
      ("F", .obj (fs.map fun kv => (keyText fl kv.1, jNode kv.2)))]).toks, ?_, ?_⟩
  · unfold writeBn toJson
    simp only [e1, f1, Py.bind_ok]; rfl
  · obtain ⟨q, hq, _, hqm⟩ := initQueue_none h' hkn
    have htop : topsort h' es' none = .error .keyError := by
      unfold topsort
      rw [hq, Py.bind_ok]
      apply bfs _ _ _ (by rw [pend_nil]; exact Nat.le_refl _) (by simp)
      refine .inr ⟨(hqm _).2 ⟨Dict.mem_keys_iff.2 (by rw [hget]; rfl), fun w hw => ?_⟩, by simp⟩
      obtain ⟨i, hi⟩ := hchild w _ hw
      cases hi
    unfold readBn
    rw [Json.loads_toks]
    simp only [hdoc, Py.bind_ok, htop]; rfl

/-- C86: the write is not atomic.  Whatever state short of completion a crash leaves the file in, the old contents are gone and `read_bn`
returns the empty network instead of raising. -/
theorem C86_crash (fl : ℚ → String) (h h' : HashOrder Scalar) (bn : BayesNet Scalar Scalar) (states : List (List Tok))
    (hw : writeStates fl h bn = .ok states) :
    ∃ file, writeBn fl h bn = .ok file ∧ states.head? = some [] ∧ states.getLast? = some file ∧
      ∀ s ∈ states, s ≠ file → ∃ bn', readBn h' s = .ok bn' ∧ bn'.V = [] ∧ bn'.E = [] ∧ bn'.F = [] := by
  unfold writeStates at hw
  cases hf : writeBn fl h bn with
  | error => rw [hf] at hw; cases hw
  | ok ts =>
    rw [hf] at hw
    simp only [Py.bind_ok] at hw
    cases hw
    refine ⟨ts, rfl, by simp [List.range_succ_eq_map], by simp [List.range_succ], fun s hs hne => ?_⟩
    obtain ⟨k, hk, rfl⟩ := List.mem_map.1 hs
    unfold writeBn toJson at hf
    cases he : items h bn.E with
    | error => rw [he] at hf; cases hf
    | ok es =>
      cases hg : items h bn.F with
      | error => rw [he, hg] at hf; cases hf
      | ok fs =>
        rw [he, hg] at hf
        simp only [Py.bind_ok] at hf
        have hts := Except.ok.inj hf
        have hsplit := List.take_append_drop k ts
        have hd : ts.drop k ≠ [] := fun hd => hne (by rw [hd, List.append_nil] at hsplit; exact hsplit)
        rw [← hts] at hsplit
        have := Json.loads_truncated _ (ts.take k) (ts.drop k) (by rw [← hts]; exact hsplit.symm) hd
        refine ⟨⟨[], [], []⟩, ?_, rfl, rfl, rfl⟩
        unfold readBn
        rw [this]
        have hn : h'.iter [] = [] := List.perm_nil.1 (h'.perm [])
        simp [topsort, initQueue, rootsLoop, Dict.keys, hn, bfsLoop, Py.bind_ok]

/-- Witness for C85: what a learning function returns for two columns. -/
example : readBn HashOrder.id (((writeBn (fun _ => "") HashOrder.id
    ⟨[.int 0, .int 1], [(.int 0, [.int 1]), (.int 1, [])], [(.int 0, ⟨[], [], []⟩), (.int 1, ⟨[.int 0], [], []⟩)]⟩)).toOption.getD []) |>.map (fun _ => ()) |> (· = .error .keyError) := by
  obtain ⟨file, h1, h2⟩ := C85_int_names (fun _ => "") HashOrder.id HashOrder.id
    ⟨[.int 0, .int 1], [(.int 0, [.int 1]), (.int 1, [])], [(.int 0, ⟨[], [], []⟩), (.int 1, ⟨[.int 0], [], []⟩)]⟩ (by decide) (by decide)
    (by intro k hk; simp [Dict.keys] at hk; rcases hk with rfl | rfl <;> exact ⟨_, rfl⟩)
    (by intro k hk; simp [Dict.keys] at hk; rcases hk with rfl | rfl <;> exact ⟨_, rfl⟩)
    (by
      rintro u v ⟨l, hl, hv⟩
      have hm := Dict.get?_mem hl
      simp only [List.mem_cons, Prod.mk.injEq, List.not_mem_nil, or_false] at hm
      rcases hm with ⟨rfl, rfl⟩ | ⟨rfl, rfl⟩
      · simp at hv; exact ⟨1, hv⟩
      · cases hv) (.int 0) (.int 1) ⟨[.int 1], by decide, by simp⟩
  rw [h1]
  show (readBn HashOrder.id file).map (fun _ => ()) = .error .keyError
  rw [h2]; rfl

/-- Witness for C86: the file of the two-node network goes through a number of states. -/
example : ∃ states, writeStates (fun _ => "") HashOrder.id exIO = .ok states ∧ states.length = 84 := by
  obtain ⟨x, h1, h2⟩ := Py.of_okAnd (m := writeStates (fun _ => "") HashOrder.id exIO) (p := fun l => decide (l.length = 84)) (by decide +kernel)
  exact ⟨x, h1, of_decide_eq_true h2⟩

end PyBN
