import Verif.Proofs.Edit
import Verif.Proofs.Net
import Verif.Props.Edit

/-!
# `set_structure` with object identity
-/

set_option linter.unusedSectionVars false

namespace PyBN

theorem Dict.map_set {K V W : Type _} [DecidableEq K] (f : V → W) (d : Dict K V) (k : K) (v : V) :
    (Dict.set d k v).map (fun kv => (kv.1, f kv.2)) = Dict.set (d.map fun kv => (kv.1, f kv.2)) k (f v) := by
  induction d with
  | nil => rfl
  | cons kv d ih =>
    obtain ⟨k', v'⟩ := kv
    unfold Dict.set
    simp only [List.map_cons]
    split_ifs
    · rfl
    · rw [List.map_cons, ih]

theorem Dict.nodup_map_set {K V W : Type _} [DecidableEq K] (g : V → W) (d : Dict K V) (k : K) (v : V)
    (hd : (d.map fun kv => g kv.2).Nodup) (hv : ∀ x ∈ d, g x.2 ≠ g v) : ((Dict.set d k v).map fun kv => g kv.2).Nodup := by
  induction d with
  | nil => simp [Dict.set]
  | cons kv d ih =>
    obtain ⟨k', v'⟩ := kv
    rw [List.map_cons, List.nodup_cons] at hd
    unfold Dict.set
    split_ifs
    · rw [List.map_cons, List.nodup_cons]
      refine ⟨?_, hd.2⟩
      intro hm
      obtain ⟨x, hx, e⟩ := List.mem_map.1 hm
      exact hv x (by simp [hx]) e
    · rw [List.map_cons, List.nodup_cons]
      refine ⟨?_, ih hd.2 fun x hx => hv x (by simp [hx])⟩
      intro hm
      obtain ⟨x, hx, e⟩ := List.mem_map.1 hm
      rcases Dict.mem_set hx with h | h
      · exact hd.1 (List.mem_map.2 ⟨x, h, e⟩)
      · rw [h] at e; exact hv (k', v') (by simp) e.symm

namespace HNet
variable {N A : Type _} [DecidableEq N] [DecidableEq A]

/-- The value-level loop body of `set_structure`. -/
def body (V : List N) (E : Dict N (List N)) (vd : Option (Dict N (List A))) (rv : N) : Py (N × NodeData N A) := do
  let ps ← BayesNet.parentList V E rv
  let vs ← BayesNet.valueList vd rv
  pure (rv, (⟨ps, vs, []⟩ : NodeData N A))

theorem seeE_ext {h h' : Heap N A} (e : Extends h h') {E : Dict N ℕ} (hE : ∀ kv ∈ E, kv.2 < h.names.length) :
    seeE h' E = seeE h E := by
  unfold seeE
  apply List.map_congr_left
  intro kv hkv
  rw [e.nm (hE kv hkv)]

theorem seeV_ext {h h' : Heap N A} (e : Extends h h') {d : Dict N ℕ} (hd : ∀ kv ∈ d, kv.2 < h.vals.length) :
    seeV h' d = seeV h d := by
  unfold seeV
  apply List.map_congr_left
  intro kv hkv
  rw [e.vl (hd kv hkv)]

theorem buildF_spec (V : List N) (E : Dict N ℕ) (vd : Option (Dict N ℕ)) : ∀ (rs : List N) (h : Heap N A) (F : Dict N HNode),
    (∀ kv ∈ E, kv.2 < h.names.length) → (∀ d ∈ vd, ∀ kv ∈ d, kv.2 < h.vals.length) →
    (∀ x ∈ F, x.2.parents < h.names.length ∧ x.2.vals < h.vals.length ∧ x.2.cpt < h.cpts.length) →
    (F.map fun kv => kv.2.parents).Nodup →
    (∀ e, pyMap (body V (seeE h E) (vd.map (seeV h))) rs = .error e → buildF V E vd rs h F = .error e) ∧
    (∀ l, pyMap (body V (seeE h E) (vd.map (seeV h))) rs = .ok l → ∃ h' F', buildF V E vd rs h F = .ok (h', F') ∧ Extends h h' ∧
      F'.map (fun kv => (kv.1, see h' kv.2)) = Dict.update (F.map fun kv => (kv.1, see h kv.2)) l ∧
      (F'.map fun kv => kv.2.parents).Nodup ∧
      (∀ x ∈ F', x ∈ F ∨ ((h.names.length ≤ x.2.parents ∧ x.2.parents < h'.names.length) ∧
        (h.cpts.length ≤ x.2.cpt ∧ x.2.cpt < h'.cpts.length) ∧
        ((vd = none ∧ h.vals.length ≤ x.2.vals ∧ x.2.vals < h'.vals.length) ∨ ∃ d, vd = some d ∧ Dict.get? d x.1 = some x.2.vals)))) := by
  intro rs
  induction rs with
  | nil =>
    intro h F _ _ _ hnd
    refine ⟨fun e he => (by cases he), fun l hl => ⟨h, F, rfl, Extends.refl h, ?_, hnd, fun x hx => .inl hx⟩⟩
    have : l = [] := by cases hl; rfl
    rw [this]; rfl
  | cons rv rs ih =>
    intro h F hE hvd hF hnd
    cases hp : BayesNet.parentList V (seeE h E) rv with
    | error e =>
      refine ⟨fun e' he' => ?_, fun l hl => ?_⟩
      · have : body V (seeE h E) (vd.map (seeV h)) rv = .error e := by unfold body; rw [hp]; rfl
        unfold pyMap at he'; rw [this] at he'
        unfold buildF; rw [hp]; cases he'; rfl
      · have : body V (seeE h E) (vd.map (seeV h)) rv = .error e := by unfold body; rw [hp]; rfl
        unfold pyMap at hl; rw [this] at hl; cases hl
    | ok ps =>
      -- the values
      have hval : (∃ e, valueRef h vd rv = .error e ∧ BayesNet.valueList (vd.map (seeV h)) rv = .error e) ∨
          ∃ va vs, valueRef h vd rv = .ok va ∧ BayesNet.valueList (vd.map (seeV h)) rv = .ok vs ∧
            (vd = none ∧ va = h.vals.length ∧ vs = [] ∨
              ∃ d, vd = some d ∧ Dict.get? d rv = some va ∧ va < h.vals.length ∧ vs = h.vl va) := by
        cases hv : vd with
        | none => exact .inr ⟨_, [], rfl, rfl, .inl ⟨rfl, rfl, rfl⟩⟩
        | some d =>
          simp only [valueRef, Option.map_some, BayesNet.valueList]
          have hg : Dict.get? (seeV h d) rv = (Dict.get? d rv).map h.vl := Dict.get?_mapv h.vl d rv
          cases hd : Dict.get? d rv with
          | none =>
            rw [hd] at hg
            exact .inl ⟨.keyError, Dict.get_of_none hd, Dict.get_of_none hg⟩
          | some a =>
            rw [hd] at hg
            refine .inr ⟨a, h.vl a, Dict.get_of_get? hd, Dict.get_of_get? hg, .inr ⟨d, rfl, hd, ?_, rfl⟩⟩
            exact hvd d (by rw [hv]; rfl) _ (Dict.get?_mem hd)
      rcases hval with ⟨e, q1, q2⟩ | ⟨va, vs, q1, q2, q3⟩
      · have hb : body V (seeE h E) (vd.map (seeV h)) rv = .error e := by unfold body; rw [hp, Py.bind_ok, q2]; rfl
        refine ⟨fun e' he' => ?_, fun l hl => ?_⟩
        · unfold pyMap at he'; rw [hb] at he'
          unfold buildF; rw [hp, Py.bind_ok, q1]; cases he'; rfl
        · unfold pyMap at hl; rw [hb] at hl; cases hl
      · have hb : body V (seeE h E) (vd.map (seeV h)) rv = .ok (rv, ⟨ps, vs, []⟩) := by
          unfold body; rw [hp, Py.bind_ok, q2]; rfl
        set h1 : Heap N A := ⟨h.names ++ [ps], h.vals ++ [[]], h.cpts ++ [[]]⟩ with hh1
        have e1 : Extends h h1 := ⟨⟨_, rfl⟩, ⟨_, rfl⟩, ⟨_, rfl⟩⟩
        have l1 : h1.names.length = h.names.length + 1 := by simp [hh1]
        have l2 : h1.vals.length = h.vals.length + 1 := by simp [hh1]
        have l3 : h1.cpts.length = h.cpts.length + 1 := by simp [hh1]
        have hva : va < h1.vals.length := by
          rcases q3 with ⟨_, h1, _⟩ | ⟨_, _, _, h1, _⟩ <;> omega
        have hseenew : see h1 ⟨h.names.length, va, h.cpts.length⟩ = ⟨ps, vs, []⟩ := by
          unfold see
          have hv : h1.vl va = vs := by
            rcases q3 with ⟨_, r1, r2⟩ | ⟨_, _, _, r1, r2⟩
            · rw [r1, r2]; simp [hh1, Heap.vl]
            · rw [e1.vl r1, r2]
          simp only [hv]
          simp [hh1, Heap.nm, Heap.ct]
        have hseeF : F.map (fun kv => (kv.1, see h1 kv.2)) = F.map fun kv => (kv.1, see h kv.2) := by
          apply List.map_congr_left
          intro x hx
          obtain ⟨a1, a2, a3⟩ := hF x hx
          unfold see; rw [e1.nm a1, e1.vl a2, e1.ct a3]
        obtain ⟨ihe, iho⟩ := ih h1 (F.set rv ⟨h.names.length, va, h.cpts.length⟩)
          (fun kv hkv => by have := hE kv hkv; omega) (fun d hd kv hkv => by have := hvd d hd kv hkv; omega)
          (fun x hx => by
            rcases Dict.mem_set hx with h | h
            · have := hF x h; omega
            · rw [h]; simp only; omega)
          (Dict.nodup_map_set (fun d : HNode => d.parents) F _ _ hnd fun x hx => by have := (hF x hx).1; simp only; omega)
        have hbody : body V (seeE h1 E) (vd.map (seeV h1)) = body V (seeE h E) (vd.map (seeV h)) := by
          rw [seeE_ext e1 hE]
          congr 1
          cases hv : vd with
          | none => rfl
          | some d => simp only [Option.map_some]; rw [seeV_ext e1 (hvd d (by rw [hv]; rfl))]
        rw [hbody] at ihe iho
        have hbf : buildF V E vd (rv :: rs) h F = buildF V E vd rs h1 (F.set rv ⟨h.names.length, va, h.cpts.length⟩) := by
          conv_lhs => unfold buildF
          rw [hp, Py.bind_ok, q1, Py.bind_ok]
        refine ⟨fun e he => ?_, fun l hl => ?_⟩
        · rw [hbf]
          apply ihe
          unfold pyMap at he
          rw [hb, Py.bind_ok] at he
          cases hr : pyMap (body V (seeE h E) (vd.map (seeV h))) rs with
          | error e' => rw [hr] at he; exact he
          | ok l' => rw [hr] at he; cases he
        · unfold pyMap at hl
          rw [hb, Py.bind_ok] at hl
          cases hr : pyMap (body V (seeE h E) (vd.map (seeV h))) rs with
          | error e' => rw [hr] at hl; cases hl
          | ok l' =>
            rw [hr] at hl
            have : l = (rv, ⟨ps, vs, []⟩) :: l' := by cases hl; rfl
            obtain ⟨h', F', r1, r2, r3, r4, r5⟩ := iho l' hr
            have k1 := r2.lenN; have k2 := r2.lenV; have k3 := r2.lenC
            refine ⟨h', F', by rw [hbf, r1], e1.trans r2, ?_, r4, ?_⟩
            · rw [r3, Dict.map_set (see h1), hseenew, hseeF, this]; rfl
            · intro x hx
              rcases r5 x hx with hx | ⟨a1, a2, a3⟩
              · rcases Dict.mem_set hx with hx | hx
                · exact .inl hx
                · right
                  rw [hx]
                  simp only
                  refine ⟨by omega, by omega, ?_⟩
                  rcases q3 with ⟨b1, b2, _⟩ | ⟨d, b1, b2, _⟩
                  · exact .inl ⟨b1, by omega, by omega⟩
                  · exact .inr ⟨d, b1, b2⟩
              · right
                refine ⟨by omega, by omega, ?_⟩
                rcases a3 with ⟨b1, b2, b3⟩ | a3
                · exact .inl ⟨b1, by omega, b3⟩
                · exact .inr a3

/-- `set_structure` with identity refines the value-level model and makes its own lists. -/
theorem setStructureH_spec (hO : HashOrder N) (h : Heap N A) (E : Dict N ℕ) (vd : Option (Dict N ℕ))
    (hE : ∀ kv ∈ E, kv.2 < h.names.length) (hvd : ∀ d ∈ vd, ∀ kv ∈ d, kv.2 < h.vals.length) :
    (∀ e, BayesNet.setStructure hO (seeE h E) (vd.map (seeV h)) = .error e → setStructureH hO h E vd = .error e) ∧
    (∀ bn, BayesNet.setStructure hO (seeE h E) (vd.map (seeV h)) = .ok bn → ∃ h' b, setStructureH hO h E vd = .ok (h', b) ∧
      Extends h h' ∧ deref h' b = bn ∧ b.E = E ∧ (b.V = h.names.length ∧ b.V < h'.names.length) ∧
      (b.F.map fun kv => kv.2.parents).Nodup ∧
      (∀ x ∈ b.F, (h.names.length < x.2.parents ∧ x.2.parents < h'.names.length) ∧
        (h.cpts.length ≤ x.2.cpt ∧ x.2.cpt < h'.cpts.length) ∧
        ((vd = none ∧ h.vals.length ≤ x.2.vals ∧ x.2.vals < h'.vals.length) ∨ ∃ d, vd = some d ∧ Dict.get? d x.1 = some x.2.vals))) := by
  have hss : BayesNet.setStructure hO (seeE h E) (vd.map (seeV h)) = (do
      let V ← topsort hO (seeE h E) none
      let F ← pyMap (body V (seeE h E) (vd.map (seeV h))) V
      pure ⟨V, seeE h E, Dict.ofPairs F⟩) := rfl
  rw [hss]
  unfold setStructureH
  cases hV : topsort hO (seeE h E) none with
  | error e => exact ⟨fun e' he' => (by cases he'; rfl), fun bn hbn => (by cases hbn)⟩
  | ok V =>
    rw [Py.bind_ok, Py.bind_ok]
    set h1 : Heap N A := { h with names := h.names ++ [V] } with hh1
    have e1 : Extends h h1 := ⟨⟨_, rfl⟩, ⟨[], by simp [hh1]⟩, ⟨[], by simp [hh1]⟩⟩
    have l1 : h1.names.length = h.names.length + 1 := by simp [hh1]
    have l2 : h1.vals.length = h.vals.length := by simp [hh1]
    have l3 : h1.cpts.length = h.cpts.length := by simp [hh1]
    have hbody : body V (seeE h1 E) (vd.map (seeV h1)) = body V (seeE h E) (vd.map (seeV h)) := by
      rw [seeE_ext e1 hE]
      rfl
    obtain ⟨se, so⟩ := buildF_spec V E vd V h1 [] (fun kv hkv => by have := hE kv hkv; omega)
      (fun d hd kv hkv => by have := hvd d hd kv hkv; omega) (by simp) (by simp)
    rw [hbody] at se so
    cases hF : pyMap (body V (seeE h E) (vd.map (seeV h))) V with
    | error e =>
      refine ⟨fun e' he' => ?_, fun bn hbn => (by cases hbn)⟩
      rw [se e hF]; cases he'; rfl
    | ok l =>
      refine ⟨fun e' he' => (by cases he'), fun bn hbn => ?_⟩
      have hbn' : bn = ⟨V, seeE h E, Dict.ofPairs l⟩ := by cases hbn; rfl
      obtain ⟨h', F', r1, r2, r3, r4, r5⟩ := so l hF
      have k1 := r2.lenN; have k2 := r2.lenV; have k3 := r2.lenC
      refine ⟨h', ⟨h.names.length, E, F'⟩, by rw [r1]; rfl, e1.trans r2, ?_, rfl, ⟨rfl, by simp only; omega⟩, r4, ?_⟩
      · rw [hbn']
        unfold deref
        congr 1
        · show h'.nm h.names.length = V
          rw [r2.nm (by omega)]; simp [hh1, Heap.nm]
        · exact seeE_ext (e1.trans r2) hE
      · intro x hx
        rcases r5 x hx with hx | ⟨a1, a2, a3⟩
        · cases hx
        · refine ⟨by omega, by omega, ?_⟩
          rcases a3 with ⟨b1, b2, b3⟩ | a3
          · exact .inl ⟨b1, by omega, b3⟩
          · exact .inr a3

/-- Operations keep the references to the node list and to the children lists. -/
theorem step_VE (h : Heap N A) (b : HNet N) (o : Op N A) : (step h b o).1.2.V = b.V ∧ (step h b o).1.2.E = b.E := by
  cases o with
  | addNode rv => exact ⟨rfl, rfl⟩
  | addEdge u v =>
    have hen : ∀ (h : Heap N A) (b : HNet N) rv, (ensureNode h b rv).2.V = b.V ∧ (ensureNode h b rv).2.E = b.E := by
      intro h b rv; unfold ensureNode; split_ifs <;> exact ⟨rfl, rfl⟩
    have hl : ∀ (h : Heap N A) (b : HNet N), (linkEdge h b u v).1.2 = b := by
      intro h b; unfold linkEdge
      cases Dict.get? b.E u with
      | none => rfl
      | some a =>
        simp only
        split_ifs
        · rfl
        · cases Dict.get? b.F v <;> rfl
    show (addEdge h b u v).1.2.V = b.V ∧ (addEdge h b u v).1.2.E = b.E
    unfold addEdge
    simp only [hl]
    obtain ⟨a1, a2⟩ := hen h b u
    obtain ⟨c1, c2⟩ := hen (ensureNode h b u).1 (ensureNode h b u).2 v
    exact ⟨c1.trans a1, c2.trans a2⟩
  | removeEdge u v =>
    show (removeEdge h b u v).1.2.V = b.V ∧ (removeEdge h b u v).1.2.E = b.E
    unfold removeEdge
    cases Dict.get? b.E u with
    | none => exact ⟨rfl, rfl⟩
    | some a =>
      simp only
      split_ifs
      · cases Dict.get? b.F v with
        | none => exact ⟨rfl, rfl⟩
        | some d => simp only; split_ifs <;> exact ⟨rfl, rfl⟩
      · exact ⟨rfl, rfl⟩
  | reverseArc u v =>
    show (reverseArc h b u v).1.2.V = b.V ∧ (reverseArc h b u v).1.2.E = b.E
    unfold reverseArc
    cases Dict.get? b.E u with
    | none => exact ⟨rfl, rfl⟩
    | some a =>
      simp only
      split_ifs
      · cases Dict.get? b.E v <;> exact ⟨rfl, rfl⟩
      · exact ⟨rfl, rfl⟩
  | setCpt rv l =>
    show (setCpt h b rv l).1.2.V = b.V ∧ (setCpt h b rv l).1.2.E = b.E
    unfold setCpt; cases Dict.get? b.F rv <;> exact ⟨rfl, rfl⟩
  | setParents rv l =>
    show (setParents h b rv l).1.2.V = b.V ∧ (setParents h b rv l).1.2.E = b.E
    unfold setParents; cases Dict.get? b.F rv <;> exact ⟨rfl, rfl⟩
  | setValues rv l =>
    show (setValues h b rv l).1.2.V = b.V ∧ (setValues h b rv l).1.2.E = b.E
    unfold setValues; cases Dict.get? b.F rv <;> exact ⟨rfl, rfl⟩
  | pokeV l => exact ⟨rfl, rfl⟩
  | pokeChildren u l => simp only [step]; cases Dict.get? b.E u <;> exact ⟨rfl, rfl⟩
  | pokeParents u l => simp only [step]; cases Dict.get? b.F u <;> exact ⟨rfl, rfl⟩
  | pokeValues u l => simp only [step]; cases Dict.get? b.F u <;> exact ⟨rfl, rfl⟩
  | pokeCpt u l => simp only [step]; cases Dict.get? b.F u <;> exact ⟨rfl, rfl⟩

end HNet
end PyBN

namespace PyBN.HNet
variable {N A : Type _} [DecidableEq N] [DecidableEq A]

/-- The lists of names that belong to the network alone: the node list and the lists of parents. -/
def own (b : HNet N) : List ℕ := b.V :: b.F.map fun kv => kv.2.parents

theorem own_sub {b : HNet N} {a : ℕ} (h : a ∈ b.own) : a ∈ b.nAddr := by
  simp only [own, nAddr, List.mem_cons, List.mem_append] at h ⊢
  tauto

theorem mem_nAddr_iff {b : HNet N} {a : ℕ} : a ∈ b.nAddr ↔ a ∈ b.own ∨ a ∈ b.E.map Prod.snd := by
  simp only [own, nAddr, List.mem_cons, List.mem_append]
  tauto

theorem own_setF {b : HNet N} {rv : N} {d : HNode} {a : ℕ} (h : a ∈ ({ b with F := b.F.set rv d } : HNet N).own) :
    a ∈ b.own ∨ a = d.parents := by
  simp only [own, List.mem_cons, List.mem_map] at h ⊢
  rcases h with h | ⟨x, hx, rfl⟩
  · exact .inl (.inl h)
  · rcases Dict.mem_set hx with h | h
    · exact .inl (.inr ⟨x, h, rfl⟩)
    · rw [h]; exact .inr rfl

/-- An operation gives the network only new lists (or the default lists) of its own. -/
theorem step_own (h : Heap N A) (b : HNet N) (o : Op N A) :
    ∀ a ∈ (step h b o).1.2.own, a ∈ b.own ∨ h.names.length ≤ a ∨ (Creates h b o ∧ a = 0) := by
  intro a ha
  cases o with
  | addNode rv =>
    rcases own_setF (b := b) ha with h | h
    exacts [.inl h, .inr (.inr ⟨trivial, h⟩)]
  | addEdge u v =>
    have hen : ∀ (h : Heap N A) (b : HNet N) rv, ∀ a ∈ (ensureNode h b rv).2.own, a ∈ b.own ∨ (rv ∉ h.nm b.V ∧ a = 0) := by
      intro h b rv a ha
      unfold ensureNode at ha
      split_ifs at ha with hin
      · exact .inl ha
      · rcases own_setF (b := b) ha with h | h
        exacts [.inl h, .inr ⟨hin, h⟩]
    have hl : ∀ (h : Heap N A) (b : HNet N), (linkEdge h b u v).1.2 = b := by
      intro h b; unfold linkEdge
      cases Dict.get? b.E u with
      | none => rfl
      | some a =>
        simp only
        split_ifs
        · rfl
        · cases Dict.get? b.F v <;> rfl
    have ha' : a ∈ (ensureNode (ensureNode h b u).1 (ensureNode h b u).2 v).2.own := by
      have : (step h b (.addEdge u v)).1.2 = (ensureNode (ensureNode h b u).1 (ensureNode h b u).2 v).2 := by
        show (addEdge h b u v).1.2 = _
        unfold addEdge
        simp only [hl]
      rwa [this] at ha
    rcases hen _ _ v a ha' with h1 | ⟨h1, h2⟩
    · rcases hen _ _ u a h1 with h3 | ⟨h3, h4⟩
      · exact .inl h3
      · exact .inr (.inr ⟨.inl h3, h4⟩)
    · refine .inr (.inr ⟨?_, h2⟩)
      by_cases hu : u ∈ h.nm b.V
      · right
        have : ensureNode h b u = (h, b) := if_pos hu
        rwa [this] at h1
      · exact .inl hu
  | removeEdge u v =>
    have : (step h b (.removeEdge u v)).1.2 = b := by
      show (removeEdge h b u v).1.2 = b
      unfold removeEdge
      cases Dict.get? b.E u with
      | none => rfl
      | some a =>
        simp only
        split_ifs
        · cases Dict.get? b.F v with
          | none => rfl
          | some d => simp only; split_ifs <;> rfl
        · rfl
    rw [this] at ha; exact .inl ha
  | reverseArc u v =>
    have : (step h b (.reverseArc u v)).1.2 = b := by
      show (reverseArc h b u v).1.2 = b
      unfold reverseArc
      cases Dict.get? b.E u with
      | none => rfl
      | some a =>
        simp only
        split_ifs
        · cases Dict.get? b.E v <;> rfl
        · rfl
    rw [this] at ha; exact .inl ha
  | setCpt rv l =>
    simp only [step, setCpt] at ha
    cases hd : Dict.get? b.F rv with
    | none => rw [hd] at ha; exact .inl ha
    | some d =>
      rw [hd] at ha
      rcases own_setF (b := b) ha with h | h
      · exact .inl h
      · left; rw [h]; simp only [own, List.mem_cons, List.mem_map]
        exact .inr ⟨_, Dict.get?_mem hd, rfl⟩
  | setParents rv l =>
    simp only [step, setParents] at ha
    cases hd : Dict.get? b.F rv with
    | none => rw [hd] at ha; exact .inl ha
    | some d =>
      rw [hd] at ha
      rcases own_setF (b := b) ha with h | h
      · exact .inl h
      · right; left; rw [h]
  | setValues rv l =>
    simp only [step, setValues] at ha
    cases hd : Dict.get? b.F rv with
    | none => rw [hd] at ha; exact .inl ha
    | some d =>
      rw [hd] at ha
      rcases own_setF (b := b) ha with h | h
      · exact .inl h
      · left; rw [h]; simp only [own, List.mem_cons, List.mem_map]
        exact .inr ⟨_, Dict.get?_mem hd, rfl⟩
  | pokeV l => exact .inl ha
  | pokeChildren u l => simp only [step] at ha; cases hd : Dict.get? b.E u <;> rw [hd] at ha <;> exact .inl ha
  | pokeParents u l => simp only [step] at ha; cases hd : Dict.get? b.F u <;> rw [hd] at ha <;> exact .inl ha
  | pokeValues u l => simp only [step] at ha; cases hd : Dict.get? b.F u <;> rw [hd] at ha <;> exact .inl ha
  | pokeCpt u l => simp only [step] at ha; cases hd : Dict.get? b.F u <;> rw [hd] at ha <;> exact .inl ha

/-- Two networks that hold the same edge dictionary and share nothing else (`sv`: nor their lists of values). -/
structure Twins (sv : Prop) (h : Heap N A) (b c : HNet N) : Prop where
  ib : InBounds h b
  ic : InBounds h c
  e : b.E = c.E
  ob : ∀ a ∈ b.own, a ∉ c.nAddr
  oc : ∀ a ∈ c.own, a ∉ b.nAddr
  v : sv → ∀ a ∈ b.vAddr, a ∉ c.vAddr
  c : ∀ a ∈ b.cAddr, a ∉ c.cAddr

theorem Twins.symm {sv : Prop} {h : Heap N A} {b c : HNet N} (t : Twins sv h b c) : Twins sv h c b :=
  ⟨t.ic, t.ib, t.e.symm, t.oc, t.ob, fun s a h1 h2 => t.v s a h2 h1, fun a h1 h2 => t.c a h2 h1⟩

theorem Twins.step {sv : Prop} {h : Heap N A} {b c : HNet N} (t : Twins sv h b c) (o : Op N A) (hnd : Creates h b o → c.NoDefault) :
    Twins sv (step h b o).1.1 (step h b o).1.2 c := by
  have f := step_frame h b o
  have hE := (step_VE h b o).2
  refine ⟨frame_inBounds f t.ib, frame_inBounds_other f t.ic, hE.trans t.e, ?_, ?_, ?_, ?_⟩
  · intro a ha hac
    rcases step_own h b o a ha with h1 | h1 | ⟨h1, h2⟩
    · exact t.ob a h1 hac
    · have := t.ic.n a hac; omega
    · exact (hnd h1).1 (h2 ▸ hac)
  · intro a ha hab
    rcases mem_nAddr_iff.1 hab with h1 | h1
    · rcases step_own h b o a h1 with h1 | h1 | ⟨h1, h2⟩
      · exact t.oc a ha (own_sub h1)
      · have := t.ic.n a (own_sub ha); omega
      · exact (hnd h1).1 (h2 ▸ own_sub ha)
    · rw [hE] at h1
      exact t.oc a ha (mem_nAddr_iff.2 (.inr h1))
  · intro s a ha hac
    rcases f.vA a ha with h | h | ⟨h, h'⟩
    · exact t.v s a h hac
    · have := t.ic.v a hac; omega
    · exact (hnd h).2.1 (h' ▸ hac)
  · intro a ha hac
    rcases f.cA a ha with h | h | ⟨h, h'⟩
    · exact t.c a h hac
    · have := t.ic.c a hac; omega
    · exact (hnd h).2.2 (h' ▸ hac)

/-- What the operation on `b` leaves alone in `c`. -/
theorem Twins.unchanged {sv : Prop} {h : Heap N A} {b c : HNet N} (t : Twins sv h b c) (o : Op N A)
    (hnd : Creates h b o → c.NoDefault) :
    (deref (HNet.step h b o).1.1 c).V = (deref h c).V ∧
    (∀ v, (deref (HNet.step h b o).1.1 c).parentsOf v = (deref h c).parentsOf v) ∧
    (∀ v, (deref (HNet.step h b o).1.1 c).cptOf v = (deref h c).cptOf v) ∧
    (sv → ∀ v, (deref (HNet.step h b o).1.1 c).valuesOf v = (deref h c).valuesOf v) := by
  have f := step_frame h b o
  have hn : ∀ a ∈ c.own, (HNet.step h b o).1.1.nm a = h.nm a := fun a ha =>
    f.nm a (t.ic.n a (own_sub ha)) (t.oc a ha) fun hcr h0 => (hnd hcr).1 (h0 ▸ own_sub ha)
  refine ⟨hn _ (by simp [own]), fun v => ?_, fun v => ?_, fun s v => ?_⟩
  · rw [parentsOf_deref, parentsOf_deref]
    cases hd : Dict.get? c.F v with
    | none => rfl
    | some d =>
      exact hn _ (by simp only [own, List.mem_cons, List.mem_map]; exact .inr ⟨_, Dict.get?_mem hd, rfl⟩)
  · unfold BayesNet.cptOf
    rw [getF_deref, getF_deref]
    cases hd : Dict.get? c.F v with
    | none => rfl
    | some d =>
      have ha := mem_cAddr hd
      exact f.ct _ (t.ic.c _ ha) (fun h => t.c _ h ha) fun hcr h0 => (hnd hcr).2.2 (h0 ▸ ha)
  · unfold BayesNet.valuesOf
    rw [getF_deref, getF_deref]
    cases hd : Dict.get? c.F v with
    | none => rfl
    | some d =>
      have ha := mem_vAddr hd
      exact f.vl _ (t.ic.v _ ha) (fun h => t.v s _ h ha) fun hcr h0 => (hnd hcr).2.1 (h0 ▸ ha)

theorem Twins.reach {sv : Prop} {h k : Heap N A} {b c b1 c1 : HNet N} (t : Twins sv h b c) (hr : Interleave h b c k b1 c1) :
    Twins sv k b1 c1 := by
  induction hr with
  | start => exact t
  | left o _ hnd ih => exact ih.step o hnd
  | right o _ hnd ih => exact (ih.symm.step o hnd).symm

/-- Own lists stay away from the caller's lists. -/
theorem run_own (os : List (Op N A)) : ∀ (h : Heap N A) (b : HNet N), InBounds h b → (∀ kv ∈ b.E, 0 < kv.2) →
    (∀ a ∈ b.own, a ∉ b.E.map Prod.snd) →
    InBounds (run h b os).1 (run h b os).2 ∧ (run h b os).2.E = b.E ∧ (run h b os).2.V = b.V ∧
    (∀ a ∈ (run h b os).2.own, a ∉ b.E.map Prod.snd) ∧ h.names.length ≤ (run h b os).1.names.length ∧
    h.vals.length ≤ (run h b os).1.vals.length := by
  induction os with
  | nil => intro h b hb _ ho; exact ⟨hb, rfl, rfl, ho, le_refl _, le_refl _⟩
  | cons o os ih =>
    intro h b hb h0 ho
    have f := step_frame h b o
    obtain ⟨hV, hE⟩ := step_VE h b o
    obtain ⟨i1, i2, i3, i4, i5, i6⟩ := ih (HNet.step h b o).1.1 (HNet.step h b o).1.2 (frame_inBounds f hb) (by rw [hE]; exact h0) (by
      intro a ha hm
      rw [hE] at hm
      rcases step_own h b o a ha with h1 | h1 | ⟨_, h1⟩
      · exact ho a h1 hm
      · have := hb.n a (mem_nAddr_iff.2 (.inr hm)); omega
      · obtain ⟨kv, hkv, e⟩ := List.mem_map.1 hm
        have := h0 kv hkv; omega)
    have := f.lenN; have := f.lenV
    refine ⟨i1, i2.trans hE, i3.trans hV, ?_, ?_, ?_⟩
    · rw [hE] at i4; exact i4
    · exact le_trans f.lenN i5
    · exact le_trans f.lenV i6

end PyBN.HNet
