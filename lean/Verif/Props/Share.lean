import Verif.Proofs.Share
import Verif.Props.Net

/-!
# C157 - C159: who owns the lists of a network built from an edge dictionary
-/

set_option linter.unusedSectionVars false

namespace PyBN
open HNet
variable {N A : Type _} [DecidableEq N] [DecidableEq A]

/-- The caller's dictionaries refer to existing list objects, none of which is a default argument of `add_node`. -/
structure Callers (h : Heap N A) (E : Dict N ℕ) (vd : Option (Dict N ℕ)) : Prop where
  e : ∀ kv ∈ E, 0 < kv.2 ∧ kv.2 < h.names.length
  v : ∀ d ∈ vd, ∀ kv ∈ d, 0 < kv.2 ∧ kv.2 < h.vals.length
  n0 : 0 < h.names.length
  v0 : 0 < h.vals.length
  c0 : 0 < h.cpts.length

theorem built_facts {hO : HashOrder N} {h h' : Heap N A} {E : Dict N ℕ} {vd : Option (Dict N ℕ)} {b : HNet N} (hc : Callers h E vd)
    (hr : setStructureH hO h E vd = .ok (h', b)) :
    Extends h h' ∧ BayesNet.setStructure hO (seeE h E) (vd.map (seeV h)) = .ok (deref h' b) ∧ b.E = E ∧
      (b.V = h.names.length ∧ b.V < h'.names.length) ∧ (b.F.map fun kv => kv.2.parents).Nodup ∧
      (∀ x ∈ b.F, (h.names.length < x.2.parents ∧ x.2.parents < h'.names.length) ∧
        (h.cpts.length ≤ x.2.cpt ∧ x.2.cpt < h'.cpts.length) ∧
        ((vd = none ∧ h.vals.length ≤ x.2.vals ∧ x.2.vals < h'.vals.length) ∨ ∃ d, vd = some d ∧ Dict.get? d x.1 = some x.2.vals)) := by
  obtain ⟨s1, s2⟩ := setStructureH_spec hO h E vd (fun kv hkv => (hc.e kv hkv).2) fun d hd kv hkv => (hc.v d hd kv hkv).2
  cases hs : BayesNet.setStructure hO (seeE h E) (vd.map (seeV h)) with
  | error e => rw [s1 e hs] at hr; cases hr
  | ok bn =>
    obtain ⟨h2, b2, r1, r2, r3, r4⟩ := s2 bn hs
    rw [r1] at hr
    cases hr
    rw [r3]
    exact ⟨r2, rfl, r4⟩

theorem built_inBounds {hO : HashOrder N} {h h' : Heap N A} {E : Dict N ℕ} {vd : Option (Dict N ℕ)} {b : HNet N} (hc : Callers h E vd)
    (hr : setStructureH hO h E vd = .ok (h', b)) : InBounds h' b ∧ b.NoDefault := by
  obtain ⟨r1, _, r3, r4, _, r6⟩ := built_facts hc hr
  have k1 := r1.lenN; have k2 := r1.lenV; have k3 := r1.lenC
  have z1 := hc.n0; have z2 := hc.v0; have z3 := hc.c0
  have hn : ∀ a ∈ b.nAddr, 0 < a ∧ a < h'.names.length := by
    intro a ha
    rcases mem_nAddr_iff.1 ha with h1 | h1
    · rcases List.mem_cons.1 h1 with h2 | h2
      · rw [h2]; omega
      · obtain ⟨x, hx, rfl⟩ := List.mem_map.1 h2
        have := (r6 x hx).1; omega
    · rw [r3] at h1
      obtain ⟨x, hx, rfl⟩ := List.mem_map.1 h1
      have := hc.e x hx; omega
  have hv : ∀ a ∈ b.vAddr, 0 < a ∧ a < h'.vals.length := by
    intro a ha
    obtain ⟨x, hx, rfl⟩ := List.mem_map.1 ha
    rcases (r6 x hx).2.2 with ⟨_, h1⟩ | ⟨d, h1, h2⟩
    · omega
    · have := hc.v d (by rw [h1]; rfl) _ (Dict.get?_mem h2); simp only at this ⊢; omega
  have hcc : ∀ a ∈ b.cAddr, 0 < a ∧ a < h'.cpts.length := by
    intro a ha
    obtain ⟨x, hx, rfl⟩ := List.mem_map.1 ha
    have := (r6 x hx).2.1; omega
  exact ⟨⟨fun a ha => (hn a ha).2, fun a ha => (hv a ha).2, fun a ha => (hcc a ha).2, by omega, by omega, by omega⟩,
    fun h => absurd (hn 0 h).1 (by omega), fun h => absurd (hv 0 h).1 (by omega), fun h => absurd (hcc 0 h).1 (by omega)⟩

/-- C157: `BayesNet(E, value_dict)` with object identity.  It raises exactly what the value-level constructor raises; otherwise a reader
of the new network sees the value-level result, nothing that existed before is changed, the network's children dictionary *is* the
caller's `E`, its lists of values *are* the caller's, and its node list, lists of parents and tables are new objects, all different. -/
theorem C157_constructor_identity (hO : HashOrder N) (h : Heap N A) (E : Dict N ℕ) (vd : Option (Dict N ℕ)) (hc : Callers h E vd) :
    (∀ e, BayesNet.setStructure hO (seeE h E) (vd.map (seeV h)) = .error e → setStructureH hO h E vd = .error e) ∧
    (∀ bn, BayesNet.setStructure hO (seeE h E) (vd.map (seeV h)) = .ok bn → ∃ h' b, setStructureH hO h E vd = .ok (h', b) ∧
      deref h' b = bn ∧
      ((∀ a < h.names.length, h'.nm a = h.nm a) ∧ (∀ a < h.vals.length, h'.vl a = h.vl a) ∧ ∀ a < h.cpts.length, h'.ct a = h.ct a) ∧
      b.E = E ∧ (∀ d, vd = some d → ∀ v n, b.F.get? v = some n → d.get? v = some n.vals) ∧
      h.names.length ≤ b.V ∧ (∀ v n, b.F.get? v = some n → h.names.length ≤ n.parents ∧ n.parents ≠ b.V ∧ h.cpts.length ≤ n.cpt ∧
        (vd = none → h.vals.length ≤ n.vals)) ∧
      (∀ u v m n, b.F.get? u = some m → b.F.get? v = some n → u ≠ v → m.parents ≠ n.parents) ∧
      InBounds h' b ∧ b.NoDefault) := by
  obtain ⟨s1, s2⟩ := setStructureH_spec hO h E vd (fun kv hkv => (hc.e kv hkv).2) fun d hd kv hkv => (hc.v d hd kv hkv).2
  refine ⟨s1, fun bn hbn => ?_⟩
  obtain ⟨h', b, r1, r2, r3, r4, r5, r6, r7⟩ := s2 bn hbn
  obtain ⟨i1, i2⟩ := built_inBounds hc r1
  refine ⟨h', b, r1, r3, ⟨fun a ha => r2.nm ha, fun a ha => r2.vl ha, fun a ha => r2.ct ha⟩, r4, ?_, by omega, ?_, ?_, i1, i2⟩
  · intro d hd v n hn
    rcases (r7 _ (Dict.get?_mem hn)).2.2 with ⟨h1, _⟩ | ⟨d', h1, h2⟩
    · rw [hd] at h1; cases h1
    · rw [hd] at h1; cases h1; exact h2
  · intro v n hn
    obtain ⟨q1, q2, q3⟩ := r7 _ (Dict.get?_mem hn)
    simp only at q1 q2 q3
    refine ⟨by omega, by omega, by omega, fun hv => ?_⟩
    rcases q3 with ⟨_, h1⟩ | ⟨d', h1, h2⟩
    · omega
    · rw [hv] at h1; cases h1
  · intro u v m n hm hn huv he
    have := List.inj_on_of_nodup_map r6 (Dict.get?_mem hm) (Dict.get?_mem hn) he
    exact huv (Prod.mk.inj this).1

/-- C157: a network built from an acyclic edge dictionary whose lists are separate objects without repetitions is ready for the edit
histories of C22: its lists are separate, and children and parents agree. -/
theorem C157_ready_for_edits (hO : HashOrder N) (h : Heap N A) (E : Dict N ℕ) (vd : Option (Dict N ℕ)) (hc : Callers h E vd)
    (hn : E.keys.Nodup) (hcl : ChildrenAreKeys (seeE h E)) (hac : NoCycle (seeE h E))
    (hvd : ∀ d ∈ vd, ∀ v ∈ E.keys, v ∈ d.keys) (hsep : (E.map Prod.snd).Nodup) (hnd : ∀ kv ∈ E, (h.nm kv.2).Nodup) :
    ∃ h' b, setStructureH hO h E vd = .ok (h', b) ∧ (deref h' b).V.Perm E.keys ∧ Separate b ∧ InBounds h' b ∧
      (deref h' b).StructWF ∧ (deref h' b).Consistent := by
  have hkE : (seeE h E).keys = E.keys := by
    simp only [seeE, Dict.keys, List.map_map, Function.comp_def]
  obtain ⟨bn, k1, k2, k3, k4, k5, _⟩ := C23_set_structure hO (seeE h E) (vd.map (seeV h)) (by rw [hkE]; exact hn) hcl hac (by
    intro d hd v hv
    rw [hkE] at hv
    cases hvd' : vd with
    | none => rw [hvd'] at hd; cases hd
    | some d' =>
      rw [hvd'] at hd
      have : d = seeV h d' := by cases hd; rfl
      rw [this]
      have hk : (seeV h d').keys = d'.keys := by simp only [seeV, Dict.keys, List.map_map, Function.comp_def]
      rw [hk]
      exact hvd d' (by rw [hvd']; rfl) v hv)
  obtain ⟨_, s2⟩ := setStructureH_spec hO h E vd (fun kv hkv => (hc.e kv hkv).2) fun d hd kv hkv => (hc.v d hd kv hkv).2
  obtain ⟨h', b, r1, r2, r3, r4, r5, r6, r7⟩ := s2 bn k1
  refine ⟨h', b, r1, by rw [r3, ← hkE]; exact k2, ?_, (built_inBounds hc r1).1, ?_, ?_⟩
  · unfold Separate nAddr
    rw [List.nodup_cons, List.nodup_append]
    refine ⟨?_, by rw [r4]; exact hsep, r6, ?_⟩
    · rw [List.mem_append, not_or]
      constructor
      · intro hm
        rw [r4] at hm
        obtain ⟨x, hx, e⟩ := List.mem_map.1 hm
        have := (hc.e x hx).2; omega
      · intro hm
        obtain ⟨x, hx, e⟩ := List.mem_map.1 hm
        have := (r7 x hx).1; omega
    · intro a ha a' ha' e
      rw [r4] at ha
      obtain ⟨x, hx, rfl⟩ := List.mem_map.1 ha
      obtain ⟨y, hy, rfl⟩ := List.mem_map.1 ha'
      have := (hc.e x hx).2
      have := (r7 y hy).1
      omega
  · rw [r3]
    have hnV : bn.V.Nodup := k2.nodup_iff.2 (by rw [hkE]; exact hn)
    refine ⟨?_, k4, ?_, ?_⟩
    · intro v
      rw [k3, ← Dict.mem_keys_iff, k2.mem_iff]
    · intro v
      unfold BayesNet.childrenOf
      rw [k3]
      have : Dict.get? (seeE h E) v = (Dict.get? E v).map h.nm := Dict.get?_mapv h.nm E v
      rw [this]
      cases hg : Dict.get? E v with
      | none => exact List.nodup_nil
      | some a => exact hnd _ (Dict.get?_mem hg)
    · intro v
      by_cases hv : v ∈ bn.V
      · exact (k5 v hv).1.nodup hnV
      · unfold BayesNet.parentsOf
        have : ¬ (Dict.get? bn.F v).isSome := fun hh => hv ((k4 v).1 hh)
        cases hg : Dict.get? bn.F v with
        | none => exact List.nodup_nil
        | some a => rw [hg] at this; simp at this
  · rw [r3]
    intro u v
    by_cases hv : v ∈ bn.V
    · exact ((k5 v hv).2 u).symm
    · constructor
      · intro hch
        exfalso
        apply hv
        rw [k2.mem_iff]
        unfold BayesNet.childrenOf at hch
        rw [k3] at hch
        cases hg : Dict.get? (seeE h E) u with
        | none => rw [hg] at hch; cases hch
        | some l => rw [hg] at hch; exact hcl u v ⟨l, hg, hch⟩
      · intro hp
        exfalso
        unfold BayesNet.parentsOf at hp
        have : ¬ (Dict.get? bn.F v).isSome := fun hh => hv ((k4 v).1 hh)
        cases hg : Dict.get? bn.F v with
        | none => rw [hg] at hp; cases hp
        | some a => rw [hg] at this; simp at this

/-- Two networks built from the same edge dictionary, with any operations on the first one in between. -/
theorem twins_of_built {hO hO' : HashOrder N} {h h1 h2 : Heap N A} {E : Dict N ℕ} {vd vd' : Option (Dict N ℕ)} {b c : HNet N}
    (hc : Callers h E vd) (hv' : ∀ d ∈ vd', ∀ kv ∈ d, 0 < kv.2 ∧ kv.2 < h.vals.length)
    (hb : setStructureH hO h E vd = .ok (h1, b)) (os : List (Op N A))
    (hc' : setStructureH hO' (run h1 b os).1 E vd' = .ok (h2, c)) :
    Twins (vd' = none) h2 (run h1 b os).2 c := by
  obtain ⟨i1, _⟩ := built_inBounds hc hb
  obtain ⟨r1, _, r3, r4, _, r6⟩ := built_facts hc hb
  have k1 := r1.lenN; have k2 := r1.lenV; have k3 := r1.lenC
  obtain ⟨u1, u2, u3, u4, u5, u6⟩ := run_own os h1 b i1 (by rw [r3]; exact fun kv hkv => (hc.e kv hkv).1) (by
    intro a ha hm
    rw [r3] at hm
    obtain ⟨x, hx, rfl⟩ := List.mem_map.1 hm
    have hlt := (hc.e x hx).2
    rcases List.mem_cons.1 ha with h2 | h2
    · omega
    · obtain ⟨y, hy, e⟩ := List.mem_map.1 h2
      have := (r6 y hy).1; omega)
  have hcall : Callers (run h1 b os).1 E vd' := by
    refine ⟨fun kv hkv => ?_, fun d hd kv hkv => ?_, u1.n0, u1.v0, u1.c0⟩
    · have := hc.e kv hkv; omega
    · have := hv' d hd kv hkv; omega
  obtain ⟨j1, _⟩ := built_inBounds hcall hc'
  obtain ⟨t1, _, t3, t4, _, t6⟩ := built_facts hcall hc'
  have m1 := t1.lenN; have m2 := t1.lenV; have m3 := t1.lenC
  have hown : ∀ a ∈ c.own, (run h1 b os).1.names.length ≤ a := by
    intro a ha
    rcases List.mem_cons.1 ha with h2 | h2
    · omega
    · obtain ⟨y, hy, rfl⟩ := List.mem_map.1 h2
      have := (t6 y hy).1; omega
  refine ⟨?_, j1, by rw [u2, r3, t3], ?_, ?_, ?_, ?_⟩
  · have := u1.n0; have := u1.v0; have := u1.c0
    exact ⟨fun a ha => by have := u1.n a ha; omega, fun a ha => by have := u1.v a ha; omega,
      fun a ha => by have := u1.c a ha; omega, by omega, by omega, by omega⟩
  · intro a ha hac
    rcases mem_nAddr_iff.1 hac with h1 | h1
    · have := hown a h1; have := u1.n a (own_sub ha); omega
    · rw [t3, ← r3] at h1; exact u4 a ha h1
  · intro a ha hab
    have := hown a ha
    have := u1.n a hab; omega
  · intro hvd a ha hac
    obtain ⟨y, hy, rfl⟩ := List.mem_map.1 hac
    have := u1.v _ ha
    rcases (t6 y hy).2.2 with ⟨_, h1⟩ | ⟨d, h1, _⟩
    · omega
    · rw [hvd] at h1; cases h1
  · intro a ha hac
    obtain ⟨y, hy, rfl⟩ := List.mem_map.1 hac
    have := u1.c _ ha
    have := (t6 y hy).2.1; omega

/-- C158, the part that is true: of two networks built from the same edge dictionary (with any operations on the first in between),
through any interleaving of later operations on either, an operation on one changes neither the node list nor any parents list nor
any table of the other, nor, if the second was built without a value dictionary, any list of values.  (Nodes with default arguments
only made while the other side holds no default list, as in C24.)  Missing: the children lists, `C158_false`. -/
theorem C158_independent_partial (hO hO' : HashOrder N) (h h1 h2 k : Heap N A) (E : Dict N ℕ) (vd vd' : Option (Dict N ℕ))
    (b c b1 c1 : HNet N) (hc : Callers h E vd) (hv' : ∀ d ∈ vd', ∀ kv ∈ d, 0 < kv.2 ∧ kv.2 < h.vals.length)
    (hb : setStructureH hO h E vd = .ok (h1, b)) (os : List (Op N A))
    (hc' : setStructureH hO' (run h1 b os).1 E vd' = .ok (h2, c))
    (hr : Interleave h2 (run h1 b os).2 c k b1 c1) (o : Op N A) :
    ((Creates k b1 o → c1.NoDefault) → (deref (step k b1 o).1.1 c1).V = (deref k c1).V ∧
      (∀ v, (deref (step k b1 o).1.1 c1).parentsOf v = (deref k c1).parentsOf v) ∧
      (∀ v, (deref (step k b1 o).1.1 c1).cptOf v = (deref k c1).cptOf v) ∧
      (vd' = none → ∀ v, (deref (step k b1 o).1.1 c1).valuesOf v = (deref k c1).valuesOf v)) ∧
    ((Creates k c1 o → b1.NoDefault) → (deref (step k c1 o).1.1 b1).V = (deref k b1).V ∧
      (∀ v, (deref (step k c1 o).1.1 b1).parentsOf v = (deref k b1).parentsOf v) ∧
      (∀ v, (deref (step k c1 o).1.1 b1).cptOf v = (deref k b1).cptOf v) ∧
      (vd' = none → ∀ v, (deref (step k c1 o).1.1 b1).valuesOf v = (deref k b1).valuesOf v)) := by
  have t := (twins_of_built hc hv' hb os hc').reach hr
  exact ⟨fun hnd => t.unchanged o hnd, fun hnd => t.symm.unchanged o hnd⟩

/-- C159: two networks built from the same edge dictionary show the same children lists for ever, whatever is done to either; and as
soon as an arc is added to one of them, the other lists the new child without listing the new parent, reports the arc as present,
refuses to complete it, and raises when asked to remove it. -/
theorem C159_shared_children (hO hO' : HashOrder N) (h h1 h2 : Heap N A) (E : Dict N ℕ) (vd vd' : Option (Dict N ℕ))
    (b c : HNet N) (hc : Callers h E vd) (hv' : ∀ d ∈ vd', ∀ kv ∈ d, 0 < kv.2 ∧ kv.2 < h.vals.length)
    (hb : setStructureH hO h E vd = .ok (h1, b)) (os : List (Op N A)) (hc' : setStructureH hO' (run h1 b os).1 E vd' = .ok (h2, c)) :
    (∀ (k : Heap N A) (b1 c1 : HNet N), Interleave h2 (run h1 b os).2 c k b1 c1 → (deref k b1).E = (deref k c1).E) ∧
    (∀ (k : Heap N A) (b1 c1 : HNet N), Interleave h2 (run h1 b os).2 c k b1 c1 → ∀ (u v : N), Separate b1 → (deref k b1).StructWF →
      (deref k b1).Consistent → (deref k c1).Consistent → u ∈ (deref k b1).V → v ∈ (deref k b1).V → u ∈ (deref k c1).V →
      v ∈ (deref k c1).V → v ∉ (deref k b1).childrenOf u →
      ∃ k', addEdge k b1 u v = ((k', b1), none) ∧ (deref k' b1).Consistent ∧
        v ∈ (deref k' c1).childrenOf u ∧ u ∉ (deref k' c1).parentsOf v ∧ ¬ (deref k' c1).Consistent ∧
        (deref k' c1).hasEdge u v = .ok true ∧ addEdge k' c1 u v = ((k', c1), none) ∧
        ((c1.F.get? v).isSome → (removeEdge k' c1 u v).2 = some .valueError)) := by
  have t0 := twins_of_built hc hv' hb os hc'
  constructor
  · intro k b1 c1 hr
    have t := t0.reach hr
    show b1.E.map _ = c1.E.map _
    rw [t.e]
  · intro k b1 c1 hr u v sep wf con conc hu hv huc hvc hnew
    have t := t0.reach hr
    have g : Good k b1 := ⟨sep, t.ib, wf, con⟩
    obtain ⟨k', e1, e2, e3, e4, e5⟩ := addEdge_good g hu hv
    have hE : ∀ k : Heap N A, ∀ x, (deref k c1).childrenOf x = (deref k b1).childrenOf x := by
      intro k x; rw [childrenOf_deref, childrenOf_deref, t.e]
    have hnc : ¬ Creates k b1 (.addEdge u v) := by
      rintro (h | h)
      exacts [h hu, h hv]
    obtain ⟨q1, q2, _⟩ := t.unchanged (.addEdge u v) fun h => absurd h hnc
    have hst : (step k b1 (.addEdge u v)).1.1 = k' := by
      show (addEdge k b1 u v).1.1 = k'
      rw [e1]
    rw [hst] at q1 q2
    have m1 : v ∈ (deref k' c1).childrenOf u := by
      rw [hE, e4, if_pos ⟨rfl, hnew⟩]; simp
    have m2 : u ∉ (deref k' c1).parentsOf v := by
      rw [q2, ← conc, hE]; exact hnew
    have hget : ∃ a, Dict.get? c1.E u = some a ∧ v ∈ k'.nm a := by
      rw [childrenOf_deref] at m1
      cases hg : Dict.get? c1.E u with
      | none => rw [hg] at m1; cases m1
      | some a => rw [hg] at m1; exact ⟨a, rfl, m1⟩
    obtain ⟨a, ha, hva⟩ := hget
    have hV : k'.nm c1.V = k.nm c1.V := q1
    have hu' : u ∈ k'.nm c1.V := by rw [hV]; exact huc
    have hv'' : v ∈ k'.nm c1.V := by rw [hV]; exact hvc
    refine ⟨k', e1, e2.con, m1, m2, fun hcon => m2 ((hcon u v).1 m1), ?_, ?_, ?_⟩
    · unfold BayesNet.hasEdge
      have : Dict.get? (deref k' c1).E u = some (k'.nm a) := by rw [getE_deref, ha]; rfl
      rw [Dict.get_of_get? this, Py.bind_ok]
      simp [hva]
    · unfold addEdge ensureNode linkEdge
      simp only [if_pos hu', if_pos hv'', ha, if_pos hva]
    · intro hF
      obtain ⟨d, hd⟩ := Option.isSome_iff_exists.1 hF
      have hda : d.parents ≠ a := by
        intro e
        apply t.oc d.parents (by simp only [own, List.mem_cons, List.mem_map]; exact .inr ⟨_, Dict.get?_mem hd, rfl⟩)
        rw [e]
        exact mem_nAddr_iff.2 (.inr (by rw [t.e]; exact List.mem_map.2 ⟨_, Dict.get?_mem ha, rfl⟩))
      unfold removeEdge
      simp only [ha, if_pos hva, hd]
      rw [if_neg]
      rw [Heap.nm_putN_ne hda]
      rw [parentsOf_deref, hd] at m2
      exact m2

/-- The world of the witnesses: the caller's lists are 1 (children of 0) and 2 (children of 1), both empty. -/
def shareHeap : Heap ℕ ℕ := ⟨[[], [], []], [[]], [[]]⟩

/-- The caller's dictionary: two nodes, no arcs. -/
def shareDict : Dict ℕ ℕ := [(0, 1), (1, 2)]

theorem share_callers : Callers shareHeap shareDict none :=
  ⟨by decide, (by intro d hd; cases hd), by decide, by decide, by decide⟩

/-- C158 is false of the code: two networks built from one edge dictionary; adding an arc to the first gives the second a child (and
no parent). -/
theorem C158_false : ∃ (h1 h2 h3 : Heap ℕ ℕ) (b c : HNet ℕ), setStructureH HashOrder.id shareHeap shareDict none = .ok (h1, b) ∧
    setStructureH HashOrder.id h1 shareDict none = .ok (h2, c) ∧ (deref h2 c).childrenOf 0 = [] ∧
    addEdge h2 b 0 1 = ((h3, b), none) ∧ (deref h3 c).childrenOf 0 = [1] ∧ (deref h3 c).parentsOf 1 = [] := by
  refine ⟨_, _, _, _, _, rfl, rfl, ?_, rfl, ?_, ?_⟩ <;> decide +kernel

/-- Witness for C157, C158 and C159: the hypotheses hold of the two networks above, and the arc 0 → 1 can be added. -/
example : Callers shareHeap shareDict none ∧ shareDict.keys.Nodup ∧ ChildrenAreKeys (seeE shareHeap shareDict) ∧
    NoCycle (seeE shareHeap shareDict) ∧ (shareDict.map Prod.snd).Nodup ∧ (∀ kv ∈ shareDict, (shareHeap.nm kv.2).Nodup) := by
  have hno : ∀ u v, ¬ Arc (seeE shareHeap shareDict) u v := by
    rintro u v ⟨l, h1, h2⟩
    have : l = [] := by
      have hm := Dict.get?_mem h1
      have : seeE shareHeap shareDict = [(0, []), (1, [])] := by decide
      rw [this] at hm
      simp only [List.mem_cons, List.not_mem_nil, or_false] at hm
      rcases hm with hm | hm <;> exact (Prod.mk.inj hm).2
    rw [this] at h2; cases h2
  refine ⟨share_callers, by decide, fun u v h => absurd h (hno u v), fun v h => ?_, by decide, by decide⟩
  cases h with
  | single h => exact hno _ _ h
  | tail _ h => exact hno _ _ h

end PyBN
