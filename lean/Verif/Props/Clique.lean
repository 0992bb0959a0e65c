import Verif.Proofs.CliqueShape
import Verif.Proofs.CliquePsi
import Verif.Props.Inference
import Mathlib.Tactic.NormNum

/-!
# C111 - C115: minimum spanning trees, junction trees, assignment of factors to cliques, potentials
-/

set_option linter.unusedSectionVars false
namespace PyBN
namespace Clq
variable {N A : Type _} [DecidableEq N] [DecidableEq A]
open BayesNet Chordal

/-- C111: on a connected undirected weighted graph `mst` returns a spanning tree, and no spanning tree is cheaper.  The edge dictionary gives the
weight of an edge in both directions, `wt` is the weight of an undirected edge. -/
theorem C111_minimum_spanning_tree (hP : HashOrder (ℕ × ℚ)) (e : Dict ℕ (Dict ℕ ℚ)) (hin : MstInput e) (wt : Sym2 ℕ → ℚ)
    (hwt : ∀ i j w, weightOf e i j = some w → wt s(i, j) = w) (hsymm : ∀ i j w, weightOf e i j = some w → weightOf e j i = some w)
    (hconn : ∀ v < e.length, Reach (unweighted e) 0 v) :
    ∃ g, mst hP e = .ok g ∧ ∃ T : Finset (Sym2 ℕ), (∀ a b, s(a, b) ∈ T ↔ Arc g a b ∨ Arc g b a) ∧
      IsSpanningTree e.length (fun a b => (weightOf e a b).isSome) T ∧
      ∀ J, IsSpanningTree e.length (fun a b => (weightOf e a b).isSome) J → ∑ x ∈ T, wt x ≤ ∑ x ∈ J, wt x := by
  obtain ⟨g, R, T, h1, h2, h3, h4, -, h6⟩ := C29_mst_is_prim hP e hin
  obtain ⟨b1, b2, b3, b4⟩ := grown_basic h2
  obtain ⟨-, -, hT⟩ := h2.basic
  have hchild : ∀ a b w, weightOf e a b = some w → b < e.length := by
    intro a b w h
    unfold weightOf at h
    obtain ⟨d, q1, q2⟩ := Option.bind_eq_some_iff.1 h
    exact hin.children a d q1 b (by rw [Dict.mem_keys_iff, q2]; rfl)
  have hfull : ∀ i < e.length, i ∈ R := fun i hi => (h6 i).2 (hconn i hi)
  have hlen : e.length ≤ R.length := by
    have : List.range e.length ⊆ R := fun i hi => hfull i (List.mem_range.1 hi)
    have := (List.subperm_of_subset (List.nodup_range (n := e.length)) this).length_le
    rwa [List.length_range] at this
  have hmain : ∀ J, IsSpanningTree e.length (fun a b => (weightOf e a b).isSome) J →
      ∑ x ∈ edgeSet T, wt x ≤ ∑ x ∈ J, wt x := by
    rintro J ⟨j1, j2, j3⟩
    obtain ⟨hR, J', k1, k2, k3, k4, k5⟩ := prim_min wt (fun i j w h => ⟨hwt i j w h, hchild i j w h⟩) hsymm hin.nonempty J (by
      intro a b hab
      rcases j2 a b hab with h | h
      · exact h
      · obtain ⟨w, hw⟩ := Option.isSome_iff_exists.1 h
        rw [hsymm _ _ _ hw]; rfl) (le_of_eq j1) j3 h2
    have : edgeSet T = J' := Finset.eq_of_subset_of_card_le k4 (by omega)
    exact this ▸ k5
  have hedge : ∀ a b, s(a, b) ∈ edgeSet T → (weightOf e a b).isSome ∧ a < e.length ∧ b < e.length := by
    intro a b hab
    rcases mem_edgeSet.1 hab with h | h
    · obtain ⟨-, q⟩ := hT _ h
      obtain ⟨w, hw⟩ := Option.isSome_iff_exists.1 q
      exact ⟨q, hchild _ _ _ (hsymm _ _ _ hw), hchild _ _ _ hw⟩
    · obtain ⟨-, q⟩ := hT _ h
      obtain ⟨w, hw⟩ := Option.isSome_iff_exists.1 q
      exact ⟨by rw [hsymm _ _ _ hw]; rfl, hchild _ _ _ hw, hchild _ _ _ (hsymm _ _ _ hw)⟩
  have hRlt : ∀ r ∈ R, r < e.length := by
    have key : ∀ (R : List ℕ) (T : List (ℕ × ℕ)), Grown e 0 R T → ∀ r ∈ R, r < e.length := by
      intro R T hG
      induction hG with
      | start => intro r hr; rw [List.mem_singleton.1 hr]; exact hin.nonempty
      | step _ _ _ hst _ ih =>
        intro r hr
        rcases List.mem_append.1 hr with hr | hr
        · exact ih r hr
        · rw [List.mem_singleton.1 hr]; exact hchild _ _ _ hst
    exact key R T h2
  have hlen' : R.length ≤ e.length := by
    have : R ⊆ List.range e.length := fun r hr => List.mem_range.2 (hRlt r hr)
    have := (List.subperm_of_subset b4 this).length_le
    rwa [List.length_range] at this
  have hspan0 : ∀ (R : List ℕ) (T' : List (ℕ × ℕ)), Grown e 0 R T' → (∀ p ∈ T', p ∈ T) → ∀ v ∈ R,
      Relation.ReflTransGen (fun a b => s(a, b) ∈ edgeSet T ∧ a < e.length ∧ b < e.length) 0 v := by
    intro R T' hG
    induction hG with
    | start => intro _ v hv; rw [List.mem_singleton.1 hv]
    | @step R T' s t w _ hs _ _ _ ih =>
      intro hsub v hv
      rcases List.mem_append.1 hv with hv | hv
      · exact ih (fun p hp => hsub p (List.mem_append_left _ hp)) v hv
      · rw [List.mem_singleton.1 hv]
        refine (ih (fun p hp => hsub p (List.mem_append_left _ hp)) s hs).tail ?_
        have : s(s, t) ∈ edgeSet T := mem_edgeSet.2 (Or.inl (hsub _ (by simp)))
        exact ⟨this, (hedge _ _ this).2⟩
  have hspan := hspan0 R T h2 fun p hp => hp
  refine ⟨g, h1, edgeSet T, ?_, ⟨?_, ?_, ?_⟩, ?_⟩
  · intro a b; rw [mem_edgeSet, h4, h4]
  · rw [b2]; omega
  · exact fun a b hab => Or.inl (hedge a b hab).1
  · intro i j hi hj
    exact (rtg_symm (fun a b hab => ⟨by rw [Sym2.eq_swap]; exact hab.1, hab.2.2, hab.2.1⟩) (hspan i (hfull i hi))).trans (hspan j (hfull j hj))
  · exact fun J hJ => hmain J hJ

/-- Everything about the structure built by `CliqueTree(bn)`. -/
theorem treeShape_ok (isChordal : List (N × N) → Bool) (hch : ∀ g, isChordal g = true → IsChordal g) (cliques : List (N × N) → List (List N))
    (hcl : ∀ g, IsChordal g → (∀ a, ¬ Joined g a a) → ListsMaxCliques g (cliques g)) (h : HashOrder N) (hP : HashOrder (N × N)) (hQ : HashOrder (ℕ × ℚ))
    (hC : HashOrder ℕ) (bn : BayesNet N A) (w : bn.WF) :
    ∃ g E asg, makeChordal isChordal h hP bn none = .ok g ∧ treeShape isChordal cliques h hP hQ hC bn = .ok (cliques g, E, asg) ∧
      IsChordal g ∧ (∀ a, ¬ Joined g a a) ∧ (∀ a b, MoralEdge bn a b → Joined g a b) ∧ (∀ v, v ∈ nodesOf g ↔ ∃ u, u ∈ bn.parentsOf v ∨ v ∈ bn.parentsOf u) ∧
      ListsMaxCliques g (cliques g) ∧
      E.keys = List.range (cliques g).length ∧ (∀ a, ¬ Arc E a 0) ∧ (∀ a a' b, Arc E a b → Arc E a' b → a = a') ∧ (∀ i, i < (cliques g).length → Reach E 0 i) ∧
      (∀ a b, Arc E a b → a < (cliques g).length ∧ b < (cliques g).length) ∧
      RunningIntersection (cl (cliques g)) (· < (cliques g).length) (Arc E) ∧
      (∀ v ∈ bn.V, (∃ u, u ∈ bn.parentsOf v ∨ v ∈ bn.parentsOf u) → ∃ i < (cliques g).length, ∀ x ∈ v :: bn.parentsOf v, x ∈ cl (cliques g) i) ∧
      (asg.map Prod.fst).Perm (List.range (cliques g).length) ∧ (∀ p ∈ asg, p.2.Nodup) ∧ (asg.map Prod.snd).Pairwise List.Disjoint ∧
      (∀ p ∈ asg, ∀ v ∈ p.2, v ∈ bn.V ∧ ∀ x ∈ v :: bn.parentsOf v, x ∈ cl (cliques g) p.1) ∧
      ∀ v ∈ bn.V, (∃ p ∈ asg, v ∈ p.2) ↔ ∃ u, u ∈ bn.parentsOf v ∨ v ∈ bn.parentsOf u := by
  obtain ⟨g, g1, g2, g3, g4, -⟩ := C109_make_chordal isChordal hch h hP bn w
  obtain ⟨g', g1', g5'⟩ := C110_isolated_lost isChordal h hP bn w
  have hgg : g' = g := by rw [g1] at g1'; exact (Except.ok.inj g1').symm
  rw [hgg] at g5'
  have g5 : ∀ v, v ∈ nodesOf g ↔ ∃ u, u ∈ bn.parentsOf v ∨ v ∈ bn.parentsOf u := fun v => by rw [mem_nodesOf]; exact g5' v
  have hL := hcl g g2 g4
  set C := cliques g with hCdef
  -- families are cliques
  have hfam : ∀ v ∈ bn.V, (∃ u, u ∈ bn.parentsOf v ∨ v ∈ bn.parentsOf u) → ∃ i < C.length, ∀ x ∈ v :: bn.parentsOf v, x ∈ cl C i := by
    intro v hv hu
    have hvn : v ∈ nodesOf g := (g5 v).2 hu
    have hcli : IsClique (Joined g) (nodesOf g) (v :: bn.parentsOf v).toFinset := by
      constructor
      · intro x hx
        rcases List.mem_cons.1 (List.mem_toFinset.1 hx) with rfl | hx
        · exact hvn
        · exact (g5 x).2 ⟨v, Or.inr hx⟩
      · intro a ha b hb hab
        rw [List.mem_toFinset, List.mem_cons] at ha hb
        apply g3
        rcases ha with rfl | ha <;> rcases hb with rfl | hb
        · exact absurd rfl hab
        · exact Or.inr (Or.inl hb)
        · exact Or.inl ha
        · exact Or.inr (Or.inr ⟨hab, v, ha, hb⟩)
    obtain ⟨L, hL1, hL2⟩ := IsClique.extend (adj := Joined g) (fun a b => joined_symm) _ _ rfl hcli
    obtain ⟨i, hi, he⟩ := ((cliques_index hL ⟨v, hvn⟩).2.1 L).1 hL2
    exact ⟨i, hi, fun x hx => by rw [he]; exact hL1 (List.mem_toFinset.2 hx)⟩
  -- the tree
  have htree : ∃ E, mst hQ (weights C) = .ok E ∧ E.keys = List.range C.length ∧ (∀ a, ¬ Arc E a 0) ∧ (∀ a a' b, Arc E a b → Arc E a' b → a = a') ∧
      (∀ i, i < C.length → Reach E 0 i) ∧ (∀ a b, Arc E a b → a < C.length ∧ b < C.length) ∧ RunningIntersection (cl C) (· < C.length) (Arc E) := by
    by_cases hne : (nodesOf g).Nonempty
    · obtain ⟨i1, i2, i3, -⟩ := cliques_index hL hne
      obtain ⟨E, R, T, m1, m2, m3, m4, m5, m6⟩ := C29_mst_is_prim hQ (weights C) (weights_input C i3)
      obtain ⟨E', n1, n2, n3, n4, n5, n6, n7⟩ := C29_mst_spanning_tree hQ (weights C) (weights_input C i3)
      have hEE : E' = E := by rw [m1] at n1; exact (Except.ok.inj n1).symm
      rw [hEE] at n2 n3 n4 n5 n6 n7
      have hrip : RIPn C.length (cl C) (edgeSet T) := by
        refine prim_rip_final (e := weights C) ?_ ?_ i3 ?_ m2 ?_
        · intro i j hi hj hij; rw [weights_of, if_pos ⟨hi, hj, hij⟩]
        · intro i j w hw
          rw [weights_of] at hw
          split_ifs at hw with hc
          exact hc.2.1
        · exact rip_index i1 i2 (exists_junction (adj := Joined g) (fun a b => joined_symm) g4 _ _ rfl (chordalOn_of g2 _))
        · exact fun i hi => (m6 i).2 (weights_reach C hi)
      refine ⟨E, m1, by rw [n2, weights_length], n4, n5, ?_, ?_, ?_⟩
      · exact fun i hi => (n7 i).2 (weights_reach C hi)
      · intro a b hab
        have := n3 a b hab
        rw [unweighted_arc, weights_of] at this
        split_ifs at this with hc
        · exact ⟨hc.1, hc.2.1⟩
        · cases this
      · intro i j hi hj
        refine Relation.ReflTransGen.mono ?_ _ _ (hrip i j hi hj)
        rintro a b ⟨q1, q2, q3, q4, q5⟩
        rw [mem_edgeSet, ← m4, ← m4] at q1
        exact ⟨q1, q2, q3, q4, q5⟩
    · have hC0 : C = [] := cliques_empty hL hne
      have hno : ∀ a b, ¬ Arc ([] : Dict ℕ (List ℕ)) a b := by rintro a b ⟨l, hl, -⟩; cases hl
      rw [hC0]
      exact ⟨[], rfl, rfl, fun a => hno a 0, fun a a' b hab => absurd hab (hno a b), fun i hi => absurd hi (by simp), fun a b hab => absurd hab (hno a b),
        fun i j hi => absurd hi (by simp)⟩
  obtain ⟨E, t1, t2, t3, t4, t5, t6, t7⟩ := htree
  -- the assignment
  set cs := (hC.iter (List.range C.length)).map fun i => (i, (Clique.new ((C[i]?).getD [])).scope) with hcs
  have hcsm : ∀ i sc, (i, sc) ∈ cs ↔ i < C.length ∧ sc = (Clique.new ((C[i]?).getD [])).scope := by
    intro i sc
    rw [hcs, List.mem_map]
    constructor
    · rintro ⟨k, hk, he⟩
      obtain ⟨rfl, rfl⟩ := Prod.mk.inj he
      rw [(hC.perm _).mem_iff, List.mem_range] at hk
      exact ⟨hk, rfl⟩
    · rintro ⟨hi, rfl⟩
      exact ⟨i, by rw [(hC.perm _).mem_iff, List.mem_range]; exact hi, rfl⟩
  have hsub : ∀ i (l : List N), l ⊆ (Clique.new ((C[i]?).getD [])).scope ↔ ∀ x ∈ l, x ∈ cl C i := by
    intro i l
    simp only [List.subset_def, mem_new_scope, cl, List.mem_toFinset]
  have hva : ∀ v, Dict.get? (bn.V.map fun v => (v, false)) v = some false ↔ v ∈ bn.V := by
    intro v; rw [Dict.get?_map_pair (fun _ => false)]; split_ifs with hc <;> simp [hc]
  obtain ⟨asg, a1, a2, a3, a4, a5, a6⟩ := assignLoop_ok h bn cs (bn.V.map fun v => (v, false)) (by rw [Dict.keys_map_pair]; exact w.nodup)
    (by rw [Dict.keys_map_pair]; exact fun v hv => w.scope_ok hv)
  refine ⟨g, E, asg, g1, ?_, g2, g4, g3, g5, hL, t2, t3, t4, t5, t6, t7, hfam, ?_, a3, a5, ?_, ?_⟩
  · unfold treeShape
    rw [g1, Py.bind_ok]; simp only []
    rw [t1, Py.bind_ok, ← hCdef, ← hcs, a1, Py.bind_ok]; rfl
  · rw [a2, hcs, List.map_map]
    rw [show (Prod.fst ∘ fun i => (i, (Clique.new ((C[i]?).getD [])).scope)) = id from rfl, List.map_id]
    exact hC.perm _
  · intro p hp v hv
    obtain ⟨q1, sc, q2, q3⟩ := a4 p hp v hv
    rw [hcsm] at q2
    rw [q2.2, hsub] at q3
    exact ⟨(hva v).1 q1, q3⟩
  · intro v hv
    constructor
    · rintro ⟨p, hp, hvp⟩
      obtain ⟨-, sc, q2, q3⟩ := a4 p hp v hvp
      rw [hcsm] at q2
      rw [q2.2, hsub] at q3
      have hmem := q3 v (by simp)
      rw [← g5]
      have hlt := q2.1
      have : cl C p.1 ∈ C.map List.toFinset := by
        rw [List.mem_map]; exact ⟨C[p.1], List.getElem_mem _, by rw [cl, List.getElem?_eq_getElem hlt]; rfl⟩
      exact ((hL.2 _).1 this).2.1.1 hmem
    · intro hu
      obtain ⟨i, hi, hx⟩ := hfam v hv hu
      exact a6 v ((hva v).2 hv) ⟨(i, _), (hcsm i _).2 ⟨hi, rfl⟩, (hsub i _).2 hx⟩

/-- C112: the tree made by `CliqueTree(bn)`: its cliques are exactly the maximal cliques of a chordal graph containing the moral graph, the edges
form a tree with root 0 over all cliques, the running intersection property holds, and the family of every variable with a parent or a child fits into a clique. -/
theorem C112_junction_tree (isChordal : List (N × N) → Bool) (hch : ∀ g, isChordal g = true → IsChordal g) (cliques : List (N × N) → List (List N))
    (hcl : ∀ g, IsChordal g → (∀ a, ¬ Joined g a a) → ListsMaxCliques g (cliques g)) (h : HashOrder N) (hP : HashOrder (N × N)) (hQ : HashOrder (ℕ × ℚ))
    (hC : HashOrder ℕ) (bn : BayesNet N A) (w : bn.WF) :
    ∃ g C E asg, treeShape isChordal cliques h hP hQ hC bn = .ok (C, E, asg) ∧ IsChordal g ∧ (∀ a b, MoralEdge bn a b → Joined g a b) ∧ ListsMaxCliques g C ∧
      E.keys = List.range C.length ∧ (∀ a, ¬ Arc E a 0) ∧ (∀ a a' b, Arc E a b → Arc E a' b → a = a') ∧ (∀ i, i < C.length → Reach E 0 i) ∧
      RunningIntersection (cl C) (· < C.length) (Arc E) ∧
      ∀ v ∈ bn.V, (∃ u, u ∈ bn.parentsOf v ∨ v ∈ bn.parentsOf u) → ∃ i < C.length, ∀ x ∈ v :: bn.parentsOf v, x ∈ cl C i := by
  obtain ⟨g, E, asg, -, h2, h3, -, h5, -, h7, h8, h9, h10, h11, -, h13, h14, -⟩ := treeShape_ok isChordal hch cliques hcl h hP hQ hC bn w
  exact ⟨g, _, E, asg, h2, h3, h5, h7, h8, h9, h10, h11, h13, h14⟩

/-- C113: every variable with a parent or a child is assigned to exactly one clique, which contains its family; a variable without either
is assigned to no clique. -/
theorem C113_assignment (isChordal : List (N × N) → Bool) (hch : ∀ g, isChordal g = true → IsChordal g) (cliques : List (N × N) → List (List N))
    (hcl : ∀ g, IsChordal g → (∀ a, ¬ Joined g a a) → ListsMaxCliques g (cliques g)) (h : HashOrder N) (hP : HashOrder (N × N)) (hQ : HashOrder (ℕ × ℚ))
    (hC : HashOrder ℕ) (bn : BayesNet N A) (w : bn.WF) :
    ∃ C E asg, treeShape isChordal cliques h hP hQ hC bn = .ok (C, E, asg) ∧ (asg.map Prod.fst).Perm (List.range C.length) ∧ (∀ p ∈ asg, p.2.Nodup) ∧
      ∀ v ∈ bn.V,
        ((∃ u, u ∈ bn.parentsOf v ∨ v ∈ bn.parentsOf u) → ∃ i < C.length, (∀ x ∈ v :: bn.parentsOf v, x ∈ cl C i) ∧ ∀ j vs, (j, vs) ∈ asg → (v ∈ vs ↔ j = i)) ∧
        ((¬ ∃ u, u ∈ bn.parentsOf v ∨ v ∈ bn.parentsOf u) → ∀ j vs, (j, vs) ∈ asg → v ∉ vs) := by
  obtain ⟨g, E, asg, -, h2, -, -, -, -, -, -, -, -, -, -, -, -, h15, h16, h17, h18, h19⟩ := treeShape_ok isChordal hch cliques hcl h hP hQ hC bn w
  refine ⟨_, E, asg, h2, h15, h16, fun v hv => ⟨fun hu => ?_, fun hu j vs hj hvs => hu ((h19 v hv).1 ⟨_, hj, hvs⟩)⟩⟩
  obtain ⟨p, hp, hvp⟩ := (h19 v hv).2 hu
  have hnd : (asg.map Prod.fst).Nodup := h15.nodup_iff.2 List.nodup_range
  refine ⟨p.1, List.mem_range.1 (h15.mem_iff.1 (List.mem_map.2 ⟨p, hp, rfl⟩)), (h18 p hp v hvp).2, fun j vs hj => ⟨fun hvs => ?_, ?_⟩⟩
  · by_contra hne
    have hpj : p ≠ (j, vs) := fun h => hne (by rw [h])
    obtain ⟨a, ha, rfl⟩ := List.mem_iff_getElem.1 hp
    obtain ⟨b, hb, hbe⟩ := List.mem_iff_getElem.1 hj
    have hab : a ≠ b := by rintro rfl; exact hpj hbe
    rw [List.pairwise_iff_getElem] at h17
    rcases Nat.lt_or_gt_of_ne hab with hlt | hlt
    · have := h17 a b (by simpa using ha) (by simpa using hb) hlt
      rw [List.getElem_map, List.getElem_map, hbe] at this
      exact this hvp hvs
    · have := h17 b a (by simpa using hb) (by simpa using ha) hlt
      rw [List.getElem_map, List.getElem_map, hbe] at this
      exact this hvs hvp
  · rintro rfl
    have : p = (p.1, vs) := List.inj_on_of_nodup_map hnd hp hj rfl
    rw [this] at hvp
    exact hvp

theorem treeParents_ok {E : Dict ℕ (List ℕ)} {V : List ℕ} (hV : ∀ v ∈ V, v ∈ E.keys) (i : ℕ) : ∃ r, Tree.parents E i V = .ok r := by
  induction V with
  | nil => exact ⟨[], rfl⟩
  | cons v V ih =>
    obtain ⟨r, hr⟩ := ih fun u hu => hV u (by simp [hu])
    obtain ⟨l, hl⟩ := Option.isSome_iff_exists.1 (Dict.mem_keys_iff.1 (hV v (by simp)))
    unfold Tree.parents
    rw [Dict.get_of_get? hl, Py.bind_ok, hr, Py.bind_ok]
    exact ⟨_, rfl⟩

/-- The outcome of `CliqueTree(bn)`, given the structure. -/
theorem cliqueTree_ok (isChordal : List (N × N) → Bool) (cliques : List (N × N) → List (List N))
    (h : HashOrder N) (hP : HashOrder (N × N)) (hQ : HashOrder (ℕ × ℚ))
    (hC : HashOrder ℕ) (bn : BayesNet N A) (w : bn.WF) {C : List (List N)} {E : Dict ℕ (List ℕ)} {asg : List (ℕ × List N)}
    (hs : treeShape isChordal cliques h hP hQ hC bn = .ok (C, E, asg)) (hasg : ∀ p ∈ asg, ∀ v ∈ p.2, v ∈ bn.V) :
    ((∃ p ∈ asg, p.2 = []) → cliqueTree isChordal cliques h hP hQ hC bn = .error .assertionError) ∧
    ((∀ p ∈ asg, p.2 ≠ []) → ∃ (t : Tree N) (os : List (FObj N)), cliqueTree isChordal cliques h hP hQ hC bn = .ok t ∧ t.E = E ∧ t.V = hC.iter E.keys ∧
      t.C.length = asg.length ∧ os.length = asg.length ∧
      (∀ k (h1 : k < asg.length) (h2 : k < t.C.length) (h3 : k < os.length), CliqueDone bn (fun i => (C[i]?).getD []) t.heap asg[k] t.C[k] os[k]) ∧ os.Pairwise Disj) := by
  have hE : ∀ i, ∃ r, Tree.parents E i (hC.iter E.keys) = .ok r := fun i => treeParents_ok (fun v hv => (hC.perm _).mem_iff.1 hv) i
  obtain ⟨H, D, a1, a2, a3, a4⟩ := makeCliques_spec w (fun i => (C[i]?).getD []) asg ⟨[], []⟩ hasg
  constructor
  · intro hex
    have := psiAll_assert h (fun i => (C[i]?).getD []) hE asg D H hex a2 a3
    unfold cliqueTree
    rw [hs, Py.bind_ok]; simp only []
    rw [a1, Py.bind_ok]; simp only []
    rw [this]; rfl
  · intro hne
    obtain ⟨H', C', os, b1, b2, b3, b4, b5, -⟩ := psiAll_spec h (fun i => (C[i]?).getD []) hE asg D H hne a2 a3
    refine ⟨⟨hC.iter E.keys, E, C', H'⟩, os, ?_, rfl, rfl, b2, b3, b4, b5⟩
    unfold cliqueTree
    rw [hs, Py.bind_ok]; simp only []
    rw [a1, Py.bind_ok]; simp only []
    rw [b1, Py.bind_ok]; rfl

/-- C115: the potentials of `CliqueTree(bn)`.  If some clique gets no factor the constructor raises `AssertionError`.  Otherwise the potential (and the initial
belief) of each clique is that of `PsiSpec`: one CPT is taken as it is; of several, the CPTs up to and including the first with the largest table
enter *squared*, the others once. -/
theorem C115_potentials (isChordal : List (N × N) → Bool) (hch : ∀ g, isChordal g = true → IsChordal g) (cliques : List (N × N) → List (List N))
    (hcl : ∀ g, IsChordal g → (∀ a, ¬ Joined g a a) → ListsMaxCliques g (cliques g)) (h : HashOrder N) (hP : HashOrder (N × N)) (hQ : HashOrder (ℕ × ℚ))
    (hC : HashOrder ℕ) (bn : BayesNet N A) (w : bn.WF) :
    ∃ C E asg, treeShape isChordal cliques h hP hQ hC bn = .ok (C, E, asg) ∧
      ((∃ p ∈ asg, p.2 = []) → cliqueTree isChordal cliques h hP hQ hC bn = .error .assertionError) ∧
      ((∀ p ∈ asg, p.2 ≠ []) → ∃ t, cliqueTree isChordal cliques h hP hQ hC bn = .ok t ∧ t.E = E ∧ t.V.Perm (List.range C.length) ∧
        ∀ i vs, (i, vs) ∈ asg → ∃ c o, Dict.get? t.C i = some c ∧ c.scope.toFinset = cl C i ∧ c.psi = some o ∧ c.belief = some o ∧ c.msgs = [] ∧
          PsiSpec bn vs (t.heap.get o)) := by
  obtain ⟨g, E, asg, -, h2, -, -, -, -, -, h8, -, -, -, -, -, -, h15, h16, h17, h18, h19⟩ := treeShape_ok isChordal hch cliques hcl h hP hQ hC bn w
  obtain ⟨k1, k2⟩ := cliqueTree_ok isChordal cliques h hP hQ hC bn w h2 fun p hp v hv => (h18 p hp v hv).1
  refine ⟨_, E, asg, h2, k1, fun hne => ?_⟩
  obtain ⟨t, os, t1, t2, t3, t4, t5, t6, -⟩ := k2 hne
  refine ⟨t, t1, t2, ?_, ?_⟩
  · rw [t3, h8]; exact hC.perm _
  · intro i vs hi
    obtain ⟨k, hk, hke⟩ := List.mem_iff_getElem.1 hi
    have d := t6 k hk (by omega) (by omega)
    rw [hke] at d
    refine ⟨t.C[k].2, os[k], ?_, ?_, d.psi, d.belief, d.msgs, d.spec⟩
    · have hkeys : t.C.keys.Nodup := by
        have : t.C.keys = asg.map Prod.fst := by
          refine List.ext_getElem (by simp [Dict.keys, t4]) fun j j1 j2 => ?_
          simp only [Dict.keys, List.getElem_map]
          exact (t6 j (by simpa using j2) (by simpa [Dict.keys] using j1) (by rw [t5]; simpa using j2)).idx
        rw [this]; exact h15.nodup_iff.2 List.nodup_range
      refine Dict.get?_of_mem hkeys ?_
      have : (i, t.C[k].2) = t.C[k] := Prod.ext d.idx.symm rfl
      rw [this]; exact List.getElem_mem _
    · rw [d.scope]; unfold cl; ext x; simp

/-- C115 / whenever `CliqueTree(bn)` succeeds for a network with an arc, some clique gets several factors, so some potential has squared factors: a tree with
`n` variables has fewer than `n` cliques. -/
theorem C115_some_squared (isChordal : List (N × N) → Bool) (hch : ∀ g, isChordal g = true → IsChordal g) (cliques : List (N × N) → List (List N))
    (hcl : ∀ g, IsChordal g → (∀ a, ¬ Joined g a a) → ListsMaxCliques g (cliques g)) (h : HashOrder N) (hP : HashOrder (N × N)) (hQ : HashOrder (ℕ × ℚ))
    (hC : HashOrder ℕ) (bn : BayesNet N A) (w : bn.WF) (harc : ∃ u v, u ∈ bn.parentsOf v) :
    ∃ C E asg, treeShape isChordal cliques h hP hQ hC bn = .ok (C, E, asg) ∧ C.length < bn.V.length ∧ ∃ p ∈ asg, 2 ≤ p.2.length := by
  classical
  obtain ⟨g, E, asg, h1, h2, h3, h4, h5, h6, h7, -, -, -, -, -, -, h14, h15, h16, h17, h18, h19⟩ := treeShape_ok isChordal hch cliques hcl h hP hQ hC bn w
  obtain ⟨u, v, huv⟩ := harc
  have huv' : Joined g u v := h5 u v (Or.inl huv)
  have hun : u ∈ nodesOf g := (h6 u).2 ⟨v, Or.inr huv⟩
  have hvn : v ∈ nodesOf g := (h6 v).2 ⟨u, Or.inl huv⟩
  have hpV : ∀ x y, x ∈ bn.parentsOf y → y ∈ bn.V := by
    intro x y hxy
    rw [← w.dom]
    unfold parentsOf at hxy
    cases hF : Dict.get? bn.F y with
    | none => rw [hF] at hxy; cases hxy
    | some => rfl
  have hnV : ∀ x ∈ nodesOf g, x ∈ bn.V := by
    intro x hx
    obtain ⟨y, hy | hy⟩ := (h6 x).1 hx
    · exact hpV _ _ hy
    · exact w.parents_mem y (hpV _ _ hy) x hy
  obtain ⟨-, -, -, hcard⟩ := cliques_index h7 ⟨u, hun⟩
  have hlt := (card_maxCliques (adj := Joined g) (fun a b => joined_symm) h4 _ (nodesOf g) rfl (chordalOn_of h3 _) ⟨u, hun⟩).2 ⟨u, hun, v, hvn, huv'⟩
  have hlen : asg.length = (cliques g).length := by
    have := h15.length_eq; simpa using this
  have hltV : (cliques g).length < bn.V.length := by
    have h1 : nodesOf g ⊆ bn.V.toFinset := fun x hx => List.mem_toFinset.2 (hnV x hx)
    have h2 := Finset.card_le_card h1
    rw [List.toFinset_card_of_nodup w.nodup] at h2
    omega
  refine ⟨_, E, asg, h2, hltV, ?_⟩
  by_contra hcon
  push Not at hcon
  have hsub : nodesOf g ⊆ (asg.flatMap Prod.snd).toFinset := by
    intro x hx
    obtain ⟨p, hp, hxp⟩ := (h19 x (hnV x hx)).2 ((h6 x).1 hx)
    rw [List.mem_toFinset, List.mem_flatMap]
    exact ⟨p, hp, hxp⟩
  have hle : (asg.flatMap Prod.snd).length ≤ asg.length := by
    have key : ∀ l : List (ℕ × List N), (∀ p ∈ l, p.2.length < 2) → (l.flatMap Prod.snd).length ≤ l.length := by
      intro l
      induction l with
      | nil => simp
      | cons p l ih =>
        intro hl
        have a := hl p (by simp)
        have b := ih fun q hq => hl q (by simp [hq])
        rw [List.flatMap_cons, List.length_append, List.length_cons]
        omega
    exact key asg hcon
  have := Finset.card_le_card hsub
  have := List.toFinset_card_le (asg.flatMap Prod.snd)
  omega

/-- C114, the part that holds: a clique to which one CPT is assigned has this CPT as its potential. -/
theorem C114_single_partial (isChordal : List (N × N) → Bool) (hch : ∀ g, isChordal g = true → IsChordal g) (cliques : List (N × N) → List (List N))
    (hcl : ∀ g, IsChordal g → (∀ a, ¬ Joined g a a) → ListsMaxCliques g (cliques g)) (h : HashOrder N) (hP : HashOrder (N × N)) (hQ : HashOrder (ℕ × ℚ))
    (hC : HashOrder ℕ) (bn : BayesNet N A) (w : bn.WF) {t : Tree N} (ht : cliqueTree isChordal cliques h hP hQ hC bn = .ok t) :
    ∃ C E asg, treeShape isChordal cliques h hP hQ hC bn = .ok (C, E, asg) ∧ ∀ i v, (i, [v]) ∈ asg →
      ∃ c o, Dict.get? t.C i = some c ∧ c.psi = some o ∧ ∀ a, InRange bn.cardOf (v :: bn.parentsOf v) a → (t.heap.get o).entry a = some (bn.prob v a) := by
  obtain ⟨C, E, asg, h1, h2, h3⟩ := C115_potentials isChordal hch cliques hcl h hP hQ hC bn w
  refine ⟨C, E, asg, h1, fun i v hi => ?_⟩
  have hne : ∀ p ∈ asg, p.2 ≠ [] := by
    intro p hp he
    rw [h2 ⟨p, hp, he⟩] at ht; cases ht
  obtain ⟨t', t1, -, -, t4⟩ := h3 hne
  rw [ht] at t1
  cases t1
  obtain ⟨c, o, c1, -, c3, -, -, c6⟩ := t4 i [v] hi
  refine ⟨c, o, c1, c3, fun a ha => c6.one v rfl a fun x hx => ha x ?_⟩
  obtain ⟨v', hv', hx'⟩ := (c6.scope x).1 hx
  rw [List.mem_singleton.1 hv'] at hx'
  exact hx'

/-! ## Examples -/

/-- A function meeting the contract of `chordal_graph_cliques`. -/
noncomputable def someCliques (g : List (N × N)) : List (List N) := ((maxCliques (Joined g) (nodesOf g)).filter (·.Nonempty)).toList.map Finset.toList

theorem someCliques_ok (g : List (N × N)) : ListsMaxCliques g (someCliques g) := by
  have hm : (someCliques g).map List.toFinset = ((maxCliques (Joined g) (nodesOf g)).filter (·.Nonempty)).toList := by
    unfold someCliques
    rw [List.map_map]
    conv_rhs => rw [← List.map_id ((maxCliques (Joined g) (nodesOf g)).filter (·.Nonempty)).toList]
    refine List.map_congr_left fun K _ => ?_
    simp
  refine ⟨by rw [hm]; exact Finset.nodup_toList _, fun K => ?_⟩
  rw [hm, Finset.mem_toList, Finset.mem_filter, mem_maxCliques, and_comm]

/-- 0 → 1, all table entries 1/2. -/
def exTwo : BayesNet ℕ ℕ where
  V := [0, 1]
  E := [(0, [1]), (1, [])]
  F := [(0, ⟨[], [0, 1], [1/2, 1/2]⟩), (1, ⟨[0], [0, 1], [1/2, 1/2, 1/2, 1/2]⟩)]

theorem exTwo_wf : exTwo.WF := .of_dec _ (by decide) (by decide)

/-- C114 is false: for the network 0 → 1 with all probabilities 1/2, in any environment, `CliqueTree` makes a clique to which both CPTs are assigned and whose
potential is not their product. -/
theorem C114_false (isChordal : List (ℕ × ℕ) → Bool) (hch : ∀ g, isChordal g = true → IsChordal g) (cliques : List (ℕ × ℕ) → List (List ℕ))
    (hcl : ∀ g, IsChordal g → (∀ a, ¬ Joined g a a) → ListsMaxCliques g (cliques g)) (h : HashOrder ℕ) (hP : HashOrder (ℕ × ℕ)) (hQ : HashOrder (ℕ × ℚ))
    (hC : HashOrder ℕ) :
    ∃ C E asg t i vs c o, treeShape isChordal cliques h hP hQ hC exTwo = .ok (C, E, asg) ∧ cliqueTree isChordal cliques h hP hQ hC exTwo = .ok t ∧
      (i, vs) ∈ asg ∧ vs.Perm [0, 1] ∧ Dict.get? t.C i = some c ∧ c.psi = some o ∧
      (t.heap.get o).entry (fun _ => 0) ≠ some ((vs.map fun v => exTwo.prob v fun _ => 0).prod) := by
  obtain ⟨C, E, asg, h1, hlt2, p, hp, hp2⟩ := C115_some_squared isChordal hch cliques hcl h hP hQ hC exTwo exTwo_wf ⟨0, 1, by decide⟩
  obtain ⟨C', E', asg', h1', h3⟩ := C115_potentials isChordal hch cliques hcl h hP hQ hC exTwo exTwo_wf
  obtain ⟨g', E'', asg'', -, k2, -, -, -, -, -, -, -, -, -, k12, -, -, k15, k16, k17, k18, -⟩ := treeShape_ok isChordal hch cliques hcl h hP hQ hC exTwo exTwo_wf
  rw [h1] at h1' k2
  obtain ⟨rfl, rfl, rfl⟩ : C = C' ∧ E = E' ∧ asg = asg' := by injection h1' with h; simpa using h
  obtain ⟨hCC, rfl, rfl⟩ : C = cliques g' ∧ E = E'' ∧ asg = asg'' := by injection k2 with h; simpa using h
  have hperm : ∀ q ∈ asg, 2 ≤ q.2.length → q.2.Perm [0, 1] := by
    intro q hq hq2
    have hsp : q.2.Subperm [0, 1] := List.subperm_of_subset (k16 q hq) fun v hv => (k18 q hq v hv).1
    exact hsp.perm_of_length_le hq2
  have hl1 : asg.length = 1 := by
    have q := k15.length_eq
    rw [List.length_map, List.length_range, ← hCC] at q
    have : 0 < asg.length := List.length_pos_of_mem hp
    have : exTwo.V.length = 2 := rfl
    omega
  have hone : ∀ q ∈ asg, q = p := by
    obtain ⟨x, hx⟩ := List.length_eq_one_iff.1 hl1
    intro q hq
    rw [hx, List.mem_singleton] at hq hp
    rw [hq, hp]
  have hasg : ∀ q ∈ asg, q.2 ≠ [] := by
    intro q hq he
    rw [hone q hq] at he
    rw [he] at hp2
    simp at hp2
  obtain ⟨t, t1, -, -, t4⟩ := h3.2 hasg
  obtain ⟨c, o, c1, -, c3, -, -, c6⟩ := t4 p.1 p.2 hp
  have hpp := hperm p hp hp2
  refine ⟨C, E, asg, t, p.1, p.2, c, o, h1, t1, hp, hpp, c1, c3, ?_⟩
  obtain ⟨m, m1, m2⟩ := c6.more hp2
  have hr : InRange exTwo.cardOf (t.heap.get o).scope fun _ => 0 := by
    intro x hx
    obtain ⟨v, hv, hxv⟩ := (c6.scope x).1 hx
    have hv' := hpp.mem_iff.1 hv
    have h0 : ∀ v ∈ [0, 1], ∀ x ∈ v :: exTwo.parentsOf v, 0 < exTwo.cardOf x := by decide
    exact h0 v hv' x hxv
  rw [m2 _ hr]
  have hv : p.2 = [0, 1] ∨ p.2 = [1, 0] := by
    obtain ⟨x, y, hxy⟩ := List.length_eq_two.1 (hpp.length_eq.trans rfl)
    have hx := hpp.mem_iff.1 (show x ∈ p.2 by rw [hxy]; simp)
    have hy := hpp.mem_iff.1 (show y ∈ p.2 by rw [hxy]; simp)
    have hn := hpp.nodup_iff.2 (by decide)
    rw [hxy] at hn ⊢
    simp at hx hy hn ⊢
    omega
  have p0 : exTwo.prob 0 (fun _ => 0) = 1/2 := rfl
  have p1 : exTwo.prob 1 (fun _ => 0) = 1/2 := rfl
  obtain ⟨x, x1, x2, x3⟩ := m1
  rcases hv with hv | hv <;> rw [hv] at x1 x2 ⊢
  · have hm : m < 2 := by simpa using (List.getElem?_eq_some_iff.1 x1).1
    rcases (by omega : m = 0 ∨ m = 1) with rfl | rfl
    · simp [p0, p1]; norm_num
    · simp [p0, p1]; norm_num
  · have hm : m < 2 := by simpa using (List.getElem?_eq_some_iff.1 x1).1
    rcases (by omega : m = 0 ∨ m = 1) with rfl | rfl
    · simp [p0, p1]; norm_num
    · simp [p0, p1]; norm_num

/-- The hypotheses of C112 - C115 can be met, and the conclusion of C112 is not about empty trees. -/
theorem C112_example : ∃ C E asg, treeShape (fun _ => false) someCliques HashOrder.id HashOrder.id HashOrder.id HashOrder.id exFork = .ok (C, E, asg) ∧
    0 < C.length ∧ ∃ p ∈ asg, 2 ≤ p.2.length := by
  obtain ⟨C, E, asg, h1, -, p, hp, hp2⟩ := C115_some_squared (fun _ => false) (by simp) someCliques (fun g _ _ => someCliques_ok g) HashOrder.id HashOrder.id HashOrder.id
    HashOrder.id exFork exFork_wf ⟨0, 1, by decide⟩
  obtain ⟨C', E', asg', h1', h2, -⟩ := C113_assignment (fun _ => false) (by simp) someCliques (fun g _ _ => someCliques_ok g) HashOrder.id HashOrder.id HashOrder.id
    HashOrder.id exFork exFork_wf
  rw [h1] at h1'
  obtain ⟨rfl, rfl, rfl⟩ : C = C' ∧ E = E' ∧ asg = asg' := by injection h1' with h; simpa using h
  refine ⟨C, E, asg, h1, ?_, p, hp, hp2⟩
  have := h2.length_eq
  rw [List.length_map, List.length_range] at this
  have : 0 < asg.length := List.length_pos_of_mem hp
  omega

end Clq
end PyBN
