import Verif.Props.Clique2

/-!
# C117, C119, C120: counterexample, the upward pass in `CliqueTree(bn)`, `parents`; examples for C111, C116 - C119
-/

set_option linter.unusedSectionVars false
namespace PyBN
namespace Clq
variable {N A : Type _} [DecidableEq N] [DecidableEq A]
open BayesNet Chordal Factor

/-- C119 for `ct = CliqueTree(bn)`: send from every clique but clique 0 to its tree parent, children first; then the belief collected by clique 0 gives, for every variable
in it, the product of all potentials summed over all other variables that have a parent or a child. -/
theorem C119_clique_tree (isChordal : List (N × N) → Bool) (hch : ∀ g, isChordal g = true → IsChordal g) (cliques : List (N × N) → List (List N))
    (hcl : ∀ g, IsChordal g → (∀ a, ¬ Joined g a a) → ListsMaxCliques g (cliques g)) (h : HashOrder N) (hP : HashOrder (N × N)) (hQ : HashOrder (ℕ × ℚ))
    (hC : HashOrder ℕ) (bn : BayesNet N A) (w : bn.WF) {t : Tree N} (ht : cliqueTree isChordal cliques h hP hQ hC bn = .ok t)
    {par : ℕ → ℕ} {sched : List ℕ} (u : Upward t.E.length 0 par sched) (hpar : ∀ i ∈ sched, Arc t.E (par i) i) (target : N)
    (htar : ∃ c0, Dict.get? t.C 0 = some c0 ∧ target ∈ c0.scope) :
    ∃ t1 t2 f, sendAll h t (sched.map fun i => (i, par i)) = .ok t1 ∧ collectBeliefs h t1 0 = .ok t2 ∧ marginalizeOver t2 0 target = .ok f ∧ f.scope = [target] ∧
      f.cpt.length = bn.cardOf target ∧
      ∃ psi : ℕ → Factor N, (∀ k < t.E.length, ∃ ck o, Dict.get? t.C k = some ck ∧ ck.psi = some o ∧ t.heap.get o = psi k) ∧
      ∀ others : List N, others.Nodup → (∀ x, x ∈ others ↔ x ≠ target ∧ ∃ y, y ∈ bn.parentsOf x ∨ x ∈ bn.parentsOf y) → ∀ a, a target < bn.cardOf target →
        f.cpt[a target]? = some (sumAll bn.cardOf others (fun a => ((List.range t.E.length).map fun k => (psi k).val a).prod) a) := by
  obtain ⟨g, E, asg, -, h2, h3, h4, -, h6, h7, h8, h9, h10, h11, h12, h13, -, h15, h16, -, h18, h19⟩ := treeShape_ok isChordal hch cliques hcl h hP hQ hC bn w
  obtain ⟨k1, k2⟩ := cliqueTree_ok isChordal cliques h hP hQ hC bn w h2 fun p hp v hv => (h18 p hp v hv).1
  have hne : ∀ p ∈ asg, p.2 ≠ [] := by
    intro p hp he
    rw [k1 ⟨p, hp, he⟩] at ht; cases ht
  obtain ⟨t', os, t1, t2, -, t4, t5, t6, t7⟩ := k2 hne
  rw [ht] at t1
  cases t1
  set C := cliques g with hCdef
  have hElen : t.E.length = C.length := by
    rw [t2]
    have := congrArg List.length h8
    simpa [Dict.keys] using this
  rw [hElen] at u ⊢
  have hpV : ∀ x y, x ∈ bn.parentsOf y → y ∈ bn.V := by
    intro x y hxy
    rw [← w.dom]
    unfold parentsOf at hxy
    cases hF : Dict.get? bn.F y with
    | none => rw [hF] at hxy; cases hxy
    | some => rfl
  have hkeys : t.C.keys = asg.map Prod.fst := by
    refine List.ext_getElem (by simp [Dict.keys, t4]) fun j j1 j2 => ?_
    simp only [Dict.keys, List.getElem_map]
    exact (t6 j (by simpa using j2) (by simpa [Dict.keys] using j1) (by rw [t5]; simpa using j2)).idx
  have hknd : t.C.keys.Nodup := by rw [hkeys]; exact h15.nodup_iff.2 List.nodup_range
  -- position of clique `k` in the list of cliques
  have hpos : ∀ k < C.length, ∃ q, ∃ (q1 : q < asg.length), asg[q].1 = k := by
    intro k hk
    have : k ∈ asg.map Prod.fst := h15.mem_iff.2 (List.mem_range.2 hk)
    obtain ⟨p, hp, rfl⟩ := List.mem_map.1 this
    obtain ⟨q, q1, q2⟩ := List.mem_iff_getElem.1 hp
    exact ⟨q, q1, by rw [q2]⟩
  choose! pos hpos using hpos
  have hex : ∀ k < C.length, ∃ o vs ck, (k, vs) ∈ asg ∧ Dict.get? t.C k = some ck ∧ ck.scope = ((C[k]?).getD []).dedup ∧ ck.psi = some o ∧ ck.belief = some o ∧ ck.msgs = [] ∧
      Valid t.heap o ∧ PsiSpec bn vs (t.heap.get o) ∧ os[pos k]? = some o := by
    intro k hk
    obtain ⟨q1, q2⟩ := hpos k hk
    have d := t6 (pos k) q1 (by omega) (by omega)
    refine ⟨os[pos k], asg[pos k].2, t.C[pos k].2, ?_, ?_, ?_, d.psi, d.belief, d.msgs, d.valid, d.spec, List.getElem?_eq_getElem _⟩
    · have : (k, asg[pos k].2) = asg[pos k] := Prod.ext q2.symm rfl
      rw [this]; exact List.getElem_mem _
    · refine Dict.get?_of_mem hknd ?_
      have : (k, t.C[pos k].2) = t.C[pos k] := Prod.ext (by rw [d.idx, q2]) rfl
      rw [this]; exact List.getElem_mem _
    · rw [d.scope, q2]
  have hposinj : ∀ k < C.length, ∀ k' < C.length, k ≠ k' → pos k ≠ pos k' := by
    intro k hk k' hk' hkk he
    obtain ⟨q1, q2⟩ := hpos k hk
    obtain ⟨q1', q2'⟩ := hpos k' hk'
    apply hkk
    rw [← q2, ← q2']
    congr 1
    simp only [he]
  have hchoose : ∃ psi : ℕ → FObj N, ∀ k < C.length, ∃ vs ck, (k, vs) ∈ asg ∧ Dict.get? t.C k = some ck ∧ ck.scope = ((C[k]?).getD []).dedup ∧ ck.psi = some (psi k) ∧
      ck.belief = some (psi k) ∧ ck.msgs = [] ∧ Valid t.heap (psi k) ∧ PsiSpec bn vs (t.heap.get (psi k)) ∧ os[pos k]? = some (psi k) := by
    classical
    rcases Nat.eq_zero_or_pos C.length with h0 | h0
    · exact ⟨fun _ => ⟨target, [], 0, 0, 0⟩, fun k hk => absurd hk (by omega)⟩
    · have : Nonempty (FObj N) := ⟨(hex 0 h0).choose⟩
      choose! psi hpsi using hex
      exact ⟨psi, hpsi⟩
  obtain ⟨psi, hpsi⟩ := hchoose
  set S : ℕ → List N := fun k => ((C[k]?).getD []).dedup with hS
  have hScl : ∀ k, (S k).toFinset = cl C k := by intro k; ext x; simp [hS, cl]
  have hmemS : ∀ k x, x ∈ S k ↔ x ∈ cl C k := by intro k x; rw [← hScl, List.mem_toFinset]
  have hsched : ∀ a b, a < C.length → b < C.length → Arc E a b → b ∈ sched ∧ par b = a := by
    intro a b ha hb hab
    have hb0 : b ≠ 0 := fun h0 => h9 a (h0 ▸ hab)
    have : b ∈ 0 :: sched := u.perm.mem_iff.2 (List.mem_range.2 hb)
    have hbs : b ∈ sched := (List.mem_cons.1 this).resolve_left hb0
    exact ⟨hbs, h10 _ _ _ (t2 ▸ hpar b hbs) hab⟩
  have hrip : RunningIntersection (fun k => (S k).toFinset) (· < C.length) (fun a b => a ∈ sched ∧ par a = b) := by
    intro i j hi hj
    refine Relation.ReflTransGen.mono ?_ _ _ (h13 i j hi hj)
    rintro a b ⟨q1, q2, q3, q4, q5⟩
    simp only [hScl]
    refine ⟨?_, q2, q3, q4, q5⟩
    rcases q1 with q1 | q1
    · exact Or.inr (hsched a b q2 q3 q1)
    · exact Or.inl (hsched b a q3 q2 q1)
  have hclnode : ∀ k < C.length, ∀ x ∈ S k, x ∈ nodesOf g := by
    intro k hk x hx
    have : cl C k ∈ C.map List.toFinset := by
      rw [List.mem_map]; exact ⟨C[k], List.getElem_mem _, by rw [cl, List.getElem?_eq_getElem hk]; rfl⟩
    exact ((h7.2 _).1 this).2.1.1 ((hmemS k x).1 hx)
  have hassigned : ∀ x, (∃ y, y ∈ bn.parentsOf x ∨ x ∈ bn.parentsOf y) → ∃ k < C.length, x ∈ (t.heap.get (psi k)).scope := by
    intro x hu
    have hxV : x ∈ bn.V := by
      obtain ⟨y, hy | hy⟩ := hu
      · exact hpV _ _ hy
      · exact w.parents_mem y (hpV _ _ hy) x hy
    obtain ⟨p, hp, hxp⟩ := (h19 x hxV).2 hu
    have hlt : p.1 < C.length := List.mem_range.1 (h15.mem_iff.1 (List.mem_map.2 ⟨p, hp, rfl⟩))
    obtain ⟨vs, ck, m1, -, -, -, -, -, -, m8, -⟩ := hpsi p.1 hlt
    have : p = (p.1, vs) := List.inj_on_of_nodup_map (h15.nodup_iff.2 List.nodup_range) hp m1 rfl
    refine ⟨p.1, hlt, (m8.scope x).2 ⟨x, ?_, by simp⟩⟩
    have he : p.2 = vs := congrArg Prod.snd this
    exact he ▸ hxp
  have hpsub : ∀ k < C.length, ∀ x ∈ (t.heap.get (psi k)).scope, x ∈ S k := by
    intro k hk x hx
    obtain ⟨vs, ck, m1, -, -, -, -, -, -, m8, -⟩ := hpsi k hk
    obtain ⟨v, hv, hxv⟩ := (m8.scope x).1 hx
    exact (hmemS k x).2 ((h18 _ m1 v hv).2 x hxv)
  obtain ⟨c0, hc0, htc0⟩ := htar
  have h0lt : 0 < C.length := List.mem_range.1 (u.perm.mem_iff.1 (by simp))
  have htS : target ∈ S 0 := by
    obtain ⟨vs, ck, -, m2, m3, -⟩ := hpsi 0 h0lt
    rw [m2] at hc0
    cases hc0
    rwa [m3] at htc0
  obtain ⟨t1, t2', f, e1, e2, -, e3, e4, e5, e6⟩ := C119_upward_pass h (c := bn.cardOf) (S := S) (psi := psi) u hrip (fun k _ => List.nodup_dedup _) t
    (fun k hk => by
      obtain ⟨vs, ck, -, m2, m3, m4, m5, m6, -⟩ := hpsi k hk
      exact ⟨ck, m2, m3, m4, m5, m6⟩)
    (fun k hk => by
      obtain ⟨vs, ck, -, -, -, -, -, -, m7, m8, -⟩ := hpsi k hk
      exact ⟨m7, m8.wf, hpsub k hk⟩)
    (fun k hk k' hk' hkk => by
      obtain ⟨vs, ck, -, -, -, -, -, -, -, -, m9⟩ := hpsi k hk
      obtain ⟨vs', ck', -, -, -, -, -, -, -, -, m9'⟩ := hpsi k' hk'
      have hd := hposinj k hk k' hk' hkk
      obtain ⟨r1, r2⟩ := List.getElem?_eq_some_iff.1 m9
      obtain ⟨r1', r2'⟩ := List.getElem?_eq_some_iff.1 m9'
      rw [← r2, ← r2']
      rw [List.pairwise_iff_getElem] at t7
      rcases Nat.lt_or_gt_of_ne hd with hl | hl
      · exact t7 _ _ r1 r1' hl
      · exact (t7 _ _ r1' r1 hl).symm)
    (fun k hk x hx => hassigned x ((h6 x).1 (hclnode k hk x hx))) target htS
  refine ⟨t1, t2', f, e1, e2, e3, e4, e5, fun k => t.heap.get (psi k), ?_, ?_⟩
  · intro k hk
    obtain ⟨vs, ck, -, m2, -, m4, -⟩ := hpsi k hk
    exact ⟨ck, psi k, m2, m4, rfl⟩
  · intro others ho hom
    refine e6 others ho fun x => ?_
    rw [hom]
    refine and_congr_right fun _ => ⟨fun hu => ?_, fun ⟨k, hk, hx⟩ => (h6 x).1 (hclnode k hk x hx)⟩
    obtain ⟨k, hk, hx⟩ := hassigned x hu
    exact ⟨k, hk, hpsub k hk x hx⟩

/-- C120: `ct.parents(v)` does not return the parents of clique `v`: it returns `v` itself, once for every clique that has `v` as a child.  So the list is
empty exactly if `v` is the root, but its elements are useless. -/
theorem C120_parents (E : Dict ℕ (List ℕ)) (V : List ℕ) (hV : ∀ u ∈ V, (Dict.get? E u).isSome) (v : ℕ) (hdec : ∀ u, Decidable (Arc E u v)) :
    Tree.parents E v V = .ok (List.replicate (V.filter fun u => decide (Arc E u v)).length v) := by
  induction V with
  | nil => rfl
  | cons u V ih =>
    obtain ⟨l, hl⟩ := Option.isSome_iff_exists.1 (hV u (by simp))
    rw [Tree.parents, Dict.get_of_get? hl, Py.bind_ok, ih fun x hx => hV x (by simp [hx]), Py.bind_ok]
    have : v ∈ l ↔ Arc E u v := ⟨fun hv => ⟨l, hl, hv⟩, fun ⟨l', hl', hv⟩ => by rw [hl] at hl'; cases hl'; exact hv⟩
    by_cases hv : Arc E u v
    · rw [if_pos (this.2 hv), List.filter_cons_of_pos (by simpa using hv)]; rfl
    · rw [if_neg fun hc => hv (this.1 hc), List.filter_cons_of_neg (by simpa using hv)]; rfl

/-- C120 / for `ct = CliqueTree(bn)`: `[]` for clique 0, `[v]` for every other clique `v`. -/
theorem C120_clique_tree (isChordal : List (N × N) → Bool) (hch : ∀ g, isChordal g = true → IsChordal g) (cliques : List (N × N) → List (List N))
    (hcl : ∀ g, IsChordal g → (∀ a, ¬ Joined g a a) → ListsMaxCliques g (cliques g)) (h : HashOrder N) (hP : HashOrder (N × N)) (hQ : HashOrder (ℕ × ℚ))
    (hC : HashOrder ℕ) (bn : BayesNet N A) (w : bn.WF) {t : Tree N} (ht : cliqueTree isChordal cliques h hP hQ hC bn = .ok t) (v : ℕ) (hv : v ∈ t.V) :
    Tree.parents t.E v t.V = .ok (if v = 0 then [] else [v]) := by
  classical
  obtain ⟨g, E, asg, -, h2, -, -, -, -, -, h8, h9, h10, h11, h12, -, -, h15, -, -, h18, -⟩ := treeShape_ok isChordal hch cliques hcl h hP hQ hC bn w
  obtain ⟨k1, k2⟩ := cliqueTree_ok isChordal cliques h hP hQ hC bn w h2 fun p hp v hv => (h18 p hp v hv).1
  have hne : ∀ p ∈ asg, p.2 ≠ [] := by
    intro p hp he
    rw [k1 ⟨p, hp, he⟩] at ht; cases ht
  obtain ⟨t', os, t1, t2, t3, -⟩ := k2 hne
  rw [ht] at t1
  cases t1
  have hperm : t.V.Perm (List.range (cliques g).length) := by rw [t3, h8]; exact hC.perm _
  have hmem : ∀ u, u ∈ t.V ↔ u < (cliques g).length := fun u => by rw [hperm.mem_iff, List.mem_range]
  rw [C120_parents t.E t.V (fun u hu => by rw [← Dict.mem_keys_iff, t2, h8, List.mem_range]; exact (hmem u).1 hu) v fun u => inferInstance]
  congr 1
  rw [t2]
  split_ifs with h0
  · subst h0
    rw [List.filter_eq_nil_iff.2 fun u _ => by simpa using h9 u]; rfl
  · have hr := h11 v ((hmem v).1 hv)
    rcases Relation.ReflTransGen.cases_tail hr with he | ⟨u, -, hu⟩
    · exact absurd he h0
    · have : (t.V.filter fun x => decide (Arc E x v)) = [u] := by
        have hnd : (t.V.filter fun x => decide (Arc E x v)).Nodup := (hperm.nodup_iff.2 List.nodup_range).filter _
        refine List.perm_singleton.1 ((List.perm_ext_iff_of_nodup hnd (by simp)).2 fun x => ?_)
        rw [List.mem_filter, List.mem_singleton]
        simp only [decide_eq_true_eq]
        exact ⟨fun hx => h10 _ _ _ hx.2 hu, fun hx => hx ▸ ⟨(hmem u).2 (h12 _ _ hu).1, hu⟩⟩
      rw [this]; rfl

/-! ## Examples -/

/-- The factors of variables 1 and 2 of the fork 0 → 1, 0 → 2. -/
def exG1 : Factor ℕ := ⟨1, [1/2, 1/2, 1/3, 2/3], [1, 0], [(1, 2), (0, 2)], [(1, 1), (0, 2)]⟩
def exG2 : Factor ℕ := ⟨2, [1/5, 4/5, 1/10, 9/10], [2, 0], [(2, 2), (0, 2)], [(2, 1), (0, 2)]⟩

theorem exG1_wf : exG1.WF exFork.cardOf := by
  obtain ⟨f, h1, h2, -⟩ := Factor.init_ok exFork_wf (rv := 1) (by decide)
  have : Factor.init exFork 1 = .ok exG1 := rfl
  rw [this] at h1
  cases h1
  exact h2

theorem exG2_wf : exG2.WF exFork.cardOf := by
  obtain ⟨f, h1, h2, -⟩ := Factor.init_ok exFork_wf (rv := 2) (by decide)
  have : Factor.init exFork 2 = .ok exG2 := rfl
  rw [this] at h1
  cases h1
  exact h2

/-- Two cliques {1, 0} and {2, 0} with these potentials. -/
def exO1 : FObj ℕ := ⟨1, [1/2, 1/2, 1/3, 2/3], 0, 0, 1⟩
def exO2 : FObj ℕ := ⟨2, [1/5, 4/5, 1/10, 9/10], 1, 2, 3⟩
def exC1 : Clique ℕ := ⟨[1, 0], [exO1], some exO1, some exO1, [], true⟩
def exC2 : Clique ℕ := ⟨[2, 0], [exO2], some exO2, some exO2, [], false⟩
def exT : Tree ℕ := ⟨[0, 1], [(0, [1]), (1, [])], [(0, exC1), (1, exC2)], ⟨[[1, 0], [2, 0]], [exG1.card, exG1.stride, exG2.card, exG2.stride]⟩⟩

theorem exT_one : exT.heap.get exO1 = exG1 := rfl
theorem exT_two : exT.heap.get exO2 = exG2 := rfl

theorem exT_canSend : CanSend exFork.cardOf exT exC2 exO2 where
  belief := rfl
  scope_nodup := by decide
  valid := by unfold Valid; decide
  wf := exG2_wf
  msgs := by intro m hm; cases hm
  disj := List.Pairwise.nil

theorem exT_covers : ∀ v ∈ exC2.scope, v ∉ exC1.scope → Covers exT exC2 exO2 v := fun v hv _ => Or.inl (by rw [exT_two]; exact hv)

/-- C117 is false: after sending, the belief of the sender claims to be a table over variable 0 alone, but still has four entries; so it is no longer a well-formed
factor, whatever the order of iteration over sets. -/
theorem C117_false (h : HashOrder ℕ) : ∃ t' c' b', sendMessage h exT 1 0 = .ok t' ∧ Dict.get? t'.C 1 = some c' ∧ c'.belief = some b' ∧ c'.psi = some b' ∧ (t'.heap.get b').scope = [0] ∧
    (t'.heap.get b').cpt = [1/5, 4/5, 1/10, 9/10] ∧ ¬ (t'.heap.get b').WF exFork.cardOf := by
  obtain ⟨t', b', m, s1, s2, s3, s4, -, -, -, -, s8, -⟩ := C118_sender_damaged h (i := 1) (j := 0) (by decide) (ci := exC2) (cj := exC1) rfl rfl exT_canSend exT_covers
  have hb : b' = exO2 := s8 rfl
  obtain ⟨t'', m', u1, u2, -, u4, u5, -, -⟩ := C116_message h (i := 1) (j := 0) (by decide) (ci := exC2) (cj := exC1) rfl rfl exT_canSend exT_covers
  rw [s1] at u1
  cases u1
  have hmm : m' = m := by
    rw [s3] at u2
    have := congrArg Clique.msgs (Option.some.inj u2)
    simpa using this.symm
  subst hmm
  have hsc : (t'.heap.get b').scope = [0] := by
    rw [s4]
    refine List.perm_singleton.1 ((List.perm_ext_iff_of_nodup u4.scope_nodup (by simp)).2 fun v => ?_)
    rw [u5]
    have hc : Covers exT exC2 exO2 v ↔ v ∈ [2, 0] := by
      unfold Covers
      rw [exT_two]
      constructor
      · rintro (hv | ⟨m, hm, -⟩)
        · exact hv
        · cases hm
      · exact fun hv => Or.inl hv
    rw [hc]
    simp only [exC1, exC2, List.mem_cons, List.not_mem_nil, or_false]
    omega
  have hct : (t'.heap.get b').cpt = [1/5, 4/5, 1/10, 9/10] := by rw [hb]; rfl
  refine ⟨t', _, b', s1, s2, rfl, ?_, hsc, hct, fun hwf => ?_⟩
  · rw [hb]; rfl
  · have := hwf.cpt_len
    rw [hsc, hct] at this
    revert this
    decide

/-- C119: its hypotheses are met by this tree with root 0; variable 1 of clique 0 gets the sum over variables 0 and 2 of the product of both tables. -/
theorem C119_example (h : HashOrder ℕ) : ∃ t1 t2 f, sendAll h exT [(1, 0)] = .ok t1 ∧ collectBeliefs h t1 0 = .ok t2 ∧ marginalizeOver t2 0 1 = .ok f ∧
    f.scope = [1] ∧ f.cpt = [5/6, 7/6] := by
  obtain ⟨t1, t2, f, e1, e2, -, e3, e4, e5, e6⟩ := C119_upward_pass h (c := exFork.cardOf) (n := 2) (r := 0) (S := fun k => if k = 0 then [1, 0] else [2, 0])
    (psi := fun k => if k = 0 then exO1 else exO2) (par := fun _ => 0) (sched := [1])
    ⟨List.Perm.refl _, by decide, by
      intro l1 i l2 he k hk hk0
      rcases l1 with _ | ⟨x, _ | ⟨y, l1⟩⟩ <;> simp at he
      omega⟩
    (by
      have hstep : ∀ i j, i < 2 → j < 2 → i ≠ j → Relation.ReflTransGen (fun a b => ((a ∈ [1] ∧ (0:ℕ) = b) ∨ (b ∈ [1] ∧ (0:ℕ) = a)) ∧ a < 2 ∧ b < 2 ∧
          (if i = 0 then [1, 0] else [2, 0]).toFinset ∩ (if j = 0 then [1, 0] else [2, 0]).toFinset ⊆ (if a = 0 then [1, 0] else [2, 0]).toFinset ∧
          (if i = 0 then [1, 0] else [2, 0]).toFinset ∩ (if j = 0 then [1, 0] else [2, 0]).toFinset ⊆ (if b = 0 then [1, 0] else [2, 0]).toFinset) i j := by
        intro i j hi hj hij
        refine Relation.ReflTransGen.single ⟨?_, hi, hj, Finset.inter_subset_left, Finset.inter_subset_right⟩
        simp only [List.mem_singleton]
        omega
      intro i j hi hj
      by_cases hij : i = j
      · rw [hij]
      · exact hstep i j hi hj hij)
    (by intro k hk; split_ifs <;> decide) exT
    (by
      intro k hk
      rcases (by omega : k = 0 ∨ k = 1) with rfl | rfl
      · exact ⟨exC1, rfl, rfl, rfl, rfl, rfl⟩
      · exact ⟨exC2, rfl, rfl, rfl, rfl, rfl⟩)
    (by
      intro k hk
      rcases (by omega : k = 0 ∨ k = 1) with rfl | rfl
      · exact ⟨by unfold Valid; decide, exG1_wf, by decide⟩
      · exact ⟨by unfold Valid; decide, exG2_wf, by decide⟩)
    (by
      intro k hk k' hk' hkk
      rcases (by omega : (k = 0 ∧ k' = 1) ∨ (k = 1 ∧ k' = 0)) with ⟨rfl, rfl⟩ | ⟨rfl, rfl⟩ <;> (unfold Disj; decide))
    (by
      intro k hk x hx
      refine ⟨k, hk, ?_⟩
      rcases (by omega : k = 0 ∨ k = 1) with rfl | rfl <;> exact hx)
    1 (by decide)
  refine ⟨t1, t2, f, e1, e2, e3, e4, ?_⟩
  have h2 : exFork.cardOf 1 = 2 := rfl
  have hval : ∀ b, b < 2 → f.cpt[b]? = some (sumAll exFork.cardOf [0, 2] (fun a => exG1.val a * exG2.val a) fun _ => b) := by
    intro b hb
    have := e6 [0, 2] (by decide) (by
      intro x
      constructor
      · intro hx
        rcases List.mem_cons.1 hx with rfl | hx
        · exact ⟨by decide, 0, by decide, by decide⟩
        · rw [List.mem_singleton.1 hx]; exact ⟨by decide, 1, by decide, by decide⟩
      · rintro ⟨h1, k, hk, hx⟩
        rcases (by omega : k = 0 ∨ k = 1) with rfl | rfl <;> simp at hx <;> simp <;> omega) (fun _ => b) (by rw [h2]; exact hb)
    rw [this]
    congr 2
    funext a
    show (List.map (fun k => (exT.heap.get (if k = 0 then exO1 else exO2)).val a) [0, 1]).prod = _
    simp [exT_one, exT_two]
  have hl : f.cpt.length = 2 := e5
  obtain ⟨x, y, hxy⟩ := List.length_eq_two.1 hl
  have v0 := hval 0 (by omega)
  have v1 := hval 1 (by omega)
  rw [hxy] at v0 v1 ⊢
  have c0 : sumAll exFork.cardOf [0, 2] (fun a => exG1.val a * exG2.val a) (fun _ => 0) = 5/6 := by decide +kernel
  have c1 : sumAll exFork.cardOf [0, 2] (fun a => exG1.val a * exG2.val a) (fun _ => 1) = 7/6 := by decide +kernel
  rw [c0] at v0
  rw [c1] at v1
  simp at v0 v1
  rw [v0, v1]

/-- A triangle with weights 1 (0 - 1), 2 (0 - 2), 3 (1 - 2). -/
def exTri : Dict ℕ (Dict ℕ ℚ) := [(0, [(1, 1), (2, 2)]), (1, [(0, 1), (2, 3)]), (2, [(0, 2), (1, 3)])]

/-- The weight of the edge between `a` and `b` is `a + b`. -/
def exWt : Sym2 ℕ → ℚ := Sym2.lift ⟨fun a b => (a : ℚ) + b, fun a b => add_comm _ _⟩

theorem exTri_weight : ∀ i j w, weightOf exTri i j = some w → (i < 3 ∧ j < 3) ∧ w = (i : ℚ) + j ∧ weightOf exTri j i = some w := by
  intro i j w hw
  have key : ∀ i < 3, ∀ j < 3, ∀ w ∈ weightOf exTri i j, w = (i : ℚ) + j ∧ weightOf exTri j i = some w := by decide +kernel
  have hi : i < 3 := by
    by_contra hc
    have : Dict.get? exTri i = none := by
      rw [Dict.get?_eq_none_iff]
      show i ∉ [0, 1, 2]
      simp; omega
    unfold weightOf at hw
    rw [this] at hw
    cases hw
  have hj : j < 3 := by
    by_contra hc
    have hno : ∀ i < 3, ∀ d, Dict.get? exTri i = some d → Dict.get? d j = none := by
      intro i hi d hd
      rw [Dict.get?_eq_none_iff]
      rcases (by omega : i = 0 ∨ i = 1 ∨ i = 2) with rfl | rfl | rfl <;> cases hd
      · show j ∉ [1, 2]; simp; omega
      · show j ∉ [0, 2]; simp; omega
      · show j ∉ [0, 1]; simp; omega
    unfold weightOf at hw
    obtain ⟨d, q1, q2⟩ := Option.bind_eq_some_iff.1 hw
    rw [hno i hi d q1] at q2
    cases q2
  exact ⟨⟨hi, hj⟩, key i hi j hj w hw⟩

theorem exTri_input : MstInput exTri where
  keys_nodup := by decide
  keys_iff := by intro v; show v ∈ [0, 1, 2] ↔ v < 3; simp; omega
  nonempty := by decide
  inner_nodup := by
    intro a d hd
    have key : ∀ p ∈ exTri, p.2.keys.Nodup := by decide
    exact key _ (Dict.get?_mem hd)
  children := by
    intro a d hd
    have key : ∀ p ∈ exTri, ∀ b ∈ p.2.keys, b < exTri.length := by decide
    exact key _ (Dict.get?_mem hd)

/-- C111: its hypotheses are met by the triangle, and the tree returned costs 3. -/
theorem C111_example (hP : HashOrder (ℕ × ℚ)) : ∃ g, mst hP exTri = .ok g ∧ ∃ T : Finset (Sym2 ℕ), (∀ a b, s(a, b) ∈ T ↔ Arc g a b ∨ Arc g b a) ∧ ∑ x ∈ T, exWt x ≤ 3 := by
  obtain ⟨g, g1, T, g2, -, g4⟩ := C111_minimum_spanning_tree hP exTri exTri_input exWt
    (fun i j w hw => by rw [(exTri_weight i j w hw).2.1]; rfl) (fun i j w hw => (exTri_weight i j w hw).2.2)
    (by
      intro v hv
      have hv : v < 3 := hv
      rcases (by omega : v = 0 ∨ v = 1 ∨ v = 2) with rfl | rfl | rfl
      · exact Relation.ReflTransGen.refl
      · exact Relation.ReflTransGen.single ⟨[1, 2], rfl, by simp⟩
      · exact Relation.ReflTransGen.single ⟨[1, 2], rfl, by simp⟩)
  refine ⟨g, g1, T, g2, ?_⟩
  have h := g4 {s(0, 1), s(0, 2)} ⟨by decide, ?_, ?_⟩
  · refine h.trans ?_
    rw [Finset.sum_pair (by decide)]
    show ((0 : ℕ) : ℚ) + ((1 : ℕ) : ℚ) + (((0 : ℕ) : ℚ) + ((2 : ℕ) : ℚ)) ≤ 3
    norm_num
  · intro a b hab
    simp only [Finset.mem_insert, Finset.mem_singleton, Sym2.eq_iff] at hab
    left
    rcases hab with (⟨rfl, rfl⟩ | ⟨rfl, rfl⟩) | (⟨rfl, rfl⟩ | ⟨rfl, rfl⟩) <;> rfl
  · have h0 : ∀ i < 3, Relation.ReflTransGen (fun a b => s(a, b) ∈ ({s(0, 1), s(0, 2)} : Finset (Sym2 ℕ)) ∧ a < 3 ∧ b < 3) 0 i := by
      intro i hi
      rcases (by omega : i = 0 ∨ i = 1 ∨ i = 2) with rfl | rfl | rfl
      · exact Relation.ReflTransGen.refl
      · exact Relation.ReflTransGen.single ⟨by simp, by omega, by omega⟩
      · exact Relation.ReflTransGen.single ⟨by simp, by omega, by omega⟩
    intro i j hi hj
    exact (rtg_symm (fun a b hab => ⟨by have h1 := hab.1; rwa [Sym2.eq_swap (a := a)] at h1, hab.2.2, hab.2.1⟩) (h0 i hi)).trans (h0 j hj)

/-! `CliqueTree` of the fork, with a brute force enumeration of the maximal cliques -/

/-- The nodes of a graph, as a list. -/
def nodeList (g : List (N × N)) : List N := (g.map Prod.fst ++ g.map Prod.snd).dedup

/-- Is the list a nonempty maximal clique? -/
def maxCliqueTest (g : List (N × N)) (s : List N) : Bool :=
  !s.isEmpty && s.all (fun a => s.all fun b => a = b || (a, b) ∈ g || (b, a) ∈ g) && (nodeList g).all fun w => w ∈ s || s.any fun k => !((w, k) ∈ g || (k, w) ∈ g)

/-- All maximal cliques. -/
def listCliques (g : List (N × N)) : List (List N) := (nodeList g).sublists.filter (maxCliqueTest g)

theorem sublist_eq_filter {s l : List N} (h : s.Sublist l) (hl : l.Nodup) : s = l.filter (· ∈ s) := by
  induction h with
  | slnil => rfl
  | @cons s l x h ih =>
    rw [List.nodup_cons] at hl
    rw [List.filter_cons_of_neg (by simpa using fun hx => hl.1 (h.subset hx))]
    exact ih hl.2
  | @cons_cons s l x h ih =>
    rw [List.nodup_cons] at hl
    rw [List.filter_cons_of_pos (by simp)]
    congr 1
    conv_lhs => rw [ih hl.2]
    refine List.filter_congr fun y hy => ?_
    have : y ≠ x := fun he => hl.1 (he ▸ hy)
    simp [this]

theorem listCliques_ok (g : List (N × N)) : ListsMaxCliques g (listCliques g) := by
  have hnd : (nodeList g).Nodup := List.nodup_dedup _
  have hfin : (nodeList g).toFinset = nodesOf g := by ext x; simp [nodeList, nodesOf]
  have hmem : ∀ s, s ∈ listCliques g ↔ s.Sublist (nodeList g) ∧ maxCliqueTest g s = true := by intro s; simp [listCliques]
  have htest : ∀ s, s.Sublist (nodeList g) → (maxCliqueTest g s = true ↔ s.toFinset.Nonempty ∧ IsMaxClique (Joined g) (nodesOf g) s.toFinset) := by
    intro s hs
    unfold maxCliqueTest IsMaxClique IsClique
    simp only [Bool.and_eq_true, List.all_eq_true, List.any_eq_true, Bool.or_eq_true, decide_eq_true_eq, Bool.not_eq_true', Bool.or_eq_false_iff, decide_eq_false_iff_not,
      List.mem_toFinset, List.toFinset_nonempty_iff, ← hfin, List.isEmpty_eq_false_iff, Joined]
    constructor
    · rintro ⟨⟨h1, h2⟩, h3⟩
      refine ⟨h1, ⟨fun x hx => List.mem_toFinset.2 (hs.subset (List.mem_toFinset.1 hx)), fun a ha b hb hab => ?_⟩, fun w hw hws => ?_⟩
      · rcases h2 a ha b hb with (h | h) | h
        · exact absurd h hab
        · exact Or.inl h
        · exact Or.inr h
      · rcases h3 w hw with h | ⟨k, hk, h⟩
        · exact absurd h hws
        · exact ⟨k, hk, fun hc => hc.elim h.1 h.2⟩
    · rintro ⟨h1, ⟨-, h2⟩, h3⟩
      refine ⟨⟨h1, fun a ha b hb => ?_⟩, fun w hw => ?_⟩
      · by_cases hab : a = b
        · exact Or.inl (Or.inl hab)
        · rcases h2 a ha b hb hab with h | h
          · exact Or.inl (Or.inr h)
          · exact Or.inr h
      · by_cases hws : w ∈ s
        · exact Or.inl hws
        · obtain ⟨k, hk, h⟩ := h3 w hw hws
          exact Or.inr ⟨k, hk, fun hc => h (Or.inl hc), fun hc => h (Or.inr hc)⟩
  constructor
  · refine List.Nodup.map_on ?_ ((List.nodup_sublists.2 hnd).filter _)
    intro s hs s' hs' he
    rw [sublist_eq_filter ((hmem s).1 hs).1 hnd, sublist_eq_filter ((hmem s').1 hs').1 hnd]
    refine List.filter_congr fun y _ => ?_
    have : y ∈ s.toFinset ↔ y ∈ s'.toFinset := by rw [he]
    rw [List.mem_toFinset, List.mem_toFinset] at this
    simp [this]
  · intro K
    rw [List.mem_map]
    constructor
    · rintro ⟨s, hs, rfl⟩
      exact (htest s ((hmem s).1 hs).1).1 ((hmem s).1 hs).2
    · intro hK
      have hf : ((nodeList g).filter (· ∈ K)).toFinset = K := by
        ext x
        rw [List.mem_toFinset, List.mem_filter]
        simp only [decide_eq_true_eq, and_iff_right_iff_imp]
        intro hx
        have := hK.2.1.1 hx
        rwa [← hfin, List.mem_toFinset] at this
      refine ⟨(nodeList g).filter (· ∈ K), (hmem _).2 ⟨List.filter_sublist, (htest _ List.filter_sublist).2 ?_⟩, hf⟩
      rw [hf]; exact hK

/-- `CliqueTree` of the fork, and the upward pass in it. -/
def exRun : Py (Tree ℕ × Factor ℕ) := do
  let t ← cliqueTree (fun _ => false) listCliques HashOrder.id HashOrder.id HashOrder.id HashOrder.id exFork
  let t1 ← sendAll HashOrder.id t [(1, 0)]
  let t2 ← collectBeliefs HashOrder.id t1 0
  let f ← marginalizeOver t2 0 0
  pure (t, f)

theorem exRun_ok : exRun.okAnd (fun r => decide (r.1.E.length = 2 ∧ Dict.get? r.1.E 0 = some [1] ∧ (Dict.get? r.1.C 0).any (fun c => 0 ∈ c.scope) ∧ r.2.cpt = [1/32, 5/16])) = true := by
  decide +kernel

/-- C114 / the consequence for a user: message passing in `CliqueTree` of the fork 0 → 1, 0 → 2 gives the weights 1/32 and 5/16 for the root variable 0; normalised this is
1/11 and 10/11, while its probabilities are 1/4 and 3/4.  The hypotheses of `C119_clique_tree` hold here. -/
theorem C114_wrong_marginal : ∃ t t1 t2 f, cliqueTree (fun _ => false) listCliques HashOrder.id HashOrder.id HashOrder.id HashOrder.id exFork = .ok t ∧
    Upward t.E.length 0 (fun _ => 0) [1] ∧ (∀ i ∈ [1], Arc t.E 0 i) ∧ (∃ c0, Dict.get? t.C 0 = some c0 ∧ 0 ∈ c0.scope) ∧
    sendAll HashOrder.id t [(1, 0)] = .ok t1 ∧ collectBeliefs HashOrder.id t1 0 = .ok t2 ∧ marginalizeOver t2 0 0 = .ok f ∧ f.cpt = [1/32, 5/16] ∧
    exFork.prob 0 (fun _ => 0) = 1/4 ∧ exFork.prob 0 (fun _ => 1) = 3/4 := by
  obtain ⟨r, hr, hr'⟩ := Py.of_okAnd exRun_ok
  obtain ⟨e1, e2, e3, e4⟩ := of_decide_eq_true hr'
  unfold exRun at hr
  cases ha : cliqueTree (fun _ => false) listCliques HashOrder.id HashOrder.id HashOrder.id HashOrder.id exFork with
  | error e => rw [ha] at hr; cases hr
  | ok t =>
    rw [ha, Py.bind_ok] at hr
    cases hb : sendAll HashOrder.id t [(1, 0)] with
    | error e => rw [hb] at hr; cases hr
    | ok t1 =>
      rw [hb, Py.bind_ok] at hr
      cases hc : collectBeliefs HashOrder.id t1 0 with
      | error e => rw [hc] at hr; cases hr
      | ok t2 =>
        rw [hc, Py.bind_ok] at hr
        cases hd : marginalizeOver t2 0 0 with
        | error e => rw [hd] at hr; cases hr
        | ok f =>
          rw [hd, Py.bind_ok] at hr
          cases hr
          refine ⟨t, t1, t2, f, rfl, ?_, ?_, ?_, hb, hc, hd, e4, rfl, rfl⟩
          · rw [e1]
            exact ⟨List.Perm.refl _, by decide, by
              intro l1 i l2 he k hk hk0
              rcases l1 with _ | ⟨x, _ | ⟨y, l1⟩⟩ <;> simp at he
              omega⟩
          · intro i hi
            rw [List.mem_singleton.1 hi]
            exact ⟨[1], e2, by simp⟩
          · cases hq : Dict.get? t.C 0 with
            | none => rw [hq] at e3; cases e3
            | some c0 => rw [hq] at e3; exact ⟨c0, rfl, by simpa using e3⟩

end Clq
end PyBN
