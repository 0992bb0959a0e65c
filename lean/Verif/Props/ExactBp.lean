import Verif.Model.ExactBp
import Verif.Props.Clique3
import Verif.Props.Head

/-!
# `exact_bp`: C177, C178
-/

set_option linter.unusedSectionVars false
namespace PyBN
namespace Clq
variable {N A : Type} [DecidableEq N] [DecidableEq A]
open BayesNet Chordal Factor

/-- A clique that sends to itself keeps its belief and receives a copy of it. -/
theorem sendMessage_self (h : HashOrder N) {t : Tree N} {i : ℕ} {c : Clique N} (hc : Dict.get? t.C i = some c) (hm : c.msgs = []) {o : FObj N}
    (hb : c.belief = some o) : ∃ C', sendMessage h t i i = .ok { t with C := C' } ∧
      Dict.get? C' i = some { c with msgs := [o] } ∧ ∀ k, k ≠ i → Dict.get? C' k = Dict.get? t.C k := by
  have hf : c.scope.filter (· ∉ c.scope) = [] := by
    rw [List.filter_eq_nil_iff]; intro x hx; simpa using hx
  have hi : h.iter (c.scope.filter (· ∉ c.scope)) = [] := by
    rw [hf]; exact List.perm_nil.1 (h.perm _)
  refine ⟨(t.C.set i { c with belief := some o }).set i { c with belief := some o, msgs := c.msgs ++ [o] }, ?_, ?_, fun k hk => ?_⟩
  · unfold sendMessage
    rw [Dict.get_of_get? hc]
    have ho : (c.belief <|> c.psi) = some o := by rw [hb]; rfl
    simp only [Py.bind_ok, ho, beliefAndMessage, hm, Heap.mulAll, hi, Heap.sumoutAll, Py.pure_eq]
    rw [Dict.get_of_get? (Dict.get?_set_self _ _ _)]
    rfl
  · rw [Dict.get?_set_self, hm]
    congr 1
    rw [← hb]
    rfl
  · rw [Dict.get?_set_ne _ _ hk.symm, Dict.get?_set_ne _ _ hk.symm]

/-- All cliques send to themselves. -/
theorem upwardSends_self (h : HashOrder N) : ∀ (is : List ℕ) {t : Tree N}, is.Nodup →
    (∀ i ∈ is, Tree.parents t.E i t.V = .ok (if i = 0 then [] else [i])) →
    (∀ i ∈ is, ∃ c o, Dict.get? t.C i = some c ∧ c.msgs = [] ∧ c.belief = some o) →
    ∃ C', upwardSends h t is = .ok { t with C := C' } ∧ (∀ k, k ∉ is ∨ k = 0 → Dict.get? C' k = Dict.get? t.C k) ∧
      ∀ k ∈ is, k ≠ 0 → ∀ c o, Dict.get? t.C k = some c → c.belief = some o → Dict.get? C' k = some { c with msgs := [o] } := by
  intro is
  induction is with
  | nil => intro t _ _ _; exact ⟨t.C, rfl, fun _ _ => rfl, fun k hk => absurd hk (by simp)⟩
  | cons i is ih =>
    intro t hnd hpar hcl
    rw [List.nodup_cons] at hnd
    obtain ⟨c, o, c1, c2, c3⟩ := hcl i (by simp)
    have hstep : ∃ C1, sendAll h t (((if i = 0 then [] else [i]) : List ℕ).map fun j => (i, j)) = .ok { t with C := C1 } ∧
        (∀ k, k ≠ i ∨ k = 0 → Dict.get? C1 k = Dict.get? t.C k) ∧
        (i ≠ 0 → Dict.get? C1 i = some { c with msgs := [o] }) := by
      by_cases h0 : i = 0
      · rw [if_pos h0]; exact ⟨t.C, rfl, fun _ _ => rfl, fun hne => absurd h0 hne⟩
      · rw [if_neg h0]
        obtain ⟨C1, d1, d2, d3⟩ := sendMessage_self h c1 c2 c3
        refine ⟨C1, ?_, fun k hk => d3 k ?_, fun _ => d2⟩
        · simp only [List.map_cons, List.map_nil, sendAll, d1, Py.bind_ok]
        · rcases hk with hk | hk
          · exact hk
          · subst hk; exact fun he => h0 he.symm
    obtain ⟨C1, s1, s2, s3⟩ := hstep
    obtain ⟨C', r1, r2, r3⟩ := ih (t := { t with C := C1 }) hnd.2 (fun k hk => hpar k (by simp [hk])) (by
      intro k hk
      obtain ⟨ck, ok, k1, k2, k3⟩ := hcl k (by simp [hk])
      refine ⟨ck, ok, ?_, k2, k3⟩
      show Dict.get? C1 k = _
      rw [s2 k (Or.inl fun he => hnd.1 (he ▸ hk))]; exact k1)
    refine ⟨C', ?_, fun k hk => ?_, fun k hk hk0 ck ok hck hok => ?_⟩
    · rw [upwardSends, hpar i (by simp), Py.bind_ok, s1, Py.bind_ok, r1]
    · have hk' : k ∉ is ∨ k = 0 := by
        rcases hk with hk | hk
        · exact Or.inl fun hm => hk (by simp [hm])
        · exact Or.inr hk
      rw [r2 k hk']
      apply s2
      rcases hk with hk | hk
      · exact Or.inl fun he => hk (by simp [he])
      · exact Or.inr hk
    · by_cases hki : k = i
      · subst hki
        rw [r2 k (Or.inl hnd.1), s3 hk0]
        rw [c1] at hck; cases hck
        rw [c3] at hok; cases hok
        rfl
      · have hkm : k ∈ is := by simpa [hki] using hk
        refine r3 k hkm hk0 ck ok ?_ hok
        show Dict.get? C1 k = _
        rw [s2 k (Or.inl hki)]; exact hck

/-- The root: the first clique, in the order of `ctree.V`, that has the target; the first clique if none has it. -/
def IsRoot (t : Tree N) (target : N) (r : ℕ) : Prop :=
  (∃ l1 l2 c, t.V = l1 ++ r :: l2 ∧ Dict.get? t.C r = some c ∧ target ∈ c.scope ∧
    ∀ k ∈ l1, ∀ c, Dict.get? t.C k = some c → target ∉ c.scope) ∨
  (t.V.head? = some r ∧ ∀ k ∈ t.V, ∀ c, Dict.get? t.C k = some c → target ∉ c.scope)

theorem firstWith_ok {t : Tree N} (target : N) : ∀ (l : List ℕ), (∀ k ∈ l, (Dict.get? t.C k).isSome) →
    (∃ l1 r l2 c, l = l1 ++ r :: l2 ∧ firstWith t target l = .ok (some r) ∧ Dict.get? t.C r = some c ∧ target ∈ c.scope ∧
      ∀ k ∈ l1, ∀ c, Dict.get? t.C k = some c → target ∉ c.scope) ∨
    (firstWith t target l = .ok none ∧ ∀ k ∈ l, ∀ c, Dict.get? t.C k = some c → target ∉ c.scope) := by
  intro l
  induction l with
  | nil => intro _; right; exact ⟨rfl, fun k hk => absurd hk (by simp)⟩
  | cons v l ih =>
    intro hs
    obtain ⟨c, hc⟩ := Option.isSome_iff_exists.1 (hs v (by simp))
    by_cases hm : target ∈ c.scope
    · left
      refine ⟨[], v, l, c, rfl, ?_, hc, hm, fun k hk => absurd hk (by simp)⟩
      rw [firstWith, Dict.get_of_get? hc, Py.bind_ok, if_pos hm]; rfl
    · have hrec : firstWith t target (v :: l) = firstWith t target l := by
        rw [firstWith, Dict.get_of_get? hc, Py.bind_ok, if_neg hm]
      have hv : ∀ c', Dict.get? t.C v = some c' → target ∉ c'.scope := by
        intro c' h'; rw [hc] at h'; cases h'; exact hm
      rcases ih fun k hk => hs k (by simp [hk]) with ⟨l1, r, l2, c', e1, e2, e3, e4, e5⟩ | ⟨e1, e2⟩
      · left
        refine ⟨v :: l1, r, l2, c', by rw [e1]; rfl, by rw [hrec, e2], e3, e4, fun k hk => ?_⟩
        rcases List.mem_cons.1 hk with rfl | hk
        · exact hv
        · exact e5 k hk
      · right
        refine ⟨by rw [hrec, e1], fun k hk => ?_⟩
        rcases List.mem_cons.1 hk with rfl | hk
        · exact hv
        · exact e2 k hk

/-- Every clique of `CliqueTree(bn)` is there, with its potential as belief and no messages. -/
theorem cliqueTree_cliques (isChordal : List (N × N) → Bool) (hch : ∀ g, isChordal g = true → IsChordal g) (cliques : List (N × N) → List (List N))
    (hcl : ∀ g, IsChordal g → (∀ a, ¬ Joined g a a) → ListsMaxCliques g (cliques g)) (h : HashOrder N) (hP : HashOrder (N × N)) (hQ : HashOrder (ℕ × ℚ))
    (hC : HashOrder ℕ) (bn : BayesNet N A) (w : bn.WF) {t : Tree N} (ht : cliqueTree isChordal cliques h hP hQ hC bn = .ok t) (v : ℕ) (hv : v ∈ t.V) :
    ∃ c o, Dict.get? t.C v = some c ∧ c.psi = some o ∧ c.belief = some o ∧ c.msgs = [] ∧ Valid t.heap o ∧ (t.heap.get o).WF bn.cardOf := by
  obtain ⟨g, E, asg, -, h2, -, -, -, -, -, h8, -, -, -, -, -, -, h15, -, -, h18, -⟩ := treeShape_ok isChordal hch cliques hcl h hP hQ hC bn w
  obtain ⟨k1, k2⟩ := cliqueTree_ok isChordal cliques h hP hQ hC bn w h2 fun p hp v hv => (h18 p hp v hv).1
  have hne : ∀ p ∈ asg, p.2 ≠ [] := by
    intro p hp he
    rw [k1 ⟨p, hp, he⟩] at ht; cases ht
  obtain ⟨t', os, t1, t2, t3, t4, t5, t6, -⟩ := k2 hne
  rw [ht] at t1
  cases t1
  have hkeys : t.C.keys = asg.map Prod.fst := by
    refine List.ext_getElem (by simp [Dict.keys, t4]) fun j j1 j2 => ?_
    simp only [Dict.keys, List.getElem_map]
    exact (t6 j (by simpa using j2) (by simpa [Dict.keys] using j1) (by rw [t5]; simpa using j2)).idx
  have hknd : t.C.keys.Nodup := by rw [hkeys]; exact h15.nodup_iff.2 List.nodup_range
  have hvr : v < (cliques g).length := by
    rw [t3, h8] at hv
    exact List.mem_range.1 ((hC.perm _).mem_iff.1 hv)
  have : v ∈ asg.map Prod.fst := h15.mem_iff.2 (List.mem_range.2 hvr)
  obtain ⟨p, hp, rfl⟩ := List.mem_map.1 this
  obtain ⟨q, q1, q2⟩ := List.mem_iff_getElem.1 hp
  have d := t6 q q1 (by omega) (by omega)
  refine ⟨t.C[q].2, os[q], ?_, d.psi, d.belief, d.msgs, d.valid, d.spec.wf⟩
  refine Dict.get?_of_mem hknd ?_
  have : (p.1, t.C[q].2) = t.C[q] := Prod.ext (by rw [d.idx, q2]) rfl
  rw [this]; exact List.getElem_mem _

/-- C177: as shipped `exact_bp` raises `NameError` on every network. -/
theorem C177_as_shipped (post : Dict ℕ (List ℕ) → ℕ → List ℕ) (isChordal : List (N × N) → Bool) (cliques : List (N × N) → List (List N))
    (h : HashOrder N) (hP : HashOrder (N × N)) (hQ : HashOrder (ℕ × ℚ)) (hC : HashOrder ℕ) (bn : BayesNet N A) (target : N) :
    exactBp false post isChordal cliques h hP hQ hC bn target = .error .nameError := rfl

/-- C177 (with the import restored): a tree without cliques - a network without nodes - is an `IndexError`. -/
theorem C177_no_cliques (post : Dict ℕ (List ℕ) → ℕ → List ℕ) (isChordal : List (N × N) → Bool) (cliques : List (N × N) → List (List N))
    (h : HashOrder N) (hP : HashOrder (N × N)) (hQ : HashOrder (ℕ × ℚ)) (hC : HashOrder ℕ) (bn : BayesNet N A) (target : N) {t : Tree N}
    (ht : cliqueTree isChordal cliques h hP hQ hC bn = .ok t) (hV : t.V = []) :
    exactBp true post isChordal cliques h hP hQ hC bn target = .error .indexError := by
  simp [exactBp, ht, chooseRoot, hV]

/-- C177 (with the import restored): `exact_bp` passes no message between cliques.  With `r` the root it chooses, it returns the potential
of clique `r` - squared, unless `r` is clique 0 - summed over the other variables of that potential; `KeyError` if the potential does not
mention the target. -/
theorem C177_import_restored (post : Dict ℕ (List ℕ) → ℕ → List ℕ) (isChordal : List (N × N) → Bool)
    (hch : ∀ g, isChordal g = true → IsChordal g) (cliques : List (N × N) → List (List N))
    (hcl : ∀ g, IsChordal g → (∀ a, ¬ Joined g a a) → ListsMaxCliques g (cliques g)) (h : HashOrder N) (hP : HashOrder (N × N)) (hQ : HashOrder (ℕ × ℚ))
    (hC : HashOrder ℕ) (bn : BayesNet N A) (w : bn.WF) (target : N) {t : Tree N} (ht : cliqueTree isChordal cliques h hP hQ hC bn = .ok t)
    (hV : t.V ≠ []) (hpost : ∀ r ∈ t.V, (post t.E r).Nodup ∧ r ∈ post t.E r ∧ ∀ i ∈ post t.E r, i ∈ t.V) :
    ∃ r c o, IsRoot t target r ∧ Dict.get? t.C r = some c ∧ c.psi = some o ∧
      (target ∉ (t.heap.get o).scope → exactBp true post isChordal cliques h hP hQ hC bn target = .error .keyError) ∧
      (target ∈ (t.heap.get o).scope → ∃ f, exactBp true post isChordal cliques h hP hQ hC bn target = .ok f ∧ f.scope = [target] ∧
        f.cpt.length = bn.cardOf target ∧ ∀ a, a target < bn.cardOf target → f.cpt[a target]? =
          some (sumAll bn.cardOf ((t.heap.get o).scope.erase target) (fun b => (t.heap.get o).val b ^ (if r = 0 then 1 else 2)) a)) := by
  have hcq := cliqueTree_cliques isChordal hch cliques hcl h hP hQ hC bn w ht
  -- the root
  have hroot : ∃ r, r ∈ t.V ∧ IsRoot t target r ∧ chooseRoot t target = .ok r := by
    obtain ⟨v, vs, hvs⟩ := List.exists_cons_of_ne_nil hV
    unfold chooseRoot
    rw [hvs]
    simp only
    rcases firstWith_ok (t := t) target t.V (fun k hk => by
      obtain ⟨c, o, c1, _⟩ := hcq k hk
      rw [c1]; rfl) with ⟨l1, r, l2, c, e1, e2, e3, e4, e5⟩ | ⟨e1, e2⟩
    · refine ⟨r, by rw [← hvs, e1]; simp, Or.inl ⟨l1, l2, c, e1, e3, e4, e5⟩, ?_⟩
      rw [← hvs, e2]; rfl
    · refine ⟨v, by simp, Or.inr ⟨by rw [hvs]; rfl, e2⟩, ?_⟩
      rw [← hvs, e1]; rfl
  obtain ⟨r, hrV, hr, hch'⟩ := hroot
  obtain ⟨c, o, c1, c2, c3, c4, c5, c6⟩ := hcq r hrV
  obtain ⟨p1, p2, p3⟩ := hpost r hrV
  obtain ⟨C', s1, s2, s3⟩ := upwardSends_self h (post t.E r) (t := t) p1
    (fun i hi => C120_clique_tree isChordal hch cliques hcl h hP hQ hC bn w ht i (p3 i hi))
    (fun i hi => by
      obtain ⟨ci, oi, i1, _, i3, i4, _⟩ := hcq i (p3 i hi)
      exact ⟨ci, oi, i1, i4, i3⟩)
  -- what is left to run
  have hrun : ∃ (H' : Heap N) (b : FObj N), (H'.get b).WF bn.cardOf ∧ (∀ v, v ∈ (H'.get b).scope ↔ v ∈ (t.heap.get o).scope) ∧
      (∀ a, InRange bn.cardOf (H'.get b).scope a → (H'.get b).val a = (t.heap.get o).val a ^ (if r = 0 then 1 else 2)) ∧
      exactBp true post isChordal cliques h hP hQ hC bn target = Factor.sumover (H'.get b) target := by
    have hstart : exactBp true post isChordal cliques h hP hQ hC bn target =
        (do let t2 ← collectBeliefs h { t with C := C' } r; marginalizeOver t2 r target) := by
      unfold exactBp
      rw [if_neg (by simp), ht, Py.bind_ok, hch', Py.bind_ok, s1, Py.bind_ok]
    rw [hstart]
    by_cases h0 : r = 0
    · have hget : Dict.get? C' r = some c := by rw [s2 r (Or.inr h0), c1]
      refine ⟨t.heap, o, c6, fun _ => Iff.rfl, fun a _ => by rw [if_pos h0, pow_one], ?_⟩
      unfold collectBeliefs
      simp only [Dict.get_of_get? hget, Py.bind_ok, c4]
      unfold marginalizeOver
      simp only [Py.pure_eq, Py.bind_ok, Dict.get_of_get? hget, c3]
    · have hget : Dict.get? C' r = some { c with msgs := [o] } := s3 r p2 h0 c o c1 c3
      obtain ⟨H', b, m1, -, m3, m4, m5, -⟩ := mul_spec h c5 c5 c6 c6
      refine ⟨H', b, m3, fun v => by rw [m4 v, or_self], fun a ha => by rw [m5 a ha, if_neg h0, sq], ?_⟩
      unfold collectBeliefs
      simp only [Dict.get_of_get? hget, Py.bind_ok, c2, Heap.mulAll, m1]
      unfold marginalizeOver
      simp only [Py.pure_eq, Py.bind_ok, Dict.get_of_get? (Dict.get?_set_self _ _ _)]
  obtain ⟨H', b, w', hsc, hval, hbp⟩ := hrun
  refine ⟨r, c, o, hr, c1, c2, fun hnt => ?_, fun htm => ?_⟩
  · rw [hbp]
    have hg : (H'.get b).card.get target = .error .keyError := by
      have := w'.card_eq target
      rw [if_neg fun hm => hnt ((hsc _).1 hm)] at this
      unfold Dict.get; rw [this]
    simp only [Factor.sumover, hg]; rfl
  · obtain ⟨f, f1, f2, f3, f4, f5, f6⟩ := sumover_ok w' ((hsc target).2 htm)
    refine ⟨f, by rw [hbp, f1], f3, f5, fun a ha => ?_⟩
    rw [(f6 a ha).2]
    congr 1
    have hp : (H'.get b).scope.Perm (t.heap.get o).scope :=
      (List.perm_ext_iff_of_nodup w'.scope_nodup c6.scope_nodup).2 hsc
    rw [sumAll_perm (hp.erase target) _ (w'.scope_nodup.erase _)]
    refine sumAll_congr (fun b' hb1 hb2 => hval b' fun v hv => ?_) (c6.scope_nodup.erase _)
    by_cases hvt : v = target
    · subst hvt
      rw [hb1 v (by rw [c6.scope_nodup.mem_erase_iff]; simp)]; exact ha
    · exact hb2 v (by rw [c6.scope_nodup.mem_erase_iff]; exact ⟨hvt, (hsc v).1 hv⟩)

/-- A depth-first postorder of the tree of two cliques. -/
def exPost (_ : Dict ℕ (List ℕ)) (r : ℕ) : List ℕ := if r = 0 then [1, 0] else [0, 1]

/-- The hypotheses of `C177_import_restored` for the fork. -/
def exPostOk : Py Bool := do
  let t ← cliqueTree (fun _ => false) listCliques HashOrder.id HashOrder.id HashOrder.id HashOrder.id exFork
  pure (decide (t.V = [0, 1]))

theorem C177_example : ∃ t, cliqueTree (fun _ => false) listCliques HashOrder.id HashOrder.id HashOrder.id HashOrder.id exFork = .ok t ∧ t.V ≠ [] ∧
    ∀ r ∈ t.V, (exPost t.E r).Nodup ∧ r ∈ exPost t.E r ∧ ∀ i ∈ exPost t.E r, i ∈ t.V := by
  obtain ⟨r, hr, hr'⟩ := Py.of_okAnd (p := fun b => b) (show exPostOk.okAnd (fun b => b) = true by decide +kernel)
  unfold exPostOk at hr
  cases ha : cliqueTree (fun _ => false) listCliques HashOrder.id HashOrder.id HashOrder.id HashOrder.id exFork with
  | error e => rw [ha] at hr; cases hr
  | ok t =>
    rw [ha, Py.bind_ok] at hr
    cases hr
    have hV : t.V = [0, 1] := of_decide_eq_true hr'
    refine ⟨t, rfl, by rw [hV]; simp, ?_⟩
    rw [hV]
    unfold exPost
    decide

/-- C178 is false: `exact_bp` returns no table at all, on any network. -/
theorem C178_false (post : Dict ℕ (List ℕ) → ℕ → List ℕ) (isChordal : List (N × N) → Bool) (cliques : List (N × N) → List (List N))
    (h : HashOrder N) (hP : HashOrder (N × N)) (hQ : HashOrder (ℕ × ℚ)) (hC : HashOrder ℕ) (bn : BayesNet N A) (target : N) :
    ¬ ∃ f, exactBp false post isChordal cliques h hP hQ hC bn target = .ok f := by
  rintro ⟨f, hf⟩
  cases hf

/-- C178: restoring the import does not repair it: for the fork 0 → 1, 0 → 2 the three targets get the weights `[1/32, 5/16]`, `[5/64, 17/64]` and
`[1/20, 29/20]`, which are not proportional to the marginals `[1/4, 3/4]`, `[3/8, 5/8]` and `[1/8, 7/8]`. -/
theorem C178_import_restored :
    ∃ f0 f1 f2, exactBp true exPost (fun _ => false) listCliques HashOrder.id HashOrder.id HashOrder.id HashOrder.id exFork 0 = .ok f0 ∧
      exactBp true exPost (fun _ => false) listCliques HashOrder.id HashOrder.id HashOrder.id HashOrder.id exFork 1 = .ok f1 ∧
      exactBp true exPost (fun _ => false) listCliques HashOrder.id HashOrder.id HashOrder.id HashOrder.id exFork 2 = .ok f2 ∧
      f0.cpt = [1/32, 5/16] ∧ f1.cpt = [5/64, 17/64] ∧ f2.cpt = [1/20, 29/20] ∧
      ∀ i < 2, exFork.marginal 0 [] (fun _ => i) = [1/4, 3/4].getD i (0 : ℚ) ∧ exFork.marginal 1 [] (fun _ => i) = [3/8, 5/8].getD i (0 : ℚ) ∧
        exFork.marginal 2 [] (fun _ => i) = [1/8, 7/8].getD i (0 : ℚ) := by
  obtain ⟨f0, h0, e0⟩ := Py.of_okAnd (show (exactBp true exPost (fun _ => false) listCliques HashOrder.id HashOrder.id HashOrder.id HashOrder.id
    exFork 0).okAnd (fun f => decide (f.cpt = [1/32, 5/16])) = true by decide +kernel)
  obtain ⟨f1, h1, e1⟩ := Py.of_okAnd (show (exactBp true exPost (fun _ => false) listCliques HashOrder.id HashOrder.id HashOrder.id HashOrder.id
    exFork 1).okAnd (fun f => decide (f.cpt = [5/64, 17/64])) = true by decide +kernel)
  obtain ⟨f2, h2, e2⟩ := Py.of_okAnd (show (exactBp true exPost (fun _ => false) listCliques HashOrder.id HashOrder.id HashOrder.id HashOrder.id
    exFork 2).okAnd (fun f => decide (f.cpt = [1/20, 29/20])) = true by decide +kernel)
  refine ⟨f0, f1, f2, h0, h1, h2, of_decide_eq_true e0, of_decide_eq_true e1, of_decide_eq_true e2, ?_⟩
  decide +kernel

example : (cliqueTree (fun _ => true) (fun _ => []) HashOrder.id HashOrder.id HashOrder.id HashOrder.id (⟨[], [], []⟩ : BayesNet ℕ ℕ)).okAnd (fun t => t.V = []) := by
  decide +kernel

end Clq
end PyBN
