import Verif.Proofs.FastIamb
import Verif.Props.Constraint

/-!
# C121-C130: `iamb`, `orient_edges_gs2`, `fast_iamb`

The outcomes of the tests are arbitrary: `lt cols` is `are_independent(data[:,cols])`, i.e. `pval < alpha` (so it says *dependent*), `mi cols` is the statistic
`mi_test(data[:,cols], test=False)`; `cols` lists the two variables first, then the conditioning set.
-/

namespace PyBN
open Constraint BayesNet

/-! ## C121, C122: growing -/

/-- C121: the growing phase always ends (within `n + 1` rounds), whatever the tests say, with a duplicate-free list of other variables.  Each step
tests the candidate of largest association (the first such), but adds the candidate that happens to be iterated last; the phase ends when there is no candidate
or the one of largest association does not test as dependent. -/
theorem C121_iamb_growing (lt : List ℕ → Bool) (mi : List ℕ → ℚ) (h : HashOrder ℕ) (n t : ℕ) :
    ∃ S : List ℕ, (∀ fuel ≥ n + 1, iambGrow lt mi h n t fuel [] = .ok S) ∧ S.Nodup ∧ t ∉ S ∧ (∀ y ∈ S, y < n) ∧
      (∀ p x q, S = p ++ x :: q → ∃ m, Strongest (fun c => mi (c :: t :: p)) (outside h n t p) m ∧ lt (m :: t :: p) = true ∧
        (outside h n t p).getLast? = some x) ∧
      (∀ m, Strongest (fun c => mi (c :: t :: S)) (outside h n t S) m → lt (m :: t :: S) = false) := by
  obtain ⟨S, h1, h2, h3⟩ := iambGrow_ok lt mi h n t (n + 1) [] ⟨by simp, by simp, by simp, fun p x q e => by simp at e⟩ (by simp)
  exact ⟨S, fun fuel hf => iambGrow_mono lt mi h n t _ _ _ _ hf h1, h2.nodup, h2.self, h2.bound, h2.steps, h3⟩

/-- Witness: three columns; column 1 has the larger association with column 0 and is the only one that tests as dependent; column 2 is added. -/
theorem C121_example : iambGrow (fun c => decide (c = [1, 0])) (fun c => if c = [1, 0] then 2 else 1) HashOrder.id 3 0 4 [] = .ok [2] := by decide +kernel

/-- C122 is false: the variable added need not be the one of largest association, nor test as dependent, and the one that is and does can be left out. -/
theorem C122_false : ∃ (lt : List ℕ → Bool) (mi : List ℕ → ℚ) (S : List ℕ), (∀ fuel ≥ 4, iambGrow lt mi HashOrder.id 3 0 fuel [] = .ok S) ∧
    S = [2] ∧ mi [2, 0] < mi [1, 0] ∧ lt [2, 0] = false ∧ lt [1, 0] = true := by
  obtain ⟨S, h1, _⟩ := C121_iamb_growing (fun c => decide (c = [1, 0])) (fun c => if c = [1, 0] then 2 else 1) HashOrder.id 3 0
  have := h1 4 (le_refl _)
  rw [C121_example] at this
  cases this
  exact ⟨_, _, [2], h1, rfl, by decide +kernel, by decide, by decide⟩

/-- C122, what can be said: when the candidates happen to be iterated so that the last one has the largest association, each variable added is the one of largest
association and tests as dependent given those before it.  Missing: other orders of iteration. -/
theorem C122_iamb_strongest_partial (lt : List ℕ → Bool) (mi : List ℕ → ℚ) (h : HashOrder ℕ) (n t : ℕ)
    (hlast : ∀ p x m, (outside h n t p).getLast? = some x → Strongest (fun c => mi (c :: t :: p)) (outside h n t p) m → x = m) :
    ∃ S : List ℕ, (∀ fuel ≥ n + 1, iambGrow lt mi h n t fuel [] = .ok S) ∧
      ∀ p x q, S = p ++ x :: q → Strongest (fun c => mi (c :: t :: p)) (outside h n t p) x ∧ lt (x :: t :: p) = true := by
  obtain ⟨S, h1, _, _, _, h2, _⟩ := C121_iamb_growing lt mi h n t
  refine ⟨S, h1, fun p x q e => ?_⟩
  obtain ⟨m, hm, hl, hx⟩ := h2 p x q e
  rw [hlast p x m hx hm]
  exact ⟨hm, hl⟩

/-- Witness: two columns. -/
example : ∀ p x m, (outside HashOrder.id 2 0 p).getLast? = some x → Strongest (fun c => (fun _ => 1 : List ℕ → ℚ) (c :: 0 :: p)) (outside HashOrder.id 2 0 p) m → x = m := by
  intro p x m hx hm
  have h1 := mem_outside.1 (List.mem_of_getLast? hx)
  obtain ⟨a, b, e, _⟩ := hm
  have h2 := (mem_outside (h := HashOrder.id) (n := 2) (t := 0) (mb := p) (v := m)).1 (by rw [e]; simp)
  omega

/-! ## C123, C124: shrinking -/

/-- C123: the blanket of `iamb`: the grown list after one pass over it that removes the members that test as *dependent* on the target given the other
members (the meaning of `are_independent` is reversed), skipping the member after each removed one.  It is a sublist of the grown list; all of it if no test finds
dependence; its second, fourth, ... elements if all tests find dependence. -/
theorem C123_iamb_shrinking (lt05 ltA : List ℕ → Bool) (mi : List ℕ → ℚ) (h : HashOrder ℕ) (n t : ℕ) :
    ∃ S B : List ℕ, (∀ fuel ≥ n + 1, iambGrow lt05 mi h n t fuel [] = .ok S) ∧ (∀ fuel ≥ n + 1, iambBlanket lt05 ltA mi h n fuel t = .ok B) ∧
      ShrinkRun (fun x L => ltA (x :: t :: h.iter (L.filter fun v => decide (v ≠ x))) = true) [] S B ∧
      B.Sublist S ∧ ((∀ c, ltA c = false) → B = S) ∧ ((∀ c, ltA c = true) → B = everySecond S) := by
  obtain ⟨S, h1, h2, _⟩ := C121_iamb_growing lt05 mi h n t
  have hr := shrinkLive_run ltA h t S.length [] S (by simpa using h2) (le_refl _)
  simp only [List.nil_append, List.length_nil] at hr
  refine ⟨S, _, h1, fun fuel hf => ?_, hr, by simpa using hr.sublist, fun hc => ?_, fun hc => ?_⟩
  · unfold iambBlanket; rw [h1 fuel hf]; rfl
  · simpa using hr.none fun x L => by unfold shrinkTest; simp [hc]
  · simpa using hr.all fun x L => hc _

/-- Witness: four columns, all tests finding dependence: the grown blanket of 0 is 3, 2, 1 and the final one is 2. -/
example : iambGrow (fun _ => true) (fun _ => 0) HashOrder.id 4 0 5 [] = .ok [3, 2, 1] ∧
    iambBlanket (fun _ => true) (fun _ => true) (fun _ => 0) HashOrder.id 4 5 0 = .ok [2] := by decide +kernel

/-- C124 is false in both directions: with two columns and the level 0.05 the blankets are empty whatever the tests say (also when every test finds dependence), and
a member that the shrinking phase finds independent of the target stays. -/
theorem C124_false :
    (∀ (lt : List ℕ → Bool) (mi : List ℕ → ℚ) (h : HashOrder ℕ), ∀ fuel ≥ 3, ∀ t < 2, iambBlanket lt lt mi h 2 fuel t = .ok []) ∧
    (∃ (lt05 ltA : List ℕ → Bool) (mi : List ℕ → ℚ), iambBlanket lt05 ltA mi HashOrder.id 2 3 0 = .ok [1] ∧ ltA [1, 0] = false) := by
  refine ⟨fun lt mi h fuel hf t ht => ?_, ⟨fun _ => true, fun _ => false, fun _ => 0, by decide +kernel, rfl⟩⟩
  obtain ⟨S, h1, h2, h3, h4, h5, _⟩ := C121_iamb_growing lt mi h 2 t
  unfold iambBlanket
  rw [h1 fuel hf, Py.bind_ok]
  have hS : S = [] ∨ S = [1 - t] := by
    match S, h2, h3, h4 with
    | [], _, _, _ => exact .inl rfl
    | [a], _, ha, hb =>
      have := hb a (by simp)
      have h0 : a ≠ t := by rintro rfl; simp at ha
      exact .inr (by congr 1; omega)
    | a :: b :: s, hn, ha, hb =>
      have a1 := hb a (by simp)
      have b1 := hb b (by simp)
      have a0 : a ≠ t := by rintro rfl; simp at ha
      have b0 : b ≠ t := by rintro rfl; simp at ha
      have hab : a ≠ b := by rintro rfl; simp at hn
      omega
  rcases hS with rfl | rfl
  · rfl
  · obtain ⟨m, ⟨p, q, hm, _⟩, hl, _⟩ := h5 [] (1 - t) [] rfl
    have hm1 := (mem_outside (h := h) (n := 2) (t := t) (mb := []) (v := m)).1 (by rw [hm]; simp)
    have : m = 1 - t := by omega
    subst this
    have he : h.iter ((List.filter (fun v => decide (v ≠ 1 - t)) [1 - t])) = [] := List.length_eq_zero_iff.1 (by rw [(h.perm _).length_eq]; simp)
    show Except.ok (shrinkLive lt h t 1 0 [1 - t]) = _
    rw [shrinkLive]
    simp only [List.getElem?_cons_zero, he, hl, if_true]
    simp [shrinkLive]

/-- C124, what holds: shrinking never adds or reorders members, and a blanket in which no member tests as dependent is a grown list left as it was.  Missing: that
the members that remain are those dependent on the target. -/
theorem C124_iamb_shrink_sublist_partial (lt05 ltA : List ℕ → Bool) (mi : List ℕ → ℚ) (h : HashOrder ℕ) (n t : ℕ) :
    ∃ S B : List ℕ, (∀ fuel ≥ n + 1, iambGrow lt05 mi h n t fuel [] = .ok S) ∧ (∀ fuel ≥ n + 1, iambBlanket lt05 ltA mi h n fuel t = .ok B) ∧
      B.Sublist S ∧ B.Nodup ∧ t ∉ B ∧ ∀ y ∈ B, y < n := by
  obtain ⟨S, B, h1, h2, _, h3, _⟩ := C123_iamb_shrinking lt05 ltA mi h n t
  obtain ⟨S', g1, g2, g3, g4, _⟩ := C121_iamb_growing lt05 mi h n t
  have := g1 (n + 1) (le_refl _)
  rw [h1 (n + 1) (le_refl _)] at this
  cases this
  exact ⟨S, B, h1, h2, h3, h3.nodup g2, fun hc => g3 (h3.subset hc), fun y hy => g4 y (h3.subset hy)⟩

/-! ## C125, C126: `orient_edges_gs2` -/

/-- C126: `orient_edges_gs2` never raises on an undirected graph, keeps its keys and adds no pair.  For an edge `x - y`, `x` being handled before `y`: the arc
`y → x` is there exactly if `y` has a neighbour that is not one of `x`; the arc `x → y` exactly if `x` has a neighbour that is not one of `y` and, for the first
of the private neighbours `z` of `y`, no test of `x` and `z` given `y` and a proper part of the conditioning candidates has a p-value below the level. -/
theorem C126_gs2_exact (lt : List ℕ → Bool) (h : HashOrder ℕ) (n : ℕ) (e mb : Dict ℕ (List ℕ)) (hu : Undirected n e) (hirr : ∀ x, x ∉ nb e x)
    (hm : IsBlankets n mb) :
    ∃ d, orientGs2 lt h e mb = .ok d ∧ d.keys.Perm (List.range n) ∧ (∀ x, (nb d x).Nodup) ∧ (∀ x y, Arc d x y → y ∈ nb e x) ∧
      ∀ x y, y ∈ nb e x → [x, y].Sublist (h.iter e.keys) →
        (Arc d y x ↔ privateNb e y x ≠ []) ∧
        (Arc d x y ↔ privateNb e x y ≠ [] ∧ ∀ z, (h.iter (privateNb e y x)).head? = some z → ¬ Reverses lt h mb x z y) := by
  obtain ⟨d, h1, h2, h3⟩ := orientGs2_ok lt h hu hirr hm
  refine ⟨d, h1, h2.keys.trans hu.keys, h2.nodup, fun x y hxy => h2.sub x y (arc_iff_nb.1 hxy), fun x y hxy hs => ?_⟩
  have hkn : e.keys.Nodup := hu.keys.nodup_iff.2 List.nodup_range
  have hhn : (h.iter e.keys).Nodup := (h.perm _).nodup_iff.2 hkn
  have := effs_pair (lt := lt) (h := h) (mb := mb) (e := e) (fun he => hirr y (by subst he; exact hxy)) hhn hs hu.nodup hxy (hu.symm _ _ hxy)
  simp only [arc_iff_nb, h3]
  exact this

/-- Two distinct entries of a list come in one of the two orders. -/
theorem pair_order {l : List ℕ} {x y : ℕ} (hx : x ∈ l) (hy : y ∈ l) (hne : x ≠ y) : [x, y].Sublist l ∨ [y, x].Sublist l := by
  obtain ⟨a, b, rfl⟩ := List.append_of_mem hx
  rcases List.mem_append.1 hy with h | h
  · right
    exact (List.singleton_sublist.2 h).append (List.singleton_sublist.2 (by simp) : [x].Sublist (x :: b))
  · left
    rcases List.mem_cons.1 h with h | h
    · exact absurd h.symm hne
    · exact (((List.singleton_sublist.2 h).cons_cons x)).trans (List.sublist_append_right a _)

/-- C125, what holds: every arc is an edge of the graph; an edge keeps a direction exactly if one of its ends has a neighbour that the other has not.  Missing: that
it keeps exactly one. -/
theorem C125_gs2_orients_partial (lt : List ℕ → Bool) (h : HashOrder ℕ) (n : ℕ) (e mb : Dict ℕ (List ℕ)) (hu : Undirected n e) (hirr : ∀ x, x ∉ nb e x)
    (hm : IsBlankets n mb) :
    ∃ d, orientGs2 lt h e mb = .ok d ∧ (∀ x y, Arc d x y → y ∈ nb e x) ∧
      (∀ x y, Arc d x y ∨ Arc d y x ↔ y ∈ nb e x ∧ ∃ z, (z ∈ nb e x ∧ z ≠ y ∧ z ∉ nb e y) ∨ (z ∈ nb e y ∧ z ≠ x ∧ z ∉ nb e x)) ∧
      ((∀ c, lt c = false) → ∀ x y, Arc d x y ↔ y ∈ nb e x ∧ ∃ z, z ∈ nb e x ∧ z ≠ y ∧ z ∉ nb e y) := by
  obtain ⟨d, h1, hk, _, h2, h3⟩ := C126_gs2_exact lt h n e mb hu hirr hm
  have hp : ∀ a b, privateNb e a b ≠ [] ↔ ∃ z, z ∈ nb e a ∧ z ≠ b ∧ z ∉ nb e b := by
    intro a b
    rw [ne_eq, List.eq_nil_iff_forall_not_mem, not_forall_not]
    unfold privateNb
    simp
  have hord : ∀ x y, y ∈ nb e x → [x, y].Sublist (h.iter e.keys) ∨ [y, x].Sublist (h.iter e.keys) := by
    intro x y hxy
    refine pair_order ((h.perm _).mem_iff.2 (mem_keys_of_nb hxy)) ((h.perm _).mem_iff.2 (mem_keys_of_nb (hu.symm _ _ hxy))) ?_
    rintro rfl; exact hirr _ hxy
  -- for an ordered edge
  have key : ∀ x y, y ∈ nb e x → [x, y].Sublist (h.iter e.keys) → (Arc d x y ∨ Arc d y x ↔ privateNb e x y ≠ [] ∨ privateNb e y x ≠ []) := by
    intro x y hxy hs
    obtain ⟨k1, k2⟩ := h3 x y hxy hs
    rw [k1, k2]
    constructor
    · rintro (hh | hh)
      · exact .inl hh.1
      · exact .inr hh
    · rintro (hh | hh)
      · by_cases hy : privateNb e y x = []
        · left
          refine ⟨hh, fun z hz => ?_⟩
          have : z ∈ h.iter (privateNb e y x) := List.mem_of_head? hz
          rw [(h.perm _).mem_iff, hy] at this; cases this
        · exact .inr hy
      · exact .inr hh
  refine ⟨d, h1, h2, fun x y => ?_, fun hlt x y => ?_⟩
  · rw [exists_or, ← hp, ← hp]
    constructor
    · intro hh
      have hxy : y ∈ nb e x := by
        rcases hh with hh | hh
        · exact h2 _ _ hh
        · exact hu.symm _ _ (h2 _ _ hh)
      refine ⟨hxy, ?_⟩
      rcases hord x y hxy with hs | hs
      · exact (key x y hxy hs).1 hh
      · exact ((key y x (hu.symm _ _ hxy) hs).1 hh.symm).symm
    · rintro ⟨hxy, hh⟩
      rcases hord x y hxy with hs | hs
      · exact (key x y hxy hs).2 hh
      · exact ((key y x (hu.symm _ _ hxy) hs).2 hh.symm).symm
  · rw [← hp]
    have hnr : ∀ a b c, ¬ Reverses lt h mb a b c := by
      rintro a b c ⟨s, _, _, hs⟩
      rw [hlt] at hs; cases hs
    constructor
    · intro hh
      have hxy := h2 _ _ hh
      refine ⟨hxy, ?_⟩
      rcases hord x y hxy with hs | hs
      · exact ((h3 x y hxy hs).2.1 hh).1
      · exact (h3 y x (hu.symm _ _ hxy) hs).1.1 hh
    · rintro ⟨hxy, hh⟩
      rcases hord x y hxy with hs | hs
      · exact (h3 x y hxy hs).2.2 ⟨hh, fun z _ => hnr _ _ _⟩
      · exact (h3 y x (hu.symm _ _ hxy) hs).1.2 hh

/-- The path `0 - 1 - 2 - 3`. -/
def path4 : Dict ℕ (List ℕ) := [(0, [1]), (1, [0, 2]), (2, [1, 3]), (3, [2])]

/-- Witness: a path meets the hypotheses. -/
theorem path4_ok : Undirected 4 path4 ∧ (∀ x, x ∉ nb path4 x) ∧ IsBlankets 4 path4 := by
  have hb : ∀ x, 4 ≤ x → nb path4 x = [] := by
    intro x hx
    simp [nb, path4, Dict.get?, show (0 : ℕ) ≠ x by omega, show (1 : ℕ) ≠ x by omega, show (2 : ℕ) ≠ x by omega, show (3 : ℕ) ≠ x by omega]
  have hall : ∀ (P : ℕ → Prop), (∀ x < 4, P x) → (∀ x, 4 ≤ x → P x) → ∀ x, P x := fun P h1 h2 x => by
    by_cases hx : x < 4
    · exact h1 x hx
    · exact h2 x (by omega)
  refine ⟨⟨by decide, ?_, ?_, ?_⟩, ?_, ?_, ?_⟩
  · exact hall _ (by decide) fun x hx => by rw [hb x hx]; simp
  · exact hall _ (by decide) fun x hx y hy => by rw [hb x hx] at hy; cases hy
  · exact hall _ (by decide) fun x hx y hy => by rw [hb x hx] at hy; cases hy
  · exact hall _ (by decide) fun x hx => by rw [hb x hx]; simp
  · decide
  · exact hall _ (by decide) fun x hx y hy => by rw [hb x hx] at hy; cases hy

/-- C125 is false in both directions: when no test is below the level the middle edge of a path of four variables keeps both directions, and in a triangle
every edge loses both. -/
theorem C125_false :
    (∃ d, orientGs2 (fun _ => false) HashOrder.id path4 path4 = .ok d ∧ Arc d 1 2 ∧ Arc d 2 1) ∧
    (∃ d, orientGs2 (fun _ => false) HashOrder.id [(0, [1, 2]), (1, [0, 2]), (2, [0, 1])] [(0, [1, 2]), (1, [0, 2]), (2, [0, 1])] = .ok d ∧
      d = [(0, []), (1, []), (2, [])]) := by
  constructor
  · obtain ⟨h1, h2, h3⟩ := path4_ok
    obtain ⟨d, k1, _, _, k2⟩ := C125_gs2_orients_partial (fun _ => false) HashOrder.id 4 path4 path4 h1 h2 h3
    refine ⟨d, k1, (k2 (fun _ => rfl) 1 2).2 ⟨by decide, 0, by decide⟩, (k2 (fun _ => rfl) 2 1).2 ⟨by decide, 3, by decide⟩⟩
  · exact ⟨_, by decide +kernel, rfl⟩

/-! ## C127, C128: `iamb` as a whole -/

/-- C127, the whole of `iamb`, exactly: it always returns, whatever the tests say.  With `mb` the blankets of C123 there is an undirected graph `e` that links two
columns as in C77 (from the side of one of the two no test on a proper part of the candidate set finds independence), and the arcs of the network are the edges of `e`
oriented as in C126; the nodes are the columns reachable from a column without parents. -/
theorem C127_iamb_exact {A : Type} [DecidableEq A] (lt05 ltA gt05 : List ℕ → Bool) (mi : List ℕ → ℚ) (h : HashOrder ℕ) (n : ℕ) (vd : Dict ℕ (List A))
    (hvd : ∀ v < n, v ∈ vd.keys) :
    ∃ (bn : BayesNet ℕ A) (mb e : Dict ℕ (List ℕ)), (∀ fuel ≥ n + 1, iamb lt05 ltA gt05 mi h n fuel vd = .ok bn) ∧
      (∀ fuel ≥ n + 1, ∀ t < n, iambBlanket lt05 ltA mi h n fuel t = .ok (nb mb t)) ∧
      Undirected n e ∧ (∀ x, x ∉ nb e x) ∧
      (∀ x y, x < n → y < n → (y ∈ nb e x ↔
        (y ∈ nb mb x ∧ ∀ s, s.Sublist (candidateSet mb x y) → s.length < (candidateSet mb x y).length → gt05 (x :: y :: s) = false) ∨
        (x ∈ nb mb y ∧ ∀ s, s.Sublist (candidateSet mb y x) → s.length < (candidateSet mb y x).length → gt05 (y :: x :: s) = false))) ∧
      bn.E.keys.Perm (List.range n) ∧ (∀ x y, Arc bn.E x y → y ∈ nb e x) ∧
      (∀ x y, y ∈ nb e x → [x, y].Sublist (h.iter e.keys) →
        (Arc bn.E y x ↔ privateNb e y x ≠ []) ∧
        (Arc bn.E x y ↔ privateNb e x y ≠ [] ∧ ∀ z, (h.iter (privateNb e y x)).head? = some z → ¬ Reverses ltA h mb x z y)) ∧
      ∀ v, v ∈ bn.V ↔ ∃ r < n, (∀ u, ¬ Arc bn.E u r) ∧ Reach bn.E r v := by
  classical
  have hB := fun t => C124_iamb_shrink_sublist_partial lt05 ltA mi h n t
  let B : ℕ → List ℕ := fun t => (hB t).choose_spec.choose
  have hBs : ∀ t, (∀ fuel ≥ n + 1, iambBlanket lt05 ltA mi h n fuel t = .ok (B t)) ∧ t ∉ B t ∧ ∀ y ∈ B t, y < n := fun t => by
    obtain ⟨_, h2, _, _, h3, h4⟩ := (hB t).choose_spec.choose_spec
    exact ⟨h2, h3, h4⟩
  have hmb : ∀ fuel ≥ n + 1, iambBlankets lt05 ltA mi h n fuel = .ok ((List.range n).map fun x => (x, B x)) := by
    intro fuel hf
    unfold iambBlankets
    rw [pyMap_ok (g := fun x => (x, B x)) (fun x hx => by rw [(hBs x).1 fuel hf]; rfl), Py.bind_ok,
      Dict.ofPairs_eq (by rw [Dict.keys_map_pair]; exact List.nodup_range)]
    rfl
  have hnb : ∀ x, nb ((List.range n).map fun x => (x, B x)) x = if x < n then B x else [] := by
    intro x; unfold nb; rw [Dict.get?_map_pair]; simp only [List.mem_range]; split_ifs <;> rfl
  have hisb : IsBlankets n ((List.range n).map fun x => (x, B x)) := by
    refine ⟨fun x hx => ?_, fun x y hy => ?_⟩
    · rw [Dict.get?_map_pair, if_pos (List.mem_range.2 hx)]; rfl
    · rw [hnb] at hy
      split_ifs at hy with hx
      · exact (hBs x).2.2 y hy
      · cases hy
  have hself : ∀ x, x ∉ nb ((List.range n).map fun x => (x, B x)) x := by
    intro x; rw [hnb]; split_ifs
    · exact (hBs x).2.1
    · simp
  have hblk : ∀ fuel ≥ n + 1, ∀ t < n, iambBlanket lt05 ltA mi h n fuel t = .ok (nb ((List.range n).map fun x => (x, B x)) t) := by
    intro fuel hf t ht
    rw [hnb, if_pos ht]; exact (hBs t).1 fuel hf
  generalize (List.range n).map (fun x => (x, B x)) = mb at hmb hisb hself hblk
  obtain ⟨e, he, hu, hpair⟩ := C47_resolve_undirected gt05 n _ hisb
  obtain ⟨e', he', hex⟩ := C77_resolve_exact gt05 n _ hisb
  rw [he] at he'; cases he'
  have hirr : ∀ x, x ∉ nb e x := by
    intro x hx
    rcases hpair x x hx with hc | hc <;> exact hself x hc
  obtain ⟨d, hd, hk, _, hsub, hdir⟩ := C126_gs2_exact ltA h n e _ hu hirr hisb
  have hck : ChildrenAreKeys d := fun a b hab => hk.mem_iff.2 (List.mem_range.2 (hu.lt a b (hsub _ _ hab)))
  obtain ⟨bn, hbn, _, hV, hE, _⟩ := C76_set_structure_general h d (some vd) (hk.nodup_iff.2 List.nodup_range) hck (fun d' hd' v hv => by
    cases hd'; exact hvd v (List.mem_range.1 (hk.mem_iff.1 hv)))
  refine ⟨bn, mb, e, fun fuel hf => ?_, hblk, hu, hirr, hex, by rw [hE]; exact hk, by rw [hE]; exact hsub, by rw [hE]; exact hdir, fun v => ?_⟩
  · unfold iamb
    rw [hmb fuel hf, Py.bind_ok, he, Py.bind_ok, hd, Py.bind_ok]; exact hbn
  · rw [hV, hE]
    simp only [hk.mem_iff, List.mem_range]

/-- C127: `iamb` always returns, whatever the tests say: the blankets are those of C123, the edges link only pairs one of which is in the blanket of the other, and
the nodes are the columns reachable from a column without parents. -/
theorem C127_iamb_total {A : Type} [DecidableEq A] (lt05 ltA gt05 : List ℕ → Bool) (mi : List ℕ → ℚ) (h : HashOrder ℕ) (n : ℕ) (vd : Dict ℕ (List A))
    (hvd : ∀ v < n, v ∈ vd.keys) :
    ∃ bn, (∀ fuel ≥ n + 1, iamb lt05 ltA gt05 mi h n fuel vd = .ok bn) ∧ bn.E.keys.Perm (List.range n) ∧
      (∀ x y, Arc bn.E x y → x < n ∧ y < n ∧ x ≠ y ∧ ∀ fuel ≥ n + 1, (∃ B, iambBlanket lt05 ltA mi h n fuel x = .ok B ∧ y ∈ B) ∨
        ∃ B, iambBlanket lt05 ltA mi h n fuel y = .ok B ∧ x ∈ B) ∧
      ∀ v, v ∈ bn.V ↔ ∃ r < n, (∀ u, ¬ Arc bn.E u r) ∧ Reach bn.E r v := by
  obtain ⟨bn, mb, e, h1, h2, hu, hirr, hex, hk, hsub, _, hV⟩ := C127_iamb_exact lt05 ltA gt05 mi h n vd hvd
  refine ⟨bn, h1, hk, fun x y hxy => ?_, hV⟩
  have hxy' := hsub _ _ hxy
  have hx := hu.lt _ _ (hu.symm _ _ hxy')
  have hy := hu.lt _ _ hxy'
  refine ⟨hx, hy, fun hc => hirr y (by subst hc; exact hxy'), fun fuel hf => ?_⟩
  rcases (hex x y hx hy).1 hxy' with hc | hc
  · exact .inl ⟨_, h2 fuel hf x hx, hc.1⟩
  · exact .inr ⟨_, h2 fuel hf y hy, hc.1⟩

/-- On two columns, at the level 0.05, `iamb` never finds an edge, even when every test finds the columns dependent. -/
theorem C127_two_columns {A : Type} [DecidableEq A] (lt gt : List ℕ → Bool) (mi : List ℕ → ℚ) (h : HashOrder ℕ) (vd : Dict ℕ (List A))
    (hvd : ∀ v < 2, v ∈ vd.keys) : ∃ bn, (∀ fuel ≥ 3, iamb lt lt gt mi h 2 fuel vd = .ok bn) ∧ ∀ x y, ¬ Arc bn.E x y := by
  obtain ⟨bn, h1, _, h3, _⟩ := C127_iamb_total lt lt gt mi h 2 vd hvd
  refine ⟨bn, h1, fun x y hxy => ?_⟩
  obtain ⟨hx, hy, _, hh⟩ := h3 x y hxy
  rcases hh 3 (le_refl _) with ⟨B, hB, hm⟩ | ⟨B, hB, hm⟩
  · rw [C124_false.1 lt mi h 3 (le_refl _) x hx] at hB; cases hB; cases hm
  · rw [C124_false.1 lt mi h 3 (le_refl _) y hy] at hB; cases hB; cases hm

/-- Witness. -/
example : ∀ v < 2, v ∈ Dict.keys [(0, [0, 1]), (1, [0, 1])] := by decide

/-- C128, what holds of every run: `iamb` returns, its nodes are columns, and all columns are nodes if its edges happen to form no cycle.  Missing: that they form none. -/
theorem C128_iamb_nodes_partial {A : Type} [DecidableEq A] (lt05 ltA gt05 : List ℕ → Bool) (mi : List ℕ → ℚ) (h : HashOrder ℕ) (n : ℕ) (vd : Dict ℕ (List A))
    (hvd : ∀ v < n, v ∈ vd.keys) :
    ∃ bn, (∀ fuel ≥ n + 1, iamb lt05 ltA gt05 mi h n fuel vd = .ok bn) ∧ (∀ v ∈ bn.V, v < n) ∧ (NoCycle bn.E → ∀ v < n, v ∈ bn.V) := by
  obtain ⟨bn, h1, h2, h3, h4⟩ := C127_iamb_total lt05 ltA gt05 mi h n vd hvd
  refine ⟨bn, h1, fun v hv => ?_, fun hc v hv => ?_⟩
  swap
  · obtain ⟨r, hr, hno, hrv⟩ := reach_from_root hc v (h2.mem_iff.2 (List.mem_range.2 hv))
    exact (h4 v).2 ⟨r, List.mem_range.1 (h2.mem_iff.1 hr), hno, hrv⟩
  obtain ⟨r, hr, _, hh⟩ := (h4 v).1 hv
  cases hh with
  | refl => exact hr
  | tail _ hb => exact (h3 _ _ hb).2.1

/-- The tests of the counterexample: columns 0 and 3, 3 and 2, 2 and 1 end up linked. -/
def iambLt (c : List ℕ) : Bool := decide (c ∈ [[1, 0], [0, 2], [0, 2, 3]])

/-- C128 is false: there are outcomes of the tests for which `iamb` returns a network with the arcs `2 → 3` and `3 → 2` and no node at all. -/
theorem C128_false : ∃ bn : BayesNet ℕ ℕ, iamb iambLt (fun _ => false) (fun _ => false) (fun _ => 0) HashOrder.id 4 5 [(0, []), (1, []), (2, []), (3, [])] = .ok bn ∧
    bn.V = [] ∧ Arc bn.E 2 3 ∧ Arc bn.E 3 2 := by
  obtain ⟨bn, h1, h2⟩ := Py.of_okAnd (m := iamb (A := ℕ) iambLt (fun _ => false) (fun _ => false) (fun _ => 0) HashOrder.id 4 5 [(0, []), (1, []), (2, []), (3, [])])
    (p := fun bn => decide (bn.V = [] ∧ 3 ∈ nb bn.E 2 ∧ 2 ∈ nb bn.E 3)) (by decide +kernel)
  obtain ⟨h3, h4, h5⟩ := of_decide_eq_true h2
  exact ⟨bn, h1, h3, arc_iff_nb.2 h4, arc_iff_nb.2 h5⟩

/-! ## C129, C130: what never returns -/

/-- C129: `fast_iamb` never returns a network.  It raises `RuntimeError` as soon as some column does not test as dependent on the first, runs forever when all
tests find dependence and there are two columns or more and enough rows, ends in `NameError` when all columns test as dependent on each other and there are too few rows for any
pair, and otherwise ends in `NameError`, `RuntimeError` or not at all. -/
theorem C129_fast_iamb_never (lt : List ℕ → Bool) (srt : ℕ → List ℕ → HashOrder ℕ) (h : HashOrder ℕ) (card : ℕ → ℕ) (n N k : ℕ) :
    (∀ fuel, ∃ err, fastIamb lt srt h card n N k fuel = .error err ∧ (err = .nameError ∨ err = .runtimeError ∨ err = .diverges)) ∧
    ((∃ a, 0 < a ∧ a < n ∧ lt [a, 0] = false) → ∀ fuel, fastIamb lt srt h card n N k fuel = .error .runtimeError) ∧
    (2 ≤ n → (∀ c, lt c = true) → (∀ v, 1 ≤ card v) → (∀ x < n, k * card x ≤ N) → ∀ fuel, fastIamb lt srt h card n N k fuel = .error .diverges) ∧
    ((∀ x < n, ∀ t < n, x ≠ t → lt [x, t] = true ∧ (N : ℚ) / card x * card t < k) → ∀ fuel ≥ 1, fastIamb lt srt h card n N k fuel = .error .nameError) := by
  have hmem : ∀ v, v ∈ h.iter ((List.range n).filter fun v => decide (v ≠ 0)) ↔ v < n ∧ v ≠ 0 := by
    intro v; rw [(h.perm _).mem_iff]; simp
  have hfirst : 1 ≤ n → ∀ fuel err, fastBlanket lt srt h card n N k fuel 0 = .error err → fastIamb lt srt h card n N k fuel = .error err := by
    intro hn fuel err he
    unfold fastIamb
    obtain ⟨m, rfl⟩ : ∃ m, n = m + 1 := ⟨n - 1, by omega⟩
    rw [List.range_succ_eq_map, pyMap, he]; rfl
  refine ⟨fun fuel => ?_, fun ha fuel => ?_, fun hn hlt hc hN fuel => ?_, fun hfew fuel hfu => ?_⟩
  · unfold fastIamb
    cases hp : pyMap (fun t => fastBlanket lt srt h card n N k fuel t) (List.range n) with
    | ok l => exact ⟨_, rfl, .inl rfl⟩
    | error err =>
      refine ⟨err, rfl, .inr ?_⟩
      obtain ⟨t, _, ht⟩ := pyMap_error_inv _ hp
      unfold fastBlanket at ht
      by_cases hall : ∀ a ∈ h.iter ((List.range n).filter fun v => decide (v ≠ t)), lt [a, t] = true
      · simp only [fastStart_ok _ hall, Py.bind_ok] at ht
        exact .inr (fastLoop_error _ _ _ _ ht)
      · push Not at hall
        obtain ⟨a, h1, h2⟩ := hall
        simp only [fastStart_error _ ⟨a, h1, by simpa using h2⟩] at ht
        cases ht; exact .inl rfl
  · obtain ⟨a, h0, h1, h2⟩ := ha
    refine hfirst (by omega) fuel _ ?_
    unfold fastBlanket
    simp only [fastStart_error _ ⟨a, (hmem a).2 ⟨h1, by omega⟩, h2⟩]; rfl
  · refine hfirst (by omega) fuel _ ?_
    unfold fastBlanket
    simp only [fastStart_ok _ fun a _ => hlt _, Py.bind_ok]
    refine fastLoop_diverges hlt hc hN fuel _ [] ?_ ?_ ?_
    · intro he
      have : 1 ∈ (List.range n).filter fun v => decide (v ≠ 0) := by simp; omega
      rw [he] at this; cases this
    · simpa using List.nodup_range.filter _
    · intro v; simp
  · obtain ⟨f, rfl⟩ : ∃ f, fuel = f + 1 := ⟨fuel - 1, by omega⟩
    have hok : ∀ t ∈ List.range n, fastBlanket lt srt h card n N k (f + 1) t = .ok [] := by
      intro t ht
      rw [List.mem_range] at ht
      have hmem' : ∀ a, a ∈ (List.range n).filter (fun v => decide (v ≠ t)) → a < n ∧ a ≠ t := by intro a ha; simpa using ha
      unfold fastBlanket
      simp only [fastStart_ok _ fun a ha => by
        obtain ⟨h1, h2⟩ := hmem' a ((h.perm _).mem_iff.1 ha)
        exact (hfew a h1 t ht h2).1, Py.bind_ok]
      rw [fastLoop]
      split_ifs with hS
      · rfl
      · have hg : fastGrow card N k t ((srt t []).iter ((List.range n).filter fun v => decide (v ≠ t))) [] = ([], true) := by
          cases hl : (srt t []).iter ((List.range n).filter fun v => decide (v ≠ t)) with
          | nil =>
            have := ((srt t []).perm ((List.range n).filter fun v => decide (v ≠ t))).length_eq
            rw [hl] at this
            exact absurd (List.length_eq_zero_iff.1 this.symm) hS
          | cons x xs =>
            obtain ⟨h1, h2⟩ := hmem' x (((srt t []).perm _).mem_iff.1 (by rw [hl]; simp))
            have h3 := (hfew x h1 t ht h2).2
            rw [fastGrow, if_neg]
            unfold fastEnough
            simpa using h3
        simp only [hg]
        simp [shrinkLive]
    unfold fastIamb
    have hp : ∀ l : List ℕ, (∀ t ∈ l, fastBlanket lt srt h card n N k (f + 1) t = .ok []) →
        ∃ r, pyMap (fun t => fastBlanket lt srt h card n N k (f + 1) t) l = .ok r := by
      intro l
      induction l with
      | nil => exact fun _ => ⟨[], rfl⟩
      | cons t l ih =>
        intro hl
        obtain ⟨r, hr⟩ := ih fun u hu => hl u (List.mem_cons_of_mem _ hu)
        exact ⟨[] :: r, by rw [pyMap, hl t (by simp), hr]; rfl⟩
    obtain ⟨r, hr⟩ := hp _ hok
    rw [hr]
    rfl

/-- Witness for each case of C129. -/
example : (2 ≤ 2 ∧ (∀ c : List ℕ, (fun _ => true) c = true) ∧ (∀ v : ℕ, 1 ≤ (fun _ => 2) v) ∧ ∀ x < 2, 5 * (fun _ : ℕ => 2) x ≤ 10) ∧
    (∀ x < 3, ∀ t < 3, x ≠ t → (fun _ : List ℕ => true) [x, t] = true ∧ ((4 : ℕ) : ℚ) / ((fun _ : ℕ => 2) x : ℕ) * ((fun _ : ℕ => 2) t : ℕ) < (5 : ℕ)) ∧
    (fastIamb (fun _ => true) (fun _ _ => HashOrder.id) HashOrder.id (fun _ => 2) 1 10 5 3).map (fun _ => ()) = .error .nameError := by
  refine ⟨by simp, ?_, by decide +kernel⟩
  intro x _ t _ _
  exact ⟨rfl, by norm_num⟩

/-- C130: asked for feature selection, `iamb` finds the blanket and then always raises `TypeError`. -/
theorem C130_iamb_feature (lt05 ltA : List ℕ → Bool) (mi : List ℕ → ℚ) (h : HashOrder ℕ) (n t : ℕ) (_ht : t < n) :
    ∀ fuel ≥ n + 1, iambFeature lt05 ltA mi h n fuel t = .error .typeError := by
  obtain ⟨S, B, _, h2, _⟩ := C123_iamb_shrinking lt05 ltA mi h n t
  intro fuel hf
  unfold iambFeature
  rw [h2 fuel hf]; rfl

end PyBN
