import Verif.Proofs.Constraint

/-! Lemmas for `pc` and `orient_edges_CS`. -/

set_option linter.unusedSectionVars false

namespace PyBN
namespace Constraint

/-- Invariant of the skeleton search of `pc`. -/
structure Skel (n : ℕ) (e : Dict ℕ (List ℕ)) (b : Blocks) : Prop where
  und : Undirected n e
  irr : ∀ x, x ∉ nb e x
  blk : ∀ x < n, x ∈ b.keys

theorem erase_mem {l : List ℕ} (h : l.Nodup) {a b : ℕ} : a ∈ l.erase b ↔ a ≠ b ∧ a ∈ l := by
  rw [h.mem_erase_iff]

theorem cut_ok {n : ℕ} {e : Dict ℕ (List ℕ)} {b : Blocks} (w : Skel n e b) {x y : ℕ} (hx : x < n) (hy : y < n)
    (z : List ℕ) : ∃ r, cut x y z e b = .ok r ∧ Skel n r.1 r.2 ∧ ∀ a c, c ∈ nb r.1 a ↔ c ∈ nb e a ∧ ¬ (a = x ∧ c = y) ∧ ¬ (a = y ∧ c = x) := by
  have hxk : x ∈ e.keys := w.und.keys.mem_iff.2 (List.mem_range.2 hx)
  have hblk : ∀ v < n, v ∈ ((b.set x [(y, z)]).set y [(x, z)]).keys := by
    intro v hv
    rw [Dict.mem_keys_set, Dict.mem_keys_set]
    exact .inr (.inr (w.blk v hv))
  unfold cut
  simp only [get_nb hxk, Py.bind_ok]
  by_cases h : y ∈ nb e x
  · rw [if_pos h, removeAt_ok h]
    have hxy : x ≠ y := fun hh => w.irr x (hh ▸ h)
    have hyx : x ∈ nb (e.set x ((nb e x).erase y)) y := by
      rw [nb_set, if_neg (Ne.symm hxy)]; exact w.und.symm _ _ h
    simp only [Py.bind_ok, removeAt_ok hyx]
    have hm : ∀ a c, c ∈ nb ((e.set x ((nb e x).erase y)).set y ((nb (e.set x ((nb e x).erase y)) y).erase x)) a ↔
        c ∈ nb e a ∧ ¬ (a = x ∧ c = y) ∧ ¬ (a = y ∧ c = x) := by
      intro a c
      simp only [nb_set, if_neg (Ne.symm hxy)]
      by_cases ha : a = y
      · subst ha; rw [if_pos rfl, erase_mem (w.und.nodup a)]; constructor
        · rintro ⟨h1, h2⟩; exact ⟨h2, fun hh => hxy hh.1.symm, fun hh => h1 hh.2⟩
        · rintro ⟨h1, _, h2⟩; exact ⟨fun hh => h2 ⟨rfl, hh⟩, h1⟩
      · rw [if_neg ha]
        by_cases ha' : a = x
        · subst ha'; rw [if_pos rfl, erase_mem (w.und.nodup a)]; constructor
          · rintro ⟨h1, h2⟩; exact ⟨h2, fun hh => h1 hh.2, fun hh => hxy hh.1⟩
          · rintro ⟨h1, h2, _⟩; exact ⟨fun hh => h2 ⟨rfl, hh⟩, h1⟩
        · rw [if_neg ha']; simp [ha, ha']
    refine ⟨_, rfl, ⟨⟨?_, ?_, ?_, ?_⟩, ?_, hblk⟩, hm⟩
    · rw [keys_set_mem (mem_keys_of_nb hyx), keys_set_mem hxk]; exact w.und.keys
    · intro a
      simp only [nb_set, if_neg (Ne.symm hxy)]
      split_ifs
      · exact (w.und.nodup _).erase _
      · exact (w.und.nodup _).erase _
      · exact w.und.nodup _
    · intro a c; simp only [hm]; rintro ⟨h1, h2, h3⟩
      exact ⟨w.und.symm _ _ h1, fun hh => h3 hh.symm, fun hh => h2 hh.symm⟩
    · intro a c; simp only [hm]; exact fun hh => w.und.lt _ _ hh.1
    · intro a; simp only [hm]; exact fun hh => w.irr a hh.1
  · rw [if_neg h]
    refine ⟨_, rfl, ⟨w.und, w.irr, hblk⟩, fun a c => ⟨fun hh => ⟨hh, ?_, ?_⟩, fun hh => hh.1⟩⟩
    · rintro ⟨rfl, rfl⟩; exact h hh
    · rintro ⟨rfl, rfl⟩; exact h (w.und.symm _ _ hh)

/-- What a stage of the search does: only pairs found independent given `i` variables are cut. -/
def CutsOnly (gt : List ℕ → Bool) (n i : ℕ) (e e' : Dict ℕ (List ℕ)) : Prop :=
  ∀ a c, (c ∈ nb e' a → c ∈ nb e a) ∧
    (c ∈ nb e a → c ∉ nb e' a → ∃ z : List ℕ, z.length = i ∧ a ∉ z ∧ c ∉ z ∧ (gt (a :: c :: z) = true ∨ gt (c :: a :: z) = true) ∧ z.Nodup ∧ ∀ v ∈ z, v < n)

theorem CutsOnly.refl (gt : List ℕ → Bool) (n i : ℕ) (e : Dict ℕ (List ℕ)) : CutsOnly gt n i e e :=
  fun _ _ => ⟨id, fun h h' => absurd h h'⟩

theorem CutsOnly.trans {gt : List ℕ → Bool} {n i : ℕ} {e e1 e2 : Dict ℕ (List ℕ)} (h1 : CutsOnly gt n i e e1) (h2 : CutsOnly gt n i e1 e2) :
    CutsOnly gt n i e e2 := fun a c => ⟨fun h => (h1 a c).1 ((h2 a c).1 h), fun h h' => by
      by_cases hm : c ∈ nb e1 a
      · exact (h2 a c).2 hm h'
      · exact (h1 a c).2 h hm⟩

theorem pcTests_ok {gt : List ℕ → Bool} {n i : ℕ} {x y : ℕ} (hx : x < n) (hy : y < n) : ∀ (zs : List (List ℕ)) (e : Dict ℕ (List ℕ)) (b : Blocks),
    (∀ z ∈ zs, z.length = i ∧ x ∉ z ∧ z.Nodup ∧ ∀ v ∈ z, v < n) → Skel n e b →
    ∃ r, pcTests gt x y zs e b = .ok r ∧ Skel n r.1 r.2 ∧ CutsOnly gt n i e r.1
  | [], e, b, _, w => ⟨(e, b), rfl, w, .refl _ _ _ _⟩
  | z :: zs, e, b, hz, w => by
      by_cases hc : y ∉ z ∧ gt (x :: y :: z) = true
      · rw [pcTests, if_pos hc]
        obtain ⟨r1, q1, q2, q3⟩ := cut_ok w hx hy z
        obtain ⟨r, p1, p2, p3⟩ := pcTests_ok (gt := gt) hx hy zs r1.1 r1.2 (fun t ht => hz t (by simp [ht])) q2
        refine ⟨r, by rw [q1]; exact p1, p2, CutsOnly.trans (fun a c => ⟨fun h => ((q3 a c).1 h).1, fun h h' => ?_⟩) p3⟩
        obtain ⟨hzl, hxz, hzn, hzb⟩ := hz z (by simp)
        by_cases h1 : a = x ∧ c = y
        · obtain ⟨rfl, rfl⟩ := h1
          exact ⟨z, hzl, hxz, hc.1, .inl hc.2, hzn, hzb⟩
        · by_cases h2 : a = y ∧ c = x
          · obtain ⟨rfl, rfl⟩ := h2
            exact ⟨z, hzl, hc.1, hxz, .inr hc.2, hzn, hzb⟩
          · exact absurd ((q3 a c).2 ⟨h, h1, h2⟩) h'
      · rw [pcTests, if_neg hc]
        exact pcTests_ok hx hy zs e b (fun t ht => hz t (by simp [ht])) w

theorem pcY_ok {gt : List ℕ → Bool} {n i : ℕ} {x : ℕ} (hx : x < n) : ∀ (k p : ℕ) (e : Dict ℕ (List ℕ)) (b : Blocks),
    Skel n e b → ∃ r, pcY gt i x k p e b = .ok r ∧ Skel n r.1 r.2 ∧ CutsOnly gt n i e r.1
  | 0, _, e, b, w => ⟨(e, b), rfl, w, .refl _ _ _ _⟩
  | k + 1, p, e, b, w => by
      have hxk : x ∈ e.keys := w.und.keys.mem_iff.2 (List.mem_range.2 hx)
      simp only [pcY, get_nb hxk, Py.bind_ok]
      cases hp : (nb e x)[p]? with
      | none => exact ⟨(e, b), rfl, w, .refl _ _ _ _⟩
      | some y =>
        have hy : y < n := w.und.lt x y (List.mem_of_getElem? hp)
        obtain ⟨r1, q1, q2, q3⟩ := pcTests_ok (gt := gt) (i := i) hx hy (combinations (nb e x) i) e b (fun z hz => by
          obtain ⟨h1, h2⟩ := mem_combinations.1 hz
          exact ⟨h2, fun hh => w.irr x (h1.subset hh), h1.nodup (w.und.nodup x), fun v hv => w.und.lt x v (h1.subset hv)⟩) w
        obtain ⟨r, p1, p2, p3⟩ := pcY_ok (gt := gt) (i := i) hx k (p + 1) r1.1 r1.2 q2
        exact ⟨r, by simp only [q1, Py.bind_ok]; exact p1, p2, q3.trans p3⟩

theorem pcX_ok {gt : List ℕ → Bool} {n i : ℕ} : ∀ (xs : List ℕ) (e : Dict ℕ (List ℕ)) (b : Blocks), (∀ x ∈ xs, x < n) →
    Skel n e b → ∃ r, pcX gt i xs e b = .ok r ∧ Skel n r.1 r.2 ∧ CutsOnly gt n i e r.1
  | [], e, b, _, w => ⟨(e, b), rfl, w, .refl _ _ _ _⟩
  | x :: xs, e, b, hxs, w => by
      have hx := hxs x (by simp)
      have hxk : x ∈ e.keys := w.und.keys.mem_iff.2 (List.mem_range.2 hx)
      simp only [pcX, get_nb hxk, Py.bind_ok]
      obtain ⟨r1, q1, q2, q3⟩ := pcY_ok (gt := gt) (i := i) hx (nb e x).length 0 e b w
      obtain ⟨r, p1, p2, p3⟩ := pcX_ok (gt := gt) (i := i) xs r1.1 r1.2 (fun y hy => hxs y (by simp [hy])) q2
      exact ⟨r, by simp only [q1, Py.bind_ok]; exact p1, p2, q3.trans p3⟩

theorem pcStop_ok {i : ℕ} {e : Dict ℕ (List ℕ)} : ∀ (xs : List ℕ), (∀ x ∈ xs, x ∈ e.keys) →
    pcStop i e xs = .ok (decide (∀ x ∈ xs, (nb e x).length ≤ i - 1))
  | [], _ => by simp [pcStop]
  | x :: xs, h => by
      simp only [pcStop, get_nb (h x (by simp)), Py.bind_ok, pcStop_ok xs fun y hy => h y (by simp [hy])]
      by_cases hl : (nb e x).length > i - 1
      · rw [if_pos hl]
        simp only [Py.pure_eq, Except.ok.injEq]
        symm; rw [decide_eq_false_iff_not]
        intro hh; have := hh x (by simp); omega
      · rw [if_neg hl]
        simp only [Except.ok.injEq, decide_eq_decide, List.mem_cons, forall_eq_or_imp]
        exact ⟨fun hh => ⟨by omega, hh⟩, fun hh => hh.2⟩

/-- Edges missing at the end were cut by a test with between `1` and `n - 2` conditioning variables. -/
def CutsSome (gt : List ℕ → Bool) (n lo : ℕ) (e e' : Dict ℕ (List ℕ)) : Prop :=
  ∀ a c, (c ∈ nb e' a → c ∈ nb e a) ∧
    (c ∈ nb e a → c ∉ nb e' a → ∃ z : List ℕ, lo ≤ z.length ∧ a ∉ z ∧ c ∉ z ∧ (gt (a :: c :: z) = true ∨ gt (c :: a :: z) = true) ∧ z.Nodup ∧ ∀ v ∈ z, v < n)

theorem nb_length_lt {n : ℕ} {e : Dict ℕ (List ℕ)} {b : Blocks} (w : Skel n e b) {x : ℕ} (hx : x < n) : (nb e x).length + 1 ≤ n := by
  have h1 : (x :: nb e x).Nodup := List.nodup_cons.2 ⟨w.irr x, w.und.nodup x⟩
  exact nodup_lt_length h1 fun y hy => by
    rcases List.mem_cons.1 hy with rfl | hy
    · exact hx
    · exact w.und.lt _ _ hy

theorem pcLoop_ok {gt : List ℕ → Bool} {n : ℕ} : ∀ (fuel i : ℕ) (e : Dict ℕ (List ℕ)) (b : Blocks), Skel n e b → n < fuel + i → 0 < fuel →
    ∃ r, pcLoop gt n fuel i e b = .ok r ∧ Skel n r.1 r.2 ∧ CutsSome gt n i e r.1 ∧
      ∀ fuel' ≥ fuel, pcLoop gt n fuel' i e b = .ok r
  | 0, _, _, _, _, _, h => by omega
  | fuel + 1, i, e, b, w, hf, _ => by
      obtain ⟨r1, q1, q2, q3⟩ := pcX_ok (gt := gt) (i := i) (List.range n) e b (fun x hx => List.mem_range.1 hx) w
      have hstop := pcStop_ok (i := i + 1) (e := r1.1) (List.range n) fun x hx => q2.und.keys.mem_iff.2 hx
      have hstep : ∀ f, pcLoop gt n (f + 1) i e b =
          if ∀ x ∈ List.range n, (nb r1.1 x).length ≤ i then .ok r1 else pcLoop gt n f (i + 1) r1.1 r1.2 := by
        intro f
        simp only [pcLoop, q1, Py.bind_ok, hstop, Nat.add_sub_cancel]
        by_cases hh : ∀ x ∈ List.range n, (nb r1.1 x).length ≤ i
        · rw [if_pos hh, if_pos (by simpa using hh)]; rfl
        · rw [if_neg hh, if_neg (by simpa using hh)]
      have hc : CutsSome gt n i e r1.1 := fun a c => ⟨(q3 a c).1, fun h h' => by
        obtain ⟨z, h1, h2⟩ := (q3 a c).2 h h'
        exact ⟨z, by omega, h2⟩⟩
      by_cases hh : ∀ x ∈ List.range n, (nb r1.1 x).length ≤ i
      · refine ⟨r1, by rw [hstep, if_pos hh], q2, hc, fun fuel' hge => ?_⟩
        obtain ⟨f, rfl⟩ : ∃ f, fuel' = f + 1 := ⟨fuel' - 1, by omega⟩
        rw [hstep, if_pos hh]
      · have hi : i + 1 < n := by
          by_contra hlt
          apply hh
          intro x hx
          have := nb_length_lt q2 (List.mem_range.1 hx)
          omega
        obtain ⟨r, p1, p2, p3, p4⟩ := pcLoop_ok (gt := gt) fuel (i + 1) r1.1 r1.2 q2 (by omega) (by omega)
        refine ⟨r, by rw [hstep, if_neg hh]; exact p1, p2, fun a c => ⟨fun h => (hc a c).1 ((p3 a c).1 h), fun h h' => ?_⟩,
          fun fuel' hge => ?_⟩
        · by_cases hm : c ∈ nb r1.1 a
          · obtain ⟨z, h1, h2⟩ := (p3 a c).2 hm h'
            exact ⟨z, by omega, h2⟩
          · exact (hc a c).2 h hm
        · obtain ⟨f, rfl⟩ : ∃ f, fuel' = f + 1 := ⟨fuel' - 1, by omega⟩
          rw [hstep, if_neg hh]
          exact p4 f (by omega)

theorem completeGraph_nb (n x : ℕ) : nb (completeGraph n) x = if x < n then (List.range n).filter (fun j => decide (x ≠ j)) else [] := by
  unfold completeGraph nb
  rw [Dict.ofPairs_eq (by rw [Dict.keys_map_pair]; exact List.nodup_range), Dict.get?_map_pair]
  simp only [List.mem_range]
  split_ifs <;> rfl

theorem completeGraph_skel (n : ℕ) (b : Blocks) (hb : ∀ x < n, x ∈ b.keys) : Skel n (completeGraph n) b := by
  have hm : ∀ x y, y ∈ nb (completeGraph n) x ↔ x < n ∧ y < n ∧ x ≠ y := by
    intro x y
    rw [completeGraph_nb]
    split_ifs with hx
    · simp [hx]
    · simp [hx]
  refine ⟨⟨?_, ?_, ?_, ?_⟩, ?_, hb⟩
  · unfold completeGraph
    rw [Dict.ofPairs_eq (by rw [Dict.keys_map_pair]; exact List.nodup_range), Dict.keys_map_pair]
  · intro x; rw [completeGraph_nb]; split_ifs
    · exact List.nodup_range.filter _
    · simp
  · intro x y; simp only [hm]; rintro ⟨h1, h2, h3⟩; exact ⟨h2, h1, Ne.symm h3⟩
  · intro x y; simp only [hm]; exact fun h => h.2.1
  · intro x; simp [hm]

theorem mem_completeGraph {n x y : ℕ} : y ∈ nb (completeGraph n) x ↔ x < n ∧ y < n ∧ x ≠ y := by
  rw [completeGraph_nb]
  split_ifs with hx
  · simp [hx]
  · simp [hx]

theorem pcSkeleton_ok (gt : List ℕ → Bool) (n : ℕ) : ∃ r, (∀ fuel ≥ n + 1, pcSkeleton gt n fuel = .ok r) ∧ Skel n r.1 r.2 ∧
    CutsSome gt n 1 (completeGraph n) r.1 := by
  obtain ⟨r, h1, h2, h3, h4⟩ := pcLoop_ok (gt := gt) (n + 1) 1 (completeGraph n) (Dict.ofPairs ((List.range n).map fun i => (i, [])))
    (completeGraph_skel n _ fun x hx => by
      rw [Dict.ofPairs_eq (by rw [Dict.keys_map_pair]; exact List.nodup_range), Dict.keys_map_pair]
      exact List.mem_range.2 hx) (by omega) (by omega)
  exact ⟨r, h4, h2, h3⟩

/-! ## `orient_edges_CS` -/

/-- Invariant of the orientation: a duplicate-free directed graph inside the skeleton, all of whose arcs are backed by an uncoupled
triple. -/
structure Orient (e d : Dict ℕ (List ℕ)) : Prop where
  keys : d.keys.Perm e.keys
  nodup : ∀ x, (nb d x).Nodup
  sub : ∀ x y, y ∈ nb d x → y ∈ nb e x

/-- `x - z - y` with `x` and `y` distinct and not adjacent. -/
def Uncoupled (e : Dict ℕ (List ℕ)) (x z y : ℕ) : Prop := z ∈ nb e x ∧ y ∈ nb e z ∧ x ≠ y ∧ y ∉ nb e x

theorem addArc_ok {e d : Dict ℕ (List ℕ)} (w : Orient e d) {k v : ℕ} (h : v ∈ nb e k) :
    ∃ d', addArc d k v = .ok d' ∧ Orient e d' ∧ ∀ a c, c ∈ nb d' a ↔ c ∈ nb d a ∨ (a = k ∧ c = v) := by
  have hk : k ∈ d.keys := w.keys.mem_iff.2 (mem_keys_of_nb h)
  unfold addArc
  simp only [get_nb hk, Py.bind_ok]
  by_cases hv : v ∈ nb d k
  · rw [if_neg (by simpa using hv)]
    refine ⟨d, rfl, w, fun a c => ⟨.inl, ?_⟩⟩
    rintro (h1 | ⟨rfl, rfl⟩) <;> assumption
  · rw [if_pos hv, appendAt_ok hk]
    have hm : ∀ a c, c ∈ nb (d.set k (nb d k ++ [v])) a ↔ c ∈ nb d a ∨ (a = k ∧ c = v) := by
      intro a c; rw [nb_set]
      by_cases ha : a = k
      · subst ha; simp
      · simp [ha]
    refine ⟨_, rfl, ⟨by rw [keys_set_mem hk]; exact w.keys, fun a => ?_, fun a c => ?_⟩, hm⟩
    · rw [nb_set]; split_ifs
      · exact List.nodup_append.2 ⟨w.nodup k, by simp, by rintro b hb _ hc rfl; simp at hc; subst hc; exact hv hb⟩
      · exact w.nodup a
    · rw [hm]; rintro (h1 | ⟨rfl, rfl⟩)
      · exact w.sub _ _ h1
      · exact h

/-- Every arc of `d'` not already in `d` belongs to an uncoupled triple. -/
def Grows (e d d' : Dict ℕ (List ℕ)) : Prop := ∀ a c, c ∈ nb d' a → c ∈ nb d a ∨
  ∃ x z y, Uncoupled e x z y ∧ ((a = x ∧ c = z) ∨ (a = y ∧ c = z) ∨ (a = z ∧ c = x) ∨ (a = z ∧ c = y))

theorem Grows.trans {e d d1 d2 : Dict ℕ (List ℕ)} (h1 : Grows e d d1) (h2 : Grows e d1 d2) : Grows e d d2 := fun a c h => by
  rcases h2 a c h with h | h
  · exact h1 a c h
  · exact .inr h

theorem csTriple_ok {n : ℕ} {e d : Dict ℕ (List ℕ)} {b : Blocks} (s : Skel n e b) (w : Orient e d) {x z y : ℕ} (hz : z ∈ nb e x)
    (hy : y ∈ nb e z) : ∃ d', csTriple e b x z y d = .ok d' ∧ Orient e d' ∧ Grows e d d' := by
  have hlt : ∀ v w, w ∈ nb e v → v < n := fun v w h => s.und.lt _ _ (s.und.symm _ _ h)
  have hx' : x ∈ nb e z := s.und.symm _ _ hz
  have hy' : z ∈ nb e y := s.und.symm _ _ hy
  unfold csTriple
  simp only [get_nb (mem_keys_of_nb hy'), get_nb (mem_keys_of_nb hz), Py.bind_ok]
  by_cases hc : y ≠ x ∧ x ∉ nb e y ∧ y ∉ nb e x
  · rw [if_pos hc]
    have hu : Uncoupled e x z y := ⟨hz, hy, Ne.symm hc.1, hc.2.2⟩
    obtain ⟨bx, hbx⟩ := Option.isSome_iff_exists.1 (Dict.mem_keys_iff.1 (s.blk x (hlt _ _ hz)))
    simp only [Dict.get_of_get? hbx, Py.bind_ok]
    cases hs : Dict.get? bx y with
    | none => exact ⟨d, rfl, w, fun _ _ h => .inl h⟩
    | some sep =>
      by_cases hzs : z ∉ sep
      · simp only [if_pos hzs]
        obtain ⟨d1, q1, q2, q3⟩ := addArc_ok w hz
        obtain ⟨d2, p1, p2, p3⟩ := addArc_ok q2 hy'
        refine ⟨d2, by simp only [q1, Py.bind_ok]; exact p1, p2, fun a c h => ?_⟩
        rw [p3, q3] at h
        rcases h with (h | h) | h
        · exact .inl h
        · exact .inr ⟨x, z, y, hu, .inl h⟩
        · exact .inr ⟨x, z, y, hu, .inr (.inl h)⟩
      · simp only [if_neg hzs]
        obtain ⟨d1, q1, q2, q3⟩ := addArc_ok w hx'
        obtain ⟨d2, p1, p2, p3⟩ := addArc_ok q2 hy
        refine ⟨d2, by simp only [q1, Py.bind_ok]; exact p1, p2, fun a c h => ?_⟩
        rw [p3, q3] at h
        rcases h with (h | h) | h
        · exact .inl h
        · exact .inr ⟨x, z, y, hu, .inr (.inr (.inl h))⟩
        · exact .inr ⟨x, z, y, hu, .inr (.inr (.inr h))⟩
  · rw [if_neg hc]
    exact ⟨d, rfl, w, fun _ _ h => .inl h⟩

theorem csY_ok {n : ℕ} {e : Dict ℕ (List ℕ)} {b : Blocks} (s : Skel n e b) {x z : ℕ} (hz : z ∈ nb e x) :
    ∀ (ys : List ℕ) (d : Dict ℕ (List ℕ)), (∀ y ∈ ys, y ∈ nb e z) → Orient e d →
    ∃ d', csY e b x z ys d = .ok d' ∧ Orient e d' ∧ Grows e d d'
  | [], d, _, w => ⟨d, rfl, w, fun _ _ h => .inl h⟩
  | y :: ys, d, hys, w => by
      obtain ⟨d1, q1, q2, q3⟩ := csTriple_ok s w hz (hys y (by simp))
      obtain ⟨d2, p1, p2, p3⟩ := csY_ok s hz ys d1 (fun v hv => hys v (by simp [hv])) q2
      exact ⟨d2, by simp only [csY, q1, Py.bind_ok]; exact p1, p2, q3.trans p3⟩

theorem csZ_ok {n : ℕ} {e : Dict ℕ (List ℕ)} {b : Blocks} (s : Skel n e b) {x : ℕ} :
    ∀ (zs : List ℕ) (d : Dict ℕ (List ℕ)), (∀ z ∈ zs, z ∈ nb e x) → Orient e d →
    ∃ d', csZ e b x zs d = .ok d' ∧ Orient e d' ∧ Grows e d d'
  | [], d, _, w => ⟨d, rfl, w, fun _ _ h => .inl h⟩
  | z :: zs, d, hzs, w => by
      have hz := hzs z (by simp)
      obtain ⟨d1, q1, q2, q3⟩ := csY_ok s hz (nb e z) d (fun v hv => hv) w
      obtain ⟨d2, p1, p2, p3⟩ := csZ_ok s zs d1 (fun v hv => hzs v (by simp [hv])) q2
      refine ⟨d2, ?_, p2, q3.trans p3⟩
      simp only [csZ, get_nb (mem_keys_of_nb (s.und.symm _ _ hz)), q1, Py.bind_ok]; exact p1

theorem csX_ok {n : ℕ} {e : Dict ℕ (List ℕ)} {b : Blocks} (s : Skel n e b) :
    ∀ (xs : List ℕ) (d : Dict ℕ (List ℕ)), (∀ x ∈ xs, x ∈ e.keys) → Orient e d →
    ∃ d', csX e b xs d = .ok d' ∧ Orient e d' ∧ Grows e d d'
  | [], d, _, w => ⟨d, rfl, w, fun _ _ h => .inl h⟩
  | x :: xs, d, hxs, w => by
      obtain ⟨d1, q1, q2, q3⟩ := csZ_ok s (nb e x) d (fun v hv => hv) w
      obtain ⟨d2, p1, p2, p3⟩ := csX_ok s xs d1 (fun v hv => hxs v (by simp [hv])) q2
      refine ⟨d2, ?_, p2, q3.trans p3⟩
      simp only [csX, get_nb (hxs x (by simp)), q1, Py.bind_ok]; exact p1

theorem orientCS_ok (h : HashOrder ℕ) {n : ℕ} {e : Dict ℕ (List ℕ)} {b : Blocks} (s : Skel n e b) :
    ∃ d, orientCS h e b = .ok d ∧ Orient e d ∧
      ∀ a c, c ∈ nb d a → ∃ x z y, Uncoupled e x z y ∧ ((a = x ∧ c = z) ∨ (a = y ∧ c = z) ∨ (a = z ∧ c = x) ∨ (a = z ∧ c = y)) := by
  have hkn : e.keys.Nodup := s.und.keys.nodup_iff.2 List.nodup_range
  have hhn : (h.iter e.keys).Nodup := (h.perm _).nodup_iff.2 hkn
  have h0 : ∀ x, nb (Dict.ofPairs ((h.iter e.keys).map fun v => (v, ([] : List ℕ)))) x = [] := by
    intro x; unfold nb
    rw [Dict.ofPairs_eq (by rw [Dict.keys_map_pair]; exact hhn), Dict.get?_map_pair]
    split_ifs <;> rfl
  obtain ⟨d, q1, q2, q3⟩ := csX_ok s (h.iter e.keys) (Dict.ofPairs ((h.iter e.keys).map fun v => (v, ([] : List ℕ))))
    (fun x hx => (h.perm _).mem_iff.1 hx)
    ⟨by rw [Dict.ofPairs_eq (by rw [Dict.keys_map_pair]; exact hhn), Dict.keys_map_pair]; exact h.perm _,
     fun x => by rw [h0]; simp, fun x y hy => by rw [h0] at hy; cases hy⟩
  refine ⟨d, q1, q2, fun a c hc => ?_⟩
  rcases q3 a c hc with hh | hh
  · rw [h0] at hh; cases hh
  · exact hh

end Constraint
end PyBN
