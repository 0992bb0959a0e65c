import Verif.Spec.Greedy
import Verif.Props.HcBinary

/-!
# Greedy runs of `hc` on 0/1 data
-/

namespace PyBN
open Indep
set_option linter.unusedSectionVars false

section
variable {N : Type _} [DecidableEq N] {env : HcEnv N} {names : List N}

/-- A pass of `hc`: nothing is blocked. -/
def FreePass (env : HcEnv N) (names : List N) (p : Pass N) : Prop := PassOk env (fun _ _ _ => false) p ∧ CInv names p.before ∧ CInv names p.after

theorem climb_free (hfc : FindsCycles env.fc) (hV : ∀ v ∈ env.V, v ∈ names) : ∀ (left : ℕ) (st : CP N), CInv names st → ∀ s fin tr,
    climb env left st = .ok (s, fin, tr) → History (FreePass env names) st tr fin := by
  intro left
  induction left with
  | zero =>
    intro st i s fin tr h
    obtain ⟨p, h1, rfl, h3, h4⟩ := onePass_ok hfc i hV (fun _ _ _ => false)
    rw [climb] at h
    simp only [h1, Py.bind_ok, Py.pure_eq, Except.ok.injEq, Prod.mk.injEq] at h
    obtain ⟨-, rfl, rfl⟩ := h
    exact .last p ⟨h4, i, h3⟩
  | succ left ih =>
    intro st i s fin tr h
    obtain ⟨p, h1, rfl, h3, h4⟩ := onePass_ok hfc i hV (fun _ _ _ => false)
    rw [climb] at h
    simp only [h1, Py.bind_ok, Py.pure_eq] at h
    by_cases hm : p.move = none
    · rw [if_pos hm] at h
      simp only [Except.ok.injEq, Prod.mk.injEq] at h
      obtain ⟨-, rfl, rfl⟩ := h
      exact .last p ⟨h4, i, h3⟩
    · rw [if_neg hm] at h
      cases hc : climb env left p.after with
      | error e => rw [hc] at h; cases h
      | ok r =>
        rw [hc] at h
        simp only [Py.bind_ok, Except.ok.injEq, Prod.mk.injEq] at h
        obtain ⟨-, rfl, rfl⟩ := h
        exact .cons p ⟨h4, i, h3⟩ hm (ih p.after h3 _ _ _ hc)
end

theorem Allowed.ne {n : ℕ} {T : List (ℕ × ℕ)} {u v : ℕ} (h : Allowed n T u v) : u ≠ v := by
  rintro rfl
  exact h.acyclic u (.single (Or.inr ⟨rfl, rfl⟩))

/-- The heads of the arcs of a greedy list are different nodes. -/
theorem Greedy.heads {n : ℕ} {w : ℕ → ℕ → ℝ} {gap : ℝ} {T : List (ℕ × ℕ)} (h : Greedy n w gap T) : (T.map Prod.snd).Nodup ∧ ∀ t ∈ T, t.2 < n := by
  induction h with
  | nil => simp
  | snoc T u v _ ha _ ih =>
    constructor
    · rw [List.map_append, List.nodup_append]
      refine ⟨ih.1, by simp, ?_⟩
      rintro x hx y hy rfl
      simp only [List.map_cons, List.map_nil, List.mem_singleton] at hy
      subst hy
      obtain ⟨⟨p, q⟩, hpq, rfl⟩ := List.mem_map.1 hx
      exact ha.orphan p hpq
    · intro t ht
      rcases List.mem_append.1 ht with ht | ht
      · exact ih.2 t ht
      · rw [List.mem_singleton] at ht; subst ht; exact ha.tgt

/-- What a greedy list looks like at the arc number `T1.length`. -/
theorem Greedy.at {n : ℕ} {w : ℕ → ℕ → ℝ} {gap : ℝ} {T : List (ℕ × ℕ)} (h : Greedy n w gap T) : ∀ T1 u v T2, T = T1 ++ (u, v) :: T2 →
    Allowed n T1 u v ∧ ∀ u' v', Allowed n T1 u' v' → (u', v') ≠ (u, v) → w u' v' + gap < w u v := by
  induction h with
  | nil => intro T1 u v T2 h; simp at h
  | snoc T x y hg ha hb ih =>
    intro T1 u v T2 h
    rcases List.eq_nil_or_concat T2 with rfl | ⟨T3, z, rfl⟩
    · have := List.append_inj' h rfl
      obtain ⟨rfl, h2⟩ := this
      simp only [List.cons.injEq, Prod.mk.injEq, and_true] at h2
      obtain ⟨rfl, rfl⟩ := h2
      exact ⟨ha, hb⟩
    · have h' : T ++ [(x, y)] = (T1 ++ (u, v) :: T3) ++ [z] := by rw [h]; simp
      have := (List.append_inj' h' rfl).1
      exact ih T1 u v T3 this

theorem Greedy.mono {n : ℕ} {w w' : ℕ → ℕ → ℝ} {gap gap' : ℝ} {T : List (ℕ × ℕ)} (h : Greedy n w gap T)
    (hw : ∀ u v u' v', u < n → v < n → u ≠ v → u' < n → v' < n → u' ≠ v' → w u' v' + gap < w u v → w' u' v' + gap' < w' u v) : Greedy n w' gap' T := by
  induction h with
  | nil => exact .nil
  | snoc T u v _ ha hb ih =>
    exact .snoc T u v ih ha fun u' v' ha' hne => hw u v u' v' ha.src ha.tgt ha.ne ha'.src ha'.tgt ha'.ne (hb u' v' ha' hne)

/-- With `n` nodes and distinct heads of `n - 1` arcs there is exactly one node that is no head. -/
theorem full_heads {n : ℕ} {T : List (ℕ × ℕ)} (hd : (T.map Prod.snd).Nodup) (hl : ∀ t ∈ T, t.2 < n) (hf : T.length + 1 = n) {v : ℕ}
    (hv : v < n) (ho : ∀ p, (p, v) ∉ T) : ∀ x < n, x ≠ v → ∃ p, (p, x) ∈ T := by
  intro x hx hxv
  by_contra hno
  have hsub : v :: x :: T.map Prod.snd ⊆ List.range n := by
    intro y hy
    rw [List.mem_range]
    rcases List.mem_cons.1 hy with rfl | hy
    · exact hv
    rcases List.mem_cons.1 hy with rfl | hy
    · exact hx
    · obtain ⟨t, ht, rfl⟩ := List.mem_map.1 hy
      exact hl t ht
  have hno' : x ∉ T.map Prod.snd := fun h => by obtain ⟨⟨p, q⟩, hpq, rfl⟩ := List.mem_map.1 h; exact hno ⟨p, hpq⟩
  have hvo : v ∉ T.map Prod.snd := fun h => by obtain ⟨⟨p, q⟩, hpq, rfl⟩ := List.mem_map.1 h; exact ho p hpq
  have hnd : (v :: x :: T.map Prod.snd).Nodup := by
    rw [List.nodup_cons, List.nodup_cons]
    exact ⟨by simp only [List.mem_cons, not_or]; exact ⟨Ne.symm hxv, hvo⟩, hno', hd⟩
  have := (List.subperm_of_subset hnd hsub).length_le
  simp at this
  omega

/-- A run of `hc` in which the score of a pair decides: from the arcs `T1` it follows the greedy list. -/
theorem greedy_history {a : HcArgs} {rows : List (List ℕ)} (hd : OnBinary a rows) (hr : a.restriction = none) {V : List ℕ} (hV : V.Perm (List.range a.ncol))
    {T : List (ℕ × ℕ)} (hT : Greedy a.ncol (fun u v => (gain rows u v : ℝ)) 0 T) (hf : T.length + 1 = a.ncol) {st fin : CP ℕ} {tr : List (Pass ℕ)}
    (hh : History (FreePass (a.env V) (List.range a.ncol)) st tr fin) :
    ∀ T1 T2, T = T1 ++ T2 → (∀ x y, Arc st.c x y ↔ (x, y) ∈ T1) → ∃ S1 S2, T = S1 ++ S2 ∧ ∀ x y, Arc fin.c x y ↔ (x, y) ∈ S1 := by
  have hone : ∀ T1 T2 : List (ℕ × ℕ), T = T1 ++ T2 → ∀ c : Dict ℕ (List ℕ), (∀ x y, Arc c x y ↔ (x, y) ∈ T1) → OneParent c := by
    intro T1 T2 he c hc u u' v h1 h2
    rw [hc] at h1 h2
    have hn := (hT.heads).1
    rw [he, List.map_append, List.nodup_append] at hn
    have : (u, v) = (u', v) := (List.inj_on_of_nodup_map hn.1) h1 h2 rfl
    exact congrArg Prod.fst this
  have step : ∀ p : Pass ℕ, FreePass (a.env V) (List.range a.ncol) p → ∀ T1 T2, T = T1 ++ T2 → (∀ x y, Arc p.before.c x y ↔ (x, y) ∈ T1) →
      ∃ S1 S2, T = S1 ++ S2 ∧ ∀ x y, Arc p.after.c x y ↔ (x, y) ∈ S1 := by
    intro p hp T1 T2 he hb
    obtain ⟨ok, ib, ia⟩ := hp
    cases hm : p.move with
    | none => exact ⟨T1, T2, he, by rw [ok.still hm]; exact hb⟩
    | some mv =>
      obtain ⟨d, m, u, v⟩ := mv
      obtain ⟨-, h2⟩ := firstOnly_step (hd.firstOnly V) (p := p) ⟨⟨_, ok⟩, ib, ia⟩ (hone T1 T2 he _ hb)
      obtain ⟨rfl, h3, -, h5⟩ := h2 d m u v hm
      obtain ⟨hdpos, hleg, -, hdelta⟩ := ok.legal d _ u v hm
      have hmem : ∀ x, x ∈ (a.env V).V → x < a.ncol := fun x hx => by simpa using hV.mem_iff.1 hx
      have hal : Allowed a.ncol T1 u v := by
        refine ⟨hmem u hleg.1, hmem v hleg.2.1, fun q hq => h3 q ((hb q v).2 hq), ?_⟩
        have := hleg.2.2.2.1
        intro w hw
        refine this w (Relation.TransGen.mono ?_ _ _ hw)
        intro x y hxy
        rcases hxy with h | h
        · exact Or.inl ((hb x y).2 h)
        · exact Or.inr h
      have score : ∀ x y, (∀ q, ¬ Arc p.before.c q y) → x < a.ncol → y < a.ncol → moveDelta (a.env V) (parentsIn p.before y) .addition x y =
          some (a.nrow * gain rows x y) := by
        intro x y hq hx hy
        have hpv : parentsIn p.before y = [] := List.eq_nil_iff_forall_not_mem.2 fun z hz => hq z ((mem_parentsIn ib z y).1 hz)
        obtain ⟨e, he⟩ := dataScore_one hd.ne hd.binary y
        obtain ⟨j, hj⟩ := dataScore_two hd.ne y x
        rw [hpv]
        show deltaOf (a.env V) [y] [y, x] = _
        unfold deltaOf gain
        show (do let x' ← a.mi [y]; let b ← a.mi [y, x]; pure (a.nrow * (x' - b))) = _
        rw [hd.mi, he, hj]; rfl
      rcases T2 with _ | ⟨⟨u0, v0⟩, T2⟩
      · -- the tree is complete: a further arc would close a cycle
        exfalso
        rw [List.append_nil] at he
        subst he
        obtain ⟨r, hr1, hr2⟩ := exists_root (by omega) ia
        by_cases hrv : r = v
        · exact hr2 u ((h5 u r).2 (Or.inr ⟨rfl, hrv⟩))
        · obtain ⟨q, hq⟩ := full_heads hT.heads.1 hT.heads.2 hf hal.tgt hal.orphan r hr1 hrv
          exact hr2 q ((h5 q r).2 (Or.inl ((hb q r).2 hq)))
      · obtain ⟨ha0, hb0⟩ := hT.at T1 u0 v0 T2 he
        have hleg0 : Legal V a.restriction p.before.c .addition u0 v0 := by
          refine ⟨hV.mem_iff.2 (by simpa using ha0.src), hV.mem_iff.2 (by simpa using ha0.tgt), ha0.ne, ?_, fun hc => ha0.orphan u0 ((hb u0 v0).1 hc),
            by rw [hr]; intro r hr; cases hr⟩
          intro w hw
          refine ha0.acyclic w (Relation.TransGen.mono ?_ _ _ hw)
          intro x y hxy
          rcases hxy with h | h
          · exact Or.inl ((hb x y).1 h)
          · exact Or.inr h
        have hbest := ok.best .addition u0 v0 _ hleg0 rfl (score u0 v0 (fun q hq => ha0.orphan q ((hb q v0).1 hq)) ha0.src ha0.tgt)
        rw [hm] at hbest
        simp only [Option.map_some, Option.getD_some] at hbest
        rw [score u v h3 hal.src hal.tgt] at hdelta
        simp only [Option.some.injEq] at hdelta
        have hN : 0 < a.nrow := by rw [hd.nrow]; exact_mod_cast List.length_pos_iff.2 hd.ne
        have hge : gain rows u0 v0 ≤ gain rows u v := by
          rw [← hdelta] at hbest
          exact le_of_mul_le_mul_left hbest hN
        have heq : (u, v) = (u0, v0) := by
          by_contra hne
          have := hb0 u v hal hne
          rw [add_zero] at this
          have : gain rows u v < gain rows u0 v0 := by exact_mod_cast this
          linarith
        simp only [Prod.mk.injEq] at heq
        obtain ⟨rfl, rfl⟩ := heq
        refine ⟨T1 ++ [(u, v)], T2, by rw [he]; simp, fun x y => ?_⟩
        rw [h5, hb]
        simp
  induction hh with
  | last p hp => exact fun T1 T2 he hb => step p hp T1 T2 he hb
  | cons p hp _ _ ih =>
    intro T1 T2 he hb
    obtain ⟨S1, S2, h1, h2⟩ := step p hp T1 T2 he hb
    exact ih S1 S2 h1 h2

/-- The run of `hc` on 0/1 data in which every pair of columns has a positive gain follows the greedy list to its end. -/
theorem hc_greedy (A : Type) (h : HashOrder ℕ) (a : HcArgs) (hfc : FindsCycles a.fc) (rows : List (List ℕ)) (hd : OnBinary a rows)
    (hr : a.restriction = none) (maxIter : ℤ) (hmax : (a.ncol : ℤ) < maxIter) (hpos : ∀ u v, u < a.ncol → v < a.ncol → u ≠ v → 0 < gain rows u v)
    (T : List (ℕ × ℕ)) (hT : Greedy a.ncol (fun u v => (gain rows u v : ℝ)) 0 T) (hf : T.length + 1 = a.ncol) :
    ∃ bn tr, hc A h a maxIter = .ok (bn, tr) ∧ bn.V.Perm (List.range a.ncol) ∧ ∀ u v, Arc bn.E u v ↔ (u, v) ∈ T := by
  classical
  obtain ⟨bn0, h1, h2, i⟩ := init_run (A := A) h a
  have hV : ∀ v ∈ (a.env bn0.V).V, v ∈ List.range a.ncol := fun v hv => h2.mem_iff.1 hv
  obtain ⟨s, fin, tr, h3, h4, -⟩ := climb_ok (env := a.env bn0.V) (names := List.range a.ncol) hfc hV maxIter.toNat a.init i
  obtain ⟨bn, h9, h10, h11, -⟩ := final_run (A := A) h h4
  have hrun : hc A h a maxIter = .ok (bn, tr) := by simp only [hc, h1, h3, h9, Py.bind_ok, Py.pure_eq]
  obtain ⟨S1, S2, e1, e2⟩ := greedy_history hd hr h2 hT hf (climb_free (env := a.env bn0.V) hfc hV _ _ i _ _ _ h3) [] T rfl
    (fun x y => ⟨fun hc => (not_arc_empty _ x y hc).elim, fun hc => by cases hc⟩)
  obtain ⟨bn', tr', root, g1, g2, g3, g4⟩ := C101_always_a_tree A h a hfc rows hd hr (by omega) maxIter hmax fun u v hu hv huv e j he hj => by
    have := hpos u v hu hv huv
    unfold gain at this
    rw [he, hj] at this
    simpa using this
  rw [hrun] at g1
  simp only [Except.ok.injEq, Prod.mk.injEq] at g1
  obtain ⟨rfl, rfl⟩ := g1
  refine ⟨bn, tr, hrun, h10, fun u v => ?_⟩
  rw [h11, e2]
  refine ⟨fun hm => by rw [e1]; exact List.mem_append_left _ hm, fun hm => ?_⟩
  have hvn : v < a.ncol := hT.heads.2 _ hm
  have hS2 : S2 = [] := by
    by_contra hne
    have hlen : (S1.map Prod.snd).length < a.ncol - 1 := by
      have : 0 < S2.length := List.length_pos_iff.2 hne
      have h' := hf
      rw [e1, List.length_append] at h'
      rw [List.length_map]; omega
    have hsub : (List.range a.ncol).erase root ⊆ S1.map Prod.snd := by
      intro x hx
      have hx' := (List.nodup_range.mem_erase_iff).1 hx
      obtain ⟨p, hp, -⟩ := g4 x (List.mem_range.1 hx'.2) hx'.1
      rw [h11, e2] at hp
      exact List.mem_map.2 ⟨_, hp, rfl⟩
    have := (List.subperm_of_subset (List.nodup_range.erase root) hsub).length_le
    rw [List.length_erase_of_mem (List.mem_range.2 g2), List.length_range] at this
    omega
  rw [hS2, List.append_nil] at e1
  rw [← e1]; exact hm

end PyBN
