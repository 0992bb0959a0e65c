import Verif.Props.Indep
import Verif.Props.HillClimb
import Verif.Proofs.HcBinary
import Mathlib.Order.WellFounded
import Mathlib.Data.Fintype.Order
import Mathlib.Analysis.SpecialFunctions.Log.Deriv
import Mathlib.Analysis.Complex.ExponentialBounds

/-!
# C100, C101: what the hill-climbing searches learn from 0/1 data
-/

namespace PyBN
open Indep Finset

theorem select_binary {n : ℕ} {rows : List (List ℕ)} (hb : Binary n rows) (cols : List ℕ) : Binary cols.length (select cols rows) := by
  intro r hr
  obtain ⟨s, hs, rfl⟩ := List.mem_map.1 hr
  refine ⟨by simp, fun x hx => ?_⟩
  obtain ⟨c, -, rfl⟩ := List.mem_map.1 hx
  exact getD_of_binary hb hs

theorem select_ne {rows : List (List ℕ)} (hne : rows ≠ []) (cols : List ℕ) : select cols rows ≠ [] := by simpa [select] using hne

/-- The two-variable score does not depend on the order of the variables. -/
theorem dataScore_comm (rows : List (List ℕ)) (hne : rows ≠ []) (u v : ℕ) : dataScore rows [v, u] = dataScore rows [u, v] := by
  have hsw : select [u, v] rows = (select [v, u] rows).map swap01 := by
    unfold select; rw [List.map_map]; rfl
  have hl : ∀ r ∈ select [v, u] rows, 2 ≤ r.length := by
    intro r hr; obtain ⟨s, -, rfl⟩ := List.mem_map.1 hr; simp
  have := miStat_swap hl 2
  unfold miStat at this
  rw [if_pos rfl, if_pos rfl] at this
  have h2 : ∀ x y, dataScore rows [x, y] = some (round4 (mi2 (nbins (select [x, y] rows) 0) (nbins (select [x, y] rows) 1) fun i j =>
      (hist2 (select [x, y] rows) (nbins (select [x, y] rows) 0) (nbins (select [x, y] rows) 1) i j : ℝ) / (select [x, y] rows).length)) := by
    intro x y
    unfold dataScore mutualInformation
    rw [if_neg (by simp [select_ne hne]), if_neg (by simp), if_pos (by simp)]
  rw [h2, h2, hsw, this]

/-- The pair score never exceeds the score of the first variable alone. -/
theorem dataScore_le (rows : List (List ℕ)) (hne : rows ≠ []) (u v : ℕ) (h i : ℚ) (hh : dataScore rows [v] = some h) (hi : dataScore rows [v, u] = some i) :
    i ≤ h := by
  have hs1 := select_ne hne [v]
  have hs2 := select_ne hne [v, u]
  have hcol : column (select [v] rows) 0 = column (select [v, u] rows) 0 := by
    unfold column select
    rw [List.map_map, List.map_map]; rfl
  have hnb : nbins (select [v] rows) 0 = nbins (select [v, u] rows) 0 := by unfold nbins; rw [hcol]
  have hh1 : ∀ k i, hist1 (select [v] rows) k i = hist1 (select [v, u] rows) k i := by
    intro k i
    unfold hist1
    rw [hcol]
    unfold select
    rw [List.countP_map, List.countP_map]
    rfl
  have hlen : (select [v] rows).length = (select [v, u] rows).length := by simp [select]
  unfold dataScore mutualInformation at hi hh
  rw [if_neg (by simp [hs2]), if_neg (by simp), if_pos (by simp)] at hi
  rw [if_neg (by simp [hs1]), if_pos (by simp)] at hh
  split at hh
  · rename_i q hq
    split at hq
    · simp only [Except.ok.injEq] at hq; subst hq; cases hh
    · simp only [Except.ok.injEq] at hq
      subst hq
      simp only [Option.some.injEq] at hi hh
      subst hi; subst hh
      refine round4_mono ((mi2_le_ent fun i j => by positivity).trans (le_of_eq ?_))
      rw [hnb]
      unfold ent1
      congr 1
      refine sum_congr rfl fun i _ => ?_
      have : ∑ j ∈ range (nbins (select [v, u] rows) 1), (hist2 (select [v, u] rows) (nbins (select [v, u] rows) 0) (nbins (select [v, u] rows) 1) i j : ℝ) /
          (select [v, u] rows).length = (hist1 (select [v] rows) (nbins (select [v, u] rows) 0) i : ℝ) / (select [v] rows).length := by
        rw [← sum_div, hlen, hh1]
        have := hist2_sum (rows := select [v, u] rows) (k0 := nbins (select [v, u] rows) 0) (nbins_pos hs2 1) i
        rw [← this]; push_cast; rfl
      simp only [this]
  · cases hh

/-- The score of one 0/1 variable is a number. -/
theorem dataScore_one {n : ℕ} {rows : List (List ℕ)} (hne : rows ≠ []) (hb : Binary n rows) (v : ℕ) : ∃ h, dataScore rows [v] = some h := by
  have hs := select_ne hne [v]
  by_cases hk : nbins (select [v] rows) 0 = 1
  · unfold dataScore mutualInformation
    rw [if_neg (by simp [hs]), if_pos (by simp), hk, if_neg]
    · exact ⟨_, rfl⟩
    · rintro ⟨i, hi, h0⟩
      have : ∑ i ∈ range 1, hist1 (select [v] rows) 1 i = (select [v] rows).length := hist1_sum (by omega)
      rw [sum_range_one] at this
      have : i = 0 := by omega
      subst this
      rw [h0] at this
      exact hs (List.length_eq_zero_iff.1 this.symm)
  · have hc := binary_coded (select_binary hb [v]) hk
    have hcv : Coded rows v := by
      intro r hr w hw
      obtain ⟨s, hs, he⟩ := hc (([v] : List ℕ).map fun c => r.getD c 0) (List.mem_map.2 ⟨r, hr, rfl⟩) w hw
      obtain ⟨t, ht, rfl⟩ := List.mem_map.1 hs
      exact ⟨t, ht, he⟩
    obtain ⟨h, i, h1, -⟩ := C99_first_parent_score rows hne v v hcv
    refine ⟨h, ?_⟩
    unfold dataScore
    show (match mutualInformation 1 (select [v] rows) false with | .ok q => q | .error _ => none) = _
    rw [h1]

theorem dataScore_two {rows : List (List ℕ)} (hne : rows ≠ []) (v u : ℕ) : ∃ i, dataScore rows [v, u] = some i := by
  unfold dataScore mutualInformation
  rw [if_neg (by simp [select_ne hne]), if_neg (by simp), if_pos (by simp)]
  exact ⟨_, rfl⟩

theorem dataScore_firstOnly {n : ℕ} {rows : List (List ℕ)} (hne : rows ≠ []) (hb : Binary n rows) (env : HcEnv ℕ) (hmi : env.mi = dataScore rows)
    (hn : env.nrow = rows.length) : FirstOnly env where
  nrow := by rw [hn]; positivity
  first := by
    intro v u ps
    rw [hmi]
    unfold dataScore
    have h := C98_first_parent_only (v :: u :: ps).length (select (v :: u :: ps) rows) (by simp) (select_binary hb _)
    rw [h]
    have : select [0, 1] (select (v :: u :: ps) rows) = select [v, u] rows := by
      unfold select; rw [List.map_map]; rfl
    rw [this]; rfl
  left := by intro v u h i; rw [hmi]; exact dataScore_le rows hne u v h i
  right := by
    intro v u h i hh hi
    rw [hmi] at hh hi
    rw [dataScore_comm rows hne] at hi
    exact dataScore_le rows hne v u h i hh hi

/-- A call on 0/1 data: the score is computed from `rows`. -/
structure OnBinary (a : HcArgs) (rows : List (List ℕ)) : Prop where
  ne : rows ≠ []
  binary : Binary a.ncol rows
  mi : a.mi = dataScore rows
  nrow : a.nrow = rows.length

theorem OnBinary.firstOnly {a : HcArgs} {rows : List (List ℕ)} (h : OnBinary a rows) (V : List ℕ) : FirstOnly (a.env V) :=
  dataScore_firstOnly h.ne h.binary _ h.mi h.nrow

theorem oneParent_init (a : HcArgs) : OneParent a.init.c := fun u _ v h => (not_arc_empty _ u v h).elim

/-- C100: on 0/1 data `hc` never gives a variable two parents, and every move it makes is an addition; likewise `tabu` (whenever it returns). -/
theorem C100_one_parent (A : Type) (h : HashOrder ℕ) (a : HcArgs) (hfc : FindsCycles a.fc) (rows : List (List ℕ)) (hd : OnBinary a rows)
    (maxIter : ℤ) :
    (∃ bn tr, hc A h a maxIter = .ok (bn, tr) ∧ (∀ u u' v, Arc bn.E u v → Arc bn.E u' v → u = u') ∧
      ∀ p ∈ tr, ∀ d m u v, p.move = some (d, m, u, v) → m = .addition) ∧
    ∀ k bn tr, tabu A h a k maxIter = .ok (bn, tr) → (∀ u u' v, Arc bn.E u v → Arc bn.E u' v → u = u') ∧
      ∀ p ∈ tr, ∀ d m u v, p.move = some (d, m, u, v) → m = .addition := by
  constructor
  · obtain ⟨V, s, fin, bn, tr, h1, h2, h3, h4, -⟩ := hc_run A h a hfc maxIter
    have hh := climb_inv (env := a.env V) (names := List.range a.ncol) hfc (fun v hv => h1.mem_iff.1 hv) _ _ (CInv.init List.nodup_range) _ _ _ h3
    obtain ⟨e1, e2, -⟩ := firstOnly_history (hd.firstOnly V) hh (oneParent_init a)
    exact ⟨bn, tr, h2, by rw [h4]; exact e1, e2⟩
  · intro k bn tr ht
    obtain ⟨bn0, h1, h2, i⟩ := init_run (A := A) h a
    unfold tabu at ht
    simp only [h1, Py.bind_ok] at ht
    cases hl : tabuLoop (a.env bn0.V) maxIter.toNat 0 (List.replicate k.toNat none) a.init with
    | error e => rw [hl] at ht; cases ht
    | ok r =>
      obtain ⟨fin, tr'⟩ := r
      rw [hl] at ht
      simp only [Py.bind_ok] at ht
      have hh := tabuLoop_inv (env := a.env bn0.V) (names := List.range a.ncol) hfc (fun v hv => h2.mem_iff.1 hv) _ _ _ _ i _ _ hl
      obtain ⟨e1, e2, -⟩ := firstOnly_history (hd.firstOnly bn0.V) hh (oneParent_init a)
      have hf : ∃ names', CInv names' fin := by
        have : ∀ {st tr fin}, History (PassInv (a.env bn0.V) (List.range a.ncol)) st tr fin → CInv (List.range a.ncol) fin := by
          intro st tr fin hh
          induction hh with
          | last p hp => exact hp.2.2
          | cons p hp _ _ ih => exact ih
        exact ⟨_, this hh⟩
      obtain ⟨names', i'⟩ := hf
      obtain ⟨bn', h8, h9, h10, -⟩ := final_run (A := A) h i'
      simp only [h8, Py.bind_ok, Py.pure_eq, Except.ok.injEq, Prod.mk.injEq] at ht
      obtain ⟨rfl, rfl⟩ := ht
      exact ⟨by rw [h10]; exact e1, e2⟩

theorem exists_root {n : ℕ} (hn : 0 < n) {st : CP ℕ} (i : CInv (List.range n) st) : ∃ r < n, ∀ u, ¬ Arc st.c u r := by
  let R : Fin n → Fin n → Prop := fun a b => Relation.TransGen (Arc st.c) a.1 b.1
  have : IsTrans (Fin n) R := ⟨fun _ _ _ h h' => Relation.TransGen.trans h h'⟩
  have : Std.Irrefl R := ⟨fun x h => i.acyclic x.1 h⟩
  have wf : WellFounded R := Finite.wellFounded_of_trans_of_irrefl R
  obtain ⟨m, -, hm⟩ := wf.has_min (Set.univ : Set (Fin n)) ⟨⟨0, hn⟩, trivial⟩
  refine ⟨m.1, m.2, fun u hu => ?_⟩
  have hun : u < n := by simpa using i.src hu
  exact hm ⟨u, hun⟩ trivial (Relation.TransGen.single hu)

/-- C101: on 0/1 data in which no variable determines another one (the rounded mutual information of two variables is below the rounded entropy of
each), `hc` without restriction returns a directed tree over all variables: one variable without parent, every other one with exactly one parent -
whatever the dependencies in the data are. -/
theorem C101_always_a_tree (A : Type) (h : HashOrder ℕ) (a : HcArgs) (hfc : FindsCycles a.fc) (rows : List (List ℕ)) (hd : OnBinary a rows)
    (hr : a.restriction = none) (hn : 0 < a.ncol) (maxIter : ℤ) (hmax : (a.ncol : ℤ) < maxIter)
    (hnd : ∀ u v, u < a.ncol → v < a.ncol → u ≠ v → ∀ e i, dataScore rows [v] = some e → dataScore rows [v, u] = some i → i < e) :
    ∃ bn tr root, hc A h a maxIter = .ok (bn, tr) ∧ root < a.ncol ∧ (∀ u, ¬ Arc bn.E u root) ∧
      ∀ v, v < a.ncol → v ≠ root → ∃! u, Arc bn.E u v := by
  classical
  obtain ⟨bn0, h1, h2, i⟩ := init_run (A := A) h a
  have hV : ∀ v ∈ (a.env bn0.V).V, v ∈ List.range a.ncol := fun v hv => h2.mem_iff.1 hv
  obtain ⟨s, fin, tr, h3, h4, h5, h6, h7, h8⟩ := climb_ok (env := a.env bn0.V) (names := List.range a.ncol) hfc hV maxIter.toNat a.init i
  obtain ⟨bn, h9, h10, h11, -⟩ := final_run (A := A) h h4
  have hh := climb_inv (env := a.env bn0.V) (names := List.range a.ncol) hfc hV _ _ i _ _ _ h3
  obtain ⟨e1, e2, e3⟩ := firstOnly_history (hd.firstOnly bn0.V) hh (oneParent_init a)
  have hlen : tr.length ≤ a.ncol + 1 := by
    refine e3.trans (Nat.succ_le_succ ?_)
    unfold roots
    exact (List.length_filter_le _ _).trans (by simp)
  have hs : s = .noImprovement := by
    cases s with
    | limit => have := h8 rfl; omega
    | noImprovement => rfl
  have hlast : ∀ {st tr fin}, History (PassOk (a.env bn0.V) fun _ _ _ => false) st tr fin → (∃ p ∈ tr, p.move = none) →
      ∃ p, PassOk (a.env bn0.V) (fun _ _ _ => false) p ∧ p.move = none ∧ p.after = fin := by
    intro st tr fin hh
    induction hh with
    | last p hp => rintro ⟨q, hq, hm⟩; simp at hq; subst hq; exact ⟨q, hp, hm, rfl⟩
    | cons p hp hm _ ih =>
      rintro ⟨q, hq, hmq⟩
      rcases List.mem_cons.1 hq with rfl | hq
      · exact (hm hmq).elim
      · exact ih ⟨q, hq, hmq⟩
  obtain ⟨p, f1, f2, f3⟩ := hlast h5 (h7.1 hs)
  have hbe : p.before = fin := by rw [← f3, f1.still f2]
  obtain ⟨root, hrt, hroot⟩ := exists_root hn h4
  refine ⟨bn, tr, root, by simp only [hc, h1, h3, h9, Py.bind_ok, Py.pure_eq], hrt, by rw [h11]; exact hroot, fun v hv hvr => ?_⟩
  rw [h11]
  by_cases hp : ∃ u, Arc fin.c u v
  · obtain ⟨u, hu⟩ := hp
    exact ⟨u, hu, fun u' hu' => e1 u' u v hu' hu⟩
  · exfalso
    have hno : ∀ u, ¬ Arc fin.c u v := fun u hu => hp ⟨u, hu⟩
    -- the addition root -> v is legal and improves
    have hpv : parentsIn fin v = [] := List.eq_nil_iff_forall_not_mem.2 fun x hx => hno x ((mem_parentsIn h4 x v).1 hx)
    obtain ⟨e, he⟩ := dataScore_one hd.ne hd.binary v
    obtain ⟨j, hj⟩ := dataScore_two hd.ne v root
    have hlt := hnd root v hrt hv (Ne.symm hvr) e j he hj
    have hdel : moveDelta (a.env bn0.V) (parentsIn fin v) .addition root v = some (a.nrow * (e - j)) := by
      rw [hpv]
      show deltaOf (a.env bn0.V) [v] [v, root] = _
      unfold deltaOf
      show (do let x ← a.mi [v]; let b ← a.mi [v, root]; pure (a.nrow * (x - b))) = _
      rw [hd.mi, he, hj]; rfl
    have hacyc : Acyclic (MoveArc fin.c .addition root v) := by
      have key : ∀ x y, Relation.TransGen (MoveArc fin.c .addition root v) x y → Relation.TransGen (Arc fin.c) x y ∨ (x = root ∧ y ≠ root) := by
        intro x y hxy
        induction hxy with
        | single hs =>
          rcases hs with hs | ⟨rfl, rfl⟩
          · exact Or.inl (.single hs)
          · exact Or.inr ⟨rfl, hvr⟩
        | tail hxb hbc ih =>
          rcases hbc with hbc | ⟨rfl, rfl⟩
          · rcases ih with ih | ⟨rfl, ih⟩
            · exact Or.inl (ih.tail hbc)
            · exact Or.inr ⟨rfl, fun hc => by subst hc; exact hroot _ hbc⟩
          · rcases ih with ih | ⟨rfl, ih⟩
            · exfalso
              obtain ⟨z, -, hz⟩ := Relation.TransGen.tail'_iff.1 ih
              exact hroot z hz
            · exact (ih rfl).elim
      intro w hw
      rcases key w w hw with h | ⟨h, h'⟩
      · exact h4.acyclic w h
      · exact h' h
    have hlegal : Legal bn0.V a.restriction fin.c .addition root v :=
      ⟨h2.mem_iff.2 (by simpa using hrt), h2.mem_iff.2 (by simpa using hv), Ne.symm hvr, hacyc, hno root, by rw [hr]; intro r hr; cases hr⟩
    have := f1.best .addition root v _ (by rw [hbe]; exact hlegal) rfl (by rw [hbe]; exact hdel)
    rw [f2] at this
    have hN : 0 < a.nrow := by rw [hd.nrow]; exact_mod_cast List.length_pos_iff.2 hd.ne
    have h0 : 0 < a.nrow * (e - j) := mul_pos hN (by linarith)
    simp at this
    linarith

/-- C101 for data without any dependency: pairwise empirically independent 0/1 variables, none of them (nearly) constant, still yield a tree over all
variables. -/
theorem C101_independent_tree (A : Type) (h : HashOrder ℕ) (a : HcArgs) (hfc : FindsCycles a.fc) (rows : List (List ℕ)) (hd : OnBinary a rows)
    (hr : a.restriction = none) (hn : 0 < a.ncol) (maxIter : ℤ) (hmax : (a.ncol : ℤ) < maxIter)
    (hc : ∀ v < a.ncol, Coded rows v) (hH : ∀ v < a.ncol, 1 / 20000 < empH (select [v] rows))
    (hi : ∀ u v, u < a.ncol → v < a.ncol → u ≠ v → EmpIndep (select [v, u] rows)) :
    ∃ bn tr root, PyBN.hc A h a maxIter = .ok (bn, tr) ∧ root < a.ncol ∧ (∀ u, ¬ Arc bn.E u root) ∧
      ∀ v, v < a.ncol → v ≠ root → ∃! u, Arc bn.E u v := by
  refine C101_always_a_tree A h a hfc rows hd hr hn maxIter hmax fun u v hu hv huv e i he hie => ?_
  obtain ⟨e', i', g1, g2, g3, -, -, g4⟩ := C99_first_parent_score rows hd.ne v u (hc v hv)
  have e1 : dataScore rows [v] = some e' := by
    unfold dataScore
    show (match mutualInformation 1 (select [v] rows) false with | .ok q => q | .error _ => none) = _
    rw [g1]
  have e2 : dataScore rows [v, u] = some i' := by
    unfold dataScore
    show (match mutualInformation 2 (select [v, u] rows) false with | .ok q => q | .error _ => none) = _
    rw [g2]
  rw [e1] at he
  rw [e2] at hie
  cases he; cases hie
  rw [g4 (hc u hu) (hi u v hu hv huv)]
  have := hH v hv
  rw [abs_le] at g3
  have : (0 : ℝ) < (e : ℝ) := by linarith [g3.1]
  exact_mod_cast this

/-- Witness for C100 and C101: three fair coins, every combination once. -/
def exCoins : List (List ℕ) := [[0, 0, 0], [0, 0, 1], [0, 1, 0], [0, 1, 1], [1, 0, 0], [1, 0, 1], [1, 1, 0], [1, 1, 1]]

noncomputable def exCoinArgs (debug : Bool) : HcArgs := ⟨findCycleRef, dataScore exCoins, 8, 3, none, debug⟩

theorem exCoins_onBinary (debug : Bool) : OnBinary (exCoinArgs debug) exCoins where
  ne := by decide
  binary := by show Binary 3 exCoins; unfold Binary; decide
  mi := rfl
  nrow := by unfold exCoinArgs exCoins; norm_num

theorem exCoins_entropy : ∀ v < 3, 1 / 20000 < empH (select [v] exCoins) := by
  intro v hv
  have hval : valuesOf (select [v] exCoins) 0 = {0, 1} := by interval_cases v <;> decide
  have hf : ∀ x ∈ ({0, 1} : Finset ℕ), freq (select [v] exCoins) (fun r => entry 0 r = x) = 1 / 2 := by
    intro x hx
    unfold freq
    have h8 : (select [v] exCoins).length = 8 := by unfold select exCoins; simp
    have h4 : ((select [v] exCoins).filter fun r => decide (entry 0 r = x)).length = 4 := by
      rw [mem_insert, mem_singleton] at hx
      rcases hx with rfl | rfl <;> interval_cases v <;> decide
    rw [h8, h4]; norm_num
  unfold empH
  rw [hval, sum_congr rfl fun x hx => by rw [hf x hx]]
  rw [sum_const]
  simp only [one_div, Real.log_inv]
  rw [card_pair (by decide)]
  have := Real.log_two_gt_d9
  norm_num
  linarith

example (debug : Bool) : ∃ bn tr root, hc Unit .id (exCoinArgs debug) 4 = .ok (bn, tr) ∧ root < 3 ∧ (∀ u, ¬ Arc bn.E u root) ∧
    ∀ v, v < 3 → v ≠ root → ∃! u, Arc bn.E u v := by
  refine C101_independent_tree Unit .id (exCoinArgs debug) findCycleRef_spec exCoins (exCoins_onBinary debug) rfl (show 0 < 3 by decide) 4
    (show ((3 : ℕ) : ℤ) < 4 by decide) ?_
    exCoins_entropy ?_
  · intro v hv
    change v < 3 at hv
    unfold Coded
    interval_cases v <;> decide
  · intro u v hu hv huv
    change u < 3 at hu
    change v < 3 at hv
    refine empIndep_of_counts (by simp [select, exCoins]) ?_
    interval_cases u <;> interval_cases v <;> first | exact absurd rfl huv | decide +kernel

end PyBN
