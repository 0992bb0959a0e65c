import Verif.Proofs.DSep
import Verif.Props.Constraint
import Verif.Props.Iamb
import Verif.Proofs.Distance
import Verif.Proofs.Ilp

/-!
# The constraint-based learners with perfect tests: C179 - C183

The tests are assumed to answer by d-separation in some directed acyclic graph (a "faithful oracle"); the questions are whether the learners then recover
the Markov blankets and the skeleton of that graph.
-/

set_option linter.unusedSectionVars false
namespace PyBN
open Constraint DSep Relation

variable {n : ℕ} {P : ℕ → ℕ → Prop} {lt gt : List ℕ → Bool}

/-! ## Growing, in the order of the columns -/

theorem growPass_scan (lt : List ℕ → Bool) (x : ℕ) : ∀ (ys s : List ℕ) (f : Bool), s.Nodup → x ∉ s →
    ScanRun x (fun y S => lt (x :: y :: S) = true) ys s (growPass lt x ys s f).1
  | [], s, f, _, _ => .done s
  | y :: ys, s, f, hn, hx => by
      rw [growPass]
      split_ifs with hc
      · refine .add y ys s _ (Ne.symm hc.1) hc.2.1 hc.2.2 (growPass_scan lt x ys _ _ ?_ ?_)
        · exact List.nodup_append.2 ⟨hn, by simp, by rintro b hb _ hc' rfl; simp at hc'; subst hc'; exact hc.2.1 hb⟩
        · simp [hx, hc.1]
      · refine .skip y ys s _ ?_ (growPass_scan lt x ys _ _ hn hx)
        by_contra hcon
        push Not at hcon
        exact hc ⟨Ne.symm hcon.1, hcon.2.1, hcon.2.2⟩

theorem growLoop_run (lt : List ℕ → Bool) (n x : ℕ) : ∀ (fuel : ℕ) (s s' : List ℕ), s.Nodup → x ∉ s → growLoop lt n x fuel s = .ok s' →
    GrowRun n x (fun y S => lt (x :: y :: S) = true) s s'
  | 0, _, _, _, _, h => by cases h
  | fuel + 1, s, s', hn, hx, h => by
      rw [growLoop] at h
      have hs := growPass_scan lt x (List.range n) s false hn hx
      obtain ⟨h1, h2, h3, h4, h5, h6⟩ := growPass_spec lt x (List.range n) s false hn hx
      by_cases hb : (growPass lt x (List.range n) s false).2 = true
      · simp only [hb, if_true] at h
        refine .again s _ s' hs (fun e => ?_) (growLoop_run lt n x fuel _ _ h1 h2 h)
        rcases h6 hb with h' | h'
        · cases h'
        · rw [← e] at h'; omega
      · simp only [hb, if_false, Bool.false_eq_true] at h
        cases h
        have e := (h5 (by simpa using hb)).2.1
        rw [e] at hs ⊢
        exact .stop s hs

/-- C78 / the grown list is the one obtained by scanning the columns in their order, again and again until a scan adds nothing. -/
theorem C78_gs_growing (lt : List ℕ → Bool) (n x : ℕ) :
    ∃ S : List ℕ, GrowRun n x (fun y S => lt (x :: y :: S) = true) [] S ∧ S.Nodup ∧ x ∉ S ∧ (∀ y ∈ S, y < n) ∧
      (∀ y < n, y ≠ x → y ∉ S → lt (x :: y :: S) = false) ∧
      ((∀ y ∈ S, lt (x :: y :: S.erase y) = true) → ∀ fuel ≥ n + 1, gsBlanket lt n fuel x = .ok S) ∧
      ((∃ y ∈ S, lt (x :: y :: S.erase y) = false) → ∀ fuel, gsBlanket lt n fuel x = .error .diverges) := by
  obtain ⟨S, hS, g⟩ := growLoop_ok lt n x (n + 1) [] (by simp) (by simp) (by simp) (by simp)
  refine ⟨S, growLoop_run lt n x _ _ _ (by simp) (by simp) hS, g.nodup, g.self, g.bound,
    fun y hy hne hm => g.stop y hy (Ne.symm hne) hm, fun hd fuel hf => ?_, fun hd fuel => ?_⟩
  · unfold gsBlanket
    rw [growLoop_mono lt n x _ fuel _ _ hf hS, Py.bind_ok]
    obtain ⟨f, rfl⟩ : ∃ f, fuel = f + 1 := ⟨fuel - 1, by omega⟩
    exact shrinkLoop_ok hd f
  · unfold gsBlanket
    cases hg : growLoop lt n x fuel [] with
    | error err => rw [growLoop_error lt n x _ _ _ hg]; rfl
    | ok s =>
      rw [Py.bind_ok]
      have h1 := growLoop_mono lt n x _ (max fuel (n + 1)) _ _ (by omega) hg
      have h2 := growLoop_mono lt n x _ (max fuel (n + 1)) _ _ (by omega) hS
      rw [h1] at h2
      cases h2
      exact shrinkLoop_diverges hd fuel

/-! ## C179: the blankets of `gs` -/

theorem dep_iff (hlt : FindsDependence n P lt) {x y : ℕ} {S : List ℕ} (hx : x < n) (hy : y < n) (hne : x ≠ y) (hxs : x ∉ S) (hys : y ∉ S) (hn : S.Nodup)
    (hS : ∀ v ∈ S, v < n) : lt (x :: y :: S) = true ↔ ¬ Separated P x y {s | s ∈ S} := by
  refine hlt x y S ?_ ?_
  · simp [hne, hxs, hys, hn]
  · intro v hv
    simp only [List.mem_cons] at hv
    rcases hv with rfl | rfl | hv
    · exact hx
    · exact hy
    · exact hS v hv

/-- The grown list contains the blanket. -/
theorem grown_sup (d : IsDag n P) (hlt : FindsDependence n P lt) {x : ℕ} (hx : x < n) {B : List ℕ} (hn : B.Nodup) (hxs : x ∉ B) (hS : ∀ y ∈ B, y < n)
    (hstop : ∀ y < n, y ≠ x → y ∉ B → lt (x :: y :: B) = false) : ∀ y, InBlanket P x y → y ∈ B := by
  have hadj : ∀ y, Adjacent P x y → y ∈ B := by
    intro y ha
    by_contra hy
    have hyn : y < n := by rcases ha with ha | ha; exacts [(d.lt _ _ ha).2, (d.lt _ _ ha).1]
    have hne : x ≠ y := by rintro rfl; exact d.irrefl x (by rcases ha with ha | ha <;> exact ha)
    have := hstop y hyn hne.symm hy
    rw [← Bool.not_eq_true, dep_iff hlt hx hyn hne hxs hy hn hS] at this
    exact this (adjacent_not_separated hne ha)
  intro y hy
  by_contra hyB
  rcases hy with ha | ha | ⟨hne, c, h1, h2⟩
  · exact hyB (hadj y (.inr ha))
  · exact hyB (hadj y (.inl ha))
  · have := hstop y (d.lt _ _ h2).1 hne hyB
    rw [← Bool.not_eq_true, dep_iff hlt hx (d.lt _ _ h2).1 hne.symm hxs hyB hn hS] at this
    exact this (spouses_not_separated d hne.symm h1 h2 (hadj c (.inl h1)))

/-- C179: with perfect tests the blanket search of `gs`, whenever it returns, returns exactly the parents, children and spouses of the variable. -/
theorem C179_gs_blanket (d : IsDag n P) (hlt : FindsDependence n P lt) {x : ℕ} (hx : x < n) {fuel : ℕ} {B : List ℕ} (h : gsBlanket lt n fuel x = .ok B) :
    B.Nodup ∧ ∀ y, y ∈ B ↔ InBlanket P x y := by
  obtain ⟨S, hn, hxs, hS, -, hstop, hok, hdiv⟩ := C78_gs_blanket lt n x
  by_cases hc : ∀ y ∈ S, lt (x :: y :: S.erase y) = true
  swap
  · push Not at hc
    obtain ⟨y, hy, hy'⟩ := hc
    rw [hdiv ⟨y, hy, by simpa using hy'⟩ fuel] at h
    cases h
  have hB : B = S := by
    have h1 := hok hc (max fuel (n + 1)) (by omega)
    unfold gsBlanket at h h1
    cases hg : growLoop lt n x fuel [] with
    | error err => rw [hg] at h; cases h
    | ok s =>
      rw [growLoop_mono lt n x _ (max fuel (n + 1)) _ _ (by omega) hg] at h1
      rw [hg, Py.bind_ok] at h
      rw [Py.bind_ok] at h1
      rcases fuel with _ | fuel
      · cases h
      rw [shrinkLoop] at h
      obtain ⟨m, hm⟩ : ∃ m, max (fuel + 1) (n + 1) = m + 1 := ⟨max fuel n, by omega⟩
      rw [hm, shrinkLoop] at h1
      by_cases hb : (shrinkPass lt x s s).2 = true
      · exfalso
        have : ∀ k, shrinkLoop lt x s k = .error .diverges := by
          intro k
          induction k with
          | zero => rfl
          | succ k ih => rw [shrinkLoop]; simp only [hb, if_true]; exact ih
        simp only [hb, if_true, this] at h
        cases h
      · simp only [hb, Bool.false_eq_true, if_false] at h h1
        cases h; cases h1; rfl
  subst hB
  have hsub := grown_sup d hlt hx hn hxs hS hstop
  refine ⟨hn, fun y => ⟨fun hy => ?_, hsub y⟩⟩
  by_contra hyB
  have hne : x ≠ y := fun e => hxs (e ▸ hy)
  have := hc y hy
  rw [dep_iff hlt hx (hS y hy) hne (fun h => hxs (List.mem_of_mem_erase h)) (by rw [hn.mem_erase_iff]; simp) (hn.erase y)
    (fun v hv => hS v (List.mem_of_mem_erase hv))] at this
  refine this (blanket_separates d hne hyB fun v hv => ?_)
  show v ∈ B.erase y
  rw [hn.mem_erase_iff]
  exact ⟨fun e => hyB (e ▸ hv), hsub v hv⟩

/-- C179 / when it returns: exactly if growing adds no variable outside the blanket. -/
theorem C179_gs_returns_iff (d : IsDag n P) (hlt : FindsDependence n P lt) {x : ℕ} (hx : x < n) :
    ∃ S, GrowRun n x (fun y S => lt (x :: y :: S) = true) [] S ∧
      ((∃ fuel B, gsBlanket lt n fuel x = .ok B) ↔ ∀ y ∈ S, InBlanket P x y) := by
  obtain ⟨S, g1, hn, hxs, hS, hstop, g2, g3⟩ := C78_gs_growing lt n x
  refine ⟨S, g1, ⟨?_, fun hB => ?_⟩⟩
  · rintro ⟨fuel, B, h⟩
    by_cases hc : ∀ y ∈ S, lt (x :: y :: S.erase y) = true
    · have h2 := g2 hc (n + 1) (le_refl _)
      exact fun y hy => ((C179_gs_blanket d hlt hx h2).2 y).1 hy
    · push Not at hc
      obtain ⟨y, hy, hy'⟩ := hc
      rw [g3 ⟨y, hy, by simpa using hy'⟩ fuel] at h
      cases h
  · have hsup := grown_sup d hlt hx hn hxs hS hstop
    refine ⟨n + 1, S, g2 (fun y hy => ?_) _ (le_refl _)⟩
    have hne : x ≠ y := fun e => hxs (e ▸ hy)
    rw [dep_iff hlt hx (hS y hy) hne (fun h => hxs (List.mem_of_mem_erase h)) (by rw [hn.mem_erase_iff]; simp) (hn.erase y)
      (fun v hv => hS v (List.mem_of_mem_erase hv))]
    exact blanket_dependent d hne (hB y hy) fun v hv hvy => by
      show v ∈ S.erase y
      rw [hn.mem_erase_iff]; exact ⟨hvy, hsup v hv⟩

/-! ## C180: the skeleton -/

/-- C180: given the blankets of the graph and perfect tests, `resolve_markov_blanket` returns exactly the skeleton of the graph. -/
theorem C180_skeleton (d : IsDag n P) (hgt : FindsIndependence n P gt) (mb : Dict ℕ (List ℕ)) (hk : ∀ x ∈ mb.keys, x < n)
    (hm : ∀ x < n, ∃ B, Dict.get? mb x = some B ∧ B.Nodup ∧ ∀ y, y ∈ B ↔ InBlanket P x y) :
    ∃ e, resolve gt n mb = .ok e ∧ Undirected n e ∧ ∀ x y, y ∈ nb e x ↔ Adjacent P x y := by
  have hnb : ∀ x < n, (nb mb x).Nodup ∧ ∀ y, y ∈ nb mb x ↔ InBlanket P x y := by
    intro x hx
    obtain ⟨B, h1, h2, h3⟩ := hm x hx
    unfold nb; rw [h1]; exact ⟨h2, h3⟩
  have hisb : IsBlankets n mb := by
    refine ⟨fun x hx => ?_, fun x y hy => ?_⟩
    · obtain ⟨B, h1, _⟩ := hm x hx
      rw [h1]; rfl
    · have hx : x < n := by
        apply hk
        rw [Dict.mem_keys_iff]
        unfold nb at hy
        cases hg : Dict.get? mb x with
        | none => rw [hg] at hy; simp at hy
        | some B => rfl
      exact ((hnb x hx).2 y |>.1 hy).lt d
  obtain ⟨e, e1, e2, -⟩ := C47_resolve_undirected gt n mb hisb
  obtain ⟨e', e1', e3⟩ := C77_resolve_exact gt n mb hisb
  rw [e1] at e1'
  cases e1'
  -- a pair that is not adjacent is separated by a proper part of the candidates
  have hnon : ∀ x y, x < n → y < n → y ∈ nb mb x → ¬ Adjacent P x y →
      ∃ s, s.Sublist (candidateSet mb x y) ∧ s.length < (candidateSet mb x y).length ∧ gt (x :: y :: s) = true := by
    classical
    intro x y hx hy hyx hadj
    have hb := ((hnb x hx).2 y).1 hyx
    obtain ⟨hne, c, h1, h2⟩ : y ≠ x ∧ ∃ c, P x c ∧ P y c := by
      rcases hb with h | h | h
      · exact absurd (.inr h) hadj
      · exact absurd (.inl h) hadj
      · exact h
    have key : ∀ a b, a < n → b < n → a ≠ b → ¬ Adjacent P a b → P a c → P b c →
        Separated P a b {s | s ∈ ((nb mb a).erase b).filter fun v => decide (ReflTransGen P v a ∨ ReflTransGen P v b)} ∧
        (((nb mb a).erase b).filter fun v => decide (ReflTransGen P v a ∨ ReflTransGen P v b)).length < ((nb mb a).erase b).length := by
      intro a b ha hb' hab hadj' hac hbc
      obtain ⟨n1, n2⟩ := hnb a ha
      refine ⟨part_separates d hab hadj' fun v => ?_, ?_⟩
      · rw [Set.mem_setOf_eq, List.mem_filter, n1.mem_erase_iff, n2]
        simp only [decide_eq_true_eq]
        tauto
      · refine lt_of_le_of_ne (List.length_filter_le _ _) fun hl => ?_
        rw [List.length_filter_eq_length_iff] at hl
        have hcm : c ∈ (nb mb a).erase b := by
          rw [n1.mem_erase_iff, n2]
          exact ⟨fun e => d.irrefl b (by rw [e] at hbc; exact hbc), .inr (.inl hac)⟩
        rcases of_decide_eq_true (hl c hcm) with h | h
        · exact d.acyclic a ((TransGen.single hac).trans_left h)
        · exact d.acyclic b ((TransGen.single hbc).trans_left h)
    have hin : ∀ s : List ℕ, s.Sublist (candidateSet mb x y) → (x :: y :: s).Nodup ∧ ∀ v ∈ x :: y :: s, v < n := by
      intro s hs
      have hcn : (candidateSet mb x y).Nodup ∧ ∀ v ∈ candidateSet mb x y, v < n ∧ v ≠ x ∧ v ≠ y := by
        unfold candidateSet
        split_ifs
        · obtain ⟨n1, n2⟩ := hnb x hx
          refine ⟨n1.erase y, fun v hv => ?_⟩
          rw [n1.mem_erase_iff, n2] at hv
          exact ⟨hv.2.lt d, hv.2.ne d, hv.1⟩
        · obtain ⟨n1, n2⟩ := hnb y hy
          refine ⟨n1.erase x, fun v hv => ?_⟩
          rw [n1.mem_erase_iff, n2] at hv
          exact ⟨hv.2.lt d, hv.1, hv.2.ne d⟩
      refine ⟨?_, fun v hv => ?_⟩
      · rw [List.nodup_cons, List.nodup_cons]
        refine ⟨?_, fun h => (hcn.2 y (hs.subset h)).2.2 rfl, hs.nodup hcn.1⟩
        simp only [List.mem_cons, not_or]
        exact ⟨hne.symm, fun h => (hcn.2 x (hs.subset h)).2.1 rfl⟩
      · simp only [List.mem_cons] at hv
        rcases hv with rfl | rfl | hv
        · exact hx
        · exact hy
        · exact (hcn.2 v (hs.subset hv)).1
    by_cases hlen : (nb mb x).length < (nb mb y).length
    · obtain ⟨k1, k2⟩ := key x y hx hy hne.symm hadj h1 h2
      have hcs : candidateSet mb x y = (nb mb x).erase y := by unfold candidateSet; rw [if_pos hlen]
      have hfs := List.filter_sublist (l := (nb mb x).erase y) (p := fun v => decide (ReflTransGen P v x ∨ ReflTransGen P v y))
      rw [hcs] at hin ⊢
      refine ⟨_, hfs, k2, ?_⟩
      obtain ⟨i1, i2⟩ := hin _ hfs
      exact (hgt x y _ i1 i2).2 k1
    · obtain ⟨k1, k2⟩ := key y x hy hx hne (fun h => hadj h.symm) h2 h1
      have hcs : candidateSet mb x y = (nb mb y).erase x := by unfold candidateSet; rw [if_neg hlen]
      have hfs := List.filter_sublist (l := (nb mb y).erase x) (p := fun v => decide (ReflTransGen P v y ∨ ReflTransGen P v x))
      rw [hcs] at hin ⊢
      refine ⟨_, hfs, k2, ?_⟩
      obtain ⟨i1, i2⟩ := hin _ hfs
      exact (hgt x y _ i1 i2).2 k1.symm
  refine ⟨e, e1, e2, fun x y => ⟨fun hy => ?_, fun ha => ?_⟩⟩
  · have hyn := e2.lt x y hy
    have hxn := e2.lt y x (e2.symm x y hy)
    by_contra hadj
    rcases (e3 x y hxn hyn).1 hy with ⟨q1, q2⟩ | ⟨q1, q2⟩
    · obtain ⟨s, s1, s2, s3⟩ := hnon x y hxn hyn q1 hadj
      rw [q2 s s1 s2] at s3; cases s3
    · obtain ⟨s, s1, s2, s3⟩ := hnon y x hyn hxn q1 fun h => hadj h.symm
      rw [q2 s s1 s2] at s3; cases s3
  · have hxy : x < n ∧ y < n := by rcases ha with h | h; exacts [d.lt _ _ h, (d.lt _ _ h).symm]
    have hne : x ≠ y := by rintro rfl; exact d.irrefl x (by rcases ha with ha | ha <;> exact ha)
    obtain ⟨n1, n2⟩ := hnb x hxy.1
    refine (e3 x y hxy.1 hxy.2).2 (.inl ⟨(n2 y).2 (ha.elim (fun h => .inr (.inl h)) .inl), fun s s1 _ => ?_⟩)
    rw [← Bool.not_eq_true]
    intro hg
    have hcn : (candidateSet mb x y).Nodup ∧ ∀ v ∈ candidateSet mb x y, v < n ∧ v ≠ x ∧ v ≠ y := by
      unfold candidateSet
      split_ifs
      · refine ⟨n1.erase y, fun v hv => ?_⟩
        rw [n1.mem_erase_iff, n2] at hv
        exact ⟨hv.2.lt d, hv.2.ne d, hv.1⟩
      · obtain ⟨m1, m2⟩ := hnb y hxy.2
        refine ⟨m1.erase x, fun v hv => ?_⟩
        rw [m1.mem_erase_iff, m2] at hv
        exact ⟨hv.2.lt d, hv.1, hv.2.ne d⟩
    refine adjacent_not_separated hne ha ((hgt x y s ?_ ?_).1 hg)
    · rw [List.nodup_cons, List.nodup_cons]
      refine ⟨?_, fun h => (hcn.2 y (s1.subset h)).2.2 rfl, s1.nodup hcn.1⟩
      simp only [List.mem_cons, not_or]
      exact ⟨hne, fun h => (hcn.2 x (s1.subset h)).2.1 rfl⟩
    · intro v hv
      simp only [List.mem_cons] at hv
      rcases hv with rfl | rfl | hv
      · exact hxy.1
      · exact hxy.2
      · exact (hcn.2 v (s1.subset hv)).1

/-! ## C181: `gs` -/

theorem ScanRun.prefix {x : ℕ} {D : ℕ → List ℕ → Prop} {ys S r : List ℕ} (h : ScanRun x D ys S r) : S <+: r := by
  induction h with
  | done S => exact List.prefix_rfl
  | add y ys S r _ _ _ _ ih => exact (List.prefix_append _ _).trans ih
  | skip y ys S r _ _ ih => exact ih

theorem GrowRun.prefix {n x : ℕ} {D : ℕ → List ℕ → Prop} {S r : List ℕ} (h : GrowRun n x D S r) : S <+: r := by
  induction h with
  | stop S _ => exact List.prefix_rfl
  | again S S' r h1 _ _ ih => exact h1.prefix.trans ih

/-- The first column that is dependent on `x` by itself is grown into the list. -/
theorem ScanRun.first {x : ℕ} {D : ℕ → List ℕ → Prop} {y : ℕ} (hy : y ≠ x) (hD : D y []) : ∀ {l1 l2 r : List ℕ}, (∀ v ∈ l1, v = x ∨ ¬ D v []) →
    ScanRun x D (l1 ++ y :: l2) [] r → y ∈ r := by
  intro l1
  induction l1 with
  | nil =>
    intro l2 r _ h
    cases h with
    | add _ _ _ _ h1 h2 h3 h4 => exact h4.prefix.subset (by simp)
    | skip _ _ _ _ h1 h2 =>
      rcases h1 with h1 | h1 | h1
      · exact absurd h1 hy
      · simp at h1
      · exact absurd hD h1
  | cons v l1 ih =>
    intro l2 r hl h
    cases h with
    | add _ _ _ _ h1 h2 h3 h4 =>
      rcases hl v (by simp) with h | h
      · exact absurd h h1
      · exact absurd h3 h
    | skip _ _ _ _ h1 h2 => exact ih (fun u hu => hl u (by simp [hu])) h2

theorem GrowRun.first {n x : ℕ} {D : ℕ → List ℕ → Prop} {y : ℕ} {r : List ℕ} (h : GrowRun n x D [] r) (hyn : y < n) (hy : y ≠ x) (hD : D y [])
    (hl : ∀ v < y, v = x ∨ ¬ D v []) : y ∈ r := by
  have hr : List.range n = List.range y ++ y :: (List.range (n - y - 1)).map (fun i => y + 1 + i) := by
    have h1 : n = y + ((n - y - 1) + 1) := by omega
    conv_lhs => rw [h1, List.range_add, List.range_succ_eq_map]
    simp only [List.map_cons, List.map_map, Nat.add_zero]
    congr 2
    apply List.map_congr_left
    intro i _
    simp only [Function.comp, Nat.succ_eq_add_one]
    omega
  have key : ∀ r, ScanRun x D (List.range n) [] r → y ∈ r := fun r hs => ScanRun.first hy hD (fun v hv => hl v (List.mem_range.1 hv)) (hr ▸ hs)
  cases h with
  | stop _ hs => exact key _ hs
  | again _ S' _ hs _ hg => exact hg.prefix.subset (key _ hs)

/-- `gs` never returns if the blanket search of one variable never returns. -/
theorem gs_diverges {A : Type} [DecidableEq A] (lt gt : List ℕ → Bool) (h : HashOrder ℕ) (n : ℕ) (vd : Dict ℕ (List A)) {x : ℕ} (hx : x < n)
    (hd : ∀ fuel, gsBlanket lt n fuel x = .error .diverges) (fuel : ℕ) : gs lt gt h n fuel vd = .error .diverges := by
  have hb : gsBlankets lt n fuel = .error .diverges := by
    unfold gsBlankets
    rw [BayesNet.pyMap_error (e := .diverges) (fun y _ => ?_) ⟨x, List.mem_range.2 hx, by rw [hd]; rfl⟩]
    · rfl
    · cases hg : gsBlanket lt n fuel y with
      | ok B => exact .inr ⟨(y, B), rfl⟩
      | error err =>
        left
        have : err = .diverges := by
          unfold gsBlanket at hg
          cases hg' : growLoop lt n y fuel [] with
          | error e' =>
            rw [hg'] at hg; cases hg
            exact growLoop_error lt n y _ _ _ hg'
          | ok s =>
            rw [hg', Py.bind_ok] at hg
            clear hg'
            induction fuel with
            | zero => cases hg; rfl
            | succ k ih =>
              rw [shrinkLoop] at hg
              by_cases hb : (shrinkPass lt y s s).2 = true
              · simp only [hb, if_true] at hg; exact ih hg
              · simp only [hb, Bool.false_eq_true, if_false] at hg; cases hg
        rw [this]; rfl
  unfold gs
  rw [hb]; rfl

/-- C181 / with perfect tests `gs` never returns, if for some variable `x` the first column that is dependent on it (unconditionally) lies outside its blanket. -/
theorem C181_gs_diverges {A : Type} [DecidableEq A] (d : IsDag n P) (hlt : FindsDependence n P lt) (gt : List ℕ → Bool) (h : HashOrder ℕ) (vd : Dict ℕ (List A))
    {x y : ℕ} (hx : x < n) (hy : y < n) (hne : y ≠ x) (hdep : ¬ Separated P x y ∅) (hfirst : ∀ v < y, v ≠ x → Separated P x v ∅) (hout : ¬ InBlanket P x y) (fuel : ℕ) :
    gs lt gt h n fuel vd = .error .diverges := by
  refine gs_diverges lt gt h n vd hx (fun fuel => ?_) fuel
  have hemp : {s : ℕ | s ∈ ([] : List ℕ)} = ∅ := by ext; simp
  have hd0 : ∀ v < n, v ≠ x → (lt (x :: v :: []) = true ↔ ¬ Separated P x v ∅) := fun v hv hvx => by
    rw [dep_iff hlt hx hv hvx.symm (by simp) (by simp) (by simp) (by simp), hemp]
  obtain ⟨S, g1, hn, hxs, hS, hstop, g2, g3⟩ := C78_gs_growing lt n x
  have hyS : y ∈ S := by
    refine g1.first hy hne ((hd0 y hy hne).2 hdep) fun v hv => ?_
    by_cases hvx : v = x
    · exact .inl hvx
    · exact .inr fun h => (hd0 v (by omega) hvx).1 h (hfirst v hv hvx)
  by_cases hc : ∀ y ∈ S, lt (x :: y :: S.erase y) = true
  · exact absurd (((C179_gs_blanket d hlt hx (g2 hc (n + 1) (le_refl _))).2 y).1 hyS) hout
  · push Not at hc
    obtain ⟨z, hz, hz'⟩ := hc
    exact g3 ⟨z, hz, by simpa using hz'⟩ fuel

theorem pyMap_inv {α β : Type} {f : α → Py β} : ∀ {l : List α} {r : List β}, pyMap f l = .ok r → List.Forall₂ (fun x y => f x = .ok y) l r
  | [], r, h => by cases h; exact .nil
  | x :: l, r, h => by
      rw [pyMap] at h
      cases hx : f x with
      | error e => rw [hx] at h; cases h
      | ok y =>
        rw [hx, Py.bind_ok] at h
        cases hl : pyMap f l with
        | error e => rw [hl] at h; cases h
        | ok r' =>
          rw [hl, Py.bind_ok] at h
          cases h
          exact .cons hx (pyMap_inv hl)

/-- C181, the part that holds: with perfect tests, if the blanket phase of `gs` returns, the undirected graph it goes on to orient is the skeleton of the graph.  Missing: the
phase need not return (`C181_gs_diverges`), and the orientation can lose edges or keep both directions (`C181_false`). -/
theorem C181_gs_skeleton_partial (d : IsDag n P) (hlt : FindsDependence n P lt) (hgt : FindsIndependence n P gt) {fuel : ℕ} {mb : Dict ℕ (List ℕ)}
    (h : gsBlankets lt n fuel = .ok mb) : ∃ e, resolve gt n mb = .ok e ∧ Undirected n e ∧ ∀ x y, y ∈ nb e x ↔ Adjacent P x y := by
  unfold gsBlankets at h
  cases hl : pyMap (fun x => do let b ← gsBlanket lt n fuel x; pure (x, b)) (List.range n) with
  | error e => rw [hl] at h; cases h
  | ok l =>
    rw [hl, Py.bind_ok] at h
    cases h
    have hrel := pyMap_inv hl
    have hfst : l.map Prod.fst = List.range n := by
      clear hl
      generalize List.range n = L at hrel
      induction hrel with
      | nil => rfl
      | @cons a p L' l' hap _ ih =>
        rw [List.map_cons, ih]
        congr 1
        cases hb : gsBlanket lt n fuel a with
        | error e => simp only [hb] at hap; cases hap
        | ok b => simp only [hb] at hap; cases hap; rfl
    have hnd : (Dict.keys l).Nodup := by
      show (l.map Prod.fst).Nodup
      rw [hfst]; exact List.nodup_range
    rw [Dict.ofPairs_eq hnd]
    refine C180_skeleton d hgt l (fun x hx => ?_) fun x hx => ?_
    · have : x ∈ l.map Prod.fst := hx
      rw [hfst] at this
      exact List.mem_range.1 this
    · have hxm : x ∈ l.map Prod.fst := by rw [hfst]; exact List.mem_range.2 hx
      obtain ⟨p, hp, rfl⟩ := List.mem_map.1 hxm
      obtain ⟨a, ha, hap⟩ := forall₂_right hrel p hp
      cases hb : gsBlanket lt n fuel a with
      | error e => simp only [hb] at hap; cases hap
      | ok b =>
        simp only [hb] at hap
        cases hap
        obtain ⟨b1, b2⟩ := C179_gs_blanket d hlt (List.mem_range.1 ha) hb
        exact ⟨b, Dict.get?_of_mem hnd hp, b1, b2⟩

/-! ### Examples with three variables -/

/-- The queries about three variables. -/
theorem three_lists {x y : ℕ} {S : List ℕ} (hn : (x :: y :: S).Nodup) (hl : ∀ v ∈ x :: y :: S, v < 3) : (x :: y :: S) ∈
    [[0, 1], [0, 1, 2], [0, 2], [0, 2, 1], [1, 0], [1, 0, 2], [1, 2], [1, 2, 0], [2, 0], [2, 0, 1], [2, 1], [2, 1, 0]] := by
  have hlen := nodup_lt_length hn hl
  have hx := hl x (by simp)
  have hy := hl y (by simp)
  rcases S with _ | ⟨z, _ | ⟨u, S⟩⟩
  · have hne : x ≠ y := by rintro rfl; simp at hn
    interval_cases x <;> interval_cases y <;> simp_all
  · have hz := hl z (by simp)
    interval_cases x <;> interval_cases y <;> interval_cases z <;> simp_all
  · simp only [List.length_cons] at hlen; omega

/-- 0 → 1 → 2 -/
def chainP (u v : ℕ) : Prop := (u = 0 ∧ v = 1) ∨ (u = 1 ∧ v = 2)
/-- 0 → 1, 0 → 2 -/
def forkP (u v : ℕ) : Prop := u = 0 ∧ (v = 1 ∨ v = 2)
/-- 0 → 2 ← 1 -/
def collP (u v : ℕ) : Prop := (u = 0 ∨ u = 1) ∧ v = 2

theorem dag_of_lt {n : ℕ} {P : ℕ → ℕ → Prop} (h : ∀ u v, P u v → u < v ∧ v < n) : IsDag n P := by
  refine ⟨fun u v huv => ⟨by have := h u v huv; omega, (h u v huv).2⟩, fun v hv => ?_⟩
  have : ∀ a b, TransGen P a b → a < b := by
    intro a b hab
    induction hab with
    | single h1 => exact (h _ _ h1).1
    | tail _ h1 ih => exact ih.trans (h _ _ h1).1
  exact lt_irrefl _ (this v v hv)

theorem chain_dag : IsDag 3 chainP := dag_of_lt (by unfold chainP; omega)
theorem fork_dag : IsDag 3 forkP := dag_of_lt (by unfold forkP; omega)
theorem coll_dag : IsDag 3 collP := dag_of_lt (by unfold collP; omega)

/-- Perfect tests for the fork. -/
def forkGt (c : List ℕ) : Bool := decide (c = [1, 2, 0] ∨ c = [2, 1, 0])
/-- Perfect tests for the common child. -/
def collGt (c : List ℕ) : Bool := decide (c = [0, 1] ∨ c = [1, 0])

theorem fork_findsIndependence : FindsIndependence 3 forkP forkGt := by
  intro x y S hn hl
  have hm := three_lists hn hl
  simp only [List.mem_cons, List.not_mem_nil, or_false, List.cons.injEq] at hm
  have hsep : ∀ x y, (x = 1 ∧ y = 2) ∨ (x = 2 ∧ y = 1) → Separated forkP x y {s | s ∈ [0]} := by
    intro x y hxy
    refine blanket_separates fork_dag (by omega) (fun h => ?_) fun v hv => ?_
    · rcases h with h | h | ⟨_, c, h1, h2⟩
      · unfold forkP at h; omega
      · unfold forkP at h; omega
      · unfold forkP at h1; omega
    · show v ∈ [0]
      rcases hv with h | h | ⟨_, c, h1, h2⟩
      · unfold forkP at h; simp; omega
      · unfold forkP at h; omega
      · unfold forkP at h1; omega
  have hadj : ∀ x y S, Adjacent forkP x y → x ≠ y → ¬ Separated forkP x y S := fun x y S h hne => adjacent_not_separated hne h
  have hthr : ∀ x y, (x = 1 ∧ y = 2) ∨ (x = 2 ∧ y = 1) → ¬ Separated forkP x y {s | s ∈ ([] : List ℕ)} := by
    intro x y hxy
    exact through_not_separated (z := 0) (by omega) (by omega) (by omega) (by unfold Adjacent forkP; omega) (by unfold Adjacent forkP; omega)
      (by unfold forkP; omega) (by simp)
  rcases hm with ⟨rfl, rfl, rfl⟩ | ⟨rfl, rfl, rfl⟩ | ⟨rfl, rfl, rfl⟩ | ⟨rfl, rfl, rfl⟩ | ⟨rfl, rfl, rfl⟩ | ⟨rfl, rfl, rfl⟩ | ⟨rfl, rfl, rfl⟩ | ⟨rfl, rfl, rfl⟩ |
    ⟨rfl, rfl, rfl⟩ | ⟨rfl, rfl, rfl⟩ | ⟨rfl, rfl, rfl⟩ | ⟨rfl, rfl, rfl⟩
  all_goals first
    | exact iff_of_true (by decide) (hsep _ _ (by omega))
    | exact iff_of_false (by decide) (hthr _ _ (by omega))
    | exact iff_of_false (by decide) (hadj _ _ _ (by unfold Adjacent forkP; omega) (by omega))

theorem coll_findsIndependence : FindsIndependence 3 collP collGt := by
  intro x y S hn hl
  have hm := three_lists hn hl
  simp only [List.mem_cons, List.not_mem_nil, or_false, List.cons.injEq] at hm
  have hsep : ∀ x y, (x = 0 ∧ y = 1) ∨ (x = 1 ∧ y = 0) → Separated collP x y {s | s ∈ ([] : List ℕ)} := by
    intro x y hxy
    refine parents_separate coll_dag (fun h => ?_) (by unfold collP; omega) fun v => ?_
    · rcases h.cases_tail with h | ⟨c, _, h⟩
      · omega
      · unfold collP at h; omega
    · simp; unfold collP; omega
  have hadj : ∀ x y S, Adjacent collP x y → x ≠ y → ¬ Separated collP x y S := fun x y S h hne => adjacent_not_separated hne h
  have hcol : ∀ x y, (x = 0 ∧ y = 1) ∨ (x = 1 ∧ y = 0) → ¬ Separated collP x y {s | s ∈ [2]} := by
    intro x y hxy
    exact spouses_not_separated coll_dag (by omega) (c := 2) (by unfold collP; omega) (by unfold collP; omega) (by simp)
  rcases hm with ⟨rfl, rfl, rfl⟩ | ⟨rfl, rfl, rfl⟩ | ⟨rfl, rfl, rfl⟩ | ⟨rfl, rfl, rfl⟩ | ⟨rfl, rfl, rfl⟩ | ⟨rfl, rfl, rfl⟩ | ⟨rfl, rfl, rfl⟩ | ⟨rfl, rfl, rfl⟩ |
    ⟨rfl, rfl, rfl⟩ | ⟨rfl, rfl, rfl⟩ | ⟨rfl, rfl, rfl⟩ | ⟨rfl, rfl, rfl⟩
  all_goals first
    | exact iff_of_true (by decide) (hsep _ _ (by omega))
    | exact iff_of_false (by decide) (hcol _ _ (by omega))
    | exact iff_of_false (by decide) (hadj _ _ _ (by unfold Adjacent collP; omega) (by omega))

/-- Tests that find dependence where the other find none. -/
theorem findsDependence_not (h : FindsIndependence n P gt) : FindsDependence n P (fun c => !gt c) := by
  intro x y S hn hl
  rw [← h x y S hn hl]
  simp

/-- Perfect tests exist for every graph. -/
theorem perfect_tests_exist (n : ℕ) (P : ℕ → ℕ → Prop) : ∃ gt, FindsIndependence n P gt := by
  classical
  refine ⟨fun c => match c with | x :: y :: S => decide (Separated P x y {s | s ∈ S}) | _ => false, fun x y S _ _ => ?_⟩
  simp

/-- Witness for C179 - C181: with perfect tests for the fork 0 → 1, 0 → 2 `gs` returns exactly this network. -/
theorem C181_fork_example : FindsDependence 3 forkP (fun c => !forkGt c) ∧ FindsIndependence 3 forkP forkGt ∧
    (∃ mb, gsBlankets (fun c => !forkGt c) 3 4 = .ok mb) ∧
    ∃ bn : BayesNet ℕ ℕ, gs (fun c => !forkGt c) forkGt HashOrder.id 3 4 [(0, []), (1, []), (2, [])] = .ok bn ∧ bn.E = [(0, [1, 2]), (1, []), (2, [])] := by
  refine ⟨findsDependence_not fork_findsIndependence, fork_findsIndependence, ?_, ?_⟩
  · obtain ⟨mb, h, _⟩ := Py.of_okAnd (show (gsBlankets (fun c => !forkGt c) 3 4).okAnd (fun _ => true) = true by decide +kernel)
    exact ⟨mb, h⟩
  · obtain ⟨bn, h, h'⟩ := Py.of_okAnd (show (gs (A := ℕ) (fun c => !forkGt c) forkGt HashOrder.id 3 4 [(0, []), (1, []), (2, [])]).okAnd
      (fun bn => decide (bn.E = [(0, [1, 2]), (1, []), (2, [])])) = true by decide +kernel)
    exact ⟨bn, h, of_decide_eq_true h'⟩

/-- C181 is false: for the chain 0 → 1 → 2 `gs` with perfect tests never returns. -/
theorem C181_false_chain {A : Type} [DecidableEq A] (hlt : FindsDependence 3 chainP lt) (gt : List ℕ → Bool) (h : HashOrder ℕ) (vd : Dict ℕ (List A)) (fuel : ℕ) :
    gs lt gt h 3 fuel vd = .error .diverges := by
  refine C181_gs_diverges chain_dag hlt gt h vd (x := 2) (y := 0) (by omega) (by omega) (by omega) ?_ (by omega) ?_ fuel
  · exact through_not_separated (z := 1) (by omega) (by omega) (by omega) (by unfold Adjacent chainP; omega) (by unfold Adjacent chainP; omega)
      (by unfold chainP; omega) (by simp)
  · rintro (h | h | ⟨_, c, h1, h2⟩)
    · unfold chainP at h; omega
    · unfold chainP at h; omega
    · unfold chainP at h1 h2; omega

/-- C181 is false also when `gs` returns: for two variables 0 → 1 and perfect tests it returns a network without any node, with both arcs. -/
theorem C181_false_arc {A : Type} [DecidableEq A] (h : HashOrder ℕ) (vd : Dict ℕ (List A)) (hvd : ∀ v < 2, v ∈ vd.keys) :
    IsDag 2 (fun u v => u = 0 ∧ v = 1) ∧ FindsDependence 2 (fun u v => u = 0 ∧ v = 1) (fun _ => true) ∧
      FindsIndependence 2 (fun u v => u = 0 ∧ v = 1) (fun _ => false) ∧
      ∃ bn, (∀ fuel ≥ 3, gs (fun _ => true) (fun _ => false) h 2 fuel vd = .ok bn) ∧ bn.V = [] ∧ Arc bn.E 0 1 ∧ Arc bn.E 1 0 := by
  have hno : ∀ x y S, (x :: y :: S).Nodup → (∀ v ∈ x :: y :: S, v < 2) → ¬ Separated (fun u v => u = 0 ∧ v = 1) x y {s | s ∈ S} := by
    intro x y S hn hl
    have hne : x ≠ y := by rintro rfl; simp at hn
    have hx := hl x (by simp)
    have hy := hl y (by simp)
    exact adjacent_not_separated hne (by unfold Adjacent; omega)
  obtain ⟨bn, b1, b2, b3⟩ := C79_gs_dependent_empty (fun _ => true) (fun _ => false) h 2 (le_refl _) vd hvd (fun _ => rfl) (fun _ => rfl)
  refine ⟨dag_of_lt (by omega), fun x y S hn hl => iff_of_true rfl (hno x y S hn hl), fun x y S hn hl => iff_of_false (by simp) (hno x y S hn hl), bn, b1, b2,
    (b3 0 1).2 (by omega), (b3 1 0).2 (by omega)⟩

/-! ## C182: `iamb` -/

theorem ShrinkRun.sublist' {Q : ℕ → List ℕ → Prop} {pre suf r : List ℕ} (h : ShrinkRun Q pre suf r) : pre <+: r ∧ ∀ v ∈ r, v ∈ pre ∨ v ∈ suf := by
  induction h with
  | done pre => exact ⟨List.prefix_rfl, fun v hv => .inl hv⟩
  | keep pre x suf r _ _ ih =>
    refine ⟨(List.prefix_append _ _).trans ih.1, fun v hv => ?_⟩
    rcases ih.2 v hv with h | h
    · simp at h; rcases h with h | rfl
      · exact .inl h
      · exact .inr (by simp)
    · exact .inr (by simp [h])
  | last pre x _ => exact ⟨List.prefix_rfl, fun v hv => .inl hv⟩
  | drop pre x y suf r _ _ ih =>
    refine ⟨(List.prefix_append _ _).trans ih.1, fun v hv => ?_⟩
    rcases ih.2 v hv with h | h
    · simp at h; rcases h with h | rfl
      · exact .inl h
      · exact .inr (by simp)
    · exact .inr (by simp [h])

/-- C182: with perfect tests the blanket `iamb` computes for a variable is that of the graph exactly if the variable is isolated. -/
theorem C182_iamb_blanket (d : IsDag n P) {lt05 ltA : List ℕ → Bool} (h05 : FindsDependence n P lt05) (hA : FindsDependence n P ltA) (mi : List ℕ → ℚ) (h : HashOrder ℕ)
    {t : ℕ} (ht : t < n) :
    ∃ B, (∀ fuel ≥ n + 1, iambBlanket lt05 ltA mi h n fuel t = .ok B) ∧ ((∀ y, y ∈ B ↔ InBlanket P t y) ↔ ∀ y, ¬ Adjacent P t y) := by
  obtain ⟨S, B, h1, h2, hrun, hsub, -⟩ := C123_iamb_shrinking lt05 ltA mi h n t
  obtain ⟨S', g1, g2, g3, g4, g5, g6⟩ := C121_iamb_growing lt05 mi h n t
  have hSS : S' = S := by
    have := g1 (n + 1) (le_refl _)
    rw [h1 (n + 1) (le_refl _)] at this
    cases this; rfl
  subst hSS
  refine ⟨B, h2, fun hB y hy => ?_, fun hiso => ?_⟩
  · -- the first grown variable spoils it
    have hyB : y ∈ B := (hB y).2 (hy.elim (fun h => .inr (.inl h)) .inl)
    rcases S' with _ | ⟨a, suf⟩
    · have := hsub.subset hyB
      simp at this
    have hat : a ≠ t := fun e => g3 (by simp [e])
    have hfn : ((a :: suf).filter fun v => decide (v ≠ a)).Nodup := g2.filter _
    have hmem : ∀ v, v ∈ h.iter ((a :: suf).filter fun v => decide (v ≠ a)) ↔ v ∈ a :: suf ∧ v ≠ a := by
      intro v
      rw [(h.perm _).mem_iff, List.mem_filter]
      simp
    have htest : ltA (a :: t :: h.iter ((a :: suf).filter fun v => decide (v ≠ a))) = true ↔
        ¬ Separated P t a {s | s ∈ h.iter ((a :: suf).filter fun v => decide (v ≠ a))} := by
      rw [dep_iff hA (g4 a (by simp)) ht hat (fun hc => ((hmem a).1 hc).2 rfl) (fun hc => g3 ((hmem t).1 hc).1) ((h.perm _).nodup_iff.2 hfn)
        (fun v hv => g4 v ((hmem v).1 hv).1)]
      exact not_congr ⟨Separated.symm, Separated.symm⟩
    by_cases haB : InBlanket P t a
    · -- dependent, hence dropped
      have hdep : ltA (a :: t :: h.iter ((a :: suf).filter fun v => decide (v ≠ a))) = true := by
        rw [htest]
        refine blanket_dependent d hat.symm haB fun v hv hva => ?_
        exact (hmem v).2 ⟨hsub.subset ((hB v).2 hv), hva⟩
      have hnot : a ∉ B := by
        cases hrun with
        | keep _ _ _ _ hk _ => exact absurd hdep hk
        | last _ _ _ => simp
        | drop _ _ b suf' _ _ hr =>
          intro hab
          have := hr.sublist'.2 a hab
          simp at g2 this
          rcases this with h' | h'
          · exact g2.1.1 h'
          · exact g2.1.2 h'
      exact hnot ((hB a).2 haB)
    · -- independent, hence kept
      have hind : ¬ ltA (a :: t :: h.iter ((a :: suf).filter fun v => decide (v ≠ a))) = true := by
        rw [htest, not_not]
        refine blanket_separates d hat.symm haB fun v hv => ?_
        exact (hmem v).2 ⟨hsub.subset ((hB v).2 hv), fun e => haB (e ▸ hv)⟩
      have hin : a ∈ B := by
        cases hrun with
        | keep _ _ _ _ hk hr => exact hr.sublist'.1.subset (by simp)
        | last _ _ hd => exact absurd hd hind
        | drop _ _ b suf' _ hd hr => exact absurd hd hind
      exact haB ((hB a).1 hin)
  · -- an isolated variable has an empty blanket, and nothing is grown
    have hempty : ∀ y, ¬ InBlanket P t y := by
      rintro y (hy | hy | ⟨_, c, hc, _⟩)
      · exact hiso y (.inr hy)
      · exact hiso y (.inl hy)
      · exact hiso c (.inl hc)
    have hS : S' = [] := by
      rcases S' with _ | ⟨a, suf⟩
      · rfl
      obtain ⟨m, hm, hlt, -⟩ := g5 [] a suf rfl
      have hmo : m ∈ outside h n t [] := by
        obtain ⟨p, q, e, _⟩ := hm
        rw [e]; simp
      obtain ⟨m1, m2, -⟩ := mem_outside.1 hmo
      rw [dep_iff h05 m1 ht m2 (by simp) (by simp) (by simp) (by simp)] at hlt
      exact absurd (blanket_separates d (Ne.symm m2) (hempty m) fun v hv => absurd hv (hempty v)).symm hlt
    subst hS
    intro y
    have : B = [] := List.sublist_nil.1 hsub
    subst this
    simp [hempty]

/-- Witness: for the fork 0 → 1, 0 → 2 and perfect tests the blanket `iamb` computes for 1 is wrong. -/
theorem C182_example (mi : List ℕ → ℚ) (h : HashOrder ℕ) : ∃ B, (∀ fuel ≥ 4, iambBlanket (fun c => !forkGt c) (fun c => !forkGt c) mi h 3 fuel 1 = .ok B) ∧
    ¬ ∀ y, y ∈ B ↔ InBlanket forkP 1 y := by
  obtain ⟨B, h1, h2⟩ := C182_iamb_blanket fork_dag (findsDependence_not fork_findsIndependence) (findsDependence_not fork_findsIndependence) mi h (t := 1) (by omega)
  exact ⟨B, h1, fun hc => h2.1 hc 0 (by unfold Adjacent forkP; omega)⟩

/-! ## C183: `pc` -/

/-- C183, the part that holds: with perfect tests `pc` never separates two adjacent variables: the skeleton it orients contains that of the graph.  Missing: it may contain more
(`C183_false`). -/
theorem C183_pc_keeps_partial (hgt : FindsIndependence n P gt) :
    ∃ r, (∀ fuel ≥ n + 1, pcSkeleton gt n fuel = .ok r) ∧ ∀ x y, x < n → y < n → x ≠ y → Adjacent P x y → y ∈ nb r.1 x := by
  obtain ⟨r, h1, h2⟩ := (C81_pc_no_marginal gt gt HashOrder.id n ([] : Dict ℕ (List ℕ)) fun _ _ _ _ => rfl).2
  refine ⟨r, h1, fun x y hx hy hne hadj => ?_⟩
  by_contra hno
  obtain ⟨z, -, z1, z2, z3, z4, z5⟩ := h2 x y hx hy hne hno
  rcases z5 with z5 | z5
  · refine adjacent_not_separated hne hadj ((hgt x y z (by simp [hne, z1, z2, z3]) fun v hv => ?_).1 z5)
    simp only [List.mem_cons] at hv
    rcases hv with rfl | rfl | hv
    exacts [hx, hy, z4 v hv]
  · refine adjacent_not_separated hne.symm hadj.symm ((hgt y x z (by simp [hne.symm, z1, z2, z3]) fun v hv => ?_).1 z5)
    simp only [List.mem_cons] at hv
    rcases hv with rfl | rfl | hv
    exacts [hy, hx, z4 v hv]

/-- C183 is false: for the graph 0 → 2 ← 1 and perfect tests `pc` returns a network without edges: it never tests 0 and 1 unconditionally. -/
theorem C183_false : IsDag 3 collP ∧ FindsIndependence 3 collP collGt ∧ ∀ {A : Type} [DecidableEq A] (h : HashOrder ℕ) (vd : Dict ℕ (List A)),
    (∀ v < 3, v ∈ vd.keys) → ∃ bn, (∀ fuel ≥ 4, pc collGt h 3 fuel vd = .ok bn) ∧ ∀ a c, ¬ Arc bn.E a c := by
  refine ⟨coll_dag, coll_findsIndependence, fun h vd hvd => ?_⟩
  obtain ⟨r, bn, -, h2, -, h4⟩ := C82_pc_edgeless collGt h 3 vd hvd
  refine ⟨bn, h2, (h4 (.inr fun c hc => ?_)).1⟩
  unfold collGt
  rw [decide_eq_false_iff_not]
  rintro (rfl | rfl) <;> simp at hc

/-- 0 → 1, 0 → 2, 0 → 3, 0 → 4 -/
def starP (u v : ℕ) : Prop := u = 0 ∧ 0 < v ∧ v < 5
/-- Perfect tests for the star. -/
def starGt (c : List ℕ) : Bool :=
  match c with
  | x :: y :: s => decide (x ≠ 0 ∧ y ≠ 0 ∧ 0 ∈ s)
  | _ => false

theorem star_dag : IsDag 5 starP := dag_of_lt (by unfold starP; omega)

theorem star_findsIndependence : FindsIndependence 5 starP starGt := by
  intro x y S hn hl
  have hne : x ≠ y := by rintro rfl; simp at hn
  have hx := hl x (by simp)
  have hy := hl y (by simp)
  by_cases h0 : x = 0 ∨ y = 0
  · exact iff_of_false (by simp [starGt]; omega) (adjacent_not_separated hne (by unfold Adjacent starP; omega))
  by_cases hS : 0 ∈ S
  · refine iff_of_true (by simp [starGt, hS]; omega) (blanket_separates star_dag hne (fun h => ?_) fun v hv => ?_)
    · rcases h with h | h | ⟨_, c, h1, h2⟩
      · unfold starP at h; omega
      · unfold starP at h; omega
      · unfold starP at h1; omega
    · rcases hv with h | h | ⟨_, c, h1, h2⟩
      · have : v = 0 := h.1
        rw [this]; exact hS
      · unfold starP at h; omega
      · unfold starP at h1; omega
  · exact iff_of_false (by simp [starGt, hS]) (through_not_separated (z := 0) (by omega) (by omega) hne (by unfold Adjacent starP; omega)
      (by unfold Adjacent starP; omega) (by unfold starP; omega) hS)

/-- C183 / an edge can also be kept by accident: for the star 0 → 1, 2, 3, 4 and perfect tests the pair 3, 4 is never tested given 0, because the loop over the
neighbours skips the one that follows a removed one; the skeleton keeps the edge 3 - 4. -/
theorem C183_skipped : ∃ r, pcSkeleton starGt 5 6 = .ok r ∧ 4 ∈ nb r.1 3 ∧ ¬ Adjacent starP 3 4 := by
  obtain ⟨r, h, h'⟩ := Py.of_okAnd (show (pcSkeleton starGt 5 6).okAnd (fun r => decide (4 ∈ nb r.1 3)) = true by decide +kernel)
  exact ⟨r, h, of_decide_eq_true h', by unfold Adjacent starP; omega⟩

end PyBN
