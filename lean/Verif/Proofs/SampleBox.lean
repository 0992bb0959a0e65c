import Verif.Proofs.SampleCMI
import Verif.Proofs.EmpLimit
import Verif.Props.Recover
import Mathlib.Data.List.Sections

/-!
# All rows a network can produce, and the statistic of `mi_test` with any number of conditioning columns
-/

set_option linter.unusedSectionVars false

namespace PyBN
open BayesNet Sampling Indep MeasureTheory ProbabilityTheory Filter Topology
variable {A : Type} [DecidableEq A] {Ω : Type} [MeasurableSpace Ω] {P : Measure Ω} {U : ℕ → Ω → ℝ}

/-- The rows with a legal value in every column. -/
def boxOf (bn : BayesNet ℕ A) : Finset (List ℕ) := ((bn.V.map fun v => List.range (bn.cardOf v)).sections).toFinset

/-- A row as an assignment. -/
def rowAsg (r : List ℕ) : Asg ℕ := fun t => r.getD t 0

/-- An assignment as a row. -/
def rowOf (bn : BayesNet ℕ A) (a : Asg ℕ) : List ℕ := bn.V.map a

theorem forall₂_getD {l : List ℕ} {L : List (List ℕ)} : List.Forall₂ (· ∈ ·) l L ↔ l.length = L.length ∧ ∀ t < l.length, l.getD t 0 ∈ L.getD t [] := by
  induction l generalizing L with
  | nil =>
    cases L with
    | nil => simp
    | cons b L => simp
  | cons a l ih =>
    cases L with
    | nil => simp
    | cons b L =>
      rw [List.forall₂_cons, ih]
      simp only [List.length_cons, Nat.add_right_cancel_iff]
      constructor
      · rintro ⟨h1, h2, h3⟩
        refine ⟨h2, fun t ht => ?_⟩
        cases t with
        | zero => simpa using h1
        | succ t => simpa using h3 t (by omega)
      · rintro ⟨h2, h3⟩
        exact ⟨by simpa using h3 0 (by omega), h2, fun t ht => by simpa using h3 (t + 1) (by omega)⟩

theorem mem_boxOf {bn : BayesNet ℕ A} (S : Sampleable bn) {r : List ℕ} :
    r ∈ boxOf bn ↔ r.length = bn.V.length ∧ ∀ t < bn.V.length, r.getD t 0 < bn.cardOf t := by
  unfold boxOf
  rw [List.mem_toFinset, List.mem_sections, forall₂_getD, List.length_map]
  refine and_congr_right fun hl => ?_
  rw [hl]
  refine forall_congr' fun t => forall_congr' fun ht => ?_
  have hV : bn.V[t]? = some t := by
    have := S.columns
    rw [this, List.getElem?_range ht]
  rw [List.getD_eq_getElem?_getD (l := bn.V.map _), List.getElem?_map, hV]
  simp

theorem rowOf_getD {bn : BayesNet ℕ A} (S : Sampleable bn) (a : Asg ℕ) {t : ℕ} (ht : t < bn.V.length) : (rowOf bn a).getD t 0 = a t := by
  have hV : bn.V[t]? = some t := by
    have := S.columns
    rw [this, List.getElem?_range ht]
  unfold rowOf
  rw [List.getD_eq_getElem?_getD, List.getElem?_map, hV]
  rfl

theorem rowOf_mem {bn : BayesNet ℕ A} (S : Sampleable bn) {a : Asg ℕ} (ha : ∀ t ∈ bn.V, a t < bn.cardOf t) : rowOf bn a ∈ boxOf bn := by
  rw [mem_boxOf S]
  refine ⟨by simp [rowOf], fun t ht => ?_⟩
  rw [rowOf_getD S a ht]
  exact ha t (S.lt.2 ht)

/-- Almost surely, for all large `n`: all rows are legal, and the share of each legal row converges to its probability. -/
theorem emp_limit (hU : Uniforms P U) (h : HashOrder ℕ) {bn : BayesNet ℕ A} (S : Sampleable bn) {tol : ℚ}
    (h0 : 0 ≤ tol) (ht : tol < 1) (garbage : ℕ → List (List ℤ)) (hgl : ∀ n, (garbage n).length = n)
    (hg : ∀ n, ∀ g ∈ garbage n, g.length = bn.V.length) :
    ∀ᵐ ω ∂P, ∃ F : List ℕ → ℕ → ℝ, (∀ r ∈ boxOf bn, Tendsto (F r) atTop (𝓝 ((bn.joint (rowAsg r) : ℚ) : ℝ))) ∧ ∀ᶠ n : ℕ in atTop, ∃ rows,
      randomSample tol h bn (garbage n) (fun i => U i ω) = .ok rows ∧ rows.length = n ∧ rows ≠ [] ∧ (∀ r ∈ natRows rows, r ∈ boxOf bn) ∧
      ∀ r ∈ boxOf bn, ((natRows rows).count r : ℝ) / (natRows rows).length = F r n := by
  let F : Ω → List ℕ → ℕ → ℝ := fun ω r n =>
    (∑ t ∈ Finset.range n, ((passW bn [] (bn.V.filter fun u => u ∉ bn.V) (rowAsg r) (blockOf U _ t ω) : ℚ) : ℝ)) / n
  have hlim : ∀ᵐ ω ∂P, ∀ r : List ℕ, r ∈ boxOf bn → Tendsto (F ω r) atTop (𝓝 ((bn.joint (rowAsg r) : ℚ) : ℝ)) := by
    rw [ae_all_iff]; intro r
    by_cases hr : r ∈ boxOf bn
    · filter_upwards [pass_freq hU S.wf S.nonneg S.normalised bn.V (a := rowAsg r) (fun t htv _ => ((mem_boxOf S).1 hr).2 t (S.lt.1 htv))] with ω hω _
      have hj : margOf bn bn.V (rowAsg r) = bn.joint (rowAsg r) := by
        unfold margOf
        rw [List.filter_eq_nil_iff.2 (by simp)]
        rfl
      rw [hj] at hω
      exact hω
    · exact Eventually.of_forall fun ω hr' => absurd hr' hr
  filter_upwards [hlim, sampled_data hU h S h0 ht garbage hgl hg] with ω hω hd
  refine ⟨F ω, hω, ?_⟩
  filter_upwards [hd] with n hn
  obtain ⟨rows, e1, e2, e3, e4, e5⟩ := hn
  have hlen : (natRows rows).length = n := by simp [natRows, e2]
  have hmem : ∀ r ∈ rows, r.map Int.toNat ∈ boxOf bn := by
    intro r hr
    rw [mem_boxOf S]
    refine ⟨by rw [List.length_map]; exact e3.rect r hr, fun t ht' => ?_⟩
    obtain ⟨i, hi, _, h2⟩ := nat_entry ht' e3.rect (e4 t (S.lt.2 ht')) hr
    rw [h2]; exact hi
  refine ⟨rows, e1, e2, e3.ne, ?_, fun r hr => ?_⟩
  · intro r hr
    obtain ⟨r0, hr0, rfl⟩ := List.mem_map.1 hr
    exact hmem r0 hr0
  · obtain ⟨hl, hlt⟩ := (mem_boxOf S).1 hr
    rw [hlen]
    have hcount : ((natRows rows).count r : ℚ) = ((⟨bn.V.length, rows⟩ : Data).count (fun z => upTo (bn.cardOf z)) bn.V (rowAsg r) : ℕ) := by
      unfold Data.count natRows
      rw [List.count, List.countP_map]
      congr 1
      apply List.countP_congr
      intro r0 hr0
      simp only [Function.comp, beq_iff_eq, decide_eq_true_eq]
      unfold Matches
      constructor
      · rintro rfl z hz
        have hz' := S.lt.1 hz
        obtain ⟨i, hi, h1, h2⟩ := nat_entry hz' e3.rect (e4 z hz) hr0
        unfold rowAsg
        rw [h2, upTo_get, if_pos hi, h1]
        exact ⟨rfl, rfl⟩
      · intro hm
        apply List.ext_getElem
        · rw [hl, List.length_map, e3.rect r0 hr0]
        · intro t h1 h2
          have htl : t < bn.V.length := by rw [← hl]; exact h2
          obtain ⟨i, hi, h3, h4⟩ := nat_entry htl e3.rect (e4 t (S.lt.2 htl)) hr0
          have := (hm t (S.lt.2 htl)).2
          have hr' : rowAsg r t < bn.cardOf t := hlt t htl
          rw [upTo_get, if_pos hr', h3] at this
          have he : i = rowAsg r t := by have := Option.some.inj this; exact_mod_cast this
          rw [List.getD_eq_getElem _ _ h1] at h4
          rw [h4, he]
          unfold rowAsg
          rw [List.getD_eq_getElem _ _ h2]
    have h5 := e5 bn.V _ (rowAsg r) (fun u hu => hu) (fun _ _ => rfl) (fun u hu => hlt u (S.lt.1 hu))
    rw [← hcount] at h5
    have h6 : ((natRows rows).count r : ℝ) = ((∑ t ∈ Finset.range n, passW bn [] (bn.V.filter fun u => u ∉ bn.V) (rowAsg r) (blockOf U _ t ω) : ℚ) : ℝ) := by
      rw [← h5]; push_cast; rfl
    rw [h6]
    simp only [F]
    push_cast
    rfl

/-- `data[:, c]` with the conditioning columns joined, row by row. -/
def joinRow (c r : List ℕ) : List ℕ :=
  let r' := c.map fun t => r.getD t 0
  if 3 < c.length then r'.take 2 ++ [joinDec (r'.drop 2)] else r'

theorem prep_eq (c : List ℕ) (d : List (List ℕ)) : (if 3 < c.length then joinFrom 2 (select c d) else select c d) = d.map (joinRow c) := by
  unfold joinFrom select joinRow
  split
  · rw [List.map_map]; rfl
  · rfl

theorem miStat_joinRow {c : List ℕ} (hc : c.length ≠ 2) (d : List (List ℕ)) :
    miStat c.length (select c d) = mi3 (nbins (d.map (joinRow c)) 0) (nbins (d.map (joinRow c)) 1) (nbins (d.map (joinRow c)) 2) fun i j k =>
      (hist3 (d.map (joinRow c)) (nbins (d.map (joinRow c)) 0) (nbins (d.map (joinRow c)) 1) (nbins (d.map (joinRow c)) 2) i j k : ℝ) / d.length := by
  unfold miStat
  rw [if_neg hc]
  dsimp only
  rw [prep_eq, select_length]

theorem ddof_joinRow {c : List ℕ} (hc : c.length ≠ 2) (d : List (List ℕ)) :
    ddof c.length (select c d) = (nbins (d.map (joinRow c)) 0 - 1) * (nbins (d.map (joinRow c)) 1 - 1) * nbins (d.map (joinRow c)) 2 := by
  unfold ddof
  rw [if_neg hc]
  dsimp only
  rw [prep_eq]

theorem joinRow_entries (u v w : ℕ) (ws r : List ℕ) :
    (joinRow (u :: v :: w :: ws) r).getD 0 0 = r.getD u 0 ∧ (joinRow (u :: v :: w :: ws) r).getD 1 0 = r.getD v 0 ∧
    (joinRow (u :: v :: w :: ws) r).getD 2 0 = if ws = [] then r.getD w 0 else joinDec ((w :: ws).map fun t => r.getD t 0) := by
  unfold joinRow
  cases ws with
  | nil => simp
  | cons w' ws => simp

/-- Among the legal rows every value of the first tested column occurs, and the bins are the values. -/
theorem box_coded {bn : BayesNet ℕ A} (S : Sampleable bn) {f : List ℕ → List ℕ} {j u : ℕ} (hu : u ∈ bn.V) (hf : ∀ r, (f r).getD j 0 = r.getD u 0) :
    (∀ x, x ∈ column ((boxOf bn).toList.map f) j ↔ x < bn.cardOf u) ∧ nbins ((boxOf bn).toList.map f) j = bn.cardOf u ∧
      ∀ x < bn.cardOf u, histBin (column ((boxOf bn).toList.map f) j) (nbins ((boxOf bn).toList.map f) j) x = x := by
  set X := (boxOf bn).toList.map f with hX
  have hcard : ∀ t ∈ bn.V, 0 < bn.cardOf t := fun t htv => by rw [S.wf.card_len htv]; exact List.length_pos_of_ne_nil (S.wf.values_ne _ htv)
  have hcol : ∀ x, x ∈ column X j ↔ x < bn.cardOf u := by
    intro x
    unfold column
    simp only [hX, List.mem_map, Finset.mem_toList]
    constructor
    · rintro ⟨_, ⟨r, hr, rfl⟩, rfl⟩
      rw [hf]
      exact ((mem_boxOf S).1 hr).2 u (S.lt.1 hu)
    · intro hx
      refine ⟨_, ⟨rowOf bn (Asg.upd (fun _ => 0) u x), rowOf_mem S fun t htv => ?_, rfl⟩, ?_⟩
      · by_cases e : t = u
        · subst e; simpa [Asg.upd] using hx
        · rw [Asg.upd_ne _ _ e]; exact hcard t htv
      · rw [hf, rowOf_getD S _ (S.lt.1 hu)]; simp [Asg.upd]
  have hne : X ≠ [] := by
    intro e
    have := (hcol 0).2 (hcard u hu)
    rw [e] at this
    simp [column] at this
  have hcod : Coded X j := by
    intro r hr x hx
    have : entry j r < bn.cardOf u := (hcol _).1 (List.mem_map.2 ⟨r, hr, rfl⟩)
    obtain ⟨r', hr', e⟩ := List.mem_map.1 ((hcol x).2 (by omega))
    exact ⟨r', hr', e⟩
  obtain ⟨c1, _, _, c4⟩ := coded_spec hne hcod
  have hnb : nbins X j = bn.cardOf u := by
    apply le_antisymm
    · by_contra hlt
      push Not at hlt
      exact absurd ((hcol _).1 ((c1 _).2 hlt)) (lt_irrefl _)
    · by_contra hlt
      push Not at hlt
      exact absurd ((c1 _).1 ((hcol _).2 hlt)) (lt_irrefl _)
  exact ⟨hcol, hnb, fun x hx => c4 x ((hcol x).2 hx)⟩

/-- With no rare rows the statistic of a test with at least one conditioning column is positive in the limit. -/
theorem boxStat_pos {bn : BayesNet ℕ A} (S : Sampleable bn) (hr : NoRareRows bn) (h2 : ∀ t ∈ bn.V, 2 ≤ bn.cardOf t)
    (hsum : ∑ r ∈ boxOf bn, ((bn.joint (rowAsg r) : ℚ) : ℝ) = 1) {u v w : ℕ} {ws : List ℕ} (hnd : (u :: v :: w :: ws).Nodup)
    (hV : ∀ t ∈ u :: v :: w :: ws, t ∈ bn.V) :
    0 < boxStat (boxOf bn) (joinRow (u :: v :: w :: ws)) (fun r => ((bn.joint (rowAsg r) : ℚ) : ℝ)) ∧
      (nbins ((boxOf bn).toList.map (joinRow (u :: v :: w :: ws))) 0 - 1) * (nbins ((boxOf bn).toList.map (joinRow (u :: v :: w :: ws))) 1 - 1) *
        nbins ((boxOf bn).toList.map (joinRow (u :: v :: w :: ws))) 2 ≠ 0 := by
  have hu := hV u (by simp)
  have hv := hV v (by simp)
  have hw := hV w (by simp)
  set f := joinRow (u :: v :: w :: ws) with hf
  set X := (boxOf bn).toList.map f with hX
  obtain ⟨cu, nu, bu⟩ := box_coded S (f := f) (j := 0) hu fun r => (joinRow_entries u v w ws r).1
  obtain ⟨cv, nv, bv⟩ := box_coded S (f := f) (j := 1) hv fun r => (joinRow_entries u v w ws r).2.1
  rw [← hX] at cu nu bu cv nv bv
  have hmass : ∀ r ∈ boxOf bn, (1 / 200 : ℝ) ≤ ((bn.joint (rowAsg r) : ℚ) : ℝ) := by
    intro r hrb
    have := hr (rowAsg r) fun t htv => ((mem_boxOf S).1 hrb).2 t (S.lt.1 htv)
    have h' := (Rat.cast_le (K := ℝ)).2 this
    push_cast at h'
    exact h'
  -- the joined column
  set g : List ℕ → ℕ := fun r => (f r).getD 2 0 with hg
  have hgcol : ∀ r ∈ boxOf bn, g r ∈ column X 2 := by
    intro r hrb
    unfold column
    rw [hX, List.map_map]
    exact List.mem_map.2 ⟨r, Finset.mem_toList.2 hrb, rfl⟩
  have hcolg : ∀ x ∈ column X 2, ∃ r ∈ boxOf bn, g r = x := by
    intro x hx
    unfold column at hx
    rw [hX, List.map_map] at hx
    obtain ⟨r, hrb, e⟩ := List.mem_map.1 hx
    exact ⟨r, Finset.mem_toList.1 hrb, e⟩
  have hconst : ∀ k, k ≤ 1 → rowOf bn (fun _ => k) ∈ boxOf bn := fun k hk => rowOf_mem S fun t htv => by have := h2 t htv; omega
  have hmapc : ∀ k, ((w :: ws).map fun t => (rowOf bn fun _ => k).getD t 0) = (w :: ws).map fun _ => k := by
    intro k
    apply List.map_congr_left
    intro t htm
    exact rowOf_getD S _ (S.lt.1 (hV t (by simp only [List.mem_cons] at htm ⊢; tauto)))
  have hg0 : g (rowOf bn fun _ => 0) ≠ g (rowOf bn fun _ => 1) := by
    simp only [hg, hf, (joinRow_entries u v w ws _).2.2]
    split
    · rw [rowOf_getD S _ (S.lt.1 hw), rowOf_getD S _ (S.lt.1 hw)]; decide
    · rw [hmapc, hmapc]
      intro e
      have := joinDec_inj (by simp) (by simp) (by simp) e
      simp at this
  have hXne : column X 2 ≠ [] := fun e => by have := hgcol _ (hconst 0 (by omega)); rw [e] at this; simp at this
  have hlohi : colLo (column X 2) ≠ colHi (column X 2) := by
    intro e
    have a1 := hgcol _ (hconst 0 (by omega))
    have a2 := hgcol _ (hconst 1 (by omega))
    have b1 := colLo_le a1; have b2 := le_colHi a1; have b3 := colLo_le a2; have b4 := le_colHi a2
    exact hg0 (by omega)
  have hk2 : 2 ≤ nbins X 2 := by
    rw [nbins_card]
    have hsub : ({g (rowOf bn fun _ => 0), g (rowOf bn fun _ => 1)} : Finset ℕ) ⊆ Indep.valuesOf X 2 := by
      intro x hx
      have : x ∈ column X 2 := by
        simp only [Finset.mem_insert, Finset.mem_singleton] at hx
        rcases hx with rfl | rfl
        · exact hgcol _ (hconst 0 (by omega))
        · exact hgcol _ (hconst 1 (by omega))
      unfold Indep.valuesOf
      rw [List.mem_toFinset]
      exact this
    have := Finset.card_le_card hsub
    rwa [Finset.card_pair hg0] at this
  set β : ℕ → ℕ := histBin (column X 2) (nbins X 2) with hβ
  have hlow : β (colLo (column X 2)) = 0 := by
    rw [hβ]; unfold histBin binOf
    rw [if_neg hlohi, if_neg hlohi]; simp
  have hhigh : β (colHi (column X 2)) = nbins X 2 - 1 := by
    rw [hβ]; unfold histBin binOf
    rw [if_neg hlohi, if_pos rfl]
  obtain ⟨rlo, hrlo, elo⟩ := hcolg _ (colLo_mem hXne)
  obtain ⟨rhi, hrhi, ehi⟩ := hcolg _ (colHi_mem hXne)
  have hother : ∀ k, ∃ r ∈ boxOf bn, β (g r) ≠ k := by
    intro k
    by_cases hk : k = 0
    · exact ⟨rhi, hrhi, by rw [ehi, hhigh]; omega⟩
    · exact ⟨rlo, hrlo, by rw [elo, hlow]; omega⟩
  have hcell : ∀ i j k, cellRows (boxOf bn) f X i j k = (boxOf bn).filter fun r => r.getD u 0 = i ∧ r.getD v 0 = j ∧ β (g r) = k := by
    intro i j k
    unfold cellRows
    apply Finset.filter_congr
    intro r hrb
    have e := (mem_boxOf S).1 hrb
    rw [hf, (joinRow_entries u v w ws r).1, (joinRow_entries u v w ws r).2.1, ← hf, bu _ (e.2 u (S.lt.1 hu)), bv _ (e.2 v (S.lt.1 hv))]
  have hfull : ∀ r ∈ boxOf bn, ∀ i < nbins X 0, ∀ j < nbins X 1, (1 / 200 : ℝ) ≤ ∑ r' ∈ cellRows (boxOf bn) f X i j (β (g r)), ((bn.joint (rowAsg r') : ℚ) : ℝ) := by
    intro r hrb i hi j hj
    rw [nu] at hi
    rw [nv] at hj
    have e := (mem_boxOf S).1 hrb
    have huv : u ≠ v := fun h => by subst h; simp at hnd
    set a : Asg ℕ := ((rowAsg r).upd u i).upd v j with ha
    have hau : a u = i := by rw [ha, Asg.upd_ne _ _ huv]; simp [Asg.upd]
    have hav : a v = j := by rw [ha]; simp [Asg.upd]
    have hao : ∀ t, t ≠ u → t ≠ v → a t = r.getD t 0 := fun t h1 h2 => by rw [ha, Asg.upd_ne _ _ h2, Asg.upd_ne _ _ h1]; rfl
    have hin : rowOf bn a ∈ boxOf bn := rowOf_mem S fun t htv => by
      by_cases e1 : t = u
      · subst e1; rw [hau]; exact hi
      · by_cases e2 : t = v
        · subst e2; rw [hav]; exact hj
        · rw [hao t e1 e2]; exact e.2 t (S.lt.1 htv)
    have hmem : rowOf bn a ∈ cellRows (boxOf bn) f X i j (β (g r)) := by
      rw [hcell, Finset.mem_filter]
      refine ⟨hin, by rw [rowOf_getD S _ (S.lt.1 hu), hau], by rw [rowOf_getD S _ (S.lt.1 hv), hav], ?_⟩
      congr 1
      have hsame : ∀ t ∈ w :: ws, (rowOf bn a).getD t 0 = r.getD t 0 := by
        intro t htm
        rw [rowOf_getD S _ (S.lt.1 (hV t (by simp only [List.mem_cons] at htm ⊢; tauto)))]
        rw [List.nodup_cons, List.nodup_cons] at hnd
        exact hao t (fun e1 => hnd.1 (by rw [← e1]; simp only [List.mem_cons] at htm ⊢; tauto)) (fun e2 => hnd.2.1 (by rw [← e2]; exact htm))
      simp only [hg, hf, (joinRow_entries u v w ws _).2.2]
      rw [hsame w (by simp), List.map_congr_left hsame]
    exact (hmass _ hin).trans (Finset.single_le_sum (f := fun r' => ((bn.joint (rowAsg r') : ℚ) : ℝ)) (fun r' hr' => by
      rw [hcell, Finset.mem_filter] at hr'
      exact le_trans (by norm_num) (hmass r' hr'.1)) hmem)
  have heps : eps < (1 / 200 : ℝ) ^ 3 := by unfold eps; norm_num
  refine ⟨?_, ?_⟩
  · show 0 < mi3 (nbins X 0) (nbins X 1) (nbins X 2) fun i j k => ∑ r ∈ cellRows (boxOf bn) f X i j k, ((bn.joint (rowAsg r) : ℚ) : ℝ)
    refine mi3_pos (q := 1 / 200) (by rw [nu]; have := h2 u hu; omega) (by rw [nv]; have := h2 v hv; omega) (by norm_num) heps (fun k hk => ?_) (fun k hk => ?_)
      (k' := β (g rlo)) (by rw [elo, hlow]; omega) (hfull rlo hrlo)
    · by_cases hex : ∃ r ∈ boxOf bn, β (g r) = k
      · obtain ⟨r, hrb, rfl⟩ := hex
        exact .inl (hfull r hrb)
      · refine .inr fun i _ j _ => Finset.sum_eq_zero fun r hrc => ?_
        rw [hcell, Finset.mem_filter] at hrc
        exact absurd ⟨r, hrc.1, hrc.2.2.2⟩ hex
    · -- the mass of one bin leaves out a row
      obtain ⟨r1, hr1, hne⟩ := hother k
      have htot : ∑ i ∈ Finset.range (nbins X 0), ∑ j ∈ Finset.range (nbins X 1), ∑ r ∈ cellRows (boxOf bn) f X i j k, ((bn.joint (rowAsg r) : ℚ) : ℝ) =
          ∑ r ∈ (boxOf bn).filter (fun r => β (g r) = k), ((bn.joint (rowAsg r) : ℚ) : ℝ) := by
        rw [← Finset.sum_fiberwise_of_maps_to (s := (boxOf bn).filter fun r => β (g r) = k) (t := Finset.range (nbins X 0)) (g := fun r => r.getD u 0)
          (fun r hrb => by rw [Finset.mem_range, nu]; exact ((mem_boxOf S).1 (Finset.mem_filter.1 hrb).1).2 u (S.lt.1 hu))]
        refine Finset.sum_congr rfl fun i _ => ?_
        rw [← Finset.sum_fiberwise_of_maps_to (s := ((boxOf bn).filter fun r => β (g r) = k).filter fun r => r.getD u 0 = i) (t := Finset.range (nbins X 1))
          (g := fun r => r.getD v 0) (fun r hrb => by
            rw [Finset.mem_range, nv]
            exact ((mem_boxOf S).1 (Finset.mem_filter.1 (Finset.mem_filter.1 hrb).1).1).2 v (S.lt.1 hv))]
        refine Finset.sum_congr rfl fun j _ => ?_
        refine Finset.sum_congr ?_ fun _ _ => rfl
        rw [hcell]
        ext r
        simp only [Finset.mem_filter]
        tauto
      rw [htot]
      have hnot : r1 ∉ (boxOf bn).filter (fun r => β (g r) = k) := fun h => hne (Finset.mem_filter.1 h).2
      have hle : ∑ r ∈ insert r1 ((boxOf bn).filter (fun r => β (g r) = k)), ((bn.joint (rowAsg r) : ℚ) : ℝ) ≤ ∑ r ∈ boxOf bn, ((bn.joint (rowAsg r) : ℚ) : ℝ) := by
        refine Finset.sum_le_sum_of_subset_of_nonneg ?_ fun r hrb _ => le_trans (by norm_num) (hmass r hrb)
        intro r hrb
        rcases Finset.mem_insert.1 hrb with rfl | hrb
        · exact hr1
        · exact (Finset.mem_filter.1 hrb).1
      rw [Finset.sum_insert hnot, hsum] at hle
      have := hmass r1 hr1
      have he : eps ≤ 1 / 200 := by unfold eps; norm_num
      linarith
  · rw [nu, nv]
    have := h2 u hu
    have := h2 v hv
    refine Nat.mul_ne_zero (Nat.mul_ne_zero ?_ ?_) ?_ <;> omega

end PyBN
