import Verif.Proofs.InfoScore
import Verif.Proofs.Ilp

/-!
# C142–C148: the information scores
-/

namespace PyBN
namespace BayesNet
open Indep (eps eps_pos)
variable {N A : Type _} [DecidableEq N] [DecidableEq A]

/-- C142: on a well-formed network with non-negative tables and at least one row, `log_likelihood(bn, nrow)` is the sum of the logarithms of all table
entries, each increased by `1e-7`, plus `log(nrow)` for each entry: no data enter. -/
theorem C142_log_likelihood (bn : BayesNet N A) (w : bn.WF) (h0 : bn.Nonneg) (n : ℕ) (hn : 1 ≤ n) :
    bn.logLikelihood n = .ok (some (bn.paramCount * Real.log n + bn.logSum)) := by
  rw [ll_ok w h0 hn]
  congr 2
  unfold paramCount logSum
  have : ∀ l : List N, (∀ v ∈ l, v ∈ bn.V) → (l.map fun v => tableLL n (bn.cptOf v)).sum =
      ((l.map fun v => (bn.cptOf v).length).sum : ℕ) * Real.log n + (l.map fun v => ((bn.cptOf v).map fun x : ℚ => Real.log ((x : ℝ) + 1 / 10 ^ 7)).sum).sum := by
    intro l
    induction l with
    | nil => simp
    | cons v l ih =>
      intro h
      rw [List.map_cons, List.sum_cons, ih fun u hu => h u (by simp [hu]), tableLL_split hn (h0 v (h v (by simp))), List.map_cons, List.sum_cons,
        List.map_cons, List.sum_cons]
      unfold eps
      push_cast
      ring
  exact this _ fun _ h => h

/-- C142: with no rows the score is `-inf`, unless there are no parameters. -/
theorem C142_no_rows (bn : BayesNet N A) (w : bn.WF) : bn.logLikelihood 0 = .ok (if bn.paramCount = 0 then some 0 else none) := by
  unfold logLikelihood
  rw [flatCpt_ok w, Py.bind_ok, Py.pure_eq]
  have hl : (bn.V.flatMap bn.cptOf).length = bn.paramCount := by rw [List.length_flatMap]; rfl
  by_cases h : bn.paramCount = 0
  · rw [if_pos h]
    rw [h, List.length_eq_zero_iff] at hl
    simp [hl]
  · rw [if_neg h, if_neg]
    intro hall
    obtain ⟨x, hx⟩ := List.exists_mem_of_ne_nil (bn.V.flatMap bn.cptOf) (by intro e; rw [e] at hl; exact h hl.symm)
    have := hall x hx
    simp at this

/-- C142: neither the order of the nodes, nor that of the parents, nor that of the entries inside a table changes any score. -/
theorem C142_order (b u : BayesNet N A) (w : b.WF) (wu : u.WF) (we : b.EdgeWF) (weu : u.EdgeWF) (h0 : b.Nonneg) (hV : u.V.Perm b.V)
    (hp : ∀ v ∈ b.V, (u.parentsOf v).Perm (b.parentsOf v)) (ht : ∀ v ∈ b.V, (u.cptOf v).Perm (b.cptOf v)) (n : ℕ) (hn : 1 ≤ n) (metric : String) :
    u.infoScore n metric = b.infoScore n metric := by
  have hu0 : u.Nonneg := fun v hv x hx => h0 v (hV.mem_iff.1 hv) x ((ht v (hV.mem_iff.1 hv)).mem_iff.1 hx)
  have hL : u.logLikelihood n = b.logLikelihood n := by
    rw [ll_ok w h0 hn, ll_ok wu hu0 hn, (hV.map _).sum_eq]
    congr 3
    exact List.map_congr_left fun v hv => tableLL_perm (ht v hv)
  have hP : u.paramCount = b.paramCount := by
    unfold paramCount
    rw [(hV.map _).sum_eq]
    congr 1
    exact List.map_congr_left fun v hv => (ht v hv).length_eq
  have hA : u.arcCount = b.arcCount := by
    unfold arcCount
    rw [(hV.map _).sum_eq]
    congr 1
    exact List.map_congr_left fun v hv => (hp v hv).length_eq
  have hLb := ll_ok w h0 hn
  have hLu := hLb
  rw [← hL] at hLu
  have hB : u.bic n = b.bic n := by rw [bic_ok wu weu hLu, bic_ok w we hLb, hP, hA]
  have hA' : u.aic n = b.aic n := by rw [aic_ok wu hLu, aic_ok w hLb, hP]
  unfold infoScore
  rw [hL, hB, hA']

/-- The penalties of the scores of two networks of the same shape agree. -/
theorem shape_counts {b u : BayesNet N A} (w : b.WF) (wu : u.WF) (hs : SameShape b u) : u.paramCount = b.paramCount ∧ u.arcCount = b.arcCount := by
  obtain ⟨hV, -, hpc⟩ := hs
  unfold paramCount arcCount
  rw [hV]
  constructor
  · congr 1
    refine List.map_congr_left fun v hv => ?_
    rw [wu.cpt_len v (by rw [hV]; exact hv), w.cpt_len v hv, (hpc v hv).1]
    congr 1
    refine List.map_congr_left fun p hp => ?_
    rcases List.mem_cons.1 hp with rfl | hp
    · exact (hpc p hv).2
    · exact (hpc p (w.parents_mem v hv p hp)).2
  · congr 1
    exact List.map_congr_left fun v hv => by rw [(hpc v hv).1]

/-- C144: among the networks of one structure with proper (non-negative, normalised) tables, the network with *uniform* tables has the highest
log-likelihood, AIC and BIC, strictly unless the tables are the same: a network fitted to data never scores above the one that ignores them. -/
theorem C144_uniform_best (b u : BayesNet N A) (w : b.WF) (wu : u.WF) (we : b.EdgeWF) (weu : u.EdgeWF) (h0 : b.Nonneg) (hN : b.Normalised)
    (hs : SameShape b u) (hu : ∀ v ∈ b.V, ∀ x ∈ u.cptOf v, x = 1 / (b.cardOf v : ℚ)) (n : ℕ) (hn : 1 ≤ n) (metric : String) :
    ∃ s t : ℝ, b.infoScore n metric = .ok (some s) ∧ u.infoScore n metric = .ok (some t) ∧ s ≤ t ∧ (s = t ↔ ∀ v ∈ b.V, b.cptOf v = u.cptOf v) := by
  obtain ⟨hP, hA⟩ := shape_counts w wu hs
  obtain ⟨hV, hE, hpc⟩ := hs
  have hu0 : u.Nonneg := by
    intro v hv x hx
    rw [hV] at hv
    rw [hu v hv x hx]
    positivity
  have hLb := ll_ok w h0 hn
  have hLu := ll_ok wu hu0 hn
  rw [hV] at hLu
  have hlen : ∀ v ∈ b.V, (u.cptOf v).length = (b.cptOf v).length := by
    intro v hv
    rw [wu.cpt_len v (by rw [hV]; exact hv), w.cpt_len v hv, (hpc v hv).1]
    congr 1
    refine List.map_congr_left fun p hp => ?_
    rcases List.mem_cons.1 hp with rfl | hp
    · exact (hpc p hv).2
    · exact (hpc p (w.parents_mem v hv p hp)).2
  have hut : ∀ v ∈ b.V, tableLL n (u.cptOf v) = (b.cptOf v).length * Real.log (n * (((1 / (b.cardOf v : ℚ) : ℚ) : ℝ) + eps)) := by
    intro v hv
    rw [← hlen v hv]
    unfold tableLL
    rw [List.map_congr_left (g := fun _ => Real.log (n * (((1 / (b.cardOf v : ℚ) : ℚ) : ℝ) + eps))) fun x hx => by rw [hu v hv x hx]]
    simp
  have hbt : ∀ v ∈ b.V, tableLL n (b.cptOf v) ≤ tableLL n (u.cptOf v) ∧ (tableLL n (b.cptOf v) = tableLL n (u.cptOf v) → b.cptOf v = u.cptOf v) := by
    intro v hv
    have hc : (b.cardOf v : ℚ) ≠ 0 := by have := w.card_pos hv; exact_mod_cast (by omega : b.cardOf v ≠ 0)
    have hsum : (b.cptOf v).sum = (b.cptOf v).length * (1 / (b.cardOf v : ℚ)) := by
      rw [cpt_sum w hN hv, w.cpt_len v hv, List.map_cons, List.prod_cons]
      push_cast
      field_simp
    obtain ⟨h1, h2⟩ := tableLL_le hn (h0 v hv) (m := 1 / (b.cardOf v : ℚ)) (by positivity) hsum
    rw [hut v hv]
    refine ⟨h1, fun e => ?_⟩
    refine List.ext_getElem (hlen v hv).symm fun i hi hi' => ?_
    rw [h2 e _ (List.getElem_mem hi), hu v hv _ (List.getElem_mem hi')]
  have key : ∀ l : List N, (∀ v ∈ l, v ∈ b.V) → (l.map fun v => tableLL n (b.cptOf v)).sum ≤ (l.map fun v => tableLL n (u.cptOf v)).sum ∧
      ((l.map fun v => tableLL n (b.cptOf v)).sum = (l.map fun v => tableLL n (u.cptOf v)).sum → ∀ v ∈ l, b.cptOf v = u.cptOf v) := by
    intro l
    induction l with
    | nil => intro _; simp
    | cons v l ih =>
      intro h
      obtain ⟨i1, i2⟩ := ih fun x hx => h x (by simp [hx])
      obtain ⟨j1, j2⟩ := hbt v (h v (by simp))
      simp only [List.map_cons, List.sum_cons]
      refine ⟨by linarith, fun e x hx => ?_⟩
      rcases List.mem_cons.1 hx with rfl | hx
      · exact j2 (by linarith)
      · exact i2 (by linarith) x hx
  obtain ⟨k1, k2⟩ := key b.V fun _ h => h
  set Lb := (b.V.map fun v => tableLL n (b.cptOf v)).sum
  set Lu := (b.V.map fun v => tableLL n (u.cptOf v)).sum
  have k3 : Lb = Lu ↔ ∀ v ∈ b.V, b.cptOf v = u.cptOf v := by
    refine ⟨k2, fun h => ?_⟩
    show (b.V.map fun v => tableLL n (b.cptOf v)).sum = (b.V.map fun v => tableLL n (u.cptOf v)).sum
    congr 1
    exact List.map_congr_left fun v hv => by rw [h v hv]
  have kB := bic_ok w we hLb
  have kBu := bic_ok wu weu hLu
  have kA := aic_ok w hLb
  have kAu := aic_ok wu hLu
  rw [hP, hA] at kBu
  rw [hP] at kAu
  unfold infoScore
  split_ifs
  · exact ⟨_, _, hLb, hLu, k1, k3⟩
  · exact ⟨_, _, kB, kBu, by linarith, by rw [sub_left_inj]; exact k3⟩
  · exact ⟨_, _, kA, kAu, by linarith, by rw [sub_left_inj]; exact k3⟩
  · exact ⟨_, _, kB, kBu, by linarith, by rw [sub_left_inj]; exact k3⟩

/-- A binary variable that is always 0. -/
def sure : BayesNet ℕ ℕ := ⟨[0], [(0, [])], [(0, ⟨[], [0, 1], [1, 0]⟩)]⟩

/-- A fair coin. -/
def fair : BayesNet ℕ ℕ := ⟨[0], [(0, [])], [(0, ⟨[], [0, 1], [1 / 2, 1 / 2]⟩)]⟩

theorem sure_wf : sure.WF := .of_dec _ (by decide) (by decide)
theorem fair_wf : fair.WF := .of_dec _ (by decide) (by decide)
theorem sure_edgeWf : sure.EdgeWF := .of_dec _ (by decide) (by decide) (by decide) (by decide)
theorem fair_edgeWf : fair.EdgeWF := .of_dec _ (by decide) (by decide) (by decide) (by decide)
theorem sure_nonneg : sure.Nonneg := by unfold Nonneg; decide +kernel
theorem fair_nonneg : fair.Nonneg := by unfold Nonneg; decide +kernel

theorem sure_normalised : sure.Normalised := by
  intro v hv a _
  have hv0 : v = 0 := by simpa [sure] using hv
  subst hv0
  show ∑ x ∈ Finset.range 2, _ = (1 : ℚ)
  rw [Finset.sum_range_succ, Finset.sum_range_one]
  simp [prob, enc, parentsOf, cptOf, cardOf, sure, Dict.get?, Asg.upd]

theorem fair_normalised : fair.Normalised := by
  intro v hv a _
  have hv0 : v = 0 := by simpa [fair] using hv
  subst hv0
  show ∑ x ∈ Finset.range 2, _ = (1 : ℚ)
  rw [Finset.sum_range_succ, Finset.sum_range_one]
  simp [prob, enc, parentsOf, cptOf, cardOf, fair, Dict.get?, Asg.upd]
  norm_num

theorem sure_fair_shape : SameShape sure fair := ⟨rfl, rfl, by decide +kernel⟩

/-- C143 is false of the code, for every number of rows: the data are `n` rows with value 0; the network that says so with certainty has likelihood 1, the fair
coin less, but the fair coin has the higher score. -/
theorem C143_false (n : ℕ) (hn : 1 ≤ n) : ¬ ∀ (b u : BayesNet ℕ ℕ), b.WF → u.WF → b.Nonneg → u.Nonneg → b.Normalised → u.Normalised → SameShape b u →
    ∀ rows : List (Asg ℕ), rows.length = n → u.likelihood rows < b.likelihood rows →
    ∀ s t : ℝ, b.logLikelihood n = .ok (some s) → u.logLikelihood n = .ok (some t) → t ≤ s := by
  intro h
  obtain ⟨s, t, hs, ht, hle, hiff⟩ := C144_uniform_best sure fair sure_wf fair_wf sure_edgeWf fair_edgeWf sure_nonneg sure_normalised sure_fair_shape
    (by intro v hv x hx
        have hv0 : v = 0 := by simpa [sure] using hv
        subst hv0
        have hx' : x = 1 / 2 := by simpa [fair, cptOf, Dict.get?] using hx
        rw [hx']
        decide +kernel) n hn "LL"
  have e : ∀ b : BayesNet ℕ ℕ, b.infoScore n "LL" = b.logLikelihood n := fun b => by unfold infoScore; rw [if_pos (by decide +kernel)]
  rw [e] at hs ht
  have hlik : fair.likelihood (List.replicate n fun _ => 0) < sure.likelihood (List.replicate n fun _ => 0) := by
    have h1 : fair.joint (fun _ => 0) = 1 / 2 := by decide +kernel
    have h2 : sure.joint (fun _ => 0) = 1 := by decide +kernel
    unfold likelihood
    rw [List.map_replicate, List.map_replicate, h1, h2, List.prod_replicate, List.prod_replicate, one_pow]
    exact pow_lt_one₀ (by norm_num) (by norm_num) (by omega)
  have := h sure fair sure_wf fair_wf sure_nonneg fair_nonneg sure_normalised fair_normalised sure_fair_shape _ (List.length_replicate ..) hlik s t hs ht
  have := hiff.1 (le_antisymm hle this) 0 (by decide)
  revert this
  decide +kernel

/-- C143, the part that holds: if every table entry of one network is at least that of the other (possible for unnormalised tables), likelihood of every data
set and score are both at least as large. -/
theorem C143_entrywise_partial (b u : BayesNet N A) (w : b.WF) (wu : u.WF) (h0 : u.Nonneg) (hs : SameShape b u)
    (h : ∀ v ∈ b.V, List.Forall₂ (· ≤ ·) (u.cptOf v) (b.cptOf v)) (n : ℕ) (hn : 1 ≤ n) :
    (∀ rows, u.likelihood rows ≤ b.likelihood rows) ∧
      ∃ s t : ℝ, b.logLikelihood n = .ok (some s) ∧ u.logLikelihood n = .ok (some t) ∧ t ≤ s := by
  obtain ⟨hV, -, hpc⟩ := hs
  have h0' : ∀ v ∈ b.V, ∀ x ∈ u.cptOf v, 0 ≤ x := fun v hv => h0 v (by rw [hV]; exact hv)
  have hb0 : b.Nonneg := by
    intro v hv x hx
    obtain ⟨y, hy, hyx⟩ := forall₂_right (h v hv) x hx
    exact (h0' v hv y hy).trans hyx
  refine ⟨fun rows => ?_, _, _, ll_ok w hb0 hn, ll_ok wu h0 hn, ?_⟩
  · have hp : ∀ a, ∀ v ∈ b.V, 0 ≤ u.prob v a ∧ u.prob v a ≤ b.prob v a := by
      intro a v hv
      have henc : enc u.cardOf (v :: u.parentsOf v) a = enc b.cardOf (v :: b.parentsOf v) a := by
        rw [(hpc v hv).1]
        have : ∀ l : List N, (∀ p ∈ l, p ∈ b.V) → enc u.cardOf l a = enc b.cardOf l a := by
          intro l
          induction l with
          | nil => intro _; rfl
          | cons p l ih => intro hl; rw [enc, enc, ih fun q hq => hl q (by simp [hq]), (hpc p (hl p (by simp))).2]
        refine this _ fun p hp => ?_
        rcases List.mem_cons.1 hp with rfl | hp
        · exact hv
        · exact w.parents_mem v hv p hp
      unfold prob
      rw [henc]
      have hf := h v hv
      generalize enc b.cardOf (v :: b.parentsOf v) a = i
      have hx0 := h0' v hv
      revert hx0
      generalize u.cptOf v = l1 at hf ⊢
      generalize b.cptOf v = l2 at hf ⊢
      induction hf generalizing i with
      | nil => intro _; simp
      | cons hxy _ ih =>
        intro hx0
        cases i with
        | zero => simpa using ⟨hx0 _ (by simp), hxy⟩
        | succ i => simpa using ih i fun x hx => hx0 x (by simp [hx])
    have hj : ∀ a, 0 ≤ u.joint a ∧ u.joint a ≤ b.joint a := by
      intro a
      unfold joint
      rw [hV]
      have : ∀ l : List N, (∀ v ∈ l, v ∈ b.V) → 0 ≤ (l.map fun v => u.prob v a).prod ∧ (l.map fun v => u.prob v a).prod ≤ (l.map fun v => b.prob v a).prod := by
        intro l
        induction l with
        | nil => intro _; simp
        | cons v l ih =>
          intro hl
          obtain ⟨i1, i2⟩ := ih fun q hq => hl q (by simp [hq])
          obtain ⟨p1, p2⟩ := hp a v (hl v (by simp))
          simp only [List.map_cons, List.prod_cons]
          exact ⟨mul_nonneg p1 i1, mul_le_mul p2 i2 i1 (p1.trans p2)⟩
      exact this _ fun _ h => h
    unfold likelihood
    have : ∀ rows : List (Asg N), 0 ≤ (rows.map u.joint).prod ∧ (rows.map u.joint).prod ≤ (rows.map b.joint).prod := by
      intro rows
      induction rows with
      | nil => simp
      | cons a l ih =>
        simp only [List.map_cons, List.prod_cons]
        exact ⟨mul_nonneg (hj a).1 ih.1, mul_le_mul (hj a).2 ih.2 ih.1 ((hj a).1.trans (hj a).2)⟩
    exact (this rows).2
  · rw [hV]
    refine List.sum_le_sum fun v hv => ?_
    have hf := h v hv
    have hx0 := h0' v hv
    revert hx0
    unfold tableLL
    generalize u.cptOf v = l1 at hf ⊢
    generalize b.cptOf v = l2 at hf ⊢
    induction hf with
    | nil => intro _; simp
    | cons hxy _ ih =>
      intro hx0
      simp only [List.map_cons, List.sum_cons]
      refine add_le_add (Real.log_le_log (entry_pos hn (hx0 _ (by simp))) ?_) (ih fun x hx => hx0 x (by simp [hx]))
      have : ((_ : ℚ) : ℝ) ≤ _ := Rat.cast_le.2 hxy
      gcongr

/-- C146: AIC subtracts the number of table entries; BIC (and MDL) subtract half the logarithm of the number of *arcs* per entry, nothing at all with at most
one arc; `info_score` chooses by the upper-cased name and takes every unknown name (`'MDL'` among them) for BIC. -/
theorem C146_penalties (bn : BayesNet N A) (w : bn.WF) (we : bn.EdgeWF) (h0 : bn.Nonneg) (n : ℕ) (hn : 1 ≤ n) :
    ∃ L : ℝ, bn.logLikelihood n = .ok (some L) ∧ bn.aic n = .ok (some (L - bn.paramCount)) ∧
      bn.bic n = .ok (some (L - bn.paramCount * (Real.log (max bn.arcCount 1 : ℕ) / 2))) ∧ bn.mdl n = bn.bic n ∧
      (bn.arcCount ≤ 1 → bn.bic n = .ok (some L)) ∧
      ∀ metric : String, bn.infoScore n metric = if metric.toUpper = "LL" then bn.logLikelihood n else if metric.toUpper = "AIC" then bn.aic n else bn.bic n := by
  refine ⟨_, ll_ok w h0 hn, aic_ok w (ll_ok w h0 hn), ?_, rfl, ?_, ?_⟩
  · rw [bic_ok w we (ll_ok w h0 hn)]; congr 3; ring
  · intro h
    rw [bic_ok w we (ll_ok w h0 hn), max_eq_right h]
    simp
  · intro metric
    unfold infoScore
    by_cases h1 : metric.toUpper = "LL"
    · rw [if_pos h1, if_pos h1]
    · rw [if_neg h1, if_neg h1]
      by_cases h2 : metric.toUpper = "BIC"
      · rw [if_pos h2, if_neg (by rw [h2]; decide)]
      · rw [if_neg h2]

/-- C145, the part that holds: the penalty of BIC is `log(N) / 2` per entry if the number of rows happens to be the number of arcs. -/
theorem C145_bic_partial (bn : BayesNet N A) (w : bn.WF) (we : bn.EdgeWF) (h0 : bn.Nonneg) (n : ℕ) (hn : 1 ≤ n) (h : max bn.arcCount 1 = n) :
    ∃ L : ℝ, bn.logLikelihood n = .ok (some L) ∧ bn.bic n = .ok (some (L - bn.paramCount * (Real.log n / 2))) := by
  obtain ⟨L, h1, -, h2, -⟩ := C146_penalties bn w we h0 n hn
  rw [h] at h2
  exact ⟨L, h1, h2⟩

/-- C145 is false of the code for every number of rows above one: the coin has no arc, hence no penalty. -/
theorem C145_false (n : ℕ) (hn : 2 ≤ n) : ¬ ∀ bn : BayesNet ℕ ℕ, bn.WF → bn.EdgeWF → bn.Nonneg →
    ∃ L : ℝ, bn.logLikelihood n = .ok (some L) ∧ bn.bic n = .ok (some (L - bn.paramCount * (Real.log n / 2))) := by
  intro h
  obtain ⟨L, h1, h2⟩ := h fair fair_wf fair_edgeWf fair_nonneg
  obtain ⟨L', h3, -, -, -, h4, -⟩ := C146_penalties fair fair_wf fair_edgeWf fair_nonneg n (by omega)
  rw [h1] at h3
  cases h3
  rw [h4 (by decide)] at h2
  have h5 : L = L - (fair.paramCount : ℝ) * (Real.log n / 2) := by
    have := Except.ok.inj h2
    exact Option.some.inj this
  have h6 : fair.paramCount = 2 := by decide
  rw [h6] at h5
  have : 0 < Real.log n := Real.log_pos (by exact_mod_cast hn)
  push_cast at h5
  linarith

theorem tableLL_replicate (n k : ℕ) (l : List ℚ) : tableLL n (List.replicate k l).flatten = k * tableLL n l := by
  induction k with
  | zero => simp [tableLL]
  | succ k ih =>
    rw [List.replicate_succ, List.flatten_cons]
    have : tableLL n (l ++ (List.replicate k l).flatten) = tableLL n l + tableLL n (List.replicate k l).flatten := by simp [tableLL]
    rw [this, ih]; push_cast; ring

/-- A sum over nodes, one of which is changed. -/
theorem sum_change {b : BayesNet N A} (hnd : b.V.Nodup) {x : N} (hx : x ∈ b.V) (f g : N → ℝ) (h : ∀ v ∈ b.V, v ≠ x → g v = f v) :
    (b.V.map g).sum = (b.V.map f).sum + (g x - f x) := by
  have : ∀ l : List N, l.Nodup → (∀ v ∈ l, v ∈ b.V) → (l.map g).sum = (l.map f).sum + if x ∈ l then g x - f x else 0 := by
    intro l
    induction l with
    | nil => intro _ _; simp
    | cons v l ih =>
      intro hn hl
      have hn' := List.nodup_cons.1 hn
      simp only [List.map_cons, List.sum_cons, ih hn'.2 fun q hq => hl q (by simp [hq])]
      by_cases e : v = x
      · subst e
        rw [if_neg hn'.1, if_pos (by simp)]; ring
      · rw [h v (hl v (by simp)) e]
        by_cases hm : x ∈ l
        · rw [if_pos hm, if_pos (by simp [hm])]; ring
        · rw [if_neg hm, if_neg (by simp [hm, Ne.symm e])]; ring
  rw [this _ hnd fun _ h => h, if_pos hx]

/-- C148: giving a node a parent it does not depend on (with `k` values: its table repeated `k` times) changes the log-likelihood by `k - 1` times the score of
the table, and AIC by that less the number of added entries. -/
theorem C148_irrelevant_parent (b u : BayesNet N A) (w : b.WF) (wu : u.WF) (h0 : b.Nonneg) (x : N) (k : ℕ) (hk : 1 ≤ k) (hr : Repeated b u x k)
    (n : ℕ) (hn : 1 ≤ n) : ∃ s t s' t' : ℝ, b.logLikelihood n = .ok (some s) ∧ u.logLikelihood n = .ok (some t) ∧
      b.aic n = .ok (some s') ∧ u.aic n = .ok (some t') ∧
      t - s = (k - 1) * ((b.cptOf x).map fun y : ℚ => Real.log (n * ((y : ℝ) + 1 / 10 ^ 7))).sum ∧
      t' - s' = (k - 1) * ((b.cptOf x).map fun y : ℚ => Real.log (n * ((y : ℝ) + 1 / 10 ^ 7)) - 1).sum := by
  obtain ⟨hV, hx, hsame, hrep⟩ := hr
  have hu0 : u.Nonneg := by
    intro v hv y hy
    rw [hV] at hv
    by_cases e : v = x
    · subst e
      have := hrep.mem_iff.1 hy
      rw [List.mem_flatten] at this
      obtain ⟨l, hl, hyl⟩ := this
      rw [(List.mem_replicate.1 hl).2] at hyl
      exact h0 v hv y hyl
    · rw [hsame v hv e] at hy; exact h0 v hv y hy
  have hLb := ll_ok w h0 hn
  have hLu := ll_ok wu hu0 hn
  rw [hV] at hLu
  refine ⟨_, _, _, _, hLb, hLu, aic_ok w hLb, aic_ok wu hLu, ?_, ?_⟩
  · rw [sum_change w.nodup hx (fun v => tableLL n (b.cptOf v)) (fun v => tableLL n (u.cptOf v)) fun v hv hne => by rw [hsame v hv hne],
      tableLL_perm hrep, tableLL_replicate]
    show _ = (_ : ℝ) * tableLL n (b.cptOf x)
    ring
  · have hP : (u.paramCount : ℝ) = b.paramCount + (k - 1) * (b.cptOf x).length := by
      have h1 : ∀ c : BayesNet N A, (c.paramCount : ℝ) = (c.V.map fun v => ((c.cptOf v).length : ℝ)).sum := fun c => by
        unfold paramCount
        rw [Nat.cast_list_sum, List.map_map]; rfl
      rw [h1, h1, hV, sum_change w.nodup hx (fun v => ((b.cptOf v).length : ℝ)) (fun v => ((u.cptOf v).length : ℝ)) fun v hv hne => by rw [hsame v hv hne]]
      rw [hrep.length_eq, List.length_flatten, List.map_replicate, List.sum_replicate, smul_eq_mul]
      push_cast
      ring
    rw [sum_change w.nodup hx (fun v => tableLL n (b.cptOf v)) (fun v => tableLL n (u.cptOf v)) fun v hv hne => by rw [hsame v hv hne],
      tableLL_perm hrep, tableLL_replicate, hP]
    have hm : ((b.cptOf x).map fun y : ℚ => Real.log (n * ((y : ℝ) + 1 / 10 ^ 7)) - 1).sum = tableLL n (b.cptOf x) - (b.cptOf x).length := by
      unfold tableLL
      generalize b.cptOf x = l
      induction l with
      | nil => simp
      | cons y l ih => simp only [List.map_cons, List.sum_cons, ih, List.length_cons]; unfold eps; push_cast; ring
    rw [hm]
    ring

/-- C148: hence AIC *prefers* the irrelevant parent as soon as `nrow` times every entry of the table is at least 3. -/
theorem C148_rewarded (b u : BayesNet N A) (w : b.WF) (wu : u.WF) (h0 : b.Nonneg) (x : N) (k : ℕ) (hk : 2 ≤ k) (hr : Repeated b u x k)
    (n : ℕ) (hn : 1 ≤ n) (hbig : ∀ y ∈ b.cptOf x, 3 ≤ n * y) : ∃ s t : ℝ, b.aic n = .ok (some s) ∧ u.aic n = .ok (some t) ∧ s < t := by
  obtain ⟨-, -, s, t, -, -, hs, ht, -, hd⟩ := C148_irrelevant_parent b u w wu h0 x k (by omega) hr n hn
  refine ⟨s, t, hs, ht, ?_⟩
  have hpos : ∀ y ∈ b.cptOf x, 0 < Real.log ((n : ℝ) * ((y : ℝ) + 1 / 10 ^ 7)) - 1 := by
    intro y hy
    have h3 : (3 : ℝ) ≤ n * y := by exact_mod_cast hbig y hy
    have he := Real.exp_one_lt_d9
    have h1 : (0 : ℝ) < n := by exact_mod_cast hn
    have : Real.exp 1 < (n : ℝ) * ((y : ℝ) + 1 / 10 ^ 7) := by rw [mul_add]; nlinarith
    have := Real.log_lt_log (Real.exp_pos 1) this
    rw [Real.log_exp] at this
    linarith
  have hne : b.cptOf x ≠ [] := by
    intro e
    have := w.cpt_len x hr.2.1
    rw [e, List.length_nil] at this
    have h2 : ∀ p ∈ x :: b.parentsOf x, b.cardOf p ≠ 0 := by
      intro p hp
      rcases List.mem_cons.1 hp with rfl | hp
      · have := w.card_pos hr.2.1; omega
      · have := w.card_pos (w.parents_mem x hr.2.1 p hp); omega
    have h3 := List.prod_ne_zero (l := (x :: b.parentsOf x).map b.cardOf) (by
      intro h0
      obtain ⟨p, hp, e⟩ := List.mem_map.1 h0
      exact h2 p hp e)
    exact h3 this.symm
  have hsum : 0 < ((b.cptOf x).map fun y : ℚ => Real.log (n * ((y : ℝ) + 1 / 10 ^ 7)) - 1).sum := by
    refine List.sum_pos _ (fun z hz => ?_) (by simpa using hne)
    obtain ⟨y, hy, rfl⟩ := List.mem_map.1 hz
    exact hpos y hy
  have hk' : (0 : ℝ) < k - 1 := by have : (2 : ℝ) ≤ k := by exact_mod_cast hk
                                   linarith
  have := mul_pos hk' hsum
  linarith

/-- C147, the part that holds: with at most two rows AIC does not prefer an irrelevant parent (entries at most 1). -/
theorem C147_few_rows_partial (b u : BayesNet N A) (w : b.WF) (wu : u.WF) (h0 : b.Nonneg) (h1 : ∀ v ∈ b.V, ∀ y ∈ b.cptOf v, y ≤ 1) (x : N) (k : ℕ) (hk : 1 ≤ k)
    (hr : Repeated b u x k) (n : ℕ) (hn : 1 ≤ n) (hn2 : n ≤ 2) : ∃ s t : ℝ, b.aic n = .ok (some s) ∧ u.aic n = .ok (some t) ∧ t ≤ s := by
  obtain ⟨-, -, s, t, -, -, hs, ht, -, hd⟩ := C148_irrelevant_parent b u w wu h0 x k hk hr n hn
  refine ⟨s, t, hs, ht, ?_⟩
  have hneg : ((b.cptOf x).map fun y : ℚ => Real.log (n * ((y : ℝ) + 1 / 10 ^ 7)) - 1).sum ≤ 0 := by
    have hsp : ∀ l : List ℝ, (∀ z ∈ l, z ≤ 0) → l.sum ≤ 0 := by
      intro l
      induction l with
      | nil => intro _; simp
      | cons z l ih => intro hl; rw [List.sum_cons]; have := hl z (by simp); have := ih fun y hy => hl y (by simp [hy]); linarith
    refine hsp _ fun z hz => ?_
    obtain ⟨y, hy, rfl⟩ := List.mem_map.1 hz
    have hy1 : (y : ℝ) ≤ 1 := by exact_mod_cast h1 x hr.2.1 y hy
    have hp := entry_pos hn (h0 x hr.2.1 y hy)
    unfold eps at hp
    have hn' : (n : ℝ) ≤ 2 := by exact_mod_cast hn2
    have he := Real.exp_one_gt_d9
    have h0n : (0 : ℝ) ≤ n := by positivity
    have : (n : ℝ) * ((y : ℝ) + 1 / 10 ^ 7) ≤ Real.exp 1 := by
      have h2 : (y : ℝ) + 1 / 10 ^ 7 ≤ 1 + 1 / 10 ^ 7 := by linarith
      have h3 : (n : ℝ) * ((y : ℝ) + 1 / 10 ^ 7) ≤ n * (1 + 1 / 10 ^ 7) := mul_le_mul_of_nonneg_left h2 h0n
      have h4 : (n : ℝ) * (1 + 1 / 10 ^ 7) ≤ 2 * (1 + 1 / 10 ^ 7) := mul_le_mul_of_nonneg_right hn' (by norm_num)
      norm_num at h4 h3 ⊢
      linarith
    have := Real.log_le_log hp this
    rw [Real.log_exp] at this
    linarith
  have hk' : (0 : ℝ) ≤ k - 1 := by have : (1 : ℝ) ≤ k := by exact_mod_cast hk
                                   linarith
  have := mul_nonpos_of_nonneg_of_nonpos hk' hneg
  linarith

/-- Two independent coins. -/
def coins : BayesNet ℕ ℕ := ⟨[0, 1], [(0, []), (1, [])], [(0, ⟨[], [0, 1], [1 / 2, 1 / 2]⟩), (1, ⟨[], [0, 1], [1 / 3, 2 / 3]⟩)]⟩

/-- The same distribution with a superfluous arc. -/
def coinsArc : BayesNet ℕ ℕ := ⟨[0, 1], [(0, [1]), (1, [])], [(0, ⟨[], [0, 1], [1 / 2, 1 / 2]⟩), (1, ⟨[0], [0, 1], [1 / 3, 2 / 3, 1 / 3, 2 / 3]⟩)]⟩

theorem coins_wf : coins.WF := .of_dec _ (by decide) (by decide)
theorem coinsArc_wf : coinsArc.WF := .of_dec _ (by decide) (by decide)
theorem coins_nonneg : coins.Nonneg := by unfold Nonneg; decide +kernel
theorem coins_repeated : Repeated coins coinsArc 1 2 := by
  refine ⟨rfl, by decide, by decide +kernel, ?_⟩
  show List.Perm [(1 : ℚ) / 3, 2 / 3, 1 / 3, 2 / 3] _
  exact List.Perm.refl _

/-- C147 is false of the code from 9 rows on: the superfluous arc between two independent coins is preferred. -/
theorem C147_false (n : ℕ) (hn : 9 ≤ n) : ¬ ∀ (b u : BayesNet ℕ ℕ) (x k : ℕ), b.WF → u.WF → b.Nonneg → 1 ≤ k → Repeated b u x k →
    ∃ s t : ℝ, b.aic n = .ok (some s) ∧ u.aic n = .ok (some t) ∧ t ≤ s := by
  intro h
  obtain ⟨s, t, hs, ht, hle⟩ := h coins coinsArc 1 2 coins_wf coinsArc_wf coins_nonneg (by omega) coins_repeated
  obtain ⟨s', t', hs', ht', hlt⟩ := C148_rewarded coins coinsArc coins_wf coinsArc_wf coins_nonneg 1 2 le_rfl coins_repeated n (by omega) (by
    intro y hy
    have hn' : (9 : ℚ) ≤ n := by exact_mod_cast hn
    have : y = 1 / 3 ∨ y = 2 / 3 := by simpa [coins, cptOf, Dict.get?] using hy
    rcases this with rfl | rfl <;> linarith)
  rw [hs] at hs'
  rw [ht] at ht'
  cases hs'
  cases ht'
  linarith

/-! ### Witnesses -/

/-- C142. -/
example : exNet.logLikelihood 100 = .ok (some (exNet.paramCount * Real.log (100 : ℕ) + exNet.logSum)) := C142_log_likelihood _ exNet_wf exNet_nonneg _ (by decide)

/-- C142, no rows. -/
example : exNet.logLikelihood 0 = .ok none := (C142_no_rows _ exNet_wf).trans (by decide)

/-- The coins, listed in another order. -/
def coinsRev : BayesNet ℕ ℕ := ⟨[1, 0], [(0, []), (1, [])], coins.F⟩

/-- C142, order. -/
example : coinsRev.infoScore 7 "AIC" = coins.infoScore 7 "AIC" :=
  C142_order coins coinsRev coins_wf (.of_dec _ (by decide) (by decide)) (.of_dec _ (by decide) (by decide) (by decide) (by decide))
    (.of_dec _ (by decide) (by decide) (by decide) (by decide)) coins_nonneg (List.Perm.swap ..) (fun _ _ => .refl _) (fun _ _ => .refl _) 7 (by decide) "AIC"

/-- C143, the partial theorem. -/
example : ∃ s t : ℝ, coins.logLikelihood 5 = .ok (some s) ∧ coins.logLikelihood 5 = .ok (some t) ∧ t ≤ s :=
  (C143_entrywise_partial coins coins coins_wf coins_wf coins_nonneg ⟨rfl, rfl, fun _ _ => ⟨rfl, rfl⟩⟩
    (fun v _ => List.forall₂_same.2 fun _ _ => le_rfl) 5 (by decide)).2

/-- C144: see `C143_false`; C145: one row and no arc. -/
example : ∃ L : ℝ, fair.logLikelihood 1 = .ok (some L) ∧ fair.bic 1 = .ok (some (L - fair.paramCount * (Real.log (1 : ℕ) / 2))) :=
  C145_bic_partial fair fair_wf fair_edgeWf fair_nonneg 1 le_rfl (by decide)

/-- C146: the name `'mdl'`. -/
example : exNet.infoScore 10 "mdl" = exNet.bic 10 := by
  obtain ⟨L, -, -, -, -, -, h⟩ := C146_penalties exNet exNet_wf exNet_edgeWf exNet_nonneg 10 (by decide)
  rw [h, if_neg (by decide +kernel), if_neg (by decide +kernel)]

/-- C147. -/
example : ∃ s t : ℝ, coins.aic 2 = .ok (some s) ∧ coinsArc.aic 2 = .ok (some t) ∧ t ≤ s :=
  C147_few_rows_partial coins coinsArc coins_wf coinsArc_wf coins_nonneg (by decide +kernel) 1 2 (by decide) coins_repeated 2 (by decide) le_rfl

end BayesNet
end PyBN
