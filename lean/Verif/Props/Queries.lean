import Verif.Props.Perturb

/-!
# C235, C236: the answers of `marginal_ve_e` and `ve_map` to different queries fit together
-/

set_option linter.unusedSectionVars false
namespace PyBN
variable {N A : Type _} [DecidableEq N] [DecidableEq A]
open BayesNet

theorem rintEven_mono {x y : ℚ} (h : x ≤ y) : rintEven x ≤ rintEven y := by
  by_contra hlt
  push Not at hlt
  have h1 := abs_le.1 (rintEven_close x)
  have h2 := abs_le.1 (rintEven_close y)
  have h3 : ((rintEven y : ℤ) : ℚ) + 1 ≤ ((rintEven x : ℤ) : ℚ) := by exact_mod_cast hlt
  have hxy : x = y := by linarith only [h, h1.1, h1.2, h2.1, h2.2, h3]
  rw [hxy] at hlt
  exact lt_irrefl _ hlt

theorem roundEven_mono (d : ℕ) {x y : ℚ} (h : x ≤ y) : roundEven d x ≤ roundEven d y := by
  unfold roundEven
  have h0 : (0:ℚ) < 10 ^ d := by positivity
  have := rintEven_mono (mul_le_mul_of_nonneg_right h h0.le)
  have h3 : ((rintEven (x * 10 ^ d) : ℤ) : ℚ) ≤ ((rintEven (y * 10 ^ d) : ℤ) : ℚ) := by exact_mod_cast this
  exact div_le_div_of_nonneg_right h3 h0.le

/-- The evidence `ev` with one more observation. -/
def withEv (ev : Dict N A) (u : N) (y : A) : Dict N A := ev ++ [(u, y)]

theorem withEv_keys (ev : Dict N A) (u : N) (y : A) : (withEv ev u y).keys = ev.keys ++ [u] := by
  unfold withEv Dict.keys
  simp

theorem marginal_total {bn : BayesNet N A} (w : bn.WF) {target u : N} {ev : Dict N A} (hu : u ∈ bn.V) (hut : u ≠ target) (hue : u ∉ ev.keys) (y : ℕ → A) (a : Asg N) :
    bn.marginal target ev a = ∑ x ∈ Finset.range (bn.cardOf u), bn.marginal target (withEv ev u (y x)) (a.upd u x) := by
  unfold BayesNet.marginal
  have hp : (bn.V.filter fun v => v ≠ target ∧ v ∉ ev.keys).Perm (u :: bn.V.filter fun v => v ≠ target ∧ v ∉ ev.keys ++ [u]) := by
    rw [List.perm_ext_iff_of_nodup (w.nodup.filter _)]
    · intro v
      simp only [List.mem_filter, List.mem_cons, decide_eq_true_eq, List.mem_append, List.not_mem_nil, or_false, not_or]
      constructor
      · rintro ⟨h1, h2, h3⟩
        by_cases hv : v = u
        · exact Or.inl hv
        · exact Or.inr ⟨h1, h2, h3, hv⟩
      · rintro (rfl | ⟨h1, h2, h3, -⟩)
        · exact ⟨hu, hut, hue⟩
        · exact ⟨h1, h2, h3⟩
    · rw [List.nodup_cons]
      refine ⟨fun h => ?_, w.nodup.filter _⟩
      have := (List.mem_filter.1 h).2
      simp at this
  rw [sumAll_perm hp _ (w.nodup.filter _)]
  simp only [withEv_keys]
  rfl

theorem agrees_withEv {bn : BayesNet N A} {ev : Dict N A} {u : N} {y : A} {a : Asg N} (h : bn.Agrees ev a) (hu : (bn.valuesOf u)[a u]? = some y) :
    bn.Agrees (withEv ev u y) a := by
  intro e he
  rcases List.mem_append.1 he with he | he
  · exact h e he
  · rw [List.mem_singleton] at he; subst he; exact hu

theorem agrees_ext_upd {bn : BayesNet N A} {ev : Dict N A} {u : N} {x : ℕ} {a : Asg N} (h : bn.Agrees ev a) (hu : u ∉ ev.keys) : bn.Agrees ev (a.upd u x) := by
  intro e he
  have hne : e.1 ≠ u := fun h => hu (h ▸ List.mem_map.2 ⟨e, he, rfl⟩)
  rw [Asg.upd_ne a x hne]
  exact h e he

/-- C235 (total probability): observing one more variable `u` splits an answer: the answers given each value of `u` add up to the answer without it, up to the
rounding of the entries to four decimals; and no entry is larger than the entry without the observation. -/
theorem C235_total_probability (h h' : HashOrder N) (hE hE' : HashOrder (N × A)) (bn : BayesNet N A) (w : bn.WF) (target u : N) (ev : Dict N A) (hn : ev.keys.Nodup)
    (hut : u ∉ ev.keys) (r : List ℚ) (hr : marginalVE h hE bn target ev = .ok r) (ru : A → List ℚ)
    (hru : ∀ y ∈ bn.valuesOf u, marginalVE h' hE' bn target (withEv ev u y) = .ok (ru y)) (hu : u ∈ bn.V) :
    (∀ i < bn.cardOf target, |((bn.valuesOf u).map fun y => (ru y).getD i 0).sum - r.getD i 0| ≤ (bn.cardOf u + 1) / 20000) ∧
    (bn.Nonneg → ∀ i < bn.cardOf target, ∀ y ∈ bn.valuesOf u, (ru y).getD i 0 ≤ r.getD i 0) := by
  have hne := w.values_ne u hu
  obtain ⟨y0, hy0⟩ := List.exists_mem_of_ne_nil _ hne
  have hnd : ∀ y, (withEv ev u y).keys.Nodup := fun y => by
    rw [withEv_keys, List.nodup_append]
    exact ⟨hn, by simp, fun a ha b hb e => hut (by rw [List.mem_singleton] at hb; rw [← hb, ← e]; exact ha)⟩
  obtain ⟨ht, hte, hl, hlen, hval⟩ := C13_marginal_exact h hE bn w target ev hn r hr
  have hut' : u ≠ target := by
    obtain ⟨-, h1, -⟩ := C13_marginal_exact h' hE' bn w target _ (hnd y0) _ (hru y0 hy0)
    rw [withEv_keys] at h1
    rintro rfl
    exact h1 (by simp)
  have hcard : bn.cardOf u = (bn.valuesOf u).length := w.card_len hu
  have key : ∀ i < bn.cardOf target, ∃ a : Asg N, a target = i ∧ r.getD i 0 = roundEven 4 (bn.marginal target ev a) ∧
      ∀ x (hx : x < (bn.valuesOf u).length), (ru ((bn.valuesOf u)[x])).getD i 0 =
        roundEven 4 (bn.marginal target (withEv ev u ((bn.valuesOf u)[x])) (a.upd u x)) := by
    intro i hi
    obtain ⟨a, hai, hag⟩ := exists_agrees hte hl i
    refine ⟨a, hai, ?_, fun x hx => ?_⟩
    · have := hval a (hai ▸ hi) hag
      rw [hai] at this
      rw [List.getD_eq_getElem?_getD, this]; rfl
    · obtain ⟨-, -, -, -, hv⟩ := C13_marginal_exact h' hE' bn w target _ (hnd _) _ (hru _ (List.getElem_mem hx))
      have h1 : (a.upd u x) target = i := by rw [Asg.upd_ne a x (fun e => hut' e.symm), hai]
      have := hv (a.upd u x) (by rw [h1]; exact hi) (agrees_withEv (agrees_ext_upd hag hut) (by rw [Asg.upd_self]; exact List.getElem?_eq_getElem hx))
      rw [h1] at this
      rw [List.getD_eq_getElem?_getD, this]; rfl
  have hsum : ∀ F : A → ℚ, ((bn.valuesOf u).map F).sum = ∑ x ∈ Finset.range (bn.cardOf u), F ((bn.valuesOf u).getD x y0) := by
    intro F
    rw [hcard]
    generalize bn.valuesOf u = l
    induction l with
    | nil => simp
    | cons b l ih => rw [List.map_cons, List.sum_cons, List.length_cons, Finset.sum_range_succ', ih, add_comm]; rfl
  have hget : ∀ x (hx : x < (bn.valuesOf u).length), (bn.valuesOf u).getD x y0 = (bn.valuesOf u)[x] := fun x hx => by
    rw [List.getD_eq_getElem?_getD, List.getElem?_eq_getElem hx]; rfl
  constructor
  · intro i hi
    obtain ⟨a, -, h1, h2⟩ := key i hi
    rw [hsum, h1]
    have hT := marginal_total w hu hut' hut (fun x => (bn.valuesOf u).getD x y0) a
    have e1 : |∑ x ∈ Finset.range (bn.cardOf u), (ru ((bn.valuesOf u).getD x y0)).getD i 0 - bn.marginal target ev a| ≤ bn.cardOf u / 20000 := by
      rw [hT, ← Finset.sum_sub_distrib]
      refine (Finset.abs_sum_le_sum_abs _ _).trans ?_
      have : ∀ x ∈ Finset.range (bn.cardOf u), |(ru ((bn.valuesOf u).getD x y0)).getD i 0 -
          bn.marginal target (withEv ev u ((bn.valuesOf u).getD x y0)) (a.upd u x)| ≤ 1 / 20000 := by
        intro x hx
        have hx' : x < (bn.valuesOf u).length := hcard ▸ Finset.mem_range.1 hx
        rw [hget x hx', h2 x hx']
        refine (roundEven_close 4 _).trans (by norm_num)
      refine (Finset.sum_le_sum this).trans ?_
      rw [Finset.sum_const, Finset.card_range, nsmul_eq_mul]
      apply le_of_eq; ring
    have e2 : |roundEven 4 (bn.marginal target ev a) - bn.marginal target ev a| ≤ 1 / 20000 := (roundEven_close 4 _).trans (by norm_num)
    have e1' := abs_le.1 e1
    have e2' := abs_le.1 e2
    rw [abs_le]
    constructor <;> linarith only [e1'.1, e1'.2, e2'.1, e2'.2]
  · intro hnn i hi y hy
    obtain ⟨a, -, h1, h2⟩ := key i hi
    obtain ⟨x, hx, rfl⟩ := List.getElem_of_mem hy
    rw [h1, h2 x hx]
    apply roundEven_mono
    rw [marginal_total w hu hut' hut (fun x => (bn.valuesOf u).getD x y0) a, ← hget x hx]
    refine Finset.single_le_sum (f := fun x => bn.marginal target (withEv ev u ((bn.valuesOf u).getD x y0)) (a.upd u x)) (fun z _ => ?_) (Finset.mem_range.2 (hcard ▸ hx))
    exact sumAll_nonneg (joint_nonneg hnn) _

/-- C235 (target and evidence can be exchanged): P(t = x, u = y, ev) is the same number whether `t` or `u` is asked for. -/
theorem C235_exchange (h h' : HashOrder N) (hE hE' : HashOrder (N × A)) (bn : BayesNet N A) (w : bn.WF) (t u : N) (ev : Dict N A) (hn : ev.keys.Nodup)
    (ht : t ∉ ev.keys) (hu : u ∉ ev.keys) (i j : ℕ) (x y : A) (hx : (bn.valuesOf t)[i]? = some x) (hy : (bn.valuesOf u)[j]? = some y)
    (r r' : List ℚ) (hr : marginalVE h hE bn t (withEv ev u y) = .ok r) (hr' : marginalVE h' hE' bn u (withEv ev t x) = .ok r') :
    r[i]? = r'[j]? ∧ r[i]?.isSome := by
  have hnd : ∀ v z, v ∉ ev.keys → (withEv ev v z).keys.Nodup := fun v z hv => by
    rw [withEv_keys, List.nodup_append]
    exact ⟨hn, by simp, fun a ha b hb e => hv (by rw [List.mem_singleton] at hb; rw [← hb, ← e]; exact ha)⟩
  obtain ⟨htV, hte, hl, hlen, hval⟩ := C13_marginal_exact h hE bn w t _ (hnd u y hu) r hr
  obtain ⟨huV, hue, hl', hlen', hval'⟩ := C13_marginal_exact h' hE' bn w u _ (hnd t x ht) r' hr'
  have htu : t ≠ u := by rintro rfl; exact hte (by rw [withEv_keys]; simp)
  have hit : i < bn.cardOf t := w.card_len htV ▸ (List.getElem?_eq_some_iff.1 hx).1
  have hju : j < bn.cardOf u := w.card_len huV ▸ (List.getElem?_eq_some_iff.1 hy).1
  have hlev : bn.LegalEvidence ev := ⟨hn, fun e he => hl.legal e (List.mem_append_left _ he)⟩
  obtain ⟨a0, ha0, hag0⟩ := exists_agrees ht hlev i
  set a := a0.upd u j with ha
  have hat : a t = i := by rw [ha, Asg.upd_ne a0 j htu, ha0]
  have hau : a u = j := by rw [ha, Asg.upd_self]
  have hag : bn.Agrees ev a := agrees_ext_upd hag0 hu
  have e1 := hval a (by rw [hat]; exact hit) (agrees_withEv hag (by rw [hau]; exact hy))
  have e2 := hval' a (by rw [hau]; exact hju) (agrees_withEv hag (by rw [hat]; exact hx))
  rw [hat] at e1
  rw [hau] at e2
  have : bn.marginal t (withEv ev u y) a = bn.marginal u (withEv ev t x) a := by
    unfold BayesNet.marginal
    congr 1
    apply List.filter_congr
    intro v _
    simp only [withEv_keys, List.mem_append, List.mem_singleton, not_or, decide_eq_decide]
    tauto
  rw [e1, e2, this]
  exact ⟨rfl, rfl⟩

/-- Witness: three queries on the fork 1 ← 0 → 2 that are all answered. -/
example : exFork.WF ∧ (marginalVE .id .id exFork 1 []).okAnd (fun r => r = [3/8, 5/8]) ∧ (marginalVE .id .id exFork 1 (withEv [] 2 30)).okAnd (fun r => r.length = 2) ∧
    (marginalVE .id .id exFork 1 (withEv [] 2 31)).okAnd (fun r => r.length = 2) ∧ (marginalVE .id .id exFork 2 (withEv [] 1 20)).okAnd (fun r => r.length = 2) ∧
    exFork.valuesOf 2 = [30, 31] ∧ exFork.valuesOf 1 = [20, 21] :=
  ⟨exFork_wf, by decide +kernel, by decide +kernel, by decide +kernel, by decide +kernel, by decide, by decide⟩

/-- C236: with more evidence `ve_map` never finds a more probable explanation, and if the added evidence is what the first explanation says anyway, the second
explanation is exactly as probable as the first. -/
theorem C236_more_evidence (h h' : HashOrder N) (hE hE' : HashOrder (N × A)) (bn : BayesNet N A) (w : bn.WF) (hnn : bn.Nonneg) (ev ev' : Dict N A)
    (hl : bn.LegalEvidence ev) (hl' : bn.LegalEvidence ev') (hsub : ∀ e ∈ ev, e ∈ ev') :
    ∃ (d d' : Dict N A) (x x' : Asg N), veMap h hE bn ev = .ok d ∧ veMap h' hE' bn ev' = .ok d' ∧
      (∀ v ∈ bn.V, x v < bn.cardOf v ∧ d.get? v = (bn.valuesOf v)[x v]?) ∧ (∀ v ∈ bn.V, x' v < bn.cardOf v ∧ d'.get? v = (bn.valuesOf v)[x' v]?) ∧
      bn.joint x' ≤ bn.joint x ∧ ((∀ e ∈ ev', d.get? e.1 = some e.2) → bn.joint x' = bn.joint x) := by
  obtain ⟨d, x, a1, -, -, a4, -, a6, a7⟩ := C16_map_is_most_probable h hE bn w hnn ev hl
  obtain ⟨d', x', b1, -, -, b4, -, b6, b7⟩ := C16_map_is_most_probable h' hE' bn w hnn ev' hl'
  have hle : bn.joint x' ≤ bn.joint x := a7 x' (fun v hv => (b4 v hv).1) fun e he => b6 e (hsub e he)
  refine ⟨d, d', x, x', a1, b1, a4, b4, hle, fun hd => le_antisymm hle (b7 x (fun v hv => (a4 v hv).1) fun e he => ?_)⟩
  rw [← (a4 e.1 (hl'.legal e he).1).2]
  exact hd e he

/-- Witness: on the fork, the explanation without evidence, used as evidence. -/
example : exFork.Nonneg ∧ (veMap .id .id exFork []).okAnd (fun d => d.length = 3) ∧ exFork.LegalEvidence [(1, 20)] := by
  refine ⟨?_, by decide +kernel, ⟨by decide, by decide⟩⟩
  unfold BayesNet.Nonneg; decide +kernel

end PyBN
