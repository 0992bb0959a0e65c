import Verif.Proofs.Ilp
import Verif.Props.Example
import Mathlib.Data.Fintype.Pi
import Mathlib.Data.Fintype.Lattice
import Mathlib.Analysis.Complex.ExponentialBounds
import Mathlib.Analysis.SpecialFunctions.Log.Basic
import Mathlib.Tactic.Linarith
import Mathlib.Tactic.NormNum

/-!
# C134 - C136: `ilp_map`
-/

set_option linter.unusedSectionVars false

namespace PyBN
variable {N A : Type _} [DecidableEq N] [DecidableEq A]
namespace BayesNet
variable {bn : BayesNet N A}

/-- The values of the variables that describe a complete assignment: the entry of each table the assignment selects is 1, all others 0. -/
def Describes (bn : BayesNet N A) (s : N × ℤ → ℤ) (a : Asg N) : Prop :=
  ∀ v ∈ bn.V, ∀ i < (bn.cptOf v).length, s (v, (i : ℤ)) = if i = enc bn.cardOf (v :: bn.parentsOf v) a then 1 else 0

/-- A sum of zeros and ones that is one has exactly one one. -/
theorem sum_one {f : ℕ → ℤ} : ∀ {l : List ℕ}, l.Nodup → (∀ i ∈ l, f i = 0 ∨ f i = 1) → (l.map f).sum = 1 →
    ∃ i ∈ l, ∀ j ∈ l, f j = if j = i then 1 else 0 := by
  intro l
  induction l with
  | nil => intro _ _ h; simp at h
  | cons x l ih =>
    intro hn h hs
    rw [List.map_cons, List.sum_cons] at hs
    obtain ⟨hx, hn⟩ := List.nodup_cons.1 hn
    have hnn : ∀ y ∈ l, 0 ≤ f y := fun y hy => by rcases h y (by simp [hy]) with h | h <;> omega
    rcases h x (by simp) with h0 | h1
    · obtain ⟨i, hi, hj⟩ := ih hn (fun i hi => h i (by simp [hi])) (by omega)
      refine ⟨i, by simp [hi], fun j hj' => ?_⟩
      rcases List.mem_cons.1 hj' with rfl | hj'
      · rw [h0, if_neg (by rintro rfl; exact hx hi)]
      · exact hj j hj'
    · have hz : (l.map f).sum = 0 := by omega
      refine ⟨x, by simp, fun j hj' => ?_⟩
      rcases List.mem_cons.1 hj' with rfl | hj'
      · rw [h1, if_pos rfl]
      · rw [if_neg (by intro e; rw [e] at hj'; exact hx hj')]
        have h1 := List.single_le_sum (l := l.map f) (by
          intro y hy
          obtain ⟨z, hz, rfl⟩ := List.mem_map.1 hy
          exact hnn z hz) (f j) (List.mem_map_of_mem hj')
        have := hnn j hj'
        omega

theorem sum_indicator {f : ℕ → ℤ} {i : ℕ} : ∀ {l : List ℕ}, l.Nodup → i ∈ l → (∀ j ∈ l, f j = if j = i then 1 else 0) → (l.map f).sum = 1 := by
  intro l
  induction l with
  | nil => intro _ h; cases h
  | cons x l ih =>
    intro hn hi h
    obtain ⟨hx, hn⟩ := List.nodup_cons.1 hn
    rw [List.map_cons, List.sum_cons, h x (by simp)]
    by_cases hxi : x = i
    · subst hxi
      have : (l.map f).sum = 0 := by
        apply List.sum_eq_zero
        intro y hy
        obtain ⟨z, hz, rfl⟩ := List.mem_map.1 hy
        rw [h z (by simp [hz]), if_neg (by rintro rfl; exact hx hz)]
      rw [if_pos rfl, this]; rfl
    · rw [if_neg hxi, ih hn (by rcases List.mem_cons.1 hi with h | h; exact absurd h.symm hxi; exact h) fun j hj => h j (by simp [hj])]; rfl

theorem one_le_sum {α : Type _} {f : α → ℤ} {l : List α} (hn : ∀ x ∈ l, 0 ≤ f x) {x : α} (hx : x ∈ l) (h1 : f x = 1) : 1 ≤ (l.map f).sum := by
  rw [← h1]
  refine List.single_le_sum ?_ _ (List.mem_map_of_mem hx)
  intro y hy
  obtain ⟨z, hz, rfl⟩ := List.mem_map.1 hy
  exact hn z hz

theorem enc_mod {c : N → ℕ} {v : N} {o : List N} {a : Asg N} (h : a v < c v) : enc c (v :: o) a % c v = a v := by
  simp only [enc]
  rw [Nat.add_mul_mod_self_left, Nat.mod_eq_of_lt h]

theorem inRange_fam (w : bn.WF) {a : Asg N} (ha : InRange bn.cardOf bn.V a) {v : N} (hv : v ∈ bn.V) :
    InRange bn.cardOf (v :: bn.parentsOf v) a := fun u hu => ha u (w.fam_mem hv u hu)

/-- The feasible solutions of the program. -/
theorem feasible_iff (hE : HashOrder (N × A)) (hI : HashOrder ℤ) (w : bn.WF) (we : bn.EdgeWF) {m : Ilp N A}
    (hm : ilpModel hE hI bn = .ok m) (s : N × ℤ → ℤ) :
    m.Feasible s ↔ ∃ a, InRange bn.cardOf bn.V a ∧ Describes bn s a := by
  obtain ⟨m', hm', hk, hx, hr, hs, ho⟩ := ilpModel_ok hE hI w we
  rw [hm] at hm'
  cases hm'
  have h01 : (∀ x ∈ m.vars, s x.key = 0 ∨ s x.key = 1) ↔ ∀ v ∈ bn.V, ∀ i < (bn.cptOf v).length, s (v, (i : ℤ)) = 0 ∨ s (v, (i : ℤ)) = 1 := by
    have : (∀ x ∈ m.vars, s x.key = 0 ∨ s x.key = 1) ↔ ∀ k ∈ m.vars.map LpVar.key, s k = 0 ∨ s k = 1 := by simp
    rw [this, hk]
    constructor
    · intro h v hv i hi
      exact h _ (mem_ilpKeys.2 ⟨hv, by omega, by exact_mod_cast hi⟩)
    · rintro h ⟨v, j⟩ hkm
      obtain ⟨hv, h0, h1⟩ := mem_ilpKeys.1 hkm
      have := h v hv j.toNat (by omega)
      rwa [Int.toNat_of_nonneg h0] at this
  unfold Ilp.Feasible
  rw [h01]
  constructor
  · rintro ⟨hb, hrow⟩
    -- one entry of each table
    have hpick : ∀ v ∈ bn.V, ∃ i < (bn.cptOf v).length, ∀ j < (bn.cptOf v).length, s (v, (j : ℤ)) = if j = i then 1 else 0 := by
      intro v hv
      obtain ⟨r, hrm, rfl⟩ := hs v hv
      have h := hrow _ hrm
      simp only [LpRow.Holds, List.map_map] at h
      obtain ⟨i, hi, hj⟩ := sum_one (f := fun i : ℕ => s (v, (i : ℤ))) List.nodup_range (fun i hi => hb v hv i (List.mem_range.1 hi)) h
      exact ⟨i, List.mem_range.1 hi, fun j hj' => hj j (List.mem_range.2 hj')⟩
    have hasg : ∀ v, ∃ b : Asg N, v ∈ bn.V → InRange bn.cardOf (v :: bn.parentsOf v) b ∧
        ∀ j < (bn.cptOf v).length, s (v, (j : ℤ)) = if j = enc bn.cardOf (v :: bn.parentsOf v) b then 1 else 0 := by
      intro v
      by_cases hv : v ∈ bn.V
      · obtain ⟨i, hi, hj⟩ := hpick v hv
        obtain ⟨b, hb, rfl⟩ := enc_surj (w.fam_nodup v hv) (c := bn.cardOf) (by rw [← w.cpt_len v hv]; exact hi)
        exact ⟨b, fun _ => ⟨hb, hj⟩⟩
      · exact ⟨fun _ => 0, fun h => absurd h hv⟩
    choose b hbb using hasg
    -- the children agree with their parents
    have hagree : ∀ v ∈ bn.V, ∀ p ∈ bn.parentsOf v, b v p = b p p := by
      intro v hv p hp
      have hpV := w.parents_mem v hv p hp
      obtain ⟨hpr, hps⟩ := hbb p hpV
      obtain ⟨hvr, hvs⟩ := hbb v hv
      have hlt := enc_lt_cpt w hpV hpr
      obtain ⟨r, hrm, is, his, rfl⟩ := ho p hpV _ hlt v ((we.iff p v).2 hp)
      have h := hrow _ hrm
      simp only [LpRow.Holds, List.map_map] at h
      rw [hps _ hlt, if_pos rfl, enc_mod (hpr p (by simp))] at *
      by_contra hne
      have : (is.map (s ∘ fun j => (v, j))).sum = 0 := by
        apply List.sum_eq_zero
        intro y hy
        obtain ⟨j, hj, rfl⟩ := List.mem_map.1 hy
        obtain ⟨c, hc, rfl, hcp⟩ := (his j).1 hj
        simp only [Function.comp_apply]
        rw [hvs _ (enc_lt_cpt w hv hc), if_neg]
        intro e
        exact hne (by rw [← enc_inj hc hvr e p (by simp [hp]), hcp])
      rw [this] at h
      omega
    refine ⟨fun v => b v v, fun v hv => (hbb v hv).1 v (by simp), fun v hv i hi => ?_⟩
    rw [(hbb v hv).2 i hi]
    have : enc bn.cardOf (v :: bn.parentsOf v) (b v) = enc bn.cardOf (v :: bn.parentsOf v) fun v => b v v := by
      apply enc_congr
      intro u hu
      rcases List.mem_cons.1 hu with rfl | hu
      · rfl
      · exact hagree v hv u hu
    rw [this]
  · rintro ⟨a, ha, hd⟩
    have hb : ∀ v ∈ bn.V, ∀ i < (bn.cptOf v).length, s (v, (i : ℤ)) = 0 ∨ s (v, (i : ℤ)) = 1 := by
      intro v hv i hi
      rw [hd v hv i hi]
      split_ifs <;> simp
    have hnn : ∀ v ∈ bn.V, ∀ i < (bn.cptOf v).length, 0 ≤ s (v, (i : ℤ)) := fun v hv i hi => by
      rcases hb v hv i hi with h | h <;> omega
    refine ⟨hb, fun r hrm => ?_⟩
    have hone : ∀ v ∈ bn.V, s (v, ((enc bn.cardOf (v :: bn.parentsOf v) a : ℕ) : ℤ)) = 1 := fun v hv => by
      rw [hd v hv _ (enc_lt_cpt w hv (inRange_fam w ha hv)), if_pos rfl]
    rcases hr r hrm with ⟨v, hv, rfl⟩ | ⟨v, hv, i, hi, c, hc, is, his, rfl⟩ | ⟨v, hv, hp, i, hi, l, hl, rfl⟩
    · simp only [LpRow.Holds, List.map_map]
      exact sum_indicator List.nodup_range (List.mem_range.2 (enc_lt_cpt w hv (inRange_fam w ha hv))) fun j hj =>
        hd v hv j (List.mem_range.1 hj)
    · simp only [LpRow.Holds, List.map_map]
      have hcV := (children_mem w we hc).1
      have hnn' : ∀ j ∈ is, 0 ≤ (s ∘ fun j => (c, j)) j := by
        intro j hj
        obtain ⟨b, hbr, rfl, _⟩ := (his j).1 hj
        exact hnn c hcV _ (enc_lt_cpt w hcV hbr)
      rw [hd v hv i hi]
      split_ifs with hie
      · refine one_le_sum hnn' ((his _).2 ⟨a, inRange_fam w ha hcV, rfl, ?_⟩) (hone c hcV)
        rw [hie, enc_mod (ha v hv)]
      · exact List.sum_nonneg fun y hy => by
          obtain ⟨j, hj, rfl⟩ := List.mem_map.1 hy
          exact hnn' j hj
    · simp only [LpRow.Holds]
      have hnn' : ∀ k ∈ l, 0 ≤ s k := by
        intro k hk
        obtain ⟨p, hp, j, hj, rfl, _⟩ := (hl k).1 hk
        exact hnn p (w.parents_mem v hv p hp) j hj
      rw [hd v hv i hi]
      split_ifs with hie
      · obtain ⟨p, hp⟩ := List.exists_mem_of_ne_nil _ hp
        have hpV := w.parents_mem v hv p hp
        refine one_le_sum hnn' ((hl _).2 ⟨p, hp, _, enc_lt_cpt w hpV (inRange_fam w ha hpV), rfl, a, inRange_fam w ha hv, hie, ?_⟩) (hone p hpV)
        rw [enc_mod (ha p hpV)]
      · exact List.sum_nonneg fun y hy => by
          obtain ⟨j, hj, rfl⟩ := List.mem_map.1 hy
          exact hnn' j hj

/-- C134: the integer program `ilp_map` builds is exact: its variables are the table entries (one each), and its feasible solutions are
exactly the complete assignments of the network, each node selecting the entry of its table the assignment selects. -/
theorem C134_ilp_feasible (hE : HashOrder (N × A)) (hI : HashOrder ℤ) (bn : BayesNet N A) (w : bn.WF) (we : bn.EdgeWF) :
    ∃ m, ilpModel hE hI bn = .ok m ∧ (m.vars.map LpVar.key).Nodup ∧
      (∀ v j, (v, j) ∈ m.vars.map LpVar.key ↔ v ∈ bn.V ∧ 0 ≤ j ∧ j < (bn.cptOf v).length) ∧
      (∀ s, m.Feasible s → ∃ a, InRange bn.cardOf bn.V a ∧ Describes bn s a) ∧
      ∀ a, InRange bn.cardOf bn.V a → ∃ s, m.Feasible s ∧ Describes bn s a := by
  obtain ⟨m, hm, hk, _⟩ := ilpModel_ok hE hI w we
  refine ⟨m, hm, ?_, fun v j => by rw [hk]; exact mem_ilpKeys, fun s hs => (feasible_iff hE hI w we hm s).1 hs, fun a ha => ?_⟩
  · rw [hk]
    unfold ilpKeys
    rw [List.nodup_flatMap]
    refine ⟨fun v _ => List.nodup_range.map fun i j h => by simpa using h, w.nodup.imp fun {u v} huv => ?_⟩
    intro k h1 h2
    obtain ⟨i, _, rfl⟩ := List.mem_map.1 h1
    obtain ⟨j, _, h⟩ := List.mem_map.1 h2
    exact huv (congrArg Prod.fst h).symm
  · refine ⟨fun k => if k.2 = enc bn.cardOf (k.1 :: bn.parentsOf k.1) a then 1 else 0, ?_, ?_⟩
    · exact (feasible_iff hE hI w we hm _).2 ⟨a, ha, fun v _ i _ => by simp⟩
    · exact fun v _ i _ => by simp

/-! ## The objective -/

theorem sum_pick {f : ℕ → ℤ} {g : ℕ → ℚ} {i : ℕ} : ∀ {l : List ℕ}, l.Nodup → i ∈ l → (∀ j ∈ l, f j = if j = i then 1 else 0) →
    (l.map fun j => (f j : ℚ) * g j).sum = g i := by
  intro l
  induction l with
  | nil => intro _ h; cases h
  | cons x l ih =>
    intro hn hi h
    obtain ⟨hx, hn⟩ := List.nodup_cons.1 hn
    rw [List.map_cons, List.sum_cons, h x (by simp)]
    by_cases hxi : x = i
    · subst hxi
      have : (l.map fun j => (f j : ℚ) * g j).sum = 0 := by
        apply List.sum_eq_zero
        intro y hy
        obtain ⟨z, hz, rfl⟩ := List.mem_map.1 hy
        rw [h z (by simp [hz]), if_neg (by rintro rfl; exact hx hz)]
        simp
      rw [if_pos rfl, this]; simp
    · rw [if_neg hxi, ih hn (by rcases List.mem_cons.1 hi with h | h; exact absurd h.symm hxi; exact h) fun j hj => h j (by simp [hj])]
      simp

theorem cost_eq (hE : HashOrder (N × A)) (hI : HashOrder ℤ) (w : bn.WF) (we : bn.EdgeWF) {m : Ilp N A}
    (hm : ilpModel hE hI bn = .ok m) {s : N × ℤ → ℤ} {a : Asg N} (ha : InRange bn.cardOf bn.V a) (hd : Describes bn s a) :
    m.cost s = (bn.V.map fun v => ilpWeight (bn.prob v a)).sum := by
  obtain ⟨m', hm', hk, hx, _⟩ := ilpModel_ok hE hI w we
  rw [hm] at hm'
  cases hm'
  let W : N × ℤ → ℚ := fun k => ilpWeight (((bn.cptOf k.1)[k.2.toNat]?).getD 0)
  have h1 : m.cost s = ((m.vars.map LpVar.key).map fun k => (s k : ℚ) * W k).sum := by
    unfold Ilp.cost
    rw [List.map_map]
    congr 1
    apply List.map_congr_left
    intro x hxm
    rw [(hx x hxm).1]
    rfl
  rw [h1, hk]
  have h2 : ∀ l : List N, (∀ v ∈ l, v ∈ bn.V) →
      ((l.flatMap fun v => (List.range (bn.cptOf v).length).map fun (i : ℕ) => (v, (i : ℤ))).map fun k => (s k : ℚ) * W k).sum =
      (l.map fun v => ilpWeight (bn.prob v a)).sum := by
    intro l
    induction l with
    | nil => intro _; rfl
    | cons v l ih =>
      intro hl
      have hv := hl v (by simp)
      rw [List.flatMap_cons, List.map_append, List.sum_append, ih fun u hu => hl u (by simp [hu]), List.map_cons, List.sum_cons, List.map_map]
      congr 1
      have := sum_pick (f := fun i : ℕ => s (v, (i : ℤ))) (g := fun i : ℕ => W (v, (i : ℤ))) List.nodup_range
        (List.mem_range.2 (enc_lt_cpt w hv (inRange_fam w ha hv))) fun j hj => hd v hv j (List.mem_range.1 hj)
      simp only [W, Int.toNat_natCast] at this
      exact this
  exact h2 bn.V fun _ h => h

theorem ilpWeight_near (x : ℚ) : |(ilpWeight x : ℝ) + Real.log x| ≤ 1 / 2000 := by
  unfold ilpWeight
  push_cast
  have h1 := Int.floor_le (-Real.log x * 1000 + 1 / 2)
  have h2 := Int.lt_floor_add_one (-Real.log x * 1000 + 1 / 2)
  rw [abs_le]
  constructor <;> linarith

/-- All table entries are positive. -/
def PosTables (bn : BayesNet N A) : Prop := ∀ v ∈ bn.V, ∀ x ∈ bn.cptOf v, 0 < x

theorem prob_pos (w : bn.WF) (hp : PosTables bn) {a : Asg N} (ha : InRange bn.cardOf bn.V a) {v : N} (hv : v ∈ bn.V) : 0 < bn.prob v a := by
  have h := enc_lt_cpt w hv (inRange_fam w ha hv)
  unfold prob
  rw [List.getElem?_eq_getElem h]
  exact hp v hv _ (List.getElem_mem h)

/-- The cost of an assignment is minus the logarithm of its probability, up to `1/2000` per node. -/
theorem cost_near (w : bn.WF) (hp : PosTables bn) {a : Asg N} (ha : InRange bn.cardOf bn.V a) :
    0 < bn.joint a ∧ |(((bn.V.map fun v => ilpWeight (bn.prob v a)).sum : ℚ) : ℝ) + Real.log (bn.joint a)| ≤ bn.V.length / 2000 := by
  have h : ∀ l : List N, (∀ v ∈ l, v ∈ bn.V) → 0 < (l.map fun v => bn.prob v a).prod ∧
      |(((l.map fun v => ilpWeight (bn.prob v a)).sum : ℚ) : ℝ) + Real.log ((l.map fun v => bn.prob v a).prod : ℚ)| ≤ l.length / 2000 := by
    intro l
    induction l with
    | nil => intro _; simp
    | cons v l ih =>
      intro hl
      obtain ⟨h1, h2⟩ := ih fun u hu => hl u (by simp [hu])
      have hv := prob_pos w hp ha (hl v (by simp))
      have hv' : (0 : ℝ) < (bn.prob v a : ℝ) := by exact_mod_cast hv
      have h1' : (0 : ℝ) < ((l.map fun v => bn.prob v a).prod : ℚ) := by exact_mod_cast h1
      refine ⟨by rw [List.map_cons, List.prod_cons]; exact mul_pos hv h1, ?_⟩
      have h3 := ilpWeight_near (bn.prob v a)
      rw [List.map_cons, List.sum_cons, List.map_cons, List.prod_cons, List.length_cons]
      rw [abs_le] at h2 h3 ⊢
      have e : Real.log ((bn.prob v a * (l.map fun v => bn.prob v a).prod : ℚ) : ℝ) =
          Real.log (bn.prob v a) + Real.log ((l.map fun v => bn.prob v a).prod : ℚ) := by
        rw [Rat.cast_mul]
        exact Real.log_mul hv'.ne' h1'.ne'
      rw [e]
      rw [Rat.cast_add]
      push_cast at *
      constructor <;> linarith [h2.1, h2.2, h3.1, h3.2]
  exact h bn.V fun _ h => h

/-- The solver does its job on the program of this network: it returns a feasible solution of least cost. -/
def Solves (hE : HashOrder (N × A)) (hI : HashOrder ℤ) (bn : BayesNet N A) (solve : Ilp N A → N × ℤ → ℤ) : Prop :=
  ∀ m, ilpModel hE hI bn = .ok m → m.Optimal (solve m)

/-- What is printed is the assignment `a`: one line per node, giving its value and those of its parents. -/
def Prints (bn : BayesNet N A) (out : List (N × A × List (N × A))) (a : Asg N) : Prop :=
  (out.map Prod.fst).Perm bn.V ∧ ∀ t ∈ out, (bn.valuesOf t.1)[a t.1]? = some t.2.1 ∧ t.2.2.map Prod.fst = bn.parentsOf t.1 ∧
    ∀ pv ∈ t.2.2, (bn.valuesOf pv.1)[a pv.1]? = some pv.2

theorem ilp_run (hE : HashOrder (N × A)) (hI : HashOrder ℤ) (w : bn.WF) (we : bn.EdgeWF) {solve : Ilp N A → N × ℤ → ℤ}
    (hs : Solves hE hI bn solve) (ev : Dict N A) :
    ∃ out a, ilpMap hE hI solve bn ev = .ok out ∧ InRange bn.cardOf bn.V a ∧ Prints bn out a ∧
      ∀ b, InRange bn.cardOf bn.V b → (bn.V.map fun v => ilpWeight (bn.prob v a)).sum ≤ (bn.V.map fun v => ilpWeight (bn.prob v b)).sum := by
  obtain ⟨m, hm, hk, hx, _⟩ := ilpModel_ok hE hI w we
  obtain ⟨hf, hopt⟩ := hs m hm
  obtain ⟨a, ha, hd⟩ := (feasible_iff hE hI w we hm _).1 hf
  refine ⟨_, a, by unfold ilpMap; rw [hm, Py.bind_ok]; rfl, ha, ⟨?_, ?_⟩, fun b hb => ?_⟩
  · have h1 : ((m.vars.filter fun x => decide (solve m x.key = 1)).map LpVar.name).map Prod.fst =
        ((ilpKeys bn).filter fun k => decide (solve m k = 1)).map Prod.fst := by
      rw [← hk, List.filter_map, List.map_map, List.map_map]
      apply List.map_congr_left
      intro x hxm
      exact (hx x (List.mem_filter.1 hxm).1).2.1
    rw [h1]
    have hmem : ∀ k, k ∈ (ilpKeys bn).filter (fun k => decide (solve m k = 1)) →
        k.1 ∈ bn.V ∧ k.2 = enc bn.cardOf (k.1 :: bn.parentsOf k.1) a := by
      rintro ⟨v, j⟩ hkm
      obtain ⟨h2, h3⟩ := List.mem_filter.1 hkm
      obtain ⟨hv, hj0, hj1⟩ := mem_ilpKeys.1 h2
      refine ⟨hv, ?_⟩
      have h4 := hd v hv j.toNat (by omega)
      rw [Int.toNat_of_nonneg hj0, of_decide_eq_true h3] at h4
      split_ifs at h4 with he
      · simp only
        omega
      · omega
    have hkn : (ilpKeys bn).Nodup := by
      obtain ⟨m', hm', hn, _⟩ := C134_ilp_feasible hE hI bn w we
      rw [hm] at hm'
      cases hm'
      rwa [hk] at hn
    rw [List.perm_ext_iff_of_nodup _ w.nodup]
    · intro v
      rw [List.mem_map]
      constructor
      · rintro ⟨k, hkm, rfl⟩
        exact (hmem k hkm).1
      · intro hv
        have hlt := enc_lt_cpt w hv (inRange_fam w ha hv)
        refine ⟨(v, (enc bn.cardOf (v :: bn.parentsOf v) a : ℕ)), List.mem_filter.2 ⟨mem_ilpKeys.2 ⟨hv, by omega, by exact_mod_cast hlt⟩, ?_⟩, rfl⟩
        rw [hd v hv _ hlt, if_pos rfl]; rfl
    · refine (hkn.filter _).map_on fun x hx y hy hxy => ?_
      obtain ⟨x1, x2⟩ := x
      obtain ⟨y1, y2⟩ := y
      simp only at hxy
      subst hxy
      rw [Prod.mk.injEq]
      exact ⟨rfl, (hmem _ hx).2.trans (hmem _ hy).2.symm⟩
  · intro t ht
    obtain ⟨x, hxm, rfl⟩ := List.mem_map.1 ht
    obtain ⟨hxv, hx1⟩ := List.mem_filter.1 hxm
    obtain ⟨_, h2, h3⟩ := hx x hxv
    have hkm : (x.key.1, x.key.2) ∈ ilpKeys bn := by rw [← hk]; exact List.mem_map_of_mem hxv
    obtain ⟨hv, hj0, hj1⟩ := mem_ilpKeys.1 hkm
    have h4 := hd x.key.1 hv x.key.2.toNat (by omega)
    rw [Int.toNat_of_nonneg hj0] at h4
    rw [show (x.key.1, x.key.2) = x.key from rfl, of_decide_eq_true hx1] at h4
    split_ifs at h4 with he
    · rw [h2]
      exact h3 a (inRange_fam w ha hv) (by omega)
    · omega
  · rw [← cost_eq hE hI w we hm ha hd]
    have hd' : Describes bn (fun k => if k.2 = enc bn.cardOf (k.1 :: bn.parentsOf k.1) b then 1 else 0) b := fun v _ i _ => by simp
    rw [← cost_eq hE hI w we hm hb hd']
    exact hopt _ ((feasible_iff hE hI w we hm _).2 ⟨b, hb, hd'⟩)

/-- C135: with a solver that returns a feasible solution of least cost and positive tables, `ilp_map` prints one complete assignment
(for every node its value and the values of its parents), and no assignment is more than `exp(n/1000)` times as probable, `n` being
the number of nodes.  The evidence plays no part. -/
theorem C135_ilp_map (hE : HashOrder (N × A)) (hI : HashOrder ℤ) (bn : BayesNet N A) (w : bn.WF) (we : bn.EdgeWF) (hp : PosTables bn)
    (solve : Ilp N A → N × ℤ → ℤ) (hs : Solves hE hI bn solve) :
    ∃ out a, (∀ ev, ilpMap hE hI solve bn ev = .ok out) ∧ InRange bn.cardOf bn.V a ∧ Prints bn out a ∧
      ∀ b, InRange bn.cardOf bn.V b → (bn.joint b : ℝ) ≤ Real.exp (bn.V.length / 1000) * bn.joint a := by
  obtain ⟨out, a, h1, ha, hpr, hmin⟩ := ilp_run hE hI w we hs []
  refine ⟨out, a, fun ev => h1, ha, hpr, fun b hb => ?_⟩
  obtain ⟨pa, na⟩ := cost_near w hp ha
  obtain ⟨pb, nb⟩ := cost_near w hp hb
  have hle : (((bn.V.map fun v => ilpWeight (bn.prob v a)).sum : ℚ) : ℝ) ≤ ((bn.V.map fun v => ilpWeight (bn.prob v b)).sum : ℚ) := by
    exact_mod_cast hmin b hb
  rw [abs_le] at na nb
  have pa' : (0 : ℝ) < bn.joint a := by exact_mod_cast pa
  have pb' : (0 : ℝ) < bn.joint b := by exact_mod_cast pb
  have hl : Real.log (bn.joint b) ≤ bn.V.length / 1000 + Real.log (bn.joint a) := by linarith [na.1, na.2, nb.1, nb.2]
  calc (bn.joint b : ℝ) = Real.exp (Real.log (bn.joint b)) := (Real.exp_log pb').symm
    _ ≤ Real.exp (bn.V.length / 1000 + Real.log (bn.joint a)) := Real.exp_le_exp.2 hl
    _ = _ := by rw [Real.exp_add, Real.exp_log pa']

/-- A solver as demanded exists: the program has an optimal solution. -/
theorem C135_solver_exists (hE : HashOrder (N × A)) (hI : HashOrder ℤ) (bn : BayesNet N A) (w : bn.WF) (we : bn.EdgeWF) :
    ∃ solve, Solves hE hI bn solve := by
  obtain ⟨m, hm, _⟩ := C134_ilp_feasible hE hI bn w we
  let T := ∀ v : {v // v ∈ bn.V}, Fin (bn.cardOf v.1)
  let asg : T → Asg N := fun t v => if h : v ∈ bn.V then t ⟨v, h⟩ else 0
  have hasg : ∀ t, InRange bn.cardOf bn.V (asg t) := fun t v hv => by
    simp only [asg, dif_pos hv]; exact (t ⟨v, hv⟩).2
  haveI : Nonempty T := ⟨fun v => ⟨0, card_pos w v.2⟩⟩
  haveI : Finite {v // v ∈ bn.V} := List.finite_toSet bn.V
  obtain ⟨t, ht⟩ := Finite.exists_min fun t : T => (bn.V.map fun v => ilpWeight (bn.prob v (asg t))).sum
  have hd : ∀ a, Describes bn (fun k => if k.2 = enc bn.cardOf (k.1 :: bn.parentsOf k.1) a then 1 else 0) a := fun a v _ i _ => by simp
  refine ⟨fun _ k => if k.2 = enc bn.cardOf (k.1 :: bn.parentsOf k.1) (asg t) then 1 else 0, fun m' hm' => ?_⟩
  rw [hm] at hm'
  cases hm'
  refine ⟨(feasible_iff hE hI w we hm _).2 ⟨_, hasg t, hd _⟩, fun s hs => ?_⟩
  obtain ⟨a, ha, hda⟩ := (feasible_iff hE hI w we hm s).1 hs
  rw [cost_eq hE hI w we hm (hasg t) (hd _), cost_eq hE hI w we hm ha hda]
  have h := ht fun v => ⟨a v.1, ha v.1 v.2⟩
  refine h.trans (le_of_eq ?_)
  congr 1
  apply List.map_congr_left
  intro v hv
  congr 1
  unfold prob
  congr 2
  apply enc_congr
  intro u hu
  simp only [asg, dif_pos (w.fam_mem hv u hu)]

/-- C136, the part that holds: without evidence, an assignment that is more than `exp(n/1000)` times as probable as every other one is
what `ilp_map` prints.  Missing: evidence, and maxima by a smaller margin; see `C136_false`. -/
theorem C136_ilp_map_partial (hE : HashOrder (N × A)) (hI : HashOrder ℤ) (bn : BayesNet N A) (w : bn.WF) (we : bn.EdgeWF) (hp : PosTables bn)
    (solve : Ilp N A → N × ℤ → ℤ) (hs : Solves hE hI bn solve) (b : Asg N) (hb : InRange bn.cardOf bn.V b)
    (hmax : ∀ a, InRange bn.cardOf bn.V a → (∃ v ∈ bn.V, a v ≠ b v) → Real.exp (bn.V.length / 1000) * bn.joint a < bn.joint b) :
    ∃ out, ilpMap hE hI solve bn [] = .ok out ∧ Prints bn out b := by
  obtain ⟨out, a, h1, ha, hpr, hle⟩ := C135_ilp_map hE hI bn w we hp solve hs
  refine ⟨out, h1 [], ?_⟩
  have hab : ∀ v ∈ bn.V, a v = b v := by
    by_contra h
    push Not at h
    exact absurd (hle b hb) (not_le.2 (hmax a ha h))
  refine ⟨hpr.1, fun t ht => ?_⟩
  obtain ⟨h2, h3, h4⟩ := hpr.2 t ht
  have htV : t.1 ∈ bn.V := hpr.1.mem_iff.1 (List.mem_map_of_mem ht)
  refine ⟨by rw [← hab _ htV]; exact h2, h3, fun pv hpv => ?_⟩
  rw [← hab _ (w.parents_mem _ htV _ (by rw [← h3]; exact List.mem_map_of_mem hpv))]
  exact h4 pv hpv

/-- Nodes 1 and 2 with the common parent 0; all tables near 1/2. -/
def ilpNet : BayesNet ℕ ℕ where
  V := [0, 1, 2]
  E := [(0, [1, 2]), (1, []), (2, [])]
  F := [(0, ⟨[], [0, 1], [2499/5000, 2501/5000]⟩),
        (1, ⟨[0], [0, 1], [5003/10000, 4997/10000, 1/2, 1/2]⟩),
        (2, ⟨[0], [0, 1], [5003/10000, 4997/10000, 1/2, 1/2]⟩)]

theorem ilpNet_wf : ilpNet.WF := .of_dec _ (by decide) (by decide)
theorem ilpNet_edgeWf : ilpNet.EdgeWF := .of_dec _ (by decide) (by decide) (by decide) (by decide)
theorem ilpNet_pos : PosTables ilpNet := by unfold PosTables; decide +kernel

/-- Witness for `C136_ilp_map_partial` (and C135): a net of one node with a clear maximum. -/
def ilpOne : BayesNet ℕ ℕ where
  V := [0]
  E := [(0, [])]
  F := [(0, ⟨[], [7, 8], [9/10, 1/10]⟩)]

theorem ilpOne_wf : ilpOne.WF := .of_dec _ (by decide) (by decide)
theorem ilpOne_edgeWf : ilpOne.EdgeWF := .of_dec _ (by decide) (by decide) (by decide) (by decide)
theorem ilpOne_pos : PosTables ilpOne := by unfold PosTables; decide +kernel

theorem ilpOne_max : InRange ilpOne.cardOf ilpOne.V (fun _ => 0) ∧ ∀ a, InRange ilpOne.cardOf ilpOne.V a →
    (∃ v ∈ ilpOne.V, a v ≠ (fun _ => 0) v) → Real.exp (ilpOne.V.length / 1000) * ilpOne.joint a < ilpOne.joint fun _ => 0 := by
  refine ⟨by unfold InRange; decide, fun a ha hne => ?_⟩
  have h0 : a 0 = 1 := by
    have h1 : a 0 < 2 := ha 0 (by decide)
    obtain ⟨v, hv, h⟩ := hne
    have : v = 0 := by simpa [ilpOne] using hv
    subst this
    simp only at h
    omega
  have hj : ilpOne.joint a = 1 / 10 := by
    have : ilpOne.joint a = ilpOne.joint fun _ => 1 := by
      unfold joint
      congr 1
      apply List.map_congr_left
      intro v hv
      have : v = 0 := by simpa [ilpOne] using hv
      subst this
      unfold prob
      rw [enc_congr (b := fun _ => 1)]
      intro u hu
      have : u = 0 := by simpa [ilpOne, parentsOf, Dict.get?] using hu
      rw [this, h0]
    rw [this]; decide +kernel
  have hj0 : (ilpOne.joint fun _ => 0) = 9 / 10 := by decide +kernel
  rw [hj, hj0]
  have h1 : Real.exp (ilpOne.V.length / 1000) ≤ Real.exp 1 := Real.exp_le_exp.2 (by norm_num [ilpOne])
  have h2 := Real.exp_one_lt_d9
  push_cast
  linarith

/-! ### The rounded weights of `ilpNet` -/

theorem weight_le {x : ℚ} {k : ℤ} (h : -Real.log x * 1000 + 1 / 2 < k + 1) : ilpWeight x ≤ k / 1000 := by
  unfold ilpWeight
  have : ⌊-Real.log x * 1000 + 1 / 2⌋ ≤ k := Int.lt_add_one_iff.1 (Int.floor_lt.2 (by exact_mod_cast h))
  have : ((⌊-Real.log x * 1000 + 1 / 2⌋ : ℤ) : ℚ) ≤ k := by exact_mod_cast this
  linarith

theorem le_weight {x : ℚ} {k : ℤ} (h : (k : ℝ) ≤ -Real.log x * 1000 + 1 / 2) : (k : ℚ) / 1000 ≤ ilpWeight x := by
  unfold ilpWeight
  have : k ≤ ⌊-Real.log x * 1000 + 1 / 2⌋ := Int.le_floor.2 h
  have : (k : ℚ) ≤ ((⌊-Real.log x * 1000 + 1 / 2⌋ : ℤ) : ℚ) := by exact_mod_cast this
  linarith

theorem log_half (y : ℝ) (hy : 0 < y) : Real.log (y / 2) = Real.log y - Real.log 2 := Real.log_div hy.ne' (by norm_num)

theorem w1 : (694 : ℚ) / 1000 ≤ ilpWeight (2499/5000) := by
  refine le_weight (k := 694) ?_
  have h := Real.log_le_sub_one_of_pos (x := 4998/5000) (by norm_num)
  have e : ((2499/5000 : ℚ) : ℝ) = (4998/5000) / 2 := by norm_num
  rw [e, log_half _ (by norm_num)]
  have := Real.log_two_gt_d9
  push_cast
  linarith

theorem w2 : ilpWeight (2501/5000) ≤ (693 : ℚ) / 1000 := by
  refine weight_le (k := 693) ?_
  have h : 0 ≤ Real.log (5002/5000) := Real.log_nonneg (by norm_num)
  have e : ((2501/5000 : ℚ) : ℝ) = (5002/5000) / 2 := by norm_num
  rw [e, log_half _ (by norm_num)]
  have := Real.log_two_lt_d9
  push_cast
  linarith

theorem w3 : ilpWeight (1/2) ≤ (693 : ℚ) / 1000 := by
  refine weight_le (k := 693) ?_
  have e : ((1/2 : ℚ) : ℝ) = 1 / 2 := by norm_num
  rw [e, log_half _ (by norm_num), Real.log_one]
  have := Real.log_two_lt_d9
  push_cast
  linarith

theorem w4 : (693 : ℚ) / 1000 ≤ ilpWeight (5003/10000) := by
  refine le_weight (k := 693) ?_
  have h := Real.log_le_sub_one_of_pos (x := 5003/5000) (by norm_num)
  have e : ((5003/10000 : ℚ) : ℝ) = (5003/5000) / 2 := by norm_num
  rw [e, log_half _ (by norm_num)]
  have := Real.log_two_gt_d9
  push_cast
  linarith

theorem w5 : (693 : ℚ) / 1000 ≤ ilpWeight (4997/10000) := by
  refine le_weight (k := 693) ?_
  have h := Real.log_le_sub_one_of_pos (x := 4997/5000) (by norm_num)
  have e : ((4997/10000 : ℚ) : ℝ) = (4997/5000) / 2 := by norm_num
  rw [e, log_half _ (by norm_num)]
  have := Real.log_two_gt_d9
  push_cast
  linarith

/-- C136 is false in general, for two reasons.  On a network of three nodes every solver that returns an optimum makes `ilp_map` print
node 0 with the value 1, although a complete assignment with the value 0 is strictly more probable than every one with the value 1
(the weights are rounded to three decimals); and it prints the value 1 also when the evidence says that node 0 has the value 0. -/
theorem C136_false (hE : HashOrder (ℕ × ℕ)) (hI : HashOrder ℤ) (solve : Ilp ℕ ℕ → ℕ × ℤ → ℤ) (hs : Solves hE hI ilpNet solve) :
    (∀ ev : Dict ℕ ℕ, ∃ out, ilpMap hE hI solve ilpNet ev = .ok out ∧ (out.map Prod.fst).Perm [0, 1, 2] ∧ ∀ t ∈ out, t.1 = 0 → t.2.1 = 1) ∧
      ∀ a, InRange ilpNet.cardOf ilpNet.V a → a 0 = 1 → ilpNet.joint a < ilpNet.joint fun _ => 0 := by
  have p0 : ∀ a : Asg ℕ, ilpNet.prob 0 a = (([2499/5000, 2501/5000] : List ℚ)[a 0]?).getD 0 := fun a => by
    show (([2499/5000, 2501/5000] : List ℚ)[a 0 + 2 * 0]?).getD 0 = _
    rfl
  have p1 : ∀ a : Asg ℕ, ilpNet.prob 1 a = (([5003/10000, 4997/10000, 1/2, 1/2] : List ℚ)[a 1 + 2 * a 0]?).getD 0 := fun a => by
    show (([5003/10000, 4997/10000, 1/2, 1/2] : List ℚ)[a 1 + 2 * (a 0 + 2 * 0)]?).getD 0 = _
    rfl
  have p2 : ∀ a : Asg ℕ, ilpNet.prob 2 a = (([5003/10000, 4997/10000, 1/2, 1/2] : List ℚ)[a 2 + 2 * a 0]?).getD 0 := fun a => by
    show (([5003/10000, 4997/10000, 1/2, 1/2] : List ℚ)[a 2 + 2 * (a 0 + 2 * 0)]?).getD 0 = _
    rfl
  have hr : ∀ a, InRange ilpNet.cardOf ilpNet.V a → (a 0 = 0 ∨ a 0 = 1) ∧ (a 1 = 0 ∨ a 1 = 1) ∧ (a 2 = 0 ∨ a 2 = 1) := by
    intro a ha
    have h0 : a 0 < 2 := ha 0 (by decide)
    have h1 : a 1 < 2 := ha 1 (by decide)
    have h2 : a 2 < 2 := ha 2 (by decide)
    omega
  refine ⟨fun ev => ?_, fun a ha h0 => ?_⟩
  · obtain ⟨out, a, h1, ha, hpr, hmin⟩ := ilp_run hE hI ilpNet_wf ilpNet_edgeWf hs ev
    refine ⟨out, h1, hpr.1, fun t ht ht0 => ?_⟩
    have h := hmin (fun _ => 1) (by unfold InRange; decide)
    have e1 : (ilpNet.V.map fun v => ilpWeight (ilpNet.prob v fun _ => 1)).sum = ilpWeight (2501/5000) + (ilpWeight (1/2) + (ilpWeight (1/2) + 0)) := by
      show [ilpWeight (ilpNet.prob 0 fun _ => 1), ilpWeight (ilpNet.prob 1 fun _ => 1), ilpWeight (ilpNet.prob 2 fun _ => 1)].sum = _
      rw [p0, p1, p2]
      rfl
    have e2 : (ilpNet.V.map fun v => ilpWeight (ilpNet.prob v a)).sum = ilpWeight (ilpNet.prob 0 a) + (ilpWeight (ilpNet.prob 1 a) +
        (ilpWeight (ilpNet.prob 2 a) + 0)) := rfl
    rw [e1, e2] at h
    obtain ⟨h0, h1', h2⟩ := hr a ha
    have ha0 : a 0 = 1 := by
      rcases h0 with h0 | h0
      · exfalso
        rw [p0, p1, p2, h0] at h
        have hw : ∀ n, n = 0 ∨ n = 1 → (693 : ℚ) / 1000 ≤ ilpWeight ((([5003/10000, 4997/10000, 1/2, 1/2] : List ℚ)[n + 2 * 0]?).getD 0) := by
          rintro n (rfl | rfl)
          · exact w4
          · exact w5
        have g1 := hw _ h1'
        have g2 := hw _ h2
        have g0 : (694 : ℚ) / 1000 ≤ ilpWeight ((([2499/5000, 2501/5000] : List ℚ)[0]?).getD 0) := w1
        have := w2
        have := w3
        linarith
      · exact h0
    have hv := (hpr.2 t ht).1
    rw [ht0, ha0] at hv
    exact (Option.some.inj hv).symm
  · obtain ⟨_, h1, h2⟩ := hr a ha
    have ej : ilpNet.joint a = ilpNet.prob 0 a * (ilpNet.prob 1 a * (ilpNet.prob 2 a * 1)) := rfl
    have e0 : (ilpNet.joint fun _ => 0) = 2499/5000 * (5003/10000 * (5003/10000 * 1)) := by decide +kernel
    rw [ej, e0, p0, p1, p2, h0]
    have hw : ∀ n, n = 0 ∨ n = 1 → (([5003/10000, 4997/10000, 1/2, 1/2] : List ℚ)[n + 2 * 1]?).getD 0 = 1/2 := by
      rintro n (rfl | rfl) <;> rfl
    rw [hw _ h1, hw _ h2]
    norm_num

end BayesNet
end PyBN
