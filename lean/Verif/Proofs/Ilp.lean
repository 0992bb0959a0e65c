import Verif.Spec.Ilp
import Verif.Props.Net
import Mathlib.Data.List.Forall2

/-! Lemmas about the integer program of `ilp_map`. -/

set_option linter.unusedSectionVars false

namespace PyBN

/-- `pyMap` as a relation between the two lists. -/
theorem pyMap_rel {α β : Type _} {f : α → Py β} {P : α → β → Prop} : ∀ {l : List α}, (∀ x ∈ l, ∃ y, f x = .ok y ∧ P x y) →
    ∃ r, pyMap f l = .ok r ∧ List.Forall₂ P l r
  | [], _ => ⟨[], rfl, .nil⟩
  | x :: l, h => by
      obtain ⟨y, hy, hp⟩ := h x (by simp)
      obtain ⟨r, hr, hf⟩ := pyMap_rel (l := l) fun z hz => h z (by simp [hz])
      exact ⟨y :: r, by rw [pyMap, hy, hr]; rfl, .cons hp hf⟩

theorem forall₂_right {α β : Type _} {P : α → β → Prop} {l : List α} {r : List β} (h : List.Forall₂ P l r) : ∀ y ∈ r, ∃ x ∈ l, P x y := by
  induction h with
  | nil => intro y hy; cases hy
  | cons hp _ ih =>
    intro y hy
    rcases List.mem_cons.1 hy with rfl | hy
    · exact ⟨_, by simp, hp⟩
    · obtain ⟨x, hx, hxy⟩ := ih y hy
      exact ⟨x, by simp [hx], hxy⟩

theorem forall₂_left {α β : Type _} {P : α → β → Prop} {l : List α} {r : List β} (h : List.Forall₂ P l r) : ∀ x ∈ l, ∃ y ∈ r, P x y := by
  induction h with
  | nil => intro y hy; cases hy
  | cons hp _ ih =>
    intro x hx
    rcases List.mem_cons.1 hx with rfl | hx
    · exact ⟨_, by simp, hp⟩
    · obtain ⟨y, hy, hxy⟩ := ih x hx
      exact ⟨y, by simp [hy], hxy⟩

variable {N A : Type _} [DecidableEq N] [DecidableEq A]
namespace BayesNet
variable {bn : BayesNet N A}

/-- The keys of the variables. -/
def ilpKeys (bn : BayesNet N A) : List (N × ℤ) := bn.V.flatMap fun v => (List.range (bn.cptOf v).length).map fun (i : ℕ) => (v, (i : ℤ))

theorem mem_ilpKeys {v : N} {j : ℤ} : (v, j) ∈ ilpKeys bn ↔ v ∈ bn.V ∧ 0 ≤ j ∧ j < (bn.cptOf v).length := by
  unfold ilpKeys
  simp only [List.mem_flatMap, List.mem_map, List.mem_range, Prod.mk.injEq]
  constructor
  · rintro ⟨u, hu, i, hi, rfl, rfl⟩; exact ⟨hu, by omega, by omega⟩
  · rintro ⟨hv, h1, h2⟩; exact ⟨v, hv, j.toNat, by omega, rfl, by omega⟩

theorem cpt_get (w : bn.WF) {v : N} (hv : v ∈ bn.V) : bn.cpt v = .ok (bn.cptOf v) := by
  obtain ⟨d, hd, _, _, h, _⟩ := w.get hv
  unfold BayesNet.cpt
  rw [Dict.get_of_get? hd, h]; rfl

theorem parents_get (w : bn.WF) {v : N} (hv : v ∈ bn.V) : bn.parents v = .ok (bn.parentsOf v) := by
  obtain ⟨d, hd, h, _⟩ := w.get hv
  unfold BayesNet.parents
  rw [Dict.get_of_get? hd, h]; rfl

theorem card_pos (w : bn.WF) {v : N} (hv : v ∈ bn.V) : 0 < bn.cardOf v := by
  rw [w.card_len hv]; exact List.length_pos_iff.2 (w.values_ne v hv)

theorem ilpVal_ok (w : bn.WF) {v : N} (hv : v ∈ bn.V) (i : ℕ) :
    ∃ x, ilpVal bn v i = .ok x ∧ (bn.valuesOf v)[i % bn.cardOf v]? = some x := by
  have hc := card_pos w hv
  have hlt : i % bn.cardOf v < (bn.valuesOf v).length := by rw [← w.card_len hv]; exact Nat.mod_lt _ hc
  obtain ⟨d, hd, _, h2, _, h4⟩ := w.get hv
  refine ⟨_, ?_, List.getElem?_eq_getElem hlt⟩
  unfold ilpVal BayesNet.values BayesNet.card
  rw [Dict.get_of_get? hd]
  simp only [Py.bind_ok, Py.pure_eq]
  rw [← h4, if_neg (by omega)]
  exact pyIdx_nat (by rw [← h2]; exact List.getElem?_eq_getElem hlt)

theorem one_idx (hE : HashOrder (N × A)) (hI : HashOrder ℤ) (w : bn.WF) {c : N} (hc : c ∈ bn.V) {v : N} (hv : v ∈ c :: bn.parentsOf c)
    {n : ℕ} {x : A} (hx : (bn.valuesOf v)[n]? = some x) :
    ∃ is, cptIndices hE hI bn c [(v, x)] = .ok is ∧
      ∀ j : ℤ, j ∈ is ↔ ∃ b, InRange bn.cardOf (c :: bn.parentsOf c) b ∧ j = enc bn.cardOf (c :: bn.parentsOf c) b ∧ b v = n := by
  obtain ⟨r, h1, _, h3⟩ := C18_cpt_indices hE hI bn w c hc [(v, x)] (by
    intro kv hkv
    rw [List.mem_singleton] at hkv
    subst hkv
    exact ⟨hv, List.mem_of_getElem? hx⟩)
  refine ⟨r, h1, fun j => ?_⟩
  rw [h3]
  have hvV := w.fam_mem hc v hv
  constructor
  · rintro ⟨b, hb, hj, hbv⟩
    refine ⟨b, hb, hj, ?_⟩
    have h := hbv _ (List.mem_singleton.2 rfl)
    simp only at h
    obtain ⟨l1, h1⟩ := List.getElem?_eq_some_iff.1 h
    obtain ⟨l2, h2⟩ := List.getElem?_eq_some_iff.1 hx
    exact (w.values_nodup v hvV).getElem_inj_iff.1 (h1.trans h2.symm)
  · rintro ⟨b, hb, hj, hbv⟩
    refine ⟨b, hb, hj, fun kv hkv => ?_⟩
    rw [List.mem_singleton] at hkv
    subst hkv
    simpa [hbv] using hx

/-- The row of a node. -/
def IsSum (bn : BayesNet N A) (v : N) (r : LpRow N) : Prop :=
  r = .sumOne ((List.range (bn.cptOf v).length).map fun (i : ℕ) => (v, (i : ℤ)))

/-- The outgoing row of an entry and a child. -/
def IsOut (bn : BayesNet N A) (v : N) (i : ℕ) (c : N) (r : LpRow N) : Prop :=
  ∃ is : List ℤ, (∀ j : ℤ, j ∈ is ↔ ∃ b, InRange bn.cardOf (c :: bn.parentsOf c) b ∧ j = enc bn.cardOf (c :: bn.parentsOf c) b ∧
    b v = i % bn.cardOf v) ∧ r = .le (v, (i : ℤ)) (is.map fun j => (c, j))

/-- The ingoing row of an entry. -/
def IsIn (bn : BayesNet N A) (v : N) (i : ℕ) (r : LpRow N) : Prop :=
  ∃ l : List (N × ℤ), (∀ k, k ∈ l ↔ ∃ p ∈ bn.parentsOf v, ∃ j < (bn.cptOf p).length, k = (p, (j : ℤ)) ∧
    ∃ b, InRange bn.cardOf (v :: bn.parentsOf v) b ∧ i = enc bn.cardOf (v :: bn.parentsOf v) b ∧ b p = j % bn.cardOf p) ∧
    r = .le (v, (i : ℤ)) l

theorem ilpVar_ok {v : N} (hv : v ∈ bn.V) {j : ℤ} (h0 : 0 ≤ j) (h1 : j < (bn.cptOf v).length) : ilpVar (ilpKeys bn) (v, j) = .ok (v, j) := by
  unfold ilpVar
  rw [if_pos (mem_ilpKeys.2 ⟨hv, h0, h1⟩)]

theorem sumRow_ok (w : bn.WF) {v : N} (hv : v ∈ bn.V) : ∃ r, ilpSumRow bn (ilpKeys bn) v = .ok r ∧ IsSum bn v r := by
  refine ⟨_, ?_, rfl⟩
  unfold ilpSumRow
  rw [cpt_get w hv, Py.bind_ok, pyMap_ok (g := fun (i : ℕ) => (v, (i : ℤ))) fun i hi =>
    ilpVar_ok hv (by omega) (by exact_mod_cast List.mem_range.1 hi)]
  rfl

theorem enc_lt_cpt (w : bn.WF) {c : N} (hc : c ∈ bn.V) {b : Asg N} (hb : InRange bn.cardOf (c :: bn.parentsOf c) b) :
    enc bn.cardOf (c :: bn.parentsOf c) b < (bn.cptOf c).length := by
  rw [w.cpt_len c hc]; exact enc_lt hb

theorem outRow_ok (hE : HashOrder (N × A)) (hI : HashOrder ℤ) (w : bn.WF) (we : bn.EdgeWF) {v : N} {c : N} (hc : c ∈ bn.childrenOf v)
    {i : ℕ} (hi : i < (bn.cptOf v).length) {x : A} (hx : (bn.valuesOf v)[i % bn.cardOf v]? = some x) :
    ∃ r, ilpOutRow hE hI bn (ilpKeys bn) v i x c = .ok r ∧ IsOut bn v i c r := by
  obtain ⟨hcV, hv⟩ := children_mem w we hc
  obtain ⟨is, h1, h2⟩ := one_idx hE hI w hcV (List.mem_cons_of_mem _ ((we.iff v c).1 hc)) hx
  refine ⟨_, ?_, is, h2, rfl⟩
  unfold ilpOutRow
  rw [h1, Py.bind_ok, pyMap_ok (g := fun j => (c, j)) fun j hj => by
    obtain ⟨b, hb, rfl, _⟩ := (h2 j).1 hj
    exact ilpVar_ok hcV (by omega) (by exact_mod_cast enc_lt_cpt w hcV hb), Py.bind_ok,
    ilpVar_ok hv (by omega) (by exact_mod_cast hi)]
  rfl

theorem outRows_ok (hE : HashOrder (N × A)) (hI : HashOrder ℤ) (w : bn.WF) (we : bn.EdgeWF) {v : N} (hv : v ∈ bn.V) :
    ∃ rs, ilpOutRows hE hI bn (ilpKeys bn) v = .ok rs ∧
      (∀ r ∈ rs, ∃ i < (bn.cptOf v).length, ∃ c ∈ bn.childrenOf v, IsOut bn v i c r) ∧
      ∀ i < (bn.cptOf v).length, ∀ c ∈ bn.childrenOf v, ∃ r ∈ rs, IsOut bn v i c r := by
  have h : ∀ i ∈ List.range (bn.cptOf v).length, ∃ rs, (do
      let val ← ilpVal bn v i
      let ch ← bn.children v
      pyMap (ilpOutRow hE hI bn (ilpKeys bn) v i val) ch) = .ok rs ∧ List.Forall₂ (IsOut bn v i) (bn.childrenOf v) rs := by
    intro i hi
    obtain ⟨x, h1, h2⟩ := ilpVal_ok w hv i
    rw [h1, Py.bind_ok]
    unfold BayesNet.children
    rw [Dict.get_of_get? (we.get hv), Py.bind_ok]
    exact pyMap_rel fun c hc => outRow_ok hE hI w we hc (List.mem_range.1 hi) h2
  obtain ⟨rss, e, hf⟩ := pyMap_rel h
  refine ⟨rss.flatten, ?_, fun r hr => ?_, fun i hi c hc => ?_⟩
  · unfold ilpOutRows
    rw [cpt_get w hv, Py.bind_ok, e]; rfl
  · obtain ⟨rs, hrs, hr⟩ := List.mem_flatten.1 hr
    obtain ⟨i, hi, hi2⟩ := forall₂_right hf rs hrs
    obtain ⟨c, hc, h⟩ := forall₂_right hi2 r hr
    exact ⟨i, List.mem_range.1 hi, c, hc, h⟩
  · obtain ⟨rs, hrs, hi2⟩ := forall₂_left hf i (List.mem_range.2 hi)
    obtain ⟨r, hr, h⟩ := forall₂_left hi2 c hc
    exact ⟨r, List.mem_flatten.2 ⟨rs, hrs, hr⟩, h⟩

theorem parentIdx_ok (hE : HashOrder (N × A)) (hI : HashOrder ℤ) (w : bn.WF) {v : N} (hv : v ∈ bn.V) {p : N} (hp : p ∈ bn.parentsOf v) (i : ℕ) :
    ∃ js, ilpParentIdx hE hI bn v i p = .ok js ∧ ∀ j, j ∈ js ↔ j < (bn.cptOf p).length ∧
      ∃ b, InRange bn.cardOf (v :: bn.parentsOf v) b ∧ i = enc bn.cardOf (v :: bn.parentsOf v) b ∧ b p = j % bn.cardOf p := by
  have hpV := w.parents_mem v hv p hp
  have h : ∀ j ∈ List.range (bn.cptOf p).length, ∃ l, (do
      let val ← ilpVal bn p j
      let is ← cptIndices hE hI bn v [(p, val)]
      pure (if (i : ℤ) ∈ is then [j] else [])) = Except.ok l ∧ (∀ k, k ∈ l ↔ k = j ∧
        ∃ b, InRange bn.cardOf (v :: bn.parentsOf v) b ∧ i = enc bn.cardOf (v :: bn.parentsOf v) b ∧ b p = j % bn.cardOf p) := by
    intro j _
    obtain ⟨x, h1, h2⟩ := ilpVal_ok w hpV j
    obtain ⟨is, h3, h4⟩ := one_idx hE hI w hv (List.mem_cons_of_mem _ hp) h2
    refine ⟨_, by rw [h1, Py.bind_ok, h3, Py.bind_ok]; rfl, fun k => ?_⟩
    have h5 := h4 i
    simp only [Nat.cast_inj] at h5
    rw [← h5]
    split_ifs with hin <;> simp [hin]
  obtain ⟨ls, e, hf⟩ := pyMap_rel h
  refine ⟨ls.flatten, ?_, fun j => ?_⟩
  · unfold ilpParentIdx
    rw [cpt_get w hpV, Py.bind_ok, e]; rfl
  · rw [List.mem_flatten]
    constructor
    · rintro ⟨l, hl, hj⟩
      obtain ⟨j', hj', hP⟩ := forall₂_right hf l hl
      obtain ⟨rfl, hb⟩ := (hP j).1 hj
      exact ⟨List.mem_range.1 hj', hb⟩
    · rintro ⟨hj, hb⟩
      obtain ⟨l, hl, hP⟩ := forall₂_left hf j (List.mem_range.2 hj)
      exact ⟨l, hl, (hP j).2 ⟨rfl, hb⟩⟩

theorem inRow_ok (hE : HashOrder (N × A)) (hI : HashOrder ℤ) (w : bn.WF) {v : N} (hv : v ∈ bn.V) {i : ℕ} (hi : i < (bn.cptOf v).length) :
    ∃ r, ilpInRow hE hI bn (ilpKeys bn) v i = .ok r ∧ IsIn bn v i r := by
  have h : ∀ p ∈ bn.parentsOf v, ∃ l, (do
      let js ← ilpParentIdx hE hI bn v i p
      pyMap (fun (j : ℕ) => ilpVar (ilpKeys bn) (p, (j : ℤ))) js) = .ok l ∧ (∀ k, k ∈ l ↔ ∃ j < (bn.cptOf p).length, k = (p, (j : ℤ)) ∧
        ∃ b, InRange bn.cardOf (v :: bn.parentsOf v) b ∧ i = enc bn.cardOf (v :: bn.parentsOf v) b ∧ b p = j % bn.cardOf p) := by
    intro p hp
    obtain ⟨js, h1, h2⟩ := parentIdx_ok hE hI w hv hp i
    refine ⟨js.map fun (j : ℕ) => (p, (j : ℤ)), ?_, fun k => ?_⟩
    · rw [h1, Py.bind_ok]
      exact pyMap_ok fun j hj => ilpVar_ok (w.parents_mem v hv p hp) (by omega) (by exact_mod_cast ((h2 j).1 hj).1)
    · rw [List.mem_map]
      constructor
      · rintro ⟨j, hj, rfl⟩
        exact ⟨j, ((h2 j).1 hj).1, rfl, ((h2 j).1 hj).2⟩
      · rintro ⟨j, hj, rfl, hb⟩
        exact ⟨j, (h2 j).2 ⟨hj, hb⟩, rfl⟩
  obtain ⟨ls, e, hf⟩ := pyMap_rel h
  refine ⟨_, ?_, ls.flatten, fun k => ?_, rfl⟩
  · unfold ilpInRow
    rw [parents_get w hv, Py.bind_ok, e, Py.bind_ok, ilpVar_ok hv (by omega) (by exact_mod_cast hi)]; rfl
  · rw [List.mem_flatten]
    constructor
    · rintro ⟨l, hl, hk⟩
      obtain ⟨p, hp, hP⟩ := forall₂_right hf l hl
      exact ⟨p, hp, (hP k).1 hk⟩
    · rintro ⟨p, hp, hk⟩
      obtain ⟨l, hl, hP⟩ := forall₂_left hf p hp
      exact ⟨l, hl, (hP k).2 hk⟩

theorem inRows_ok (hE : HashOrder (N × A)) (hI : HashOrder ℤ) (w : bn.WF) {v : N} (hv : v ∈ bn.V) :
    ∃ rs, ilpInRows hE hI bn (ilpKeys bn) v = .ok rs ∧
      ∀ r ∈ rs, bn.parentsOf v ≠ [] ∧ ∃ i < (bn.cptOf v).length, IsIn bn v i r := by
  unfold ilpInRows
  rw [parents_get w hv, Py.bind_ok]
  by_cases hp : bn.parentsOf v = []
  · rw [if_pos hp]
    exact ⟨[], rfl, fun r hr => by cases hr⟩
  · rw [if_neg hp, cpt_get w hv, Py.bind_ok]
    obtain ⟨rs, e, hf⟩ := pyMap_rel (l := List.range (bn.cptOf v).length) (P := IsIn bn v) fun i hi =>
      inRow_ok hE hI w hv (List.mem_range.1 hi)
    refine ⟨rs, e, fun r hr => ⟨hp, ?_⟩⟩
    obtain ⟨i, hi, h⟩ := forall₂_right hf r hr
    exact ⟨i, List.mem_range.1 hi, h⟩

/-- What is known of a variable. -/
def VarOk (bn : BayesNet N A) (x : LpVar N A) : Prop :=
  x.weight = ilpWeight (((bn.cptOf x.key.1)[x.key.2.toNat]?).getD 0) ∧ x.name.1 = x.key.1 ∧
    ∀ a, InRange bn.cardOf (x.key.1 :: bn.parentsOf x.key.1) a → x.key.2 = enc bn.cardOf (x.key.1 :: bn.parentsOf x.key.1) a →
      (bn.valuesOf x.key.1)[a x.key.1]? = some x.name.2.1 ∧ x.name.2.2.map Prod.fst = bn.parentsOf x.key.1 ∧
      ∀ pv ∈ x.name.2.2, (bn.valuesOf pv.1)[a pv.1]? = some pv.2

theorem map_of_forall₂ {α β γ : Type _} {f : β → γ} {g : α → γ} {P : β → Prop} {l : List α} {r : List β}
    (h : List.Forall₂ (fun x y => f y = g x ∧ P y) l r) : r.map f = l.map g ∧ ∀ y ∈ r, P y := by
  induction h with
  | nil => exact ⟨rfl, fun y hy => by cases hy⟩
  | cons hp _ ih =>
    refine ⟨by rw [List.map_cons, List.map_cons, hp.1, ih.1], fun y hy => ?_⟩
    rcases List.mem_cons.1 hy with rfl | hy
    · exact hp.2
    · exact ih.2 y hy

theorem varsOf_ok (hE : HashOrder (N × A)) (hI : HashOrder ℤ) (w : bn.WF) {v : N} (hv : v ∈ bn.V) :
    ∃ xs, ilpVarsOf hE hI bn v = .ok xs ∧ xs.map LpVar.key = (List.range (bn.cptOf v).length).map (fun (i : ℕ) => (v, (i : ℤ))) ∧
      ∀ x ∈ xs, VarOk bn x := by
  unfold ilpVarsOf
  rw [cpt_get w hv, Py.bind_ok]
  have h : ∀ i ∈ List.range (bn.cptOf v).length, ∃ x : LpVar N A, (do
      let nm ← cptStrIdx hE hI bn v i
      let x ← pyIdx (bn.cptOf v) (i : ℤ)
      pure (⟨(v, (i : ℤ)), (v, nm), ilpWeight x⟩ : LpVar N A)) = .ok x ∧ x.key = (v, (i : ℤ)) ∧ VarOk bn x := by
    intro i hi
    have hi := List.mem_range.1 hi
    obtain ⟨a, ha, rfl⟩ := enc_surj (w.fam_nodup v hv) (c := bn.cardOf) (by rw [← w.cpt_len v hv]; exact hi)
    obtain ⟨x, ps, h1, h2, h3, h4⟩ := C58_cpt_str_idx hE hI bn w v hv a ha
    rw [h1, Py.bind_ok, pyIdx_nat (List.getElem?_eq_getElem hi), Py.bind_ok]
    refine ⟨_, rfl, rfl, ?_, rfl, fun b hb he => ?_⟩
    · simp [List.getElem?_eq_getElem hi]
    · have hab := enc_inj ha hb (Nat.cast_injective (R := ℤ) he)
      refine ⟨by rw [← hab v (by simp)]; exact h2, h3, fun pv hpv => ?_⟩
      have hin : pv.1 ∈ bn.parentsOf v := by rw [← h3]; exact List.mem_map_of_mem hpv
      rw [← hab pv.1 (by simp [hin])]
      exact h4 pv hpv
  obtain ⟨xs, e, hf⟩ := pyMap_rel h
  exact ⟨xs, e, map_of_forall₂ hf⟩

theorem ilpModel_ok (hE : HashOrder (N × A)) (hI : HashOrder ℤ) (w : bn.WF) (we : bn.EdgeWF) :
    ∃ m, ilpModel hE hI bn = .ok m ∧ m.vars.map LpVar.key = ilpKeys bn ∧ (∀ x ∈ m.vars, VarOk bn x) ∧
      (∀ r ∈ m.rows, (∃ v ∈ bn.V, IsSum bn v r) ∨ (∃ v ∈ bn.V, ∃ i < (bn.cptOf v).length, ∃ c ∈ bn.childrenOf v, IsOut bn v i c r) ∨
        ∃ v ∈ bn.V, bn.parentsOf v ≠ [] ∧ ∃ i < (bn.cptOf v).length, IsIn bn v i r) ∧
      (∀ v ∈ bn.V, ∃ r ∈ m.rows, IsSum bn v r) ∧
      ∀ v ∈ bn.V, ∀ i < (bn.cptOf v).length, ∀ c ∈ bn.childrenOf v, ∃ r ∈ m.rows, IsOut bn v i c r := by
  obtain ⟨vs, e0, f0⟩ := pyMap_rel (l := bn.V) fun v hv => varsOf_ok hE hI w hv
  have hk : vs.flatten.map LpVar.key = ilpKeys bn := by
    have : ∀ {l : List N} {r : List (List (LpVar N A))}, List.Forall₂ (fun v xs => xs.map LpVar.key = (List.range (bn.cptOf v).length).map
        (fun (i : ℕ) => (v, (i : ℤ))) ∧ ∀ x ∈ xs, VarOk bn x) l r →
        r.flatten.map LpVar.key = l.flatMap fun v => (List.range (bn.cptOf v).length).map fun (i : ℕ) => (v, (i : ℤ)) := by
      intro l r h
      induction h with
      | nil => rfl
      | cons hp _ ih => rw [List.flatten_cons, List.map_append, hp.1, ih, List.flatMap_cons]
    exact this f0
  obtain ⟨r1, e1, f1⟩ := pyMap_rel (l := bn.V) fun v hv => sumRow_ok w hv
  obtain ⟨r2, e2, f2⟩ := pyMap_rel (l := bn.V) fun v hv => outRows_ok hE hI w we hv
  obtain ⟨r3, e3, f3⟩ := pyMap_rel (l := bn.V) fun v hv => inRows_ok hE hI w hv
  refine ⟨⟨vs.flatten, r1 ++ r2.flatten ++ r3.flatten⟩, ?_, hk, fun x hx => ?_, fun r hr => ?_, fun v hv => ?_, fun v hv i hi c hc => ?_⟩
  · unfold ilpModel
    simp only [e0, Py.bind_ok, hk, e1, e2, e3]; rfl
  · obtain ⟨xs, hxs, hx⟩ := List.mem_flatten.1 hx
    obtain ⟨v, _, h⟩ := forall₂_right f0 xs hxs
    exact h.2 x hx
  · rcases List.mem_append.1 hr with hr | hr
    · rcases List.mem_append.1 hr with hr | hr
      · exact .inl (forall₂_right f1 r hr)
      · obtain ⟨rs, hrs, hr⟩ := List.mem_flatten.1 hr
        obtain ⟨v, hv, h⟩ := forall₂_right f2 rs hrs
        exact .inr (.inl ⟨v, hv, h.1 r hr⟩)
    · obtain ⟨rs, hrs, hr⟩ := List.mem_flatten.1 hr
      obtain ⟨v, hv, h⟩ := forall₂_right f3 rs hrs
      exact .inr (.inr ⟨v, hv, h r hr⟩)
  · obtain ⟨r, hr, h⟩ := forall₂_left f1 v hv
    exact ⟨r, by simp [hr], h⟩
  · obtain ⟨rs, hrs, h⟩ := forall₂_left f2 v hv
    obtain ⟨r, hr, h⟩ := h.2 i hi c hc
    exact ⟨r, List.mem_append_left _ (List.mem_append_right _ (List.mem_flatten.2 ⟨rs, hrs, hr⟩)), h⟩

end BayesNet
end PyBN
