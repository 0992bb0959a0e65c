import Verif.Proofs.LearnState2
import Verif.Proofs.Stale4

/-!
# What `bayes_estimator` leaves behind: proofs
-/

set_option linter.unusedSectionVars false

namespace PyBN
namespace LearnState
open BayesNet

variable {V : Type _}

/-! ## Structure is kept -/

/-- What no call changes. -/
def Keeps (b c : BayesNet ℕ ℤ) : Prop := c.V = b.V ∧ c.E = b.E ∧ SameParents b.F c.F

theorem Keeps.rfl (b : BayesNet ℕ ℤ) : Keeps b b := ⟨Eq.refl _, Eq.refl _, rel_refl fun _ _ => Eq.refl _⟩

theorem Keeps.trans {a b c : BayesNet ℕ ℤ} (h1 : Keeps a b) (h2 : Keeps b c) : Keeps a c :=
  ⟨h2.1.trans h1.1, h2.2.1.trans h1.2.1, rel_trans (R := fun _ (d e : NodeData ℕ ℤ) => d.parents = e.parents) (fun _ _ _ _ h1 h2 => Eq.trans h1 h2) h1.2.2 h2.2.2⟩

theorem Keeps.set {b : BayesNet ℕ ℤ} {n : ℕ} {d : NodeData ℕ ℤ} (h : b.F.get n = .ok d) (l : List ℚ) :
    Keeps b { b with F := b.F.set n { d with cpt := l } } :=
  ⟨Eq.refl _, Eq.refl _, rel_set (get_some h) (fun _ _ => Eq.refl _) (Eq.refl _)⟩

theorem countNodesTo_keeps (hE : HashOrder (ℕ × ℤ)) (hI : HashOrder ℤ) (obs : Dict ℕ ℤ) : ∀ (rvs : List ℕ) (b : BayesNet ℕ ℤ),
    Keeps b (countNodesTo hE hI obs rvs b).1
  | [], b => .rfl b
  | rv :: rvs, b => by
    rw [countNodesTo]
    split
    · exact .rfl b
    · rename_i d l hd
      have hd' : b.F.get rv = .ok d := by
        simp only [BayesNet.bind_ok_iff] at hd
        obtain ⟨_, _, _, _, _, _, d', h', _, _, h''⟩ := hd
        cases h''; exact h'
      exact (Keeps.set hd' l).trans (countNodesTo_keeps hE hI obs rvs _)

theorem countRowsTo_keeps (hE : HashOrder (ℕ × ℤ)) (hI : HashOrder ℤ) (ns : List ℕ) : ∀ (rows : List (List ℤ)) (b : BayesNet ℕ ℤ),
    Keeps b (countRowsTo hE hI ns rows b).1
  | [], b => .rfl b
  | row :: rows, b => by
    rw [countRowsTo]
    split
    · exact .rfl b
    · rename_i obs _
      have h1 := countNodesTo_keeps hE hI obs ns b
      split
      · rename_i h; rw [h] at h1; exact h1
      · rename_i h; rw [h] at h1; exact h1.trans (countRowsTo_keeps hE hI ns rows _)

theorem writeTo_keeps : ∀ (ns : List ℕ) (b : BayesNet ℕ ℤ), Keeps b (writeTo ns b).1
  | [], b => .rfl b
  | rv :: rvs, b => by
    rw [writeTo]
    split
    · exact .rfl b
    · rename_i d c hd
      have hd' : b.F.get rv = .ok d := by
        simp only [BayesNet.bind_ok_iff] at hd
        obtain ⟨d', h', _, _, h''⟩ := hd
        cases h''; exact h'
      split
      · exact Keeps.set hd' _
      · exact (Keeps.set hd' _).trans (writeTo_keeps rvs _)

theorem prepareTo_keeps (fill : ℕ → Py ℚ) (b : BayesNet ℕ ℤ) (data : Data) (ns : List ℕ) : Keeps b (prepareTo fill b data ns).1 :=
  ⟨(prepareTo_VE fill b data ns).1, (prepareTo_VE fill b data ns).2, prepareTo_parents fill b data ns⟩

theorem bayesAfter_keeps (hE : HashOrder (ℕ × ℤ)) (hI : HashOrder ℤ) (b : BayesNet ℕ ℤ) (data : Data) (equiv : Option ℚ) (nodes : Option (List ℕ)) :
    Keeps b (bayesAfter hE hI b data equiv nodes).1 := by
  unfold bayesAfter
  dsimp only
  have h1 := prepareTo_keeps (priorFill (equiv.getD data.rows.length)) b data (nodes.getD b.V)
  split
  · rename_i h; rw [h] at h1; exact h1
  · rename_i b2 h
    rw [h] at h1
    have h2 := countRowsTo_keeps hE hI (nodes.getD b.V) data.rows b2
    split
    · rename_i h'; rw [h'] at h2; exact h1.trans h2
    · rename_i h'; rw [h'] at h2; exact (h1.trans h2).trans (writeTo_keeps _ _)

/-! ## The result -/

theorem normTo_outcome (card : ℕ) : ∀ (fuel : ℕ) (l : List ℚ), outcome (normTo card fuel l) = normBlocks 0 card fuel l
  | 0, l => by
    rw [normTo, normBlocks]
    split_ifs with h
    · rw [h]; rfl
    · rfl
  | fuel + 1, l => by
    rw [normTo, normBlocks]
    simp only [add_zero]
    split_ifs with h1 h2 h3 h4
    · rfl
    · rfl
    · rfl
    · rfl
    · rw [← normTo_outcome card fuel (l.drop card)]
      generalize normTo card fuel (l.drop card) = r
      rcases r with ⟨r, _ | e⟩ <;> rfl

theorem retab_cptIndices {bn bn' : BayesNet ℕ ℤ} {T : ℕ → List ℚ} (r : Retab bn bn' T) (hE : HashOrder (ℕ × ℤ)) (hI : HashOrder ℤ) (t : ℕ)
    (hl : ∀ l, bn.cpt t = .ok l → (T t).length = l.length) (vd : Dict ℕ ℤ) : cptIndices hE hI bn' t vd = cptIndices hE hI bn t vd := by
  have hs : ∀ n, bn'.stride t n = bn.stride t n := by
    intro n
    unfold BayesNet.stride
    rw [r.card, r.parents, show bn'.card = bn.card from funext r.card]
  have hloop : ∀ (len : ℕ) (s c : Dict ℕ ℕ) (es : List (ℕ × ℤ)) (idx : List ℤ), cptIndicesLoop bn' len s c idx es = cptIndicesLoop bn len s c idx es := by
    intro len s c es
    induction es with
    | nil => intro idx; rfl
    | cons e es ih =>
      intro idx
      obtain ⟨rv, val⟩ := e
      have hvi : bn'.valueIdx rv val = bn.valueIdx rv val := by
        unfold valueIdx
        rw [r.get]
        cases bn.F.get rv <;> rfl
      simp only [cptIndicesLoop, hvi, ih]
  unfold cptIndices
  simp only [r.scope, hs, r.card, r.cpt, hloop]
  cases bn.scope t with
  | error e => rfl
  | ok sc =>
    simp only [Py.bind_ok]
    cases (pyMap (fun n => bn.stride t n >>= fun s => pure (n, s)) sc : Py (List (ℕ × ℕ))) with
    | error e => rfl
    | ok st =>
      simp only [Py.bind_ok]
      cases (pyMap (fun n => bn.card n >>= fun c => pure (n, c)) sc : Py (List (ℕ × ℕ))) with
      | error e => rfl
      | ok cd =>
        simp only [Py.bind_ok]
        cases h : bn.cpt t with
        | error e => rfl
        | ok l => simp only [Py.bind_ok, hl l h]

/-- The tables of the second network are those of the first, or those being counted. -/
def InPl (cnt : Dict ℕ (List ℚ)) (k : ℕ) (d e : NodeData ℕ ℤ) : Prop := e = { d with cpt := (cnt.get? k).getD d.cpt } ∧ e.cpt.length = d.cpt.length

theorem rel_set_right {R R' : ℕ → V → V → Prop} {F G : Dict ℕ V} (h : Rel R F G) {n : ℕ} {d e : V} (hn : F.keys.Nodup) (hd : F.get? n = some d)
    (hi : ∀ k, k ≠ n → ∀ d e, R k d e → R' k d e) (hde : R' n d e) : Rel R' F (G.set n e) := by
  have := h.set hn hi hde
  have hs : F.set n d = F := by
    clear this h hn
    induction F with
    | nil => cases hd
    | cons a F ih =>
      obtain ⟨k, x⟩ := a
      unfold Dict.get? at hd
      unfold Dict.set
      split_ifs at hd ⊢ with hk
      · cases hd; rw [hk]
      · rw [ih hd]
  rwa [hs] at this

theorem inPl_retab {b2 b : BayesNet ℕ ℤ} {cnt : Dict ℕ (List ℚ)} (hV : b.V = b2.V) (h : Rel (InPl cnt) b2.F b.F) : Retab b2 b b.cptOf := by
  refine ⟨hV, fun v => ?_⟩
  rcases h.get? v with ⟨h1, h2⟩ | ⟨d, e, h1, h2, h3, _⟩
  · rw [h1, h2]; rfl
  · rw [h1, h2, h3]
    unfold cptOf
    rw [h2, h3]
    rfl

theorem count_sim (hE : HashOrder (ℕ × ℤ)) (hI : HashOrder ℤ) {b2 : BayesNet ℕ ℤ} (hn : b2.F.keys.Nodup) (obs : Dict ℕ ℤ) (ns : List ℕ) :
    ∀ (rvs : List ℕ) (cnt : Dict ℕ (List ℚ)) (b : BayesNet ℕ ℤ), (∀ v ∈ rvs, v ∈ ns) → b.V = b2.V → b.E = b2.E → (∀ v, (cnt.get? v).isSome ↔ v ∈ ns) →
      Rel (InPl cnt) b2.F b.F →
      (∃ b' e, countNodesTo hE hI obs rvs b = (b', some e) ∧ countNodes hE hI b2 obs rvs cnt = .error e) ∨
      ∃ b' cnt', countNodesTo hE hI obs rvs b = (b', none) ∧ countNodes hE hI b2 obs rvs cnt = .ok cnt' ∧ b'.V = b2.V ∧ b'.E = b2.E ∧
        (∀ v, (cnt'.get? v).isSome ↔ v ∈ ns) ∧ Rel (InPl cnt') b2.F b'.F
  | [], cnt, b, _, hV, hE', hc, h => .inr ⟨b, cnt, rfl, rfl, hV, hE', hc, h⟩
  | rv :: rvs, cnt, b, hm, hV, hE', hc, h => by
    have r := inPl_retab hV h
    have hidx : ∀ vd, cptIndices hE hI b rv vd = cptIndices hE hI b2 rv vd := retab_cptIndices r hE hI rv (fun l hl => by
      unfold BayesNet.cpt Dict.get at hl
      unfold cptOf
      rcases h.get? rv with ⟨h1, _⟩ | ⟨d, e, h1, h2, _, h3⟩
      · rw [h1] at hl; cases hl
      · rw [h1] at hl; cases hl; rw [h2]; exact h3)
    rw [countNodesTo, countNodes]
    simp only [r.scope, hidx]
    cases e1 : b2.scope rv with
    | error e => exact .inl ⟨b, e, rfl, rfl⟩
    | ok sc =>
      simp only [Py.bind_ok]
      cases e2 : cptIndices hE hI b2 rv (obs.filter fun kv => decide (kv.1 ∈ sc)) with
      | error e => exact .inl ⟨b, e, rfl, rfl⟩
      | ok is =>
        simp only [Py.bind_ok]
        cases e3 : pyIdx is 0 with
        | error e => exact .inl ⟨b, e, rfl, rfl⟩
        | ok off =>
          simp only [Py.bind_ok]
          obtain ⟨l, hl⟩ := Option.isSome_iff_exists.1 ((hc rv).2 (hm rv (by simp)))
          rcases h.get? rv with ⟨h1, _⟩ | ⟨d, e, h1, h2, h3, h4⟩
          · unfold BayesNet.scope Dict.get at e1; rw [h1] at e1; cases e1
          · have hcpt : e.cpt = l := by rw [h3, hl]; rfl
            simp only [Dict.get_of_get? h2, Dict.get_of_get? hl, Py.bind_ok, hcpt]
            cases e4 : incr l off with
            | error e => exact .inl ⟨b, e, rfl, rfl⟩
            | ok l' =>
              simp only [Py.bind_ok, Py.pure_eq]
              have hll : l'.length = l.length := by
                unfold incr at e4
                cases e5 : pyIdx l off with
                | error e => rw [e5] at e4; cases e4
                | ok x => rw [e5] at e4; cases e4; simp
              refine count_sim hE hI hn obs ns rvs (cnt.set rv l') _ (fun v hv => hm v (by simp [hv])) hV hE' (fun v => ?_) ?_
              · by_cases hv : rv = v
                · subst hv; simp [hm rv (by simp)]
                · rw [Dict.get?_set_ne _ _ hv]; exact hc v
              · refine rel_set_right h hn h1 (fun k hk d e hde => ?_) ⟨?_, ?_⟩
                · unfold InPl; rw [Dict.get?_set_ne _ _ (Ne.symm hk)]; exact hde
                · rw [Dict.get?_set_self, h3]; rfl
                · show l'.length = _
                  rw [hll, ← hcpt]; exact h4

theorem rows_sim (hE : HashOrder (ℕ × ℤ)) (hI : HashOrder ℤ) {b2 : BayesNet ℕ ℤ} (hn : b2.F.keys.Nodup) (ns : List ℕ) :
    ∀ (rows : List (List ℤ)) (cnt : Dict ℕ (List ℚ)) (b : BayesNet ℕ ℤ), b.V = b2.V → b.E = b2.E → (∀ v, (cnt.get? v).isSome ↔ v ∈ ns) →
      Rel (InPl cnt) b2.F b.F →
      (∃ b' e, countRowsTo hE hI ns rows b = (b', some e) ∧ countRows hE hI b2 ns rows cnt = .error e) ∨
      ∃ b' cnt', countRowsTo hE hI ns rows b = (b', none) ∧ countRows hE hI b2 ns rows cnt = .ok cnt' ∧ b'.V = b2.V ∧ b'.E = b2.E ∧
        (∀ v, (cnt'.get? v).isSome ↔ v ∈ ns) ∧ Rel (InPl cnt') b2.F b'.F
  | [], cnt, b, hV, hE', hc, h => .inr ⟨b, cnt, rfl, rfl, hV, hE', hc, h⟩
  | row :: rows, cnt, b, hV, hE', hc, h => by
    rw [countRowsTo, countRows]
    cases observe ns row with
    | error e => exact .inl ⟨b, e, rfl, rfl⟩
    | ok obs =>
      simp only [Py.bind_ok]
      rcases count_sim hE hI hn obs ns ns cnt b (fun _ h => h) hV hE' hc h with ⟨b', e, h1, h2⟩ | ⟨b', cnt', h1, h2, h3, h4, h5, h6⟩
      · rw [h1, h2]; exact .inl ⟨b', e, rfl, rfl⟩
      · rw [h1, h2]
        simp only [Py.bind_ok]
        exact rows_sim hE hI hn ns rows cnt' b' h3 h4 h5 h6

/-- While the tables are normalised one after the other: `rest` are still counts. -/
def Rest (cnt : Dict ℕ (List ℚ)) (rest : List ℕ) (k : ℕ) (d e : NodeData ℕ ℤ) : Prop :=
  e = { d with cpt := if k ∈ rest then (cnt.get? k).getD d.cpt else d.cpt }

theorem card_set {b : BayesNet ℕ ℤ} {n : ℕ} {d : NodeData ℕ ℤ} (h : b.F.get? n = some d) (l : List ℚ) (v : ℕ) :
    BayesNet.card { b with F := b.F.set n { d with cpt := l } } v = b.card v := by
  unfold BayesNet.card Dict.get
  dsimp only
  by_cases hv : n = v
  · subst hv; rw [Dict.get?_set_self, h]; rfl
  · rw [Dict.get?_set_ne _ _ hv]

theorem write_sim {b2 : BayesNet ℕ ℤ} {cnt : Dict ℕ (List ℚ)} : ∀ (rest : List ℕ) (F : Dict ℕ (NodeData ℕ ℤ)) (b : BayesNet ℕ ℤ), rest.Nodup → F.keys.Nodup →
    (∀ v ∈ rest, (cnt.get? v).isSome) → (∀ v, b.card v = b2.card v) → Rel (Rest cnt rest) F b.F →
      (∃ b' e, writeTo rest b = (b', some e) ∧ writeBack b2 cnt rest F = .error e) ∨
      ∃ b', writeTo rest b = (b', none) ∧ writeBack b2 cnt rest F = .ok b'.F ∧ b'.V = b.V ∧ b'.E = b.E
  | [], F, b, _, _, _, _, h => by
    refine .inr ⟨b, rfl, ?_, rfl, rfl⟩
    rw [writeBack, (h.imp fun k _ d e hd => (show d = e by rw [hd]; simp) : Rel (fun _ d e => d = e) F b.F).eq]
  | rv :: rest, F, b, hnd, hn, hc, hcard, h => by
    rw [writeTo, writeBack]
    obtain ⟨l, hl⟩ := Option.isSome_iff_exists.1 (hc rv (by simp))
    rw [Dict.get_of_get? hl, Py.bind_ok, hcard]
    rcases h.get? rv with ⟨h1, h2⟩ | ⟨d, e, h1, h2, h3⟩
    · have hb : b.card rv = .error .keyError := by unfold BayesNet.card Dict.get; rw [h2]; rfl
      rw [hcard] at hb
      refine .inl ⟨b, .keyError, ?_, ?_⟩
      · unfold Dict.get; rw [h2]; rfl
      · rw [hb]; rfl
    · have hcpt : e.cpt = l := by rw [h3]; simp [hl]
      rw [Dict.get_of_get? h2, Py.bind_ok]
      have hb : b.card rv = .ok e.values.length := by unfold BayesNet.card; rw [Dict.get_of_get? h2]; rfl
      rw [hcard] at hb
      rw [hb]
      simp only [Py.bind_ok, Py.pure_eq, hcpt]
      rw [← normTo_outcome]
      rcases hr : normTo e.values.length (l.length + 1) l with ⟨l', _ | err⟩
      · simp only [outcome, Py.bind_ok, Dict.get_of_get? h1]
        have := write_sim rest (F.set rv { d with cpt := l' }) { b with F := b.F.set rv { e with cpt := l' } } (List.nodup_cons.1 hnd).2
          (Dict.nodup_keys_set hn _ _) (fun v hv => hc v (by simp [hv])) (fun v => (card_set h2 l' v).trans (hcard v)) (by
            refine h.set hn (fun k hk x y hxy => ?_) ?_
            · unfold Rest at hxy ⊢; rw [hxy]; simp [hk]
            · unfold Rest; rw [if_neg (List.nodup_cons.1 hnd).1, h3])
        exact this
      · exact .inl ⟨_, err, rfl, rfl⟩

theorem setTablesTo_mem (fill : ℕ → Py ℚ) : ∀ (ns : List ℕ) (b b' : BayesNet ℕ ℤ), setTablesTo fill ns b = (b', none) → ∀ v ∈ ns, (b.F.get? v).isSome
  | [], _, _, _, _, hv => by cases hv
  | n :: ns, b, b', h, v, hv => by
    rw [setTablesTo] at h
    split at h
    · cases h
    · rename_i d k x hd
      have hd' : b.F.get n = .ok d := by
        simp only [BayesNet.bind_ok_iff] at hd
        obtain ⟨_, _, _, _, _, _, _, _, d', h', h''⟩ := hd
        cases h''; exact h'
      by_cases hvn : n = v
      · subst hvn; rw [get_some hd']; rfl
      · have := setTablesTo_mem fill ns _ _ h v ((List.mem_cons.1 hv).resolve_left (Ne.symm hvn))
        rwa [Dict.get?_set_ne _ _ hvn] at this

theorem prepareTo_mem {fill : ℕ → Py ℚ} {b b2 : BayesNet ℕ ℤ} {data : Data} {ns : List ℕ} (h : prepareTo fill b data ns = (b2, none)) :
    ∀ v ∈ ns, (b2.F.get? v).isSome := by
  intro v hv
  unfold prepareTo at h
  split at h
  · cases h
  · rename_i F1 h1
    have hm := setTablesTo_mem fill ns _ _ h v hv
    have hp := setTablesTo_parents fill ns { b with F := F1 }
    rw [h] at hp
    rcases hp.get? v with ⟨h2, _⟩ | ⟨d, e, _, h3, _⟩
    · rw [h2] at hm; cases hm
    · rw [h3]; rfl

/-- The result of a call is that of `bayesEstimator`, when no node is listed twice. -/
theorem bayesAfter_outcome (hE : HashOrder (ℕ × ℤ)) (hI : HashOrder ℤ) (bn : BayesNet ℕ ℤ) (hn : bn.F.keys.Nodup) (data : Data) (equiv : Option ℚ)
    (nodes : Option (List ℕ)) (hnd : (nodes.getD bn.V).Nodup) :
    outcome (bayesAfter hE hI bn data equiv nodes) = bayesEstimator hE hI bn data equiv nodes := by
  unfold bayesAfter bayesEstimator
  dsimp only
  rw [learn_eq]
  have hk := prepareTo_keeps (priorFill (equiv.getD data.rows.length)) bn data (nodes.getD bn.V)
  have hm := @prepareTo_mem (priorFill (equiv.getD data.rows.length)) bn
  rcases hp : prepareTo (priorFill (equiv.getD data.rows.length)) bn data (nodes.getD bn.V) with ⟨b2, _ | e⟩
  · rw [hp] at hk
    have hm := hm hp
    generalize nodes.getD bn.V = ns at hnd hm ⊢
    have hn2 : b2.F.keys.Nodup := by rw [← hk.2.2.keys]; exact hn
    have hinit : pyMap (fun rv => do let c ← b2.cpt rv; pure (rv, c)) ns = .ok (ns.map fun v => (v, b2.cptOf v)) :=
      pyMap_ok fun v hv => by
        obtain ⟨d, hd⟩ := Option.isSome_iff_exists.1 (hm v hv)
        unfold BayesNet.cpt cptOf
        rw [Dict.get_of_get? hd, hd]; rfl
    have hget : ∀ v, (Dict.ofPairs (ns.map fun v => (v, b2.cptOf v))).get? v = if v ∈ ns then some (b2.cptOf v) else none := by
      intro v
      rw [Dict.ofPairs, Dict.get?_update (by rw [Dict.keys_map_pair]; exact hnd), Dict.get?_map_pair]
      split_ifs <;> rfl
    simp only [show outcome (b2, (none : Option PyErr)) = .ok b2 from rfl, Py.bind_ok, hinit]
    have h0 : Rel (InPl (Dict.ofPairs (ns.map fun v => (v, b2.cptOf v)))) b2.F b2.F := by
      have key : ∀ F : Dict ℕ (NodeData ℕ ℤ), (∀ kd ∈ F, b2.cptOf kd.1 = kd.2.cpt) → Rel (InPl (Dict.ofPairs (ns.map fun v => (v, b2.cptOf v)))) F F := by
        intro F
        induction F with
        | nil => exact fun _ => .nil
        | cons a F ih =>
          intro hF
          refine .cons ⟨rfl, ?_, rfl⟩ (ih fun kd hkd => hF kd (List.mem_cons_of_mem _ hkd))
          have := hF a List.mem_cons_self
          rw [hget]
          split_ifs
          · rw [Option.getD_some, this]
          · rfl
      refine key b2.F fun kd hkd => ?_
      unfold cptOf
      rw [Dict.get?_of_mem hn2 (k := kd.1) (v := kd.2) hkd]
    rcases rows_sim hE hI hn2 ns data.rows _ b2 rfl rfl (fun v => by rw [hget]; split_ifs with h <;> simp [h]) h0 with
      ⟨b', e, h1, h2⟩ | ⟨b3, cnt, h1, h2, h3, h4, h5, h6⟩
    · rw [h1, h2]; rfl
    · rw [h1, h2]
      simp only [Py.bind_ok, Py.pure_eq]
      have r := inPl_retab h3 h6
      rcases write_sim ns b2.F b3 hnd hn2 (fun v hv => (h5 v).2 hv) r.card (h6.imp fun k _ d e hd => by
          unfold Rest
          rw [hd.1]
          split_ifs with hk'
          · rfl
          · have : cnt.get? k = none := by
              have := (h5 k).not.2 hk'
              simpa using this
            rw [this]; rfl) with ⟨b', e, k1, k2⟩ | ⟨b', k1, k2, k3, k4⟩
      · rw [k1, k2]; rfl
      · rw [k1, k2]
        show Except.ok b' = Except.ok _
        rw [← h3, ← h4, ← k3, ← k4]
  · rfl

end LearnState
end PyBN
