import Verif.Proofs.LearnState
import Verif.Proofs.RowOrder2

/-!
# The estimators do not read the old parameters: proofs
-/

set_option linter.unusedSectionVars false

namespace PyBN
namespace LearnState
open BayesNet

/-- Two dicts with the same keys in the same order, and related data. -/
def Rel {V : Type _} (R : ℕ → V → V → Prop) (F G : Dict ℕ V) : Prop := List.Forall₂ (fun a b => a.1 = b.1 ∧ R a.1 a.2 b.2) F G

variable {V : Type _} {R R' : ℕ → V → V → Prop}

theorem Rel.get? {F G : Dict ℕ V} (h : Rel R F G) (n : ℕ) : (F.get? n = none ∧ G.get? n = none) ∨ ∃ d e, F.get? n = some d ∧ G.get? n = some e ∧ R n d e := by
  induction h with
  | nil => exact .inl ⟨rfl, rfl⟩
  | @cons a b F G hab _ ih =>
    obtain ⟨ak, ad⟩ := a
    obtain ⟨bk, bd⟩ := b
    obtain ⟨h1, h2⟩ := hab
    dsimp only at h1 h2
    subst h1
    unfold Dict.get?
    split_ifs with h
    · subst h; exact .inr ⟨ad, bd, rfl, rfl, h2⟩
    · exact ih

theorem Rel.get {F G : Dict ℕ V} (h : Rel R F G) (n : ℕ) : (F.get n = .error .keyError ∧ G.get n = .error .keyError) ∨ ∃ d e, F.get n = .ok d ∧ G.get n = .ok e ∧ R n d e := by
  rcases h.get? n with ⟨h1, h2⟩ | ⟨d, e, h1, h2, h3⟩
  · left; simp [Dict.get, h1, h2]
  · right; exact ⟨d, e, by simp [Dict.get, h1], by simp [Dict.get, h2], h3⟩

theorem Rel.keys {F G : Dict ℕ V} (h : Rel R F G) : F.keys = G.keys := by
  induction h with
  | nil => rfl
  | cons hab _ ih =>
    unfold Dict.keys at ih ⊢
    rw [List.map_cons, List.map_cons, ih, hab.1]

theorem Rel.imp {F G : Dict ℕ V} (h : Rel R F G) (hi : ∀ k ∈ F.keys, ∀ d e, R k d e → R' k d e) : Rel R' F G := by
  induction h with
  | nil => exact .nil
  | @cons a b F G hab _ ih =>
    refine .cons ⟨hab.1, hi a.1 (by simp [Dict.keys]) _ _ hab.2⟩ (ih fun k hk => hi k ?_)
    unfold Dict.keys at hk ⊢
    exact List.mem_cons_of_mem _ hk

theorem Rel.set {F G : Dict ℕ V} (h : Rel R F G) {n : ℕ} {d e : V} (hn : F.keys.Nodup) (hi : ∀ k, k ≠ n → ∀ d e, R k d e → R' k d e) (hde : R' n d e) :
    Rel R' (F.set n d) (G.set n e) := by
  induction h with
  | nil => exact .cons ⟨rfl, hde⟩ .nil
  | @cons a b F G hab t ih =>
    obtain ⟨ak, ad⟩ := a
    obtain ⟨bk, bd⟩ := b
    obtain ⟨h1, h2⟩ := hab
    dsimp only at h1 h2
    subst h1
    have hn' : ak ∉ Dict.keys F ∧ (Dict.keys F).Nodup := List.nodup_cons.1 hn
    unfold Dict.set
    split_ifs with h
    · subst h
      refine .cons ⟨rfl, hde⟩ (Rel.imp t fun k hk => hi k ?_)
      rintro rfl; exact hn'.1 hk
    · exact .cons ⟨rfl, hi ak h _ _ h2⟩ (ih hn'.2)

theorem Rel.eq {F G : Dict ℕ V} (h : Rel (fun _ d e => d = e) F G) : F = G := by
  induction h with
  | nil => rfl
  | @cons a b F G hab _ ih => rw [ih, Prod.ext hab.1 hab.2]

/-- Same parents; same values for the nodes of `P`; same tables for the nodes of `Q`. -/
def RP (P Q : ℕ → Prop) (k : ℕ) (d e : NodeData ℕ ℤ) : Prop := d.parents = e.parents ∧ (P k → d.values = e.values) ∧ (Q k → d.cpt = e.cpt)

/-- Both fail in the same way, or both return related results. -/
def Sim {α : Type _} (S : α → α → Prop) (x y : Py α) : Prop := (∃ e, x = .error e ∧ y = .error e) ∨ ∃ a b, x = .ok a ∧ y = .ok b ∧ S a b

theorem sim_setValues (data : Data) {Q : ℕ → Prop} : ∀ (ns : List ℕ) (i : ℕ) (P : ℕ → Prop) (F G : Dict ℕ (NodeData ℕ ℤ)), F.keys.Nodup → Rel (RP P Q) F G →
    Sim (fun F' G' => F'.keys = F.keys ∧ Rel (RP (fun k => P k ∨ k ∈ ns) Q) F' G') (setValues data i ns F) (setValues data i ns G)
  | [], i, P, F, G, hn, h => .inr ⟨F, G, rfl, rfl, rfl, h.imp fun k _ d e hd => ⟨hd.1, fun hp => hd.2.1 (by simpa using hp), hd.2.2⟩⟩
  | n :: ns, i, P, F, G, hn, h => by
    rw [setValues, setValues]
    rcases hc : data.col i with e | c
    · exact .inl ⟨e, rfl, rfl⟩
    · simp only [Py.bind_ok]
      rcases h.get n with ⟨h1, h2⟩ | ⟨d, e, h1, h2, h3⟩
      · rw [h1, h2]; exact .inl ⟨_, rfl, rfl⟩
      · rw [h1, h2]
        simp only [Py.bind_ok]
        have hk : n ∈ F.keys := by
          by_contra hk
          have : F.get? n = none := by rw [Dict.get?_eq_none_iff]; exact hk
          rw [Dict.get, this] at h1; cases h1
        have hkeys : (F.set n { d with values := npUnique c }).keys = F.keys := by rw [Dict.keys_set, if_pos hk]
        have := sim_setValues data ns (i + 1) (fun k => P k ∨ k = n) (F.set n { d with values := npUnique c }) (G.set n { e with values := npUnique c })
          (by rw [hkeys]; exact hn) (h.set hn (fun k hkn d e hd => ⟨hd.1, fun hp => hd.2.1 (hp.resolve_right hkn), hd.2.2⟩) ⟨h3.1, fun _ => rfl, h3.2.2⟩)
        rcases this with h | ⟨a, b, ha, hb, hab⟩
        · exact .inl h
        · refine .inr ⟨a, b, ha, hb, hab.1.trans hkeys, hab.2.imp fun k _ d e hd => ⟨hd.1, fun hp => hd.2.1 ?_, hd.2.2⟩⟩
          rcases hp with hp | hp
          · exact .inl (.inl hp)
          · rcases List.mem_cons.1 hp with hp | hp
            · exact .inl (.inr hp)
            · exact .inr hp

theorem sim_setTables (fill : ℕ → Py ℚ) : ∀ (ns : List ℕ) (Q : ℕ → Prop) (b c : BayesNet ℕ ℤ), b.F.keys.Nodup → Rel (RP (fun _ => True) Q) b.F c.F →
    Sim (fun b' c' => (b'.V = b.V ∧ c'.V = c.V ∧ b'.E = b.E ∧ c'.E = c.E) ∧ b'.F.keys = b.F.keys ∧ Rel (RP (fun _ => True) (fun k => Q k ∨ k ∈ ns)) b'.F c'.F)
      (setTables fill ns b) (setTables fill ns c)
  | [], Q, b, c, hn, h => .inr ⟨b, c, rfl, rfl, ⟨rfl, rfl, rfl, rfl⟩, rfl, h.imp fun k _ d e hd => ⟨hd.1, hd.2.1, fun hp => hd.2.2 (by simpa using hp)⟩⟩
  | n :: ns, Q, b, c, hn, h => by
    have hcard : b.card = c.card := by
      funext v
      unfold BayesNet.card
      rcases h.get v with ⟨h1, h2⟩ | ⟨d, e, h1, h2, h3⟩
      · rw [h1, h2]
      · rw [h1, h2]; simp only [Py.bind_ok]; rw [h3.2.1 trivial]
    rw [setTables, setTables]
    unfold BayesNet.parents
    rcases h.get n with ⟨h1, h2⟩ | ⟨d, e, h1, h2, h3⟩
    · rw [h1, h2]; exact .inl ⟨_, rfl, rfl⟩
    · obtain ⟨dp, dv, dc⟩ := d
      obtain ⟨ep, ev, ec⟩ := e
      obtain ⟨hp3, hv3, hc3⟩ := h3
      dsimp only at hp3
      subst hp3
      rw [h1, h2, hcard]
      simp only [Py.bind_ok, Py.pure_eq]
      rcases pyMap c.card dp with er | cs
      · exact .inl ⟨_, rfl, rfl⟩
      simp only [Py.bind_ok]
      rcases c.card n with er | cd
      · exact .inl ⟨_, rfl, rfl⟩
      simp only [Py.bind_ok]
      rcases fill (cs.prod * cd) with er | x
      · exact .inl ⟨_, rfl, rfl⟩
      simp only [Py.bind_ok]
      have hk : n ∈ b.F.keys := by
        by_contra hk
        have : b.F.get? n = none := by rw [Dict.get?_eq_none_iff]; exact hk
        rw [Dict.get, this] at h1; cases h1
      have hkeys : (b.F.set n ⟨dp, dv, List.replicate (cs.prod * cd) x⟩).keys = b.F.keys := by rw [Dict.keys_set, if_pos hk]
      have := sim_setTables fill ns (fun k => Q k ∨ k = n) { b with F := b.F.set n ⟨dp, dv, List.replicate (cs.prod * cd) x⟩ }
        { c with F := c.F.set n ⟨dp, ev, List.replicate (cs.prod * cd) x⟩ }
        (by show (b.F.set n _).keys.Nodup; rw [hkeys]; exact hn)
        (h.set hn (fun k hkn d e hd => ⟨hd.1, hd.2.1, fun hp => hd.2.2 (hp.resolve_right hkn)⟩) ⟨rfl, hv3, fun _ => rfl⟩)
      rcases this with h | ⟨a, b', ha, hb, hab⟩
      · exact .inl h
      · refine .inr ⟨a, b', ha, hb, hab.1, hab.2.1.trans hkeys, hab.2.2.imp fun k _ d e hd => ⟨hd.1, hd.2.1, fun hp => hd.2.2 ?_⟩⟩
        rcases hp with hp | hp
        · exact .inl (.inl hp)
        · rcases List.mem_cons.1 hp with hp | hp
          · exact .inl (.inr hp)
          · exact .inr hp

theorem prepare_congr (fill : ℕ → Py ℚ) {b c : BayesNet ℕ ℤ} (hV : b.V = c.V) (hE : b.E = c.E) (hn : b.F.keys.Nodup) (h : Rel (fun _ d e => d.parents = e.parents) b.F c.F)
    (data : Data) (ns : List ℕ) (hall : ∀ v ∈ b.F.keys, v ∈ ns) :
    (do let F1 ← setValues data 0 ns b.F; setTables fill ns { b with F := F1 }) = (do let F1 ← setValues data 0 ns c.F; setTables fill ns { c with F := F1 }) := by
  have h1 := sim_setValues data (Q := fun _ => False) ns 0 (fun _ => False) b.F c.F hn (h.imp fun k _ d e hd => ⟨hd, False.elim, False.elim⟩)
  rcases h1 with ⟨e, ha, hb⟩ | ⟨F', G', ha, hb, hk, hr⟩
  · rw [ha, hb]; rfl
  · rw [ha, hb]
    simp only [Py.bind_ok]
    have h2 := sim_setTables fill ns (fun _ => False) { b with F := F' } { c with F := G' } (by show F'.keys.Nodup; rw [hk]; exact hn)
      (hr.imp fun k hkk d e hd => ⟨hd.1, fun _ => hd.2.1 (.inr (hall k (by rw [← hk]; exact hkk))), hd.2.2⟩)
    rcases h2 with ⟨e, ha, hb⟩ | ⟨b', c', ha, hb, ⟨v1, v2, e1, e2⟩, hk2, hr2⟩
    · rw [ha, hb]
    · rw [ha, hb]
      have hF : b'.F = c'.F := (hr2.imp (R' := fun _ d e => d = e) fun k hkk d e hd => by
        have hm : k ∈ ns := hall k (by rw [← hk, show F'.keys = b'.F.keys from hk2.symm]; exact hkk)
        obtain ⟨p1, p2, p3⟩ := d
        obtain ⟨q1, q2, q3⟩ := e
        obtain ⟨a1, a2, a3⟩ := hd
        dsimp only at a1 a2 a3
        rw [a1, a2 trivial, a3 (.inr hm)]).eq
      have e1' : b'.E = c'.E := by rw [e1, e2]; exact hE
      have v1' : b'.V = c'.V := by rw [v1, v2]; exact hV
      obtain ⟨a1, a2, a3⟩ := b'
      obtain ⟨b1, b2, b3⟩ := c'
      dsimp only at hF e1' v1'
      rw [hF, e1', v1']

theorem learn_congr (hE : HashOrder (ℕ × ℤ)) (hI : HashOrder ℤ) (fill : ℕ → Py ℚ) {b c : BayesNet ℕ ℤ} (hV : b.V = c.V) (hE' : b.E = c.E) (hn : b.F.keys.Nodup)
    (h : Rel (fun _ d e => d.parents = e.parents) b.F c.F) (data : Data) (ns : List ℕ) (hall : ∀ v ∈ b.F.keys, v ∈ ns) :
    learn hE hI fill b data ns = learn hE hI fill c data ns := by
  rw [learn_eq, learn_eq, prepareTo_outcome, prepareTo_outcome, prepare_congr fill hV hE' hn h data ns hall]

/-! ## What the unfinished calls keep -/

theorem rel_refl {F : Dict ℕ V} (hR : ∀ k d, R k d d) : Rel R F F := by
  induction F with
  | nil => exact .nil
  | cons a F ih => exact .cons ⟨rfl, hR _ _⟩ ih

theorem rel_set {F : Dict ℕ V} {n : ℕ} {d e : V} (h1 : F.get? n = some d) (hR : ∀ k d, R k d d) (h : R n d e) : Rel R F (F.set n e) := by
  induction F with
  | nil => cases h1
  | cons a F ih =>
    obtain ⟨k, x⟩ := a
    unfold Dict.get? at h1
    unfold Dict.set
    split_ifs at h1 ⊢ with hk
    · cases h1; subst hk; exact .cons ⟨rfl, h⟩ (rel_refl hR)
    · exact .cons ⟨rfl, hR _ _⟩ (ih h1)

theorem rel_trans {R : ℕ → V → V → Prop} (hR : ∀ k a b c, R k a b → R k b c → R k a c) {F G H : Dict ℕ V} (h1 : Rel R F G) (h2 : Rel R G H) : Rel R F H := by
  induction h1 generalizing H with
  | nil => exact h2
  | cons hab _ ih =>
    cases h2 with
    | cons hbc t2 => exact .cons ⟨hab.1.trans hbc.1, hR _ _ _ _ hab.2 (hab.1 ▸ hbc.2)⟩ (ih t2)

/-- Same keys in the same order, same parents. -/
abbrev SameParents (F G : Dict ℕ (NodeData ℕ ℤ)) : Prop := Rel (fun _ d e => d.parents = e.parents) F G

theorem get_some {F : Dict ℕ V} {n : ℕ} {d : V} (h : F.get n = .ok d) : F.get? n = some d := by
  unfold Dict.get at h
  split at h
  · cases h; assumption
  · cases h

theorem setValuesTo_parents (data : Data) : ∀ (ns : List ℕ) (i : ℕ) (F : Dict ℕ (NodeData ℕ ℤ)), SameParents F (setValuesTo data i ns F).1
  | [], _, F => rel_refl fun _ _ => rfl
  | n :: ns, i, F => by
    rw [setValuesTo]
    split
    · exact rel_refl fun _ _ => rfl
    · split
      · exact rel_refl fun _ _ => rfl
      · rename_i d hd
        refine rel_trans (fun _ _ _ _ h1 h2 => h1.trans h2) (rel_set (get_some hd) (fun _ _ => rfl) ?_) (setValuesTo_parents data ns (i + 1) _)
        rfl

theorem setTablesTo_parents (fill : ℕ → Py ℚ) : ∀ (ns : List ℕ) (b : BayesNet ℕ ℤ), SameParents b.F (setTablesTo fill ns b).1.F
  | [], b => rel_refl fun _ _ => rfl
  | n :: ns, b => by
    rw [setTablesTo]
    split
    · exact rel_refl fun _ _ => rfl
    · rename_i d k x hd
      have hd' : b.F.get n = .ok d := by
        simp only [BayesNet.bind_ok_iff] at hd
        obtain ⟨_, _, _, _, _, _, _, _, d', h', h''⟩ := hd
        cases h''; exact h'
      exact rel_trans (fun _ _ _ _ h1 h2 => h1.trans h2) (rel_set (e := { d with cpt := List.replicate k x }) (get_some hd') (fun _ _ => rfl) rfl)
        (setTablesTo_parents fill ns { b with F := b.F.set n { d with cpt := List.replicate k x } })

theorem prepareTo_parents (fill : ℕ → Py ℚ) (b : BayesNet ℕ ℤ) (data : Data) (ns : List ℕ) : SameParents b.F (prepareTo fill b data ns).1.F := by
  unfold prepareTo
  have h := setValuesTo_parents data ns 0 b.F
  generalize setValuesTo data 0 ns b.F = r at h
  rcases r with ⟨F1, _ | e⟩
  · exact rel_trans (fun _ _ _ _ h1 h2 => h1.trans h2) h (setTablesTo_parents fill ns { b with F := F1 })
  · exact h

/-- Whatever the arguments, a call with `counts=True` or one that raises only replaces values and tables. -/
theorem mleAfter_parents (hE : HashOrder (ℕ × ℤ)) (hI : HashOrder ℤ) (b : BayesNet ℕ ℤ) (data : Data) (nodes : Option (List ℕ)) (counts : Bool)
    (h : counts = true ∨ (mleAfter hE hI b data nodes counts).2 ≠ none) :
    (mleAfter hE hI b data nodes counts).1.V = b.V ∧ (mleAfter hE hI b data nodes counts).1.E = b.E ∧ SameParents b.F (mleAfter hE hI b data nodes counts).1.F := by
  have key : (mleAfter hE hI b data nodes counts).1 = (prepareTo (fun _ => .ok 0) b data (nodes.getD b.V)).1 := by
    revert h
    unfold mleAfter
    dsimp only
    generalize prepareTo (fun _ => .ok 0) b data (nodes.getD b.V) = r
    rcases r with ⟨b2, _ | e⟩
    · dsimp only
      split
      · exact fun _ => rfl
      · split_ifs with hc
        · exact fun _ => rfl
        · split
          · exact fun _ => rfl
          · rintro (h | h)
            · exact absurd h hc
            · exact absurd rfl h
    · exact fun _ => rfl
  rw [key]
  exact ⟨(prepareTo_VE _ _ _ _).1, (prepareTo_VE _ _ _ _).2, prepareTo_parents _ _ _ _⟩

end LearnState
end PyBN
