import Verif.Proofs.Constraint3

/-!
# Further lemmas for constraint-based learning: what was tested when
-/

set_option linter.unusedSectionVars false

namespace PyBN
namespace Constraint

/-- Every variable was found dependent on `x` given the ones before it. -/
def AddedDep (lt : List ℕ → Bool) (x : ℕ) (s : List ℕ) : Prop := ∀ p y q, s = p ++ y :: q → lt (x :: y :: p) = true

theorem AddedDep.snoc {lt : List ℕ → Bool} {x : ℕ} {s : List ℕ} (h : AddedDep lt x s) {y : ℕ} (hy : lt (x :: y :: s) = true) :
    AddedDep lt x (s ++ [y]) := by
  intro p z q hpq
  rcases List.eq_nil_or_concat q with rfl | ⟨q', b, rfl⟩
  · obtain ⟨rfl, hz⟩ := List.append_inj' hpq rfl
    simp at hz; subst hz; exact hy
  · have h2 : s ++ [y] = (p ++ z :: q') ++ [b] := by simpa [List.concat_eq_append] using hpq
    obtain ⟨h3, _⟩ := List.append_inj' h2 rfl
    exact h p z q' h3

theorem growPass_added (lt : List ℕ → Bool) (x : ℕ) : ∀ (ys s : List ℕ) (f : Bool), AddedDep lt x s →
    AddedDep lt x (growPass lt x ys s f).1
  | [], s, f, h => h
  | y :: ys, s, f, h => by
      rw [growPass]
      split_ifs with hc
      · exact growPass_added lt x ys _ _ (h.snoc hc.2.2)
      · exact growPass_added lt x ys _ _ h

theorem growLoop_added (lt : List ℕ → Bool) (n x : ℕ) : ∀ (fuel : ℕ) (s s' : List ℕ), AddedDep lt x s →
    growLoop lt n x fuel s = .ok s' → AddedDep lt x s'
  | 0, _, _, _, h => by cases h
  | fuel + 1, s, s', ha, h => by
      rw [growLoop] at h
      have := growPass_added lt x (List.range n) s false ha
      split_ifs at h with hb
      · exact growLoop_added lt n x fuel _ _ this h
      · cases h; exact this

theorem growLoop_error (lt : List ℕ → Bool) (n x : ℕ) : ∀ (fuel : ℕ) (s : List ℕ) (err : PyErr),
    growLoop lt n x fuel s = .error err → err = .diverges
  | 0, _, _, h => by cases h; rfl
  | fuel + 1, s, err, h => by
      rw [growLoop] at h
      split_ifs at h with hb
      exact growLoop_error lt n x fuel _ _ h

/-! ## `pc` looks only at tests with a non-empty conditioning set -/

/-- The two test outcomes agree on every column list of length three or more. -/
def AgreeAbove2 (gt gt' : List ℕ → Bool) : Prop := ∀ c : List ℕ, 3 ≤ c.length → gt c = gt' c

theorem pcTests_congr {gt gt' : List ℕ → Bool} (hg : AgreeAbove2 gt gt') (x y : ℕ) : ∀ (zs : List (List ℕ)) (e : Dict ℕ (List ℕ)) (b : Blocks),
    (∀ z ∈ zs, 1 ≤ z.length) → pcTests gt x y zs e b = pcTests gt' x y zs e b
  | [], e, b, _ => rfl
  | z :: zs, e, b, hz => by
      have h1 := hz z (by simp)
      have h2 : gt (x :: y :: z) = gt' (x :: y :: z) := hg _ (by simp; omega)
      rw [pcTests, pcTests, h2]
      split_ifs
      · cases cut x y z e b with
        | error => rfl
        | ok r => exact pcTests_congr hg x y zs _ _ fun t ht => hz t (by simp [ht])
      · exact pcTests_congr hg x y zs _ _ fun t ht => hz t (by simp [ht])

theorem pcY_congr {gt gt' : List ℕ → Bool} (hg : AgreeAbove2 gt gt') {i : ℕ} (hi : 1 ≤ i) (x : ℕ) : ∀ (k p : ℕ) (e : Dict ℕ (List ℕ)) (b : Blocks),
    pcY gt i x k p e b = pcY gt' i x k p e b
  | 0, _, e, b => rfl
  | k + 1, p, e, b => by
      rw [pcY, pcY]
      cases e.get x with
      | error => rfl
      | ok ex =>
        simp only [Py.bind_ok]
        cases ex[p]? with
        | none => rfl
        | some y =>
          simp only
          rw [pcTests_congr hg x y _ e b fun z hz => by have := (mem_combinations.1 hz).2; omega]
          cases pcTests gt' x y (combinations ex i) e b with
          | error => rfl
          | ok r => exact pcY_congr hg hi x k (p + 1) _ _

theorem pcX_congr {gt gt' : List ℕ → Bool} (hg : AgreeAbove2 gt gt') {i : ℕ} (hi : 1 ≤ i) : ∀ (xs : List ℕ) (e : Dict ℕ (List ℕ)) (b : Blocks),
    pcX gt i xs e b = pcX gt' i xs e b
  | [], e, b => rfl
  | x :: xs, e, b => by
      rw [pcX, pcX]
      cases e.get x with
      | error => rfl
      | ok ex =>
        simp only [Py.bind_ok]
        rw [pcY_congr hg hi x]
        cases pcY gt' i x ex.length 0 e b with
        | error => rfl
        | ok r => exact pcX_congr hg hi xs _ _

theorem pcLoop_congr {gt gt' : List ℕ → Bool} (hg : AgreeAbove2 gt gt') (n : ℕ) : ∀ (fuel i : ℕ) (e : Dict ℕ (List ℕ)) (b : Blocks),
    1 ≤ i → pcLoop gt n fuel i e b = pcLoop gt' n fuel i e b
  | 0, _, _, _, _ => rfl
  | fuel + 1, i, e, b, hi => by
      rw [pcLoop, pcLoop, pcX_congr hg hi]
      cases pcX gt' i (List.range n) e b with
      | error => rfl
      | ok r =>
        simp only [Py.bind_ok]
        cases pcStop (i + 1) r.1 (List.range n) with
        | error => rfl
        | ok s =>
          simp only [Py.bind_ok]
          cases s
          · simpa using pcLoop_congr hg n fuel (i + 1) _ _ (by omega)
          · rfl

/-! ## complete graphs stay unoriented in `gs` -/

/-- `x - y` whenever `x ≠ y`. -/
def Complete (n : ℕ) (e : Dict ℕ (List ℕ)) : Prop := ∀ x y, y ∈ nb e x ↔ x < n ∧ y < n ∧ x ≠ y

theorem orientY_complete {lt : List ℕ → Bool} {h : HashOrder ℕ} {mb e : Dict ℕ (List ℕ)} {n : ℕ} (hu : Undirected n e) (hc : Complete n e)
    {x : ℕ} (hx : x < n) : ∀ k i, orientY lt h mb x k i e = .ok e
  | 0, _ => rfl
  | k + 1, i => by
      have hxk : x ∈ e.keys := hu.keys.mem_iff.2 (List.mem_range.2 hx)
      rw [orientY, get_nb hxk]
      simp only [Py.bind_ok]
      cases hi : (nb e x)[i]? with
      | none => rfl
      | some y =>
        have hy : y ∈ nb e x := List.mem_of_getElem? hi
        obtain ⟨_, hyn, hxy⟩ := (hc x y).1 hy
        have hyk : y ∈ e.keys := hu.keys.mem_iff.2 (List.mem_range.2 hyn)
        simp only [get_nb hyk, Py.bind_ok]
        have hnil : ((nb e x).dedup.filter fun v => decide (v ∉ nb e y)).erase y = [] := by
          rw [List.eq_nil_iff_forall_not_mem]
          intro v hv
          have hnd : ((nb e x).dedup.filter fun v => decide (v ∉ nb e y)).Nodup := (List.nodup_dedup _).filter _
          rw [hnd.mem_erase_iff, List.mem_filter, List.mem_dedup] at hv
          obtain ⟨h1, h2, h3⟩ := hv
          obtain ⟨_, hvn, _⟩ := (hc x v).1 h2
          exact (of_decide_eq_true h3) ((hc y v).2 ⟨hyn, hvn, Ne.symm h1⟩)
        have hnil2 : h.iter (((nb e x).dedup.filter fun v => decide (v ∉ nb e y)).erase y) = [] := by
          rw [hnil]; exact List.perm_nil.1 (h.perm [])
        rw [hnil2]
        simp only [orientZ, Py.bind_ok]
        exact orientY_complete hu hc hx k (i + 1)

theorem orientX_complete {lt : List ℕ → Bool} {h : HashOrder ℕ} {mb e : Dict ℕ (List ℕ)} {n : ℕ} (hu : Undirected n e) (hc : Complete n e) :
    ∀ xs : List ℕ, (∀ x ∈ xs, x < n) → orientX lt h mb xs e = .ok e
  | [], _ => rfl
  | x :: xs, hx => by
      have h1 := hx x (by simp)
      have hxk : x ∈ e.keys := hu.keys.mem_iff.2 (List.mem_range.2 h1)
      rw [orientX, get_nb hxk]
      simp only [Py.bind_ok, orientY_complete hu hc h1]
      exact orientX_complete hu hc xs fun y hy => hx y (by simp [hy])

theorem orientMB_complete {lt : List ℕ → Bool} {h : HashOrder ℕ} {mb e : Dict ℕ (List ℕ)} {n : ℕ} (hu : Undirected n e) (hc : Complete n e) :
    orientMB lt h e mb = .ok e :=
  orientX_complete hu hc _ fun x hx => List.mem_range.1 (hu.keys.mem_iff.1 ((h.perm _).mem_iff.1 hx))

end Constraint
end PyBN
