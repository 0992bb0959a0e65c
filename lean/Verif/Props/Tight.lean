import Verif.Spec.Tight
import Verif.Props.EmpDist
import Verif.Props.ParamDist
import Verif.Props.Edit
import Verif.Props.Clique3
import Verif.Props.Distance
import Verif.Props.Inference
import Verif.Props.Factor

/-!
# Sharper statements for C13, C24, C43, C116, C156, C176, and C201, C202

Each of these was added because an edited model (a wrong tie, a swapped argument, another exception) passed the earlier statement.
-/

set_option linter.unusedSectionVars false

namespace PyBN

/-! ## C13: ties -/

/-- C13: rounding to `d` digits gives the nearest multiple of `10^-d`, and in a tie the even one. -/
theorem C13_ties (d : ℕ) (x : ℚ) :
    ∃ k : ℤ, roundEven d x = k / 10 ^ d ∧ |x * 10 ^ d - k| ≤ 1 / 2 ∧ (|x * 10 ^ d - k| = 1 / 2 → Even k) := by
  refine ⟨rintEven (x * 10 ^ d), rfl, ?_⟩
  generalize x * 10 ^ d = y
  have h1 := Int.floor_le y
  have h2 := Int.lt_floor_add_one y
  unfold rintEven
  simp only
  split_ifs with ha hb hc
  · refine ⟨by rw [abs_le]; constructor <;> linarith, fun h => ?_⟩
    rw [abs_of_nonneg (by linarith)] at h
    linarith
  · push_cast
    refine ⟨by rw [abs_le]; constructor <;> linarith, fun h => ?_⟩
    rw [abs_of_nonpos (by linarith)] at h
    linarith
  · exact ⟨by rw [abs_le]; constructor <;> linarith, fun _ => Int.even_iff.2 hc⟩
  · push_cast
    refine ⟨by rw [abs_le]; constructor <;> linarith, fun _ => Int.even_add_one.2 fun h => hc (Int.even_iff.1 h)⟩

/-- C66: Python 2's `round(x, d)` gives the nearest multiple of `10^-d`, and in a tie the one further from zero. -/
theorem C66_ties (d : ℕ) (x : ℚ) :
    ∃ k : ℤ, roundAway d x = k / 10 ^ d ∧ |x * 10 ^ d - k| ≤ 1 / 2 ∧ (|x * 10 ^ d - k| = 1 / 2 → |x * 10 ^ d| ≤ |(k : ℚ)|) := by
  refine ⟨rintAway (x * 10 ^ d), rfl, ?_⟩
  generalize x * 10 ^ d = y
  unfold rintAway
  split_ifs with h0
  · have h1 := Int.floor_le (y + 1 / 2)
    have h2 := Int.lt_floor_add_one (y + 1 / 2)
    refine ⟨by rw [abs_le]; constructor <;> linarith, fun h => ?_⟩
    rcases abs_eq (by norm_num : (0 : ℚ) ≤ 1 / 2) |>.1 h with h | h
    · linarith
    · rw [abs_of_nonneg h0, abs_of_nonneg (by linarith)]; linarith
  · have h1 := Int.floor_le (-y + 1 / 2)
    have h2 := Int.lt_floor_add_one (-y + 1 / 2)
    push_cast
    refine ⟨by rw [abs_le]; constructor <;> linarith, fun h => ?_⟩
    rcases abs_eq (by norm_num : (0 : ℚ) ≤ 1 / 2) |>.1 h with h | h
    · rw [abs_of_neg (by linarith), abs_of_nonpos (by linarith)]; linarith
    · linarith

/-- Witness for C13, C66: 0.00025 is half way; numpy rounds it to the even 0.0002, Python 2's `round` away from zero to 0.0003. -/
example : roundEven 4 (25 / 100000) = 2 / 10000 ∧ roundEven 4 (35 / 100000) = 4 / 10000 ∧ roundAway 4 (25 / 100000) = 3 / 10000 ∧
    roundAway 4 (-25 / 100000) = -3 / 10000 := by decide +kernel

/-! ## C156: exactly which exception -/

namespace EmpDist

mutual
theorem hashable_sound : ∀ a : Arg, hashable a = true ↔ Hashable a
  | .int i => by simp [hashable, Hashable.int]
  | .str s => by simp [hashable, Hashable.str]
  | .list l => by simp only [hashable, Bool.false_eq_true, false_iff]; intro h; cases h
  | .tup l => by
      rw [hashable, hashableAll_sound l]
      exact ⟨Hashable.tup l, fun h => by cases h; assumption⟩
theorem hashableAll_sound : ∀ l : List Arg, hashableAll l = true ↔ ∀ a ∈ l, Hashable a
  | [] => by simp [hashableAll]
  | a :: l => by
      rw [hashableAll, Bool.and_eq_true, hashable_sound a, hashableAll_sound l]
      simp
end

/-- C156: exactly what each call does, on any object the constructor returned: `mpd` refuses what is not a string and finds no string among
its integer names; `jpd`, `mi` and `idx_map` read an undefined name; `cpd` wants a tuple, then a hashable key, then fails in `jpd`; and `idx` finds
exactly the column numbers. -/
theorem C156_exact (n : ℕ) (rows : List (List ℕ)) (names : Option (List Arg)) (s : ED n) (h : init n rows names = .ok s) :
    (∀ x, call s (.mpd (.str x)) = .error .valueError) ∧ (∀ a, (∀ x, a ≠ .str x) → call s (.mpd a) = .error .assertionError) ∧
    (∀ a, call s (.jpd a) = .error .nameError) ∧ (∀ a b, call s (.mi a b) = .error .nameError) ∧ (∀ a, call s (.idxMap a) = .error .nameError) ∧
    (∀ a b, (∀ l, b ≠ .tup l) → call s (.cpd a b) = .error .assertionError) ∧
    (∀ a l, ¬ (Hashable a ∧ Hashable (.tup l)) → call s (.cpd a (.tup l)) = .error .typeError) ∧
    (∀ a l, Hashable a → Hashable (.tup l) → call s (.cpd a (.tup l)) = .error .nameError) ∧
    (∀ i : Fin n, call s (.idx (.int i)) = .ok (.position i, s)) ∧
    (∀ a, (∀ i : Fin n, a ≠ .int i) → call s (.idx a) = .error .valueError) := by
  have hs : s.cache = [] := (C156_no_query_returns n rows names s h []).2.1
  have hk : ∀ a l, hashable (.tup [a, .tup l]) = true ↔ Hashable a ∧ Hashable (.tup l) := by
    intro a l
    rw [hashable, hashableAll_sound]
    simp
  refine ⟨fun x => ?_, fun a ha => ?_, fun a => rfl, fun a b => rfl, fun a => rfl, fun a b hb => ?_, fun a l hh => ?_, fun a l h1 h2 => ?_, fun i => ?_, fun a ha => ?_⟩
  · show mpd s (.str x) = _
    simp only [mpd, hs, List.not_mem_nil, if_false]; rfl
  · cases a with
    | str x => exact absurd rfl (ha x)
    | _ => rfl
  · cases b with
    | tup l => exact absurd rfl (hb l)
    | _ => rfl
  · show cpd s a (.tup l) = _
    have hf : hashable (.tup [a, .tup l]) = false := by rw [← hk a l] at hh; simpa using hh
    unfold cpd
    simp only [hf, if_true]
  · show cpd s a (.tup l) = _
    unfold cpd
    simp only [(hk a l).2 ⟨h1, h2⟩, hs, List.not_mem_nil, if_false, Bool.true_eq_false]; rfl
  · have : idx n (.int (i : ℕ)) = .ok (i : ℕ) := by
      rw [idx, if_pos ⟨by simp, by exact_mod_cast i.2⟩]; rfl
    show (do let j ← idx n (.int (i : ℕ)); pure (Result.position j, s) : Py _) = _
    rw [this]; rfl
  · have : idx n a = .error .valueError := by
      cases a with
      | int i =>
        rw [idx, if_neg]
        rintro ⟨h0, h1⟩
        refine ha ⟨i.toNat, by omega⟩ ?_
        simp [Int.toNat_of_nonneg h0]
      | _ => rfl
    show (do let j ← idx n a; pure (Result.position j, s) : Py _) = _
    rw [this]; rfl

/-- Witness for C156: a tuple holding a list is not hashable, a tuple of tuples is. -/
example : ¬ Hashable (.tup [.int 1, .tup [.list []]]) ∧ Hashable (.tup [.str "a", .tup [.int 1]]) := by
  rw [← hashable_sound, ← hashable_sound]; decide

end EmpDist

/-! ## C176: one-entry tables -/

namespace ParamDist

/-- C176: behind the assertions, a one-entry table is compared with every entry of the other one. -/
theorem C176_broadcast (a : ℝ) (y : List ℝ) :
    euclideanBody [a] y = .ok (y.map fun b => |a - b|).sum ∧ euclideanBody y [a] = .ok (y.map fun b => |b - a|).sum ∧
    manhattanBody [a] y = .ok (y.map fun b => |a - b|).sum ∧ manhattanBody y [a] = .ok (y.map fun b => |b - a|).sum ∧
    klBody [a] y = .ok (y.map fun b => a * Real.log (a / b)).sum ∧ klBody y [a] = .ok (y.map fun b => b * Real.log (b / a)).sum := by
  have h1 : ∀ (f : ℝ → ℝ → ℝ) (z : List ℝ), bcast f [a] z = .ok (z.map fun b => f a b) := by
    intro f z
    unfold bcast
    split_ifs with h
    · rcases z with _ | ⟨c, _ | ⟨d, z⟩⟩ <;> simp_all
    · rfl
  have h2 : ∀ (f : ℝ → ℝ → ℝ) (z : List ℝ), bcast f z [a] = .ok (z.map fun b => f b a) := by
    intro f z
    unfold bcast
    split_ifs with h
    · rcases z with _ | ⟨c, _ | ⟨d, z⟩⟩ <;> simp_all
    · rcases z with _ | ⟨c, _ | ⟨d, z⟩⟩ <;> simp_all
  have h3 : ∀ (f : ℝ → ℝ → ℝ) (g : ℝ → ℝ), bcast f y (y.map g) = .ok (y.map fun b => f b (g b)) := by
    intro f g
    unfold bcast
    rw [if_pos (by simp), List.zipWith_map_right, List.zipWith_self]
  refine ⟨?_, ?_, ?_, ?_, ?_, ?_⟩
  · simp [euclideanBody, h1, Real.sqrt_sq_eq_abs, Function.comp_def]
  · simp [euclideanBody, h2, Real.sqrt_sq_eq_abs, Function.comp_def]
  · simp [manhattanBody, h1, Function.comp_def]
  · simp [manhattanBody, h2, Function.comp_def]
  · simp [klBody, h1, Function.comp_def]
  · have := h3 (fun a b => a * b) (fun b => Real.log (b / a))
    simp [klBody, h2, Function.comp_def, this]

end ParamDist

/-! ## C201, C24, C43: missing entries -/

namespace HNet
variable {N A : Type _} [DecidableEq N] [DecidableEq A]

theorem get?_E_none {h : Heap N A} {b : HNet N} {u : N} : Dict.get? b.E u = none ↔ u ∉ Dict.keys (deref h b).E := by
  rw [Dict.mem_keys_iff, getE_deref]
  cases Dict.get? b.E u <;> simp

theorem get?_F_none {h : Heap N A} {b : HNet N} {u : N} : Dict.get? b.F u = none ↔ u ∉ Dict.keys (deref h b).F := by
  rw [Dict.mem_keys_iff, getF_deref]
  cases Dict.get? b.F u <;> simp

/-- C201: an edit, or an access to one of the lists, that names a node (or an arc from a node) the network has no entry for raises
`KeyError` and changes nothing at all; the edits that look up one entry raise in no other case. -/
theorem C201_unknown (h : Heap N A) (b : HNet N) (o : Op N A) :
    (Unknown (deref h b) o → step h b o = ((h, b), some .keyError)) ∧
    (OneLookup o → ¬ Unknown (deref h b) o → (step h b o).2 = none) := by
  have hE : ∀ u, u ∉ Dict.keys (deref h b).E → Dict.get? b.E u = none := fun u => get?_E_none.2
  have hF : ∀ u, u ∉ Dict.keys (deref h b).F → Dict.get? b.F u = none := fun u => get?_F_none.2
  have hE' : ∀ u, ¬ u ∉ Dict.keys (deref h b).E → ∃ a, Dict.get? b.E u = some a := fun u hu =>
    Option.ne_none_iff_exists'.1 fun hn => hu (get?_E_none.1 hn)
  have hF' : ∀ u, ¬ u ∉ Dict.keys (deref h b).F → ∃ a, Dict.get? b.F u = some a := fun u hu =>
    Option.ne_none_iff_exists'.1 fun hn => hu (get?_F_none.1 hn)
  cases o with
  | addNode rv => exact ⟨fun hu => hu.elim, fun _ _ => rfl⟩
  | addEdge u v => exact ⟨fun hu => hu.elim, fun ho => ho.elim⟩
  | removeEdge u v => exact ⟨fun hu => by simp only [step, removeEdge, hE u hu], fun ho => ho.elim⟩
  | reverseArc u v => exact ⟨fun hu => by simp only [step, reverseArc, hE u hu], fun ho => ho.elim⟩
  | setCpt v l => exact ⟨fun hu => by simp only [step, setCpt, hF v hu], fun _ hu => by obtain ⟨d, hd⟩ := hF' v hu; simp only [step, setCpt, hd]⟩
  | setParents v l => exact ⟨fun hu => by simp only [step, setParents, hF v hu], fun _ hu => by obtain ⟨d, hd⟩ := hF' v hu; simp only [step, setParents, hd]⟩
  | setValues v l => exact ⟨fun hu => by simp only [step, setValues, hF v hu], fun _ hu => by obtain ⟨d, hd⟩ := hF' v hu; simp only [step, setValues, hd]⟩
  | pokeV l => exact ⟨fun hu => hu.elim, fun _ _ => rfl⟩
  | pokeChildren u l => exact ⟨fun hu => by simp only [step, hE u hu], fun _ hu => by obtain ⟨d, hd⟩ := hE' u hu; simp only [step, hd]⟩
  | pokeParents v l => exact ⟨fun hu => by simp only [step, hF v hu], fun _ hu => by obtain ⟨d, hd⟩ := hF' v hu; simp only [step, hd]⟩
  | pokeValues v l => exact ⟨fun hu => by simp only [step, hF v hu], fun _ hu => by obtain ⟨d, hd⟩ := hF' v hu; simp only [step, hd]⟩
  | pokeCpt v l => exact ⟨fun hu => by simp only [step, hF v hu], fun _ hu => by obtain ⟨d, hd⟩ := hF' v hu; simp only [step, hd]⟩

/-- C201: the edits of arcs are not atomic.  If the network has a children list for `u` but misses the other entry the edit needs, the edit
raises `KeyError` after it has changed that list: `add_edge(u, v)` has appended `v` (for a node `v` without entry in `F`), `remove_edge(u, v)` and
`reverse_arc(u, v)` have removed it (for a `v` without entry in `F`, respectively `E`). -/
theorem C201_half_done (h : Heap N A) (b : HNet N) (inb : InBounds h b) (u v : N) (l : List N) (hl : Dict.get? (deref h b).E u = some l) :
    (u ∈ (deref h b).V → v ∈ (deref h b).V → v ∉ l → v ∉ Dict.keys (deref h b).F →
      (addEdge h b u v).2 = some .keyError ∧ Dict.get? (deref (addEdge h b u v).1.1 (addEdge h b u v).1.2).E u = some (l ++ [v])) ∧
    (v ∈ l → v ∉ Dict.keys (deref h b).F →
      (removeEdge h b u v).2 = some .keyError ∧ Dict.get? (deref (removeEdge h b u v).1.1 (removeEdge h b u v).1.2).E u = some (l.erase v)) ∧
    (v ∈ l → v ∉ Dict.keys (deref h b).E →
      (reverseArc h b u v).2 = some .keyError ∧ Dict.get? (deref (reverseArc h b u v).1.1 (reverseArc h b u v).1.2).E u = some (l.erase v)) := by
  rw [getE_deref, Option.map_eq_some_iff] at hl
  obtain ⟨a, ha, rfl⟩ := hl
  have hlen : a < h.names.length := inb.n a (mem_nAddr_E ha)
  have see : ∀ l' : List N, Dict.get? (deref (h.putN a l') b).E u = some l' := fun l' => by
    rw [getE_deref, ha, Option.map_some, Heap.nm_putN_self hlen]
  refine ⟨fun hu hv hvl hF => ?_, fun hvl hF => ?_, fun hvl hE => ?_⟩
  · have e : addEdge h b u v = ((h.putN a (h.nm a ++ [v]), b), some .keyError) := by
      have hu' : u ∈ h.nm b.V := hu
      have hv' : v ∈ h.nm b.V := hv
      simp only [addEdge, ensureNode, hu', hv', if_true, linkEdge, ha, if_neg hvl, get?_F_none.2 hF]
    rw [e]
    exact ⟨rfl, see _⟩
  · have e : removeEdge h b u v = ((h.putN a ((h.nm a).erase v), b), some .keyError) := by
      simp only [removeEdge, ha, hvl, if_true, get?_F_none.2 hF]
    rw [e]
    exact ⟨rfl, see _⟩
  · have e : reverseArc h b u v = ((h.putN a ((h.nm a).erase v), b), some .keyError) := by
      simp only [reverseArc, ha, hvl, if_true, get?_E_none.2 hE]
    rw [e]
    exact ⟨rfl, see _⟩

/-- Witness for C201: a new node has no children list (`add_node` makes none), so `add_edge` away from it raises; `set_cpt` of an unknown
node; and `reverse_arc` towards a node made by `add_edge` loses the arc. -/
example : let s := addEdge (fresh exNet).1 (fresh exNet).2 0 7
    s.2 = none ∧ (addEdge s.1.1 s.1.2 7 1).2 = some .keyError ∧ Unknown (deref s.1.1 s.1.2) (.setCpt 9 []) ∧
      (reverseArc s.1.1 s.1.2 0 7).2 = some .keyError ∧ 7 ∈ (deref s.1.1 s.1.2).childrenOf 0 ∧
      7 ∉ (deref (reverseArc s.1.1 s.1.2 0 7).1.1 (reverseArc s.1.1 s.1.2 0 7).1.2).childrenOf 0 := by
  refine ⟨by decide +kernel, by decide +kernel, ?_, by decide +kernel, by decide +kernel, by decide +kernel⟩
  show 9 ∉ Dict.keys _
  decide +kernel

/-- C24: `copy()` of a network in which a node of `V` has no entry in `F` raises `KeyError`. -/
theorem C24_copy_raises (h : Heap N A) (b : HNet N) (v : N) (hv : v ∈ (deref h b).V) (hF : v ∉ Dict.keys (deref h b).F) :
    copy h b = .error .keyError := by
  have key : ∀ (vs : List N) (k : Heap N A) (F : Dict N HNode), v ∈ vs → copyF b vs k F = .error .keyError := by
    intro vs
    induction vs with
    | nil => intro k F hm; cases hm
    | cons w vs ih =>
      intro k F hm
      rw [copyF]
      cases hw : Dict.get? b.F w with
      | none => rfl
      | some d =>
        refine ih _ _ ((List.mem_cons.1 hm).resolve_left fun e => ?_)
        rw [e] at hF
        exact hF (Dict.mem_keys_iff.2 (by rw [getF_deref, hw]; rfl))
  unfold copy
  simp only
  rw [key (h.nm b.V) _ _ hv]
  rfl

/-- C43: `markov_blanket` of a network in which a node of `V` misses its entry in `E` or in `F` raises `KeyError`; so it does after
`add_node`, which makes no entry in `E`. -/
theorem C43_missing (h : Heap N A) (b : HNet N) (v : N) (hv : v ∈ (deref h b).V)
    (hm : v ∉ Dict.keys (deref h b).F ∨ v ∉ Dict.keys (deref h b).E) : markovBlanket h b = .error .keyError := by
  have hm' : Dict.get? b.F v = none ∨ Dict.get? b.E v = none := hm.imp get?_F_none.2 get?_E_none.2
  have key : ∀ (vs : List N) (k : Heap N A) (mb : Dict N ℕ), v ∈ vs → mbAlloc b vs k mb = .error .keyError := by
    intro vs
    induction vs with
    | nil => intro k F hm; cases hm
    | cons w vs ih =>
      intro k F hw
      rw [mbAlloc]
      cases h1 : Dict.get? b.F w with
      | none => rfl
      | some d =>
        cases h2 : Dict.get? b.E w with
        | none => rfl
        | some a =>
          refine ih _ _ ((List.mem_cons.1 hw).resolve_left fun e => ?_)
          subst e
          rw [h1, h2] at hm'
          simp at hm'
  unfold markovBlanket
  rw [key (h.nm b.V) _ _ hv]
  rfl

/-- Witness for C24, C43: `add_edge` to a new node 7 gives the example an entry for 7 in `F` and none in `E`. -/
example : let s := addEdge (fresh exNet).1 (fresh exNet).2 0 7
    7 ∈ (deref s.1.1 s.1.2).V ∧ 7 ∉ Dict.keys (deref s.1.1 s.1.2).E ∧ 7 ∈ Dict.keys (deref s.1.1 s.1.2).F := by
  decide +kernel

end HNet

/-! ## C202: `Factor.sepset` -/

section Sepset
open Factor
variable {N A : Type _} [DecidableEq N] [DecidableEq A]

/-- C202: for well-formed factors, `f.sepset(g)` holds exactly the variables of both scopes, each once, and is the same set as
`g.sepset(f)`; the product `f * g` has as many variables as the two scopes together less the sepset, and its table has as many entries as the two
tables multiplied, divided by the number of assignments of the sepset. -/
theorem C202_sepset (h : HashOrder N) (c : N → ℕ) (f g : Factor N) (wf : f.WF c) (wg : g.WF c) :
    (∀ v, v ∈ f.sepset g ↔ v ∈ f.scope ∧ v ∈ g.scope) ∧ (f.sepset g).Nodup ∧ (f.sepset g).Perm (g.sepset f) ∧
    ∃ p q, Factor.mul h f g = .ok (p, q) ∧ p.scope.length + (f.sepset g).length = f.scope.length + g.scope.length ∧
      p.cpt.length * ((f.sepset g).map c).prod = f.cpt.length * g.cpt.length := by
  have hf := wf.scope_nodup
  have hg := wg.scope_nodup
  have hm : ∀ f g : Factor N, ∀ v, v ∈ f.sepset g ↔ v ∈ f.scope ∧ v ∈ g.scope := by
    intro f g v
    simp [Factor.sepset]
  have hnd : ∀ f g : Factor N, f.scope.Nodup → (f.sepset g).Nodup := fun f g h => h.filter _
  obtain ⟨p, q, h1, h2, h3, -⟩ := C02_multiply_pointwise h c f g wf wg
  have hs := h2.scope_nodup
  have e1 : p.scope.toFinset = f.scope.toFinset ∪ g.scope.toFinset := by ext v; simp [h3]
  have e2 : (f.sepset g).toFinset = f.scope.toFinset ∩ g.scope.toFinset := by ext v; simp [hm]
  refine ⟨hm f g, hnd f g hf, ?_, p, q, h1, ?_, ?_⟩
  · rw [List.perm_ext_iff_of_nodup (hnd f g hf) (hnd g f hg)]
    intro v
    rw [hm, hm, and_comm]
  · rw [← List.toFinset_card_of_nodup hs, ← List.toFinset_card_of_nodup (hnd f g hf), ← List.toFinset_card_of_nodup hf,
      ← List.toFinset_card_of_nodup hg, e1, e2]
    exact Finset.card_union_add_card_inter _ _
  · rw [h2.cpt_len, wf.cpt_len, wg.cpt_len]
    rw [← List.prod_toFinset _ hs, ← List.prod_toFinset _ (hnd f g hf), ← List.prod_toFinset _ hf, ← List.prod_toFinset _ hg, e1, e2]
    exact Finset.prod_union_inter

/-- Witness for C202: node 2 of the example (with parents 0 and 1) against node 0: the sepset is {0}. -/
example : ∃ f g, Factor.init exNet 2 = .ok f ∧ Factor.init exNet 0 = .ok g ∧ f.WF exNet.cardOf ∧ g.WF exNet.cardOf ∧ f.sepset g = [0] := by
  obtain ⟨f, h1, w1, _, s1, _⟩ := init_ok exNet_wf (rv := 2) (by decide)
  obtain ⟨g, h2, w2, _, s2, _⟩ := init_ok exNet_wf (rv := 0) (by decide)
  refine ⟨f, g, h1, h2, w1, w2, ?_⟩
  unfold Factor.sepset
  rw [s1, s2]
  decide

end Sepset

/-! ## C116: cliques without a potential -/

namespace Clq
variable {N A : Type _} [DecidableEq N] [DecidableEq A]

/-- C116: a clique that has no potential (`initialize_psi` was not called): sending raises `TypeError` if there is a variable to sum out or a
message to multiply in; collecting raises `TypeError` if there are messages, and otherwise changes nothing; and asking it for a marginal raises
`AttributeError`. -/
theorem C116_uninitialised (h : HashOrder N) (t : Tree N) (i j : ℕ) (ci cj : Clique N) (hci : Dict.get? t.C i = some ci)
    (hcj : Dict.get? t.C j = some cj) (hp : ci.psi = none) (hb : ci.belief = none) :
    ((ci.msgs ≠ [] ∨ ∃ v ∈ ci.scope, v ∉ cj.scope) → sendMessage h t i j = .error .typeError) ∧
    (ci.msgs ≠ [] → collectBeliefs h t i = .error .typeError) ∧ (ci.msgs = [] → collectBeliefs h t i = .ok t) ∧
    ∀ v, marginalizeOver t i v = .error .attributeError := by
  refine ⟨fun _ => ?_, fun hm => ?_, fun hm => ?_, fun v => ?_⟩
  · unfold sendMessage
    rw [Dict.get_of_get? hci, Py.bind_ok, Dict.get_of_get? hcj, Py.bind_ok, hp, hb]
    rfl
  · unfold collectBeliefs
    rw [Dict.get_of_get? hci, Py.bind_ok]
    obtain ⟨m, ms, e⟩ := List.exists_cons_of_ne_nil hm
    simp only [e, hp]
  · unfold collectBeliefs
    rw [Dict.get_of_get? hci, Py.bind_ok]
    simp only [hm]
    rfl
  · unfold marginalizeOver
    rw [Dict.get_of_get? hci, Py.bind_ok]
    simp only [hb]

/-- Witness for C116: a clique as its constructor makes it has neither potential nor belief. -/
example : (Clique.new [0, 1] : Clique ℕ).psi = none ∧ (Clique.new [0, 1] : Clique ℕ).belief = none ∧ ∃ v ∈ (Clique.new [0, 1] : Clique ℕ).scope, v ∉ (Clique.new [1, 2] : Clique ℕ).scope :=
  ⟨rfl, rfl, 0, by decide, by decide⟩

end Clq
end PyBN
