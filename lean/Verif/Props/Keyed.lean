import Verif.Spec.Keyed
import Verif.Props.Edit

/-!
# C255 - C257: networks as dictionary keys
-/

set_option linter.unusedSectionVars false

namespace PyBN
open BayesNet HNet
variable {N A : Type} {W : Type _} [DecidableEq N] [DecidableEq A]

/-! ## C255: what the hash depends on -/

theorem step_parametric (H : List N → Dict N (List N) → ℤ) (h : Heap N A) (b : HNet N) (o : Op N A) (ho : o.Parametric) :
    (deref (step h b o).1.1 (step h b o).1.2).hashOf H = (deref h b).hashOf H := by
  cases ho with
  | setCpt rv l => cases hg : b.F.get? rv <;> simp only [step, HNet.setCpt, hg] <;> rfl
  | setValues rv l => cases hg : b.F.get? rv <;> simp only [step, HNet.setValues, hg] <;> rfl
  | pokeValues v l => cases hg : b.F.get? v <;> simp only [step, hg] <;> rfl
  | pokeCpt v l => cases hg : b.F.get? v <;> simp only [step, hg] <;> rfl

/-- C255: no history of changes of value lists and tables (through the setters or in place) changes the hash. -/
theorem C255_parameters (H : List N → Dict N (List N) → ℤ) (h : Heap N A) (b : HNet N) (os : List (Op N A))
    (hos : ∀ o ∈ os, o.Parametric) :
    (deref (run h b os).1 (run h b os).2).hashOf H = (deref h b).hashOf H := by
  induction os generalizing h b with
  | nil => rfl
  | cons o os ih =>
    show (deref (run (step h b o).1.1 (step h b o).1.2 os).1 (run (step h b o).1.1 (step h b o).1.2 os).2).hashOf H = _
    rw [ih _ _ fun o' ho' => hos o' (by simp [ho']), step_parametric H h b o (hos o (by simp))]

/-- C255: a copy has the hash of the original. -/
theorem C255_copy (H : List N → Dict N (List N) → ℤ) (h : Heap N A) (b : HNet N) (inb : InBounds h b)
    (hV : ∀ v ∈ (deref h b).V, ((deref h b).F.get? v).isSome) :
    ∃ h' c, HNet.copy h b = .ok (h', c) ∧ (deref h' c).hashOf H = (deref h b).hashOf H ∧
      (deref h' b).hashOf H = (deref h b).hashOf H := by
  obtain ⟨h', c, h1, h2, h3, h4, _⟩ := C24_copy_equal (A := A) h b inb hV
  refine ⟨h', c, h1, ?_, by rw [h2]⟩
  unfold BayesNet.hashOf
  rw [h3, h4]

/-- C255: where printing and hashing do not collide, two networks have the same hash exactly when their node lists and their children
dictionaries are the same, order included. -/
theorem C255_exact (H : List N → Dict N (List N) → ℤ) (inj : ∀ V V' E E', H V E = H V' E' → V = V' ∧ E = E')
    (x y : BayesNet N A) : x.hashOf H = y.hashOf H ↔ x.V = y.V ∧ x.E = y.E := by
  unfold BayesNet.hashOf
  exact ⟨inj _ _ _ _, fun h => by rw [h.1, h.2]⟩

/-! ## C256, C257: looking a network up -/

theorem eq_described (x y : BayesNet N A) (dx : x.Described) (dy : y.Described) :
    (¬ x.SameNodes y → BayesNet.eq x y = .ok false) ∧
    (x.SameNodes y → x.V = [] → BayesNet.eq x y = .ok true) ∧
    (x.SameNodes y → x.V ≠ [] → BayesNet.eq x y = .error .typeError) := by
  refine ⟨?_, ?_, ?_⟩
  · intro h
    unfold BayesNet.eq
    rw [if_neg]
    rintro ⟨h1, h2⟩
    exact h fun v => ⟨h1 v, h2 v⟩
  · intro h he
    unfold BayesNet.eq
    rw [if_pos ⟨fun v => (h v).1, fun v => (h v).2⟩, he]; rfl
  · intro h hne
    unfold BayesNet.eq
    rw [if_pos ⟨fun v => (h v).1, fun v => (h v).2⟩]
    cases hx : x.V with
    | nil => exact absurd hx hne
    | cons v vs =>
      have hv : v ∈ x.V := by rw [hx]; simp
      obtain ⟨d, hd⟩ := Option.isSome_iff_exists.1 ((Dict.mem_keys_iff ..).1 (dx v hv).2)
      obtain ⟨e, he⟩ := Option.isSome_iff_exists.1 ((Dict.mem_keys_iff ..).1 (dy v ((h v).1 hv)).1)
      simp only [neighboursLoop, BayesNet.parents, children, Dict.get_of_get? hd, Dict.get_of_get? he, Py.bind_ok]
      rfl

/-- C257: looking up a non-empty network.  Slots whose cached hash is not the present hash of the network, or whose key has (now) other
nodes, are passed over; at the first slot that is not, the value is returned when the key is the very object, and `TypeError` is raised
when it is any other object - never `KeyError`, never the value.  Without such a slot: `KeyError`. -/
theorem C257_lookup (H : List N → Dict N (List N) → ℤ) (σ : ℕ → BayesNet N A) (dσ : ∀ i, (σ i).Described) (q : ℕ)
    (hq : (σ q).V ≠ []) (pre post : List (KeySlot W)) (s : KeySlot W)
    (hpre : ∀ t ∈ pre, t.hash ≠ (σ q).hashOf H ∨ ¬ (σ t.key).SameNodes (σ q)) :
    (s.hash = (σ q).hashOf H → s.key = q → KeySlot.lookup H σ q (pre ++ s :: post) = .ok s.val) ∧
    (s.hash = (σ q).hashOf H → s.key ≠ q → (σ s.key).SameNodes (σ q) →
      KeySlot.lookup H σ q (pre ++ s :: post) = .error .typeError) ∧
    KeySlot.lookup H σ q pre = .error .keyError := by
  have skip : ∀ rest : List (KeySlot W), KeySlot.lookup H σ q (pre ++ rest) = KeySlot.lookup H σ q rest := by
    intro rest
    induction pre with
    | nil => rfl
    | cons t pre ih =>
      have ih' := ih fun t ht => hpre t (by simp [ht])
      show KeySlot.lookup H σ q (t :: (pre ++ rest)) = _
      rw [KeySlot.lookup]
      by_cases hh : t.hash = (σ q).hashOf H
      · have hn : ¬ (σ t.key).SameNodes (σ q) := (hpre t (by simp)).resolve_left fun h => h hh
        have hk : t.key ≠ q := by rintro rfl; exact hn fun v => Iff.rfl
        rw [if_pos hh, if_neg hk, (eq_described _ _ (dσ _) (dσ _)).1 hn]
        exact ih'
      · rw [if_neg hh]; exact ih'
  refine ⟨fun hh hk => ?_, fun hh hk hn => ?_, ?_⟩
  · rw [skip, KeySlot.lookup, if_pos hh, if_pos hk]
  · have hne : (σ s.key).V ≠ [] := by
      intro h0
      apply hq
      rw [List.eq_nil_iff_forall_not_mem]
      intro v hv
      have := (hn v).2 hv
      rw [h0] at this
      cases this
    rw [skip, KeySlot.lookup, if_pos hh, if_neg hk, (eq_described _ _ (dσ _) (dσ _)).2.2 hn hne]
    rfl
  · have := skip []
    rw [List.append_nil] at this
    rw [this]; rfl

/-- C257: storing follows the same search: with no slot in the way the network is appended under its present hash; with the very object
found its value is replaced; with another object of the same hash and nodes in the way, `TypeError`. -/
theorem C257_store (H : List N → Dict N (List N) → ℤ) (σ : ℕ → BayesNet N A) (dσ : ∀ i, (σ i).Described) (q : ℕ)
    (hq : (σ q).V ≠ []) (pre post : List (KeySlot W)) (s : KeySlot W) (w : W)
    (hpre : ∀ t ∈ pre, t.hash ≠ (σ q).hashOf H ∨ ¬ (σ t.key).SameNodes (σ q)) :
    (s.hash = (σ q).hashOf H → s.key = q →
      KeySlot.store H σ q w (pre ++ s :: post) = .ok (pre ++ ⟨s.hash, s.key, w⟩ :: post)) ∧
    (s.hash = (σ q).hashOf H → s.key ≠ q → (σ s.key).SameNodes (σ q) →
      KeySlot.store H σ q w (pre ++ s :: post) = .error .typeError) ∧
    KeySlot.store H σ q w pre = .ok (pre ++ [⟨(σ q).hashOf H, q, w⟩]) := by
  have skip : ∀ rest : List (KeySlot W), KeySlot.store H σ q w (pre ++ rest) =
      (KeySlot.store H σ q w rest >>= fun d => .ok (pre ++ d)) := by
    intro rest
    induction pre with
    | nil => cases hs : KeySlot.store H σ q w rest <;> simp [hs]
    | cons t pre ih =>
      have ih' := ih fun t ht => hpre t (by simp [ht])
      show KeySlot.store H σ q w (t :: (pre ++ rest)) = _
      rw [KeySlot.store]
      by_cases hh : t.hash = (σ q).hashOf H
      · have hn : ¬ (σ t.key).SameNodes (σ q) := (hpre t (by simp)).resolve_left fun h => h hh
        have hk : t.key ≠ q := by rintro rfl; exact hn fun v => Iff.rfl
        rw [if_pos hh, if_neg hk, (eq_described _ _ (dσ _) (dσ _)).1 hn]
        simp only [Py.bind_ok]
        rw [ih']
        cases hs : KeySlot.store H σ q w rest <;> rfl
      · rw [if_neg hh, ih']
        cases hs : KeySlot.store H σ q w rest <;> rfl
  refine ⟨fun hh hk => ?_, fun hh hk hn => ?_, ?_⟩
  · rw [skip, KeySlot.store, if_pos hh, if_pos hk]; rfl
  · have hne : (σ s.key).V ≠ [] := by
      intro h0
      apply hq
      rw [List.eq_nil_iff_forall_not_mem]
      intro v hv
      have := (hn v).2 hv
      rw [h0] at this
      cases this
    rw [skip, KeySlot.store, if_pos hh, if_neg hk, (eq_described _ _ (dσ _) (dσ _)).2.2 hn hne]
    rfl
  · have := skip []
    rw [List.append_nil] at this
    rw [this]; rfl

/-- C256, the part that holds: a network that was stored and whose node list and children dictionary are now what they were then is found
again - whatever happened to its values, parents and tables - provided no other key of the dictionary has the same hash and
the same nodes.  Missing: an equal network that is another object (false, `C256_false`). -/
theorem C256_found_partial (H : List N → Dict N (List N) → ℤ) (σ σ' : ℕ → BayesNet N A) (dσ : ∀ i, (σ i).Described)
    (dσ' : ∀ i, (σ' i).Described) (q : ℕ) (hq : (σ q).V ≠ []) (d : List (KeySlot W)) (w : W)
    (hd : ∀ t ∈ d, t.hash ≠ (σ q).hashOf H ∨ ¬ (σ t.key).SameNodes (σ q))
    (hd' : ∀ t ∈ d, t.hash ≠ (σ' q).hashOf H ∨ ¬ (σ' t.key).SameNodes (σ' q))
    (hV : (σ' q).V = (σ q).V) (hE : (σ' q).E = (σ q).E) :
    ∃ d', KeySlot.store H σ q w d = .ok d' ∧ KeySlot.lookup H σ' q d' = .ok w := by
  refine ⟨_, (C257_store H σ dσ q hq d [] ⟨0, q, w⟩ w hd).2.2, ?_⟩
  refine (C257_lookup H σ' dσ' q (by rw [hV]; exact hq) d [] ⟨(σ q).hashOf H, q, w⟩ hd').1 ?_ rfl
  show (σ q).hashOf H = (σ' q).hashOf H
  unfold BayesNet.hashOf
  rw [hV, hE]

/-- C256 is false of the code: store any (described, non-empty) network in an empty dictionary and look up another object with the same
nodes and children - a copy, say: `TypeError`, for every hash function; and storing a second time under the copy raises it too. -/
theorem C256_false (H : List N → Dict N (List N) → ℤ) (σ : ℕ → BayesNet N A) (dσ : ∀ i, (σ i).Described) (q c : ℕ) (hqc : q ≠ c)
    (hq : (σ q).V ≠ []) (hV : (σ c).V = (σ q).V) (hE : (σ c).E = (σ q).E) (w w' : W) :
    ∃ d, KeySlot.store H σ q w [] = .ok d ∧ KeySlot.lookup H σ q d = .ok w ∧ KeySlot.lookup H σ c d = .error .typeError ∧
      KeySlot.store H σ c w' d = .error .typeError := by
  have hh : (σ q).hashOf H = (σ c).hashOf H := by unfold BayesNet.hashOf; rw [hV, hE]
  have hn : (σ q).SameNodes (σ c) := fun v => by rw [hV]
  refine ⟨[⟨(σ q).hashOf H, q, w⟩], rfl, ?_, ?_, ?_⟩
  · exact (C257_lookup H σ dσ q hq [] [] ⟨_, q, w⟩ (by simp)).1 rfl rfl
  · exact (C257_lookup H σ dσ c (by rw [hV]; exact hq) [] [] ⟨_, q, w⟩ (by simp)).2.1 hh hqc hn
  · exact (C257_store H σ dσ c (by rw [hV]; exact hq) [] [] ⟨_, q, w⟩ w' (by simp)).2.1 hh hqc hn

/-- C257: editing the arcs of a stored network.  After any history of `add_edge` / `remove_edge` between existing nodes that leaves an
arc added or removed in the end, the object that was stored is no longer found (`KeyError`), if the hash does not collide. -/
theorem C257_edited_lost (H : List N → Dict N (List N) → ℤ) (inj : ∀ V V' E E', H V E = H V' E' → V = V' ∧ E = E')
    (h : Heap N A) (b : HNet N) (sep : Separate b) (inb : InBounds h b) (wf : (deref h b).StructWF)
    (con : (deref h b).Consistent) (es : List (ArcEdit N))
    (hes : ∀ e ∈ es, e.ends.1 ∈ (deref h b).V ∧ e.ends.2 ∈ (deref h b).V) (w : W) (q : ℕ)
    (hdiff : ∃ u v, ¬ (ArcEdit.applyAll (fun u v => v ∈ (deref h b).childrenOf u) es u v ↔ v ∈ (deref h b).childrenOf u)) :
    let s := run h b (es.map ArcEdit.op)
    ∃ d, KeySlot.store H (fun _ => deref h b) q w [] = .ok d ∧ KeySlot.lookup H (fun _ => deref h b) q d = .ok w ∧
      KeySlot.lookup H (fun _ => deref s.1 s.2) q d = .error .keyError := by
  intro s
  refine ⟨[⟨(deref h b).hashOf H, q, w⟩], rfl, ?_, ?_⟩
  · unfold KeySlot.lookup
    rw [if_pos rfl, if_pos rfl]
  · have hne : (deref h b).hashOf H ≠ (deref s.1 s.2).hashOf H := by
      intro he
      obtain ⟨_, hE⟩ := (C255_exact H inj _ _).1 he
      obtain ⟨u, v, huv⟩ := hdiff
      apply huv
      rw [← (C22_histories_partial h b sep inb wf con es hes).2.2.2 u v]
      show v ∈ (deref s.1 s.2).childrenOf u ↔ _
      unfold childrenOf
      rw [← hE]
    unfold KeySlot.lookup
    rw [if_neg hne]; rfl

/-- Witness: the example network edited by `add_edge(0, 1)` is lost; after `add_edge(0, 1); remove_edge(0, 1)` it prints as before, so it
is found again under every hash. -/
example : (∃ u v, ¬ (ArcEdit.applyAll (fun u v => v ∈ exNet.childrenOf u) [.add 0 1] u v ↔ v ∈ exNet.childrenOf u)) ∧
    (let s := run (fresh exNet).1 (fresh exNet).2 [.addEdge 0 1, .removeEdge 0 1]
     (deref s.1 s.2).V = exNet.V ∧ (deref s.1 s.2).E = exNet.E) := by
  refine ⟨⟨0, 1, ?_⟩, by decide +kernel⟩
  intro h
  have := h.1 (.inr ⟨rfl, rfl⟩)
  revert this
  decide +kernel

/-- Witness: the example network is described; so is a copy of it, and the hypotheses of `C256_false` hold for two objects with these
contents. -/
example : exNet.Described ∧ exNet.V ≠ [] ∧ exNet.SameNodes exNet :=
  ⟨by unfold BayesNet.Described; decide +kernel, by decide +kernel, fun _ => Iff.rfl⟩

end PyBN
