import Verif.Props.Subset

/-!
# Learning with two networks that agree on the listed nodes
-/

set_option linter.unusedSectionVars false

namespace PyBN
open BayesNet LearnState

/-- The two dicts have the same entries for the listed nodes. -/
def AgreeOn {V : Type} (ns : List ℕ) (F G : Dict ℕ V) : Prop := ∀ v ∈ ns, F.get? v = G.get? v

/-- The entries of the listed nodes only mention listed parents. -/
def ClosedOn (ns : List ℕ) (F : Dict ℕ (NodeData ℕ ℤ)) : Prop := ∀ v ∈ ns, ∀ d, F.get? v = some d → ∀ p ∈ d.parents, p ∈ ns

theorem AgreeOn.get {V : Type} {ns : List ℕ} {F G : Dict ℕ V} (h : AgreeOn ns F G) {v : ℕ} (hv : v ∈ ns) : F.get v = G.get v := by
  unfold Dict.get; rw [h v hv]

theorem AgreeOn.set {V : Type} {ns : List ℕ} {F G : Dict ℕ V} (h : AgreeOn ns F G) (n : ℕ) (d : V) : AgreeOn ns (F.set n d) (G.set n d) := by
  intro v hv
  by_cases hn : n = v
  · subst hn; rw [Dict.get?_set_self, Dict.get?_set_self]
  · rw [Dict.get?_set_ne _ _ hn, Dict.get?_set_ne _ _ hn, h v hv]

theorem dictGet_some {V : Type} {F : Dict ℕ V} {v : ℕ} {d : V} (h : F.get v = .ok d) : F.get? v = some d := by
  unfold Dict.get at h
  cases hg : F.get? v with
  | none => rw [hg] at h; cases h
  | some x => rw [hg] at h; cases h; rfl

theorem ClosedOn.set {ns : List ℕ} {F : Dict ℕ (NodeData ℕ ℤ)} (h : ClosedOn ns F) {n : ℕ} {d d' : NodeData ℕ ℤ} (hd : F.get? n = some d) (hp : d'.parents = d.parents) :
    ClosedOn ns (F.set n d') := by
  intro v hv x hx
  by_cases hn : n = v
  · subst hn
    rw [Dict.get?_set_self] at hx
    cases hx
    rw [hp]; exact h n hv d hd
  · rw [Dict.get?_set_ne _ _ hn] at hx
    exact h v hv x hx

theorem setValues_agree (data : Data) {ns : List ℕ} : ∀ (l : List ℕ) (i : ℕ) (F G G' : Dict ℕ (NodeData ℕ ℤ)), (∀ v ∈ l, v ∈ ns) → AgreeOn ns F G → ClosedOn ns G →
    setValues data i l G = .ok G' → ∃ F', setValues data i l F = .ok F' ∧ AgreeOn ns F' G' ∧ ClosedOn ns G'
  | [], i, F, G, G', _, h, hc, e => by cases e; exact ⟨F, rfl, h, hc⟩
  | n :: l, i, F, G, G', hl, h, hc, e => by
    rw [setValues, bind_ok_iff] at e
    obtain ⟨c, h1, e⟩ := e
    rw [bind_ok_iff] at e
    obtain ⟨d, h2, e⟩ := e
    rw [setValues, h1, Py.bind_ok, h.get (hl n List.mem_cons_self), h2, Py.bind_ok]
    exact setValues_agree data l _ _ _ _ (fun v hv => hl v (List.mem_cons_of_mem _ hv)) (h.set _ _) (hc.set (dictGet_some h2) (by rfl)) e

section
variable {ns : List ℕ} {b c : BayesNet ℕ ℤ}

theorem agree_card (h : AgreeOn ns b.F c.F) {v : ℕ} (hv : v ∈ ns) : b.card v = c.card v := by
  unfold BayesNet.card; rw [h.get hv]

theorem agree_cpt (h : AgreeOn ns b.F c.F) {v : ℕ} (hv : v ∈ ns) : b.cpt v = c.cpt v := by
  unfold BayesNet.cpt; rw [h.get hv]

theorem agree_parents (h : AgreeOn ns b.F c.F) {v : ℕ} (hv : v ∈ ns) : b.parents v = c.parents v := by
  unfold BayesNet.parents; rw [h.get hv]

theorem agree_scope (h : AgreeOn ns b.F c.F) {v : ℕ} (hv : v ∈ ns) : b.scope v = c.scope v := by
  unfold BayesNet.scope; rw [h.get hv]

theorem closed_parents (hc : ClosedOn ns c.F) {v : ℕ} (hv : v ∈ ns) {ps : List ℕ} (h : c.parents v = .ok ps) : ∀ p ∈ ps, p ∈ ns := by
  unfold BayesNet.parents at h
  rw [bind_ok_iff] at h
  obtain ⟨d, h1, h⟩ := h
  cases h
  exact hc v hv d (dictGet_some h1)

theorem closed_scope (hc : ClosedOn ns c.F) {v : ℕ} (hv : v ∈ ns) {ps : List ℕ} (h : c.scope v = .ok ps) : ∀ p ∈ ps, p ∈ ns := by
  unfold BayesNet.scope at h
  rw [bind_ok_iff] at h
  obtain ⟨d, h1, h⟩ := h
  cases h
  intro p hp
  rcases List.mem_cons.1 hp with rfl | hp
  · exact hv
  · exact hc v hv d (dictGet_some h1) p hp

theorem agree_stride (h : AgreeOn ns b.F c.F) (hc : ClosedOn ns c.F) {v : ℕ} (hv : v ∈ ns) (n : ℕ) : b.stride v n = c.stride v n := by
  unfold BayesNet.stride
  rw [agree_card h hv, agree_parents h hv]
  split
  · rfl
  · cases c.card v with
    | error e => rfl
    | ok k =>
      simp only [Py.bind_ok]
      cases hp : c.parents v with
      | error e => rfl
      | ok ps =>
        simp only [Py.bind_ok]
        rw [pyMap_congr fun x hx => agree_card h (closed_parents hc hv hp x hx)]

theorem agree_loop (h : AgreeOn ns b.F c.F) (len : ℕ) (s k : Dict ℕ ℕ) : ∀ (es : List (ℕ × ℤ)) (idx : List ℤ), (∀ e ∈ es, e.1 ∈ ns) →
    cptIndicesLoop b len s k idx es = cptIndicesLoop c len s k idx es
  | [], idx, _ => rfl
  | (rv, val) :: es, idx, hm => by
    have hv : b.valueIdx rv val = c.valueIdx rv val := by
      unfold valueIdx; rw [h.get (hm (rv, val) List.mem_cons_self)]
    simp only [cptIndicesLoop, hv]
    simp only [agree_loop h len s k es _ fun e he => hm e (List.mem_cons_of_mem _ he)]

theorem agree_cptIndices (h : AgreeOn ns b.F c.F) (hc : ClosedOn ns c.F) (hE : HashOrder (ℕ × ℤ)) (hI : HashOrder ℤ) {t : ℕ} (ht : t ∈ ns) (vd : Dict ℕ ℤ)
    (hvd : ∀ e ∈ vd, e.1 ∈ ns) : cptIndices hE hI b t vd = cptIndices hE hI c t vd := by
  unfold cptIndices
  simp only [agree_scope h ht, agree_stride h hc ht, agree_cpt h ht]
  cases hs : c.scope t with
  | error e => rfl
  | ok sc =>
    simp only [Py.bind_ok]
    have hm := closed_scope hc ht hs
    rw [pyMap_congr (l := sc) (f := fun n => b.card n >>= fun c => pure (n, c)) (g := fun n => c.card n >>= fun c => pure (n, c)) fun x hx => by rw [agree_card h (hm x hx)]]
    simp only [agree_loop h _ _ _ (hE.iter vd) _ fun e he => hvd e ((hE.perm vd).mem_iff.1 he)]

theorem agree_countNodes (h : AgreeOn ns b.F c.F) (hc : ClosedOn ns c.F) (hE : HashOrder (ℕ × ℤ)) (hI : HashOrder ℤ) (obs : Dict ℕ ℤ) : ∀ (l : List ℕ) (cnt : Dict ℕ (List ℚ)),
    (∀ v ∈ l, v ∈ ns) → countNodes hE hI b obs l cnt = countNodes hE hI c obs l cnt
  | [], _, _ => rfl
  | rv :: l, cnt, hl => by
    have hv := hl rv List.mem_cons_self
    rw [countNodes, countNodes, agree_scope h hv]
    cases hs : c.scope rv with
    | error e => rfl
    | ok sc =>
      simp only [Py.bind_ok]
      rw [agree_cptIndices h hc hE hI hv _ fun e he => closed_scope hc hv hs _ (by simpa using (List.mem_filter.1 he).2)]
      simp only [agree_countNodes h hc hE hI obs l _ fun v hv => hl v (List.mem_cons_of_mem _ hv)]

theorem agree_countRows (h : AgreeOn ns b.F c.F) (hc : ClosedOn ns c.F) (hE : HashOrder (ℕ × ℤ)) (hI : HashOrder ℤ) : ∀ (rows : List (List ℤ)) (cnt : Dict ℕ (List ℚ)),
    countRows hE hI b ns rows cnt = countRows hE hI c ns rows cnt
  | [], _ => rfl
  | row :: rows, cnt => by
    rw [countRows, countRows]
    simp only [agree_countNodes h hc hE hI _ ns _ fun v hv => hv, agree_countRows h hc hE hI rows]

end

theorem setTables_agree (fill : ℕ → Py ℚ) {ns : List ℕ} : ∀ (l : List ℕ) (b c c' : BayesNet ℕ ℤ), (∀ v ∈ l, v ∈ ns) → AgreeOn ns b.F c.F → ClosedOn ns c.F →
    setTables fill l c = .ok c' → ∃ b', setTables fill l b = .ok b' ∧ AgreeOn ns b'.F c'.F ∧ ClosedOn ns c'.F
  | [], b, c, c', _, h, hc, e => by cases e; exact ⟨b, rfl, h, hc⟩
  | n :: l, b, c, c', hl, h, hc, e => by
    have hv := hl n List.mem_cons_self
    rw [setTables, bind_ok_iff] at e
    obtain ⟨ps, h1, e⟩ := e
    rw [bind_ok_iff] at e
    obtain ⟨cs, h2, e⟩ := e
    rw [bind_ok_iff] at e
    obtain ⟨k, h3, e⟩ := e
    rw [bind_ok_iff] at e
    obtain ⟨x, h4, e⟩ := e
    rw [bind_ok_iff] at e
    obtain ⟨d, h5, e⟩ := e
    rw [setTables, agree_parents h hv, h1, Py.bind_ok, pyMap_congr fun x hx => agree_card h (closed_parents hc hv h1 x hx), h2, Py.bind_ok, agree_card h hv, h3, Py.bind_ok, h4,
      Py.bind_ok, h.get hv, h5, Py.bind_ok]
    exact setTables_agree fill l _ _ _ (fun v hv => hl v (List.mem_cons_of_mem _ hv)) (h.set _ _) (hc.set (dictGet_some h5) (by rfl)) e

theorem writeBack_agree {ns : List ℕ} {b c : BayesNet ℕ ℤ} (hbc : AgreeOn ns b.F c.F) (cnt : Dict ℕ (List ℚ)) : ∀ (l : List ℕ) (F G G' : Dict ℕ (NodeData ℕ ℤ)),
    (∀ v ∈ l, v ∈ ns) → AgreeOn ns F G → writeBack c cnt l G = .ok G' → ∃ F', writeBack b cnt l F = .ok F' ∧ AgreeOn ns F' G'
  | [], F, G, G', _, h, e => by cases e; exact ⟨F, rfl, h⟩
  | n :: l, F, G, G', hl, h, e => by
    have hv := hl n List.mem_cons_self
    rw [writeBack, bind_ok_iff] at e
    obtain ⟨t, h1, e⟩ := e
    rw [bind_ok_iff] at e
    obtain ⟨k, h2, e⟩ := e
    rw [bind_ok_iff] at e
    obtain ⟨t', h3, e⟩ := e
    rw [bind_ok_iff] at e
    obtain ⟨d, h4, e⟩ := e
    rw [writeBack, h1, Py.bind_ok, agree_card hbc hv, h2, Py.bind_ok, h3, Py.bind_ok, h.get hv, h4, Py.bind_ok]
    exact writeBack_agree hbc cnt l _ _ _ (fun v hv => hl v (List.mem_cons_of_mem _ hv)) (h.set _ _) e

theorem learn_agree (hE : HashOrder (ℕ × ℤ)) (hI : HashOrder ℤ) (fill : ℕ → Py ℚ) {ns : List ℕ} {b c : BayesNet ℕ ℤ} (h : AgreeOn ns b.F c.F) (hc : ClosedOn ns c.F) (data : Data)
    {r : BayesNet ℕ ℤ × Dict ℕ (List ℚ)} (e : learn hE hI fill c data ns = .ok r) :
    ∃ b2, learn hE hI fill b data ns = .ok (b2, r.2) ∧ AgreeOn ns b2.F r.1.F := by
  unfold learn at e
  rw [bind_ok_iff] at e
  obtain ⟨G1, h1, e⟩ := e
  rw [bind_ok_iff] at e
  obtain ⟨c2, h2, e⟩ := e
  rw [bind_ok_iff] at e
  obtain ⟨init, h3, e⟩ := e
  rw [bind_ok_iff] at e
  obtain ⟨cnt, h4, e⟩ := e
  cases e
  obtain ⟨F1, f1, a1, c1⟩ := setValues_agree data ns 0 b.F c.F G1 (fun _ => id) h hc h1
  obtain ⟨b2, f2, a2, cl2⟩ := setTables_agree fill ns { b with F := F1 } { c with F := G1 } c2 (fun _ => id) a1 c1 h2
  refine ⟨b2, ?_, a2⟩
  unfold learn
  rw [f1, Py.bind_ok, f2, Py.bind_ok, pyMap_congr (g := fun rv => do let x ← c2.cpt rv; pure (rv, x)) fun x hx => by rw [agree_cpt a2 hx], h3, Py.bind_ok, agree_countRows a2 cl2, h4]
  rfl

theorem bayes_agree (hE : HashOrder (ℕ × ℤ)) (hI : HashOrder ℤ) {ns : List ℕ} {b c : BayesNet ℕ ℤ} (h : AgreeOn ns b.F c.F) (hc : ClosedOn ns c.F) (data : Data) (equiv : Option ℚ)
    {c' : BayesNet ℕ ℤ} (e : bayesEstimator hE hI c data equiv (some ns) = .ok c') :
    ∃ b', bayesEstimator hE hI b data equiv (some ns) = .ok b' ∧ AgreeOn ns b'.F c'.F := by
  unfold bayesEstimator at e
  dsimp only [Option.getD_some] at e
  rw [bind_ok_iff] at e
  obtain ⟨r, h1, e⟩ := e
  rw [bind_ok_iff] at e
  obtain ⟨G, h2, e⟩ := e
  cases e
  obtain ⟨b2, h3, a⟩ := learn_agree hE hI _ h hc data h1
  obtain ⟨F, h4, a'⟩ := writeBack_agree a r.2 ns _ _ _ (fun _ => id) a h2
  refine ⟨{ b2 with F := F }, ?_, a'⟩
  unfold bayesEstimator
  dsimp only [Option.getD_some]
  rw [h3, Py.bind_ok, h4]
  rfl

theorem mle_agree (hE : HashOrder (ℕ × ℤ)) (hI : HashOrder ℤ) {ns : List ℕ} {b c : BayesNet ℕ ℤ} (h : AgreeOn ns b.F c.F) (hc : ClosedOn ns c.F) (hbE : b.E = c.E) (data : Data)
    {c' : BayesNet ℕ ℤ} (e : mleEstimator hE hI c data (some ns) = .ok c') :
    mleEstimator hE hI b data (some ns) = .ok { b with F := c'.F } := by
  unfold mleEstimator at e
  dsimp only [Option.getD_some] at e
  rw [bind_ok_iff] at e
  obtain ⟨r, h1, e⟩ := e
  rw [bind_ok_iff] at e
  obtain ⟨F, h2, e⟩ := e
  cases e
  obtain ⟨b2, h3, a⟩ := learn_agree hE hI _ h hc data h1
  unfold mleEstimator
  dsimp only [Option.getD_some]
  rw [h3, Py.bind_ok, hbE]
  dsimp only
  rw [pyMap_congr (g := fun rv => do
    let ps ← parentList ns c.E rv
    let vs ← r.1.values rv
    let l ← r.2.get rv
    let k ← r.1.card rv
    let l' ← normBlocks (1 / 10000000) k (l.length + 1) l
    pure (rv, (⟨ps, vs, l'⟩ : NodeData ℕ ℤ))) fun x hx => by rw [agree_card a hx]; unfold BayesNet.values; rw [a.get hx], h2]
  rfl

theorem mleCounts_agree (hE : HashOrder (ℕ × ℤ)) (hI : HashOrder ℤ) {ns : List ℕ} {b c : BayesNet ℕ ℤ} (h : AgreeOn ns b.F c.F) (hc : ClosedOn ns c.F) (data : Data)
    {r : Dict ℕ (List ℤ × List ℚ)} (e : mleCounts hE hI c data (some ns) = .ok r) : mleCounts hE hI b data (some ns) = .ok r := by
  unfold mleCounts at e
  dsimp only [Option.getD_some] at e
  rw [bind_ok_iff] at e
  obtain ⟨q, h1, e⟩ := e
  obtain ⟨b2, h3, a⟩ := learn_agree hE hI _ h hc data h1
  unfold mleCounts
  dsimp only [Option.getD_some]
  rw [h3, Py.bind_ok]
  dsimp only
  rw [pyMap_congr (g := fun rv => do
    let vs ← q.1.values rv
    let l ← q.2.get rv
    pure (rv, (vs, l))) fun x hx => by unfold BayesNet.values; rw [a.get hx]]
  exact e

end PyBN
