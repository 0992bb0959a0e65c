import Verif.Model.NaiveBayes
import Verif.Props.Learn
import Verif.Props.Structure
import Verif.Proofs.Sample3

/-! Proofs about `naive_bayes`. -/

set_option linter.unusedSectionVars false

namespace PyBN
open BayesNet

theorem nbValues_ok {data : Data} (hr : ∀ row ∈ data.rows, row.length = data.ncol) :
    ∃ vd, nbValues data = .ok vd ∧ vd.keys = List.range data.ncol ∧ ∀ v < data.ncol, ∃ vs, vd.get? v = some vs ∧ data.IsValues v vs := by
  have hm : pyMap (fun i => do let c ← data.col i; pure (i, npUnique c)) (List.range data.ncol) =
      (.ok ((List.range data.ncol).map fun i => (i, npUnique (data.entries i))) : Py _) :=
    pyMap_ok fun i hi => by rw [Data.col_ok hr (List.mem_range.1 hi)]; rfl
  refine ⟨(List.range data.ncol).map fun i => (i, npUnique (data.entries i)), ?_, Dict.keys_map_pair _, fun v hv => ?_⟩
  · unfold nbValues
    rw [hm, Py.bind_ok, Dict.ofPairs_eq (by rw [Dict.keys_map_pair]; exact List.nodup_range)]; rfl
  · exact ⟨npUnique (data.entries v), by rw [Dict.get?_map_pair (f := fun i => npUnique (data.entries i)), if_pos (List.mem_range.2 hv)],
      Data.isValues_unique hr hv⟩

/-- The other columns, in dictionary order. -/
def nbOthers (h : HashOrder ℕ) (n target : ℕ) : List ℕ := (h.iter (List.range n)).filter fun v => decide (v ≠ target)

theorem mem_nbOthers {h : HashOrder ℕ} {n target v : ℕ} : v ∈ nbOthers h n target ↔ v < n ∧ v ≠ target := by
  simp [nbOthers, (h.perm _).mem_iff]

theorem nbOthers_nodup (h : HashOrder ℕ) (n target : ℕ) : (nbOthers h n target).Nodup :=
  ((h.perm _).nodup_iff.2 List.nodup_range).filter _

theorem nbEdges_get (h : HashOrder ℕ) {vd : Dict ℕ (List ℤ)} {n : ℕ} (hk : vd.keys = List.range n) (target v : ℕ) :
    (nbEdges h vd target).get? v = if v = target then some (nbOthers h n target) else if v < n then some [] else none := by
  unfold nbEdges
  rw [hk]
  show Dict.get? (Dict.update [(target, nbOthers h n target)] ((nbOthers h n target).map fun rv => (rv, []))) v = _
  rw [Dict.get?_update (by rw [Dict.keys_map_pair]; exact nbOthers_nodup h n target), Dict.get?_map_pair (f := fun _ => ([] : List ℕ))]
  by_cases hv : v = target
  · rw [if_neg (fun hh => (mem_nbOthers.1 hh).2 hv), if_pos hv]
    simp [Dict.get?, hv]
  · rw [if_neg hv]
    by_cases hn : v < n
    · rw [if_pos (mem_nbOthers.2 ⟨hn, hv⟩), if_pos hn]
    · rw [if_neg (fun hh => hn (mem_nbOthers.1 hh).1), if_neg hn]
      simp [Dict.get?, Ne.symm hv]

theorem nbEdges_keys (h : HashOrder ℕ) {vd : Dict ℕ (List ℤ)} {n : ℕ} (hk : vd.keys = List.range n) (target : ℕ) :
    (nbEdges h vd target).keys.Nodup := by
  unfold nbEdges Dict.update
  generalize (List.map (fun rv => (rv, ([] : List ℕ))) ((h.iter vd.keys).filter fun v => decide (v ≠ target))) = l
  have : ∀ (l : List (ℕ × List ℕ)) (d : Dict ℕ (List ℕ)), d.keys.Nodup → (l.foldl (fun d kv => Dict.set d kv.1 kv.2) d).keys.Nodup := by
    intro l
    induction l with
    | nil => intro d hd; exact hd
    | cons kv l ih =>
      intro d hd
      rw [List.foldl_cons]
      apply ih
      exact Dict.nodup_keys_set hd _ _
  exact this l _ (by simp [Dict.keys])

theorem nb_arc (h : HashOrder ℕ) {vd : Dict ℕ (List ℤ)} {n : ℕ} (hk : vd.keys = List.range n) (target u v : ℕ) :
    Arc (nbEdges h vd target) u v ↔ u = target ∧ v < n ∧ v ≠ target := by
  unfold Arc
  rw [nbEdges_get h hk]
  split_ifs with h1 h2
  · simp [h1, mem_nbOthers]
  · simp [h1]
  · simp [h1]

theorem nb_mem_keys (h : HashOrder ℕ) {vd : Dict ℕ (List ℤ)} {n : ℕ} (hk : vd.keys = List.range n) (target v : ℕ) :
    v ∈ (nbEdges h vd target).keys ↔ v = target ∨ v < n := by
  rw [Dict.mem_keys_iff, nbEdges_get h hk]
  split_ifs with h1 h2 <;> simp [*]

/-- Visiting childless nodes. -/
theorem bfs_leaves {e : Dict ℕ (List ℕ)} : ∀ (q : List ℕ) (fuel : ℕ) (visited : List ℕ), q.length ≤ fuel → q.Nodup →
    (∀ v ∈ q, v ∉ visited) → (∀ v ∈ q, e.get? v = some []) → bfsLoop e fuel q visited = .ok (visited ++ q) := by
  intro q
  induction q with
  | nil => intro fuel vis _ _ _ _; cases fuel <;> simp [bfsLoop]
  | cons v q ih =>
    intro fuel vis hf hn hd hl
    cases fuel with
    | zero => simp at hf
    | succ fuel =>
      rw [bfsLoop, if_neg (hd v (by simp)), Dict.get_of_get? (hl v (by simp)), Py.bind_ok, List.append_nil]
      rw [List.nodup_cons] at hn
      rw [ih fuel (vis ++ [v]) (by simpa using hf) hn.2 (fun w hw => ?_) fun w hw => hl w (by simp [hw])]
      · simp
      · rw [List.mem_append, List.mem_singleton, not_or]
        exact ⟨hd w (by simp [hw]), fun hh => hn.1 (hh ▸ hw)⟩

theorem nb_topsort (h : HashOrder ℕ) {vd : Dict ℕ (List ℤ)} {n : ℕ} (hk : vd.keys = List.range n) (target : ℕ) :
    topsort h (nbEdges h vd target) none = .ok (target :: nbOthers h n target) := by
  obtain ⟨q, hq, hqn, hqm⟩ := initQueue_none h (nbEdges_keys h hk target)
  have hq1 : q = [target] := by
    have hp : q.Perm [target] := by
      rw [List.perm_ext_iff_of_nodup hqn (by simp)]
      intro v
      rw [hqm, nb_mem_keys h hk, List.mem_singleton]
      constructor
      · rintro ⟨h1 | h1, h2⟩
        · exact h1
        · by_contra hne
          exact h2 target ((nb_arc h hk target target v).2 ⟨rfl, h1, hne⟩)
      · rintro rfl
        exact ⟨.inl rfl, fun u hu => ((nb_arc h hk v u v).1 hu).2.2 rfl⟩
    exact List.perm_singleton.1 hp
  subst hq1
  have hne : (nbEdges h vd target).get? target = some (nbOthers h n target) := by rw [nbEdges_get h hk, if_pos rfl]
  obtain ⟨l, hl, _⟩ := C26_topsort_general h _ (nbEdges_keys h hk target) (fun u v huv => by
    rw [nb_mem_keys h hk]; exact .inr ((nb_arc h hk target u v).1 huv).2.1)
  have hlen : (nbOthers h n target).length ≤ (Dict.vals (nbEdges h vd target) |>.map List.length).sum := by
    have hmem := Dict.get?_mem hne
    have : (nbOthers h n target).length ∈ (Dict.vals (nbEdges h vd target)).map List.length := by
      rw [List.mem_map]
      refine ⟨_, ?_, rfl⟩
      rw [Dict.vals, List.mem_map]
      exact ⟨_, hmem, rfl⟩
    exact List.single_le_sum (by simp) _ this
  unfold topsort
  rw [hq, Py.bind_ok]
  have hf : bfsFuel (nbEdges h vd target) [target] = (Dict.vals (nbEdges h vd target) |>.map List.length).sum + 1 := by
    unfold bfsFuel; simp [Nat.add_comm]
  rw [hf, bfsLoop, if_neg (by simp), Dict.get_of_get? hne, Py.bind_ok, List.nil_append, List.nil_append,
    bfs_leaves _ _ _ hlen (nbOthers_nodup h n target) (fun v hv => ?_) fun v hv => ?_]
  · rfl
  · simp [(mem_nbOthers.1 hv).2]
  · rw [nbEdges_get h hk, if_neg (mem_nbOthers.1 hv).2, if_pos (mem_nbOthers.1 hv).1]

/-- The network before parameters are learned. -/
theorem nb_structure (h : HashOrder ℕ) {data : Data} (hr : ∀ row ∈ data.rows, row.length = data.ncol) {target : ℕ} (ht : target < data.ncol) :
    ∃ vd bn, nbValues data = .ok vd ∧ setStructure h (nbEdges h vd target) (some vd) = .ok bn ∧
      bn.V = target :: nbOthers h data.ncol target ∧ bn.Shape ∧ (∀ v ∈ bn.V, v ∈ bn.E.keys) ∧
      (∀ v, bn.E.get? v = if v = target then some (nbOthers h data.ncol target) else if v < data.ncol then some [] else none) ∧
      bn.parentsOf target = [] ∧ (∀ v < data.ncol, v ≠ target → bn.parentsOf v = [target]) ∧
      (∀ v ∈ bn.V, (bn.parentsOf v).Sublist bn.V ∧ ∀ u, u ∈ bn.parentsOf v ↔ u ∈ bn.V ∧ v ∈ bn.childrenOf u) := by
  obtain ⟨vd, h1, hk, _⟩ := nbValues_ok hr
  have hcl : ChildrenAreKeys (nbEdges h vd target) := fun u v huv => by
    rw [nb_mem_keys h hk]; exact .inr ((nb_arc h hk target u v).1 huv).2.1
  obtain ⟨bn, h2, hn, _, hE, hF, hp, _⟩ := C76_set_structure_general h (nbEdges h vd target) (some vd) (nbEdges_keys h hk target) hcl
    (fun d hd v hv => by
      cases hd
      rw [hk, List.mem_range]
      rcases (nb_mem_keys h hk target v).1 hv with rfl | hv
      · exact ht
      · exact hv)
  have hV : bn.V = target :: nbOthers h data.ncol target := by
    have h2' := h2
    unfold setStructure at h2'
    rw [nb_topsort h hk, Py.bind_ok] at h2'
    generalize hm : pyMap _ (target :: nbOthers h data.ncol target) = m at h2'
    cases m with
    | error e => cases h2'
    | ok F => rw [Py.bind_ok] at h2'; cases h2'; rfl
  have hmem : ∀ v, v ∈ bn.V ↔ v < data.ncol := fun v => by
    rw [hV, List.mem_cons, mem_nbOthers]
    constructor
    · rintro (rfl | hv)
      · exact ht
      · exact hv.1
    · intro hv
      by_cases hvt : v = target
      · exact .inl hvt
      · exact .inr ⟨hv, hvt⟩
  have hpt : bn.parentsOf target = [] := by
    rw [List.eq_nil_iff_forall_not_mem]
    intro u hu
    have := ((hp target ((hmem _).2 ht)).2 u).1 hu
    exact ((nb_arc h hk target u target).1 this.2).2.2 rfl
  have hpo : ∀ v < data.ncol, v ≠ target → bn.parentsOf v = [target] := by
    intro v hv hne
    obtain ⟨s1, m1⟩ := hp v ((hmem v).2 hv)
    have : (bn.parentsOf v).Perm [target] := by
      rw [List.perm_ext_iff_of_nodup (s1.nodup hn) (by simp)]
      intro u
      rw [m1, nb_arc h hk, List.mem_singleton]
      exact ⟨fun hh => hh.2.1, fun hh => ⟨(hmem u).2 (hh ▸ ht), hh, hv, hne⟩⟩
    exact List.perm_singleton.1 this
  refine ⟨vd, bn, h1, h2, hV, ⟨hn, hF, fun v hv => ?_, fun v hv p hp' => ((hp v hv).2 p).1 hp' |>.1⟩, fun v hv => ?_, fun v => ?_, hpt, hpo, fun v hv => ⟨(hp v hv).1, fun u => ?_⟩⟩
  · by_cases hvt : v = target
    · subst hvt; rw [hpt]; simp
    · rw [hpo v ((hmem v).1 hv) hvt]; simpa using hvt
  · rw [hE, nb_mem_keys h hk]; exact .inr ((hmem v).1 hv)
  · rw [hE, nbEdges_get h hk]
  · rw [(hp v hv).2 u]
    apply and_congr_right
    intro _
    unfold childrenOf Arc
    rw [hE]
    cases hg : Dict.get? (nbEdges h vd target) u <;> simp

end PyBN
