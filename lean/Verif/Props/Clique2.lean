import Verif.Proofs.CliqueUp
import Verif.Props.Clique
import Verif.Proofs.FactorMore

/-!
# C116 - C120: messages between cliques and the upward pass
-/

set_option linter.unusedSectionVars false
namespace PyBN
namespace Clq
variable {N A : Type _} [DecidableEq N] [DecidableEq A]
open BayesNet Chordal Factor

/-- What a clique needs for sending: its belief `b` and the messages it has received are well-formed tables which share no list or dictionary. -/
structure CanSend (c : N → ℕ) (t : Tree N) (ci : Clique N) (b : FObj N) : Prop where
  belief : ci.belief = some b
  scope_nodup : ci.scope.Nodup
  valid : Valid t.heap b
  wf : (t.heap.get b).WF c
  msgs : ∀ m ∈ ci.msgs, Valid t.heap m ∧ (t.heap.get m).WF c ∧ Disj m b
  disj : ci.msgs.Pairwise Disj

/-- The variables of the belief and of the messages received. -/
def Covers (t : Tree N) (ci : Clique N) (b : FObj N) (v : N) : Prop := v ∈ (t.heap.get b).scope ∨ ∃ m ∈ ci.msgs, v ∈ (t.heap.get m).scope

/-- C116: `ct[i] >> ct[j]` appends one message to those of clique `j`: the belief of `i` times the messages `i` has received, with the variables of clique `i` that
are not in clique `j` summed out.  The other cliques keep everything, and a factor that shares no list or dictionary with the belief or messages of `i` keeps its value. -/
theorem C116_message (h : HashOrder N) {c : N → ℕ} {t : Tree N} {i j : ℕ} (hij : i ≠ j) {ci cj : Clique N} (hci : Dict.get? t.C i = some ci) (hcj : Dict.get? t.C j = some cj)
    {b : FObj N} (hs : CanSend c t ci b) (hcov : ∀ v ∈ ci.scope, v ∉ cj.scope → Covers t ci b v) :
    ∃ t' m, sendMessage h t i j = .ok t' ∧ Dict.get? t'.C j = some { cj with msgs := cj.msgs ++ [m] } ∧ (∀ k, k ≠ i → k ≠ j → Dict.get? t'.C k = Dict.get? t.C k) ∧
      (t'.heap.get m).WF c ∧ (∀ v, v ∈ (t'.heap.get m).scope ↔ Covers t ci b v ∧ ¬ (v ∈ ci.scope ∧ v ∉ cj.scope)) ∧
      (∀ out : List N, out.Nodup → (∀ v, v ∈ out ↔ v ∈ ci.scope ∧ v ∉ cj.scope) → ∀ a, InRange c (t'.heap.get m).scope a →
        (t'.heap.get m).entry a = some (sumAll c out (fun a => (t.heap.get b).val a * prodVal (ci.msgs.map t.heap.get) a) a)) ∧
      ∀ q, Valid t.heap q → Disj q b → (∀ m ∈ ci.msgs, Disj q m) → t'.heap.get q = t.heap.get q := by
  obtain ⟨t', b', m, s1, -, -, s2, s3, s4, -, -, -, s8, s9, -, s11⟩ := sendMessage_spec h hij hci hcj hs.belief hs.valid hs.wf hs.msgs hs.disj hs.scope_nodup hcov
  refine ⟨t', m, s1, by rw [s2, if_pos rfl], fun k hki hkj => by rw [s2, if_neg hkj, if_neg hki], s4, s8, ?_, fun q vq d dm => (s11 q vq d dm).1.2⟩
  intro out ho hom a ha
  rw [s4.entry_eq ha, s9 a ha]
  congr 1
  have hp := h.perm (ci.scope.filter (· ∉ cj.scope))
  have hnd : (h.iter (ci.scope.filter (· ∉ cj.scope))).Nodup := hp.nodup_iff.2 (hs.scope_nodup.filter _)
  refine sumAll_perm ((List.perm_ext_iff_of_nodup hnd ho).2 fun v => ?_) _ hnd a
  rw [hp.mem_iff, List.mem_filter, hom]; simp

/-- C116 / a variable of clique `i` outside clique `j` that occurs neither in the belief nor in the messages received: `KeyError`. -/
theorem C116_missing (h : HashOrder N) {c : N → ℕ} {t : Tree N} {i j : ℕ} {ci cj : Clique N} (hci : Dict.get? t.C i = some ci) (hcj : Dict.get? t.C j = some cj)
    {b : FObj N} (hs : CanSend c t ci b) (hmiss : ∃ v ∈ ci.scope, v ∉ cj.scope ∧ ¬ Covers t ci b v) : sendMessage h t i j = .error .keyError := by
  obtain ⟨H1, b1, e1, v1, w1, s1, -, -⟩ := mulAll_spec h ci.msgs hs.valid hs.wf hs.msgs hs.disj
  have hp := h.perm (ci.scope.filter (· ∉ cj.scope))
  have : H1.sumoutAll h b1 (h.iter (ci.scope.filter (· ∉ cj.scope))) = .error .keyError := by
    refine sumoutAll_missing h _ v1 w1 (hp.nodup_iff.2 (hs.scope_nodup.filter _)) ?_
    obtain ⟨v, hv, hvj, hvc⟩ := hmiss
    refine ⟨v, by rw [hp.mem_iff, List.mem_filter]; simp [hv, hvj], fun hvs => hvc ((s1 v).1 hvs)⟩
  unfold sendMessage
  rw [Dict.get_of_get? hci, Py.bind_ok, Dict.get_of_get? hcj, Py.bind_ok, hs.belief]
  show (beliefAndMessage h t.heap b ci.msgs ci.scope cj.scope >>= _) = _
  unfold beliefAndMessage
  rw [e1, Py.bind_ok]
  simp only []
  rw [this]; rfl

/-- C117, the part that holds: if clique `i` has no variable outside clique `j`, then after `ct[i] >> ct[j]` the belief of `i` is its former belief times the messages
it has received. -/
theorem C117_sender_partial (h : HashOrder N) {c : N → ℕ} {t : Tree N} {i j : ℕ} (hij : i ≠ j) {ci cj : Clique N} (hci : Dict.get? t.C i = some ci) (hcj : Dict.get? t.C j = some cj)
    {b : FObj N} (hs : CanSend c t ci b) (hsub : ∀ v ∈ ci.scope, v ∈ cj.scope) :
    ∃ t' b', sendMessage h t i j = .ok t' ∧ Dict.get? t'.C i = some { ci with belief := some b' } ∧ (t'.heap.get b').WF c ∧
      (∀ v, v ∈ (t'.heap.get b').scope ↔ Covers t ci b v) ∧
      ∀ a, InRange c (t'.heap.get b').scope a → (t'.heap.get b').entry a = some ((t.heap.get b).val a * prodVal (ci.msgs.map t.heap.get) a) := by
  obtain ⟨H1, b1, e1, v1, w1, s1, x1, -⟩ := mulAll_spec h ci.msgs hs.valid hs.wf hs.msgs hs.disj
  have hvs : h.iter (ci.scope.filter (· ∉ cj.scope)) = [] := by
    have : ci.scope.filter (· ∉ cj.scope) = [] := by
      rw [List.filter_eq_nil_iff]; intro v hv; simpa using hsub v hv
    rw [this]; exact List.perm_nil.1 (h.perm [])
  have hj1 : Dict.get? (t.C.set i { ci with belief := some b1 }) j = some cj := by rw [Dict.get?_set_ne _ _ hij]; exact hcj
  refine ⟨{ t with heap := H1, C := (t.C.set i { ci with belief := some b1 }).set j { cj with msgs := cj.msgs ++ [b1] } }, b1, ?_, ?_, w1, s1,
    fun a ha => by rw [w1.entry_eq ha, x1 a ha]⟩
  · unfold sendMessage
    rw [Dict.get_of_get? hci, Py.bind_ok, Dict.get_of_get? hcj, Py.bind_ok, hs.belief]
    show (beliefAndMessage h t.heap b ci.msgs ci.scope cj.scope >>= _) = _
    unfold beliefAndMessage
    rw [e1, Py.bind_ok]
    simp only []
    rw [hvs]
    show (((Except.ok (H1, b1) : Py _) >>= _) >>= _) = _
    rw [Py.bind_ok]
    show ((Except.ok (H1, b1, b1) : Py _) >>= _) = _
    rw [Py.bind_ok]
    simp only []
    rw [Dict.get_of_get? hj1, Py.bind_ok]; rfl
  · simp only []
    rw [Dict.get?_set_ne _ _ hij.symm, Dict.get?_set_self]

/-- C118: after `ct[i] >> ct[j]` the belief of the sender has the scope, cardinalities and strides of the *message*, but the table of the full belief.  Asking it for a
variable that was summed out raises `KeyError`.  If clique `i` had received no messages, its potential is the same damaged factor, and sending to `j` again raises `KeyError`. -/
theorem C118_sender_damaged (h : HashOrder N) {c : N → ℕ} {t : Tree N} {i j : ℕ} (hij : i ≠ j) {ci cj : Clique N} (hci : Dict.get? t.C i = some ci) (hcj : Dict.get? t.C j = some cj)
    {b : FObj N} (hs : CanSend c t ci b) (hcov : ∀ v ∈ ci.scope, v ∉ cj.scope → Covers t ci b v) :
    ∃ t' b' m, sendMessage h t i j = .ok t' ∧ Dict.get? t'.C i = some { ci with belief := some b' } ∧ Dict.get? t'.C j = some { cj with msgs := cj.msgs ++ [m] } ∧
      (t'.heap.get b').scope = (t'.heap.get m).scope ∧ (t'.heap.get b').card = (t'.heap.get m).card ∧ (t'.heap.get b').stride = (t'.heap.get m).stride ∧
      (∃ full : List N, full.Nodup ∧ (∀ v, v ∈ full ↔ Covers t ci b v) ∧ (t'.heap.get b').cpt.length = (full.map c).prod) ∧
      (∀ v ∈ ci.scope, v ∉ cj.scope → marginalizeOver t' i v = .error .keyError) ∧
      (ci.msgs = [] → b' = b) ∧ (ci.msgs = [] → (∃ v ∈ ci.scope, v ∉ cj.scope) → sendMessage h t' i j = .error .keyError) := by
  obtain ⟨t', b', m, s1, -, -, s2, s3, s4, s5, s6, s7, s8, s9, ⟨fb, f1, f2, f3, -⟩, s11⟩ := sendMessage_spec h hij hci hcj hs.belief hs.valid hs.wf hs.msgs hs.disj hs.scope_nodup hcov
  have g1 : (t'.heap.get b').scope = (t'.heap.get m).scope := by simp only [Heap.get, s5]
  have g2 : (t'.heap.get b').card = (t'.heap.get m).card := by simp only [Heap.get, s6]
  have g3 : (t'.heap.get b').stride = (t'.heap.get m).stride := by simp only [Heap.get, s7]
  have hgi : Dict.get? t'.C i = some { ci with belief := some b' } := by rw [s2, if_neg hij, if_pos rfl]
  have hgj : Dict.get? t'.C j = some { cj with msgs := cj.msgs ++ [m] } := by rw [s2, if_pos rfl]
  have hnone : ∀ v ∈ ci.scope, v ∉ cj.scope → Dict.get? (t'.heap.get b').card v = none := by
    intro v hv hvj
    rw [g2, s4.card_eq, if_neg]
    exact fun hm => ((s8 v).1 hm).2 ⟨hv, hvj⟩
  have hbb : ci.msgs = [] → b' = b := by
    intro hm
    have hj1 : ∀ x : Clique N, Dict.get? (t.C.set i x) j = some cj := fun x => by rw [Dict.get?_set_ne _ _ hij]; exact hcj
    unfold sendMessage at s1
    rw [Dict.get_of_get? hci, Py.bind_ok, Dict.get_of_get? hcj, Py.bind_ok, hs.belief, hm] at s1
    change (beliefAndMessage h t.heap b [] ci.scope cj.scope >>= _) = _ at s1
    unfold beliefAndMessage Heap.mulAll at s1
    rw [Py.bind_ok] at s1
    cases hq : t.heap.sumoutAll h b (h.iter (ci.scope.filter (· ∉ cj.scope))) with
    | error e => simp only [hq] at s1; cases s1
    | ok r =>
      simp only [hq, Py.bind_ok, Py.pure_eq, Dict.get_of_get? (hj1 _)] at s1
      have ht : t' = _ := (Except.ok.inj s1).symm
      rw [ht] at hgi
      simp only [] at hgi
      rw [Dict.get?_set_ne _ _ hij.symm, Dict.get?_set_self] at hgi
      have := congrArg Clique.belief (Option.some.inj hgi)
      exact (Option.some.inj this).symm
  refine ⟨t', b', m, s1, hgi, hgj, g1, g2, g3, ⟨fb.scope, f1.scope_nodup, f3, ?_⟩, ?_, hbb, ?_⟩
  · show b'.cpt.length = _
    rw [← f2, f1.cpt_len]
  · intro v hv hvj
    unfold marginalizeOver
    rw [Dict.get_of_get? hgi, Py.bind_ok]
    simp only []
    unfold Factor.sumover
    rw [Dict.get_of_none (hnone v hv hvj)]; rfl
  · rintro hm ⟨v, hv, hvj⟩
    have hp := h.perm (ci.scope.filter (· ∉ cj.scope))
    have hvm : v ∈ h.iter (ci.scope.filter (· ∉ cj.scope)) := by rw [hp.mem_iff, List.mem_filter]; simp [hv, hvj]
    cases hl : h.iter (ci.scope.filter (· ∉ cj.scope)) with
    | nil => rw [hl] at hvm; cases hvm
    | cons x xs =>
      have hx : x ∈ ci.scope ∧ x ∉ cj.scope := by
        have : x ∈ h.iter (ci.scope.filter (· ∉ cj.scope)) := by rw [hl]; simp
        rw [hp.mem_iff, List.mem_filter] at this; simpa using this
      unfold sendMessage
      rw [Dict.get_of_get? hgi, Py.bind_ok, Dict.get_of_get? hgj, Py.bind_ok]
      simp only []
      show (beliefAndMessage h t'.heap b' ci.msgs ci.scope cj.scope >>= _) = _
      rw [hm]
      unfold beliefAndMessage Heap.mulAll
      rw [Py.bind_ok]
      simp only []
      rw [hl, sumoutAll_nocard h (hnone x hx.1 hx.2)]; rfl

/-- C119: the upward pass.  Take cliques `0, …, n - 1` with well-formed, unshared potentials over their scopes, a tree with root `r` having the running intersection property, and any order in
which every clique comes after its children.  After `ct[i] >> ct[par i]` in this order and `ct[r].collect_beliefs()`, asking the root for a variable gives the
product of all potentials summed over all other variables.  The messages are used up: collecting again changes nothing. -/
theorem C119_upward_pass (h : HashOrder N) {c : N → ℕ} {n r : ℕ} {S : ℕ → List N} {psi : ℕ → FObj N} {par : ℕ → ℕ} {sched : List ℕ} (u : Upward n r par sched)
    (hrip : RunningIntersection (fun k => (S k).toFinset) (· < n) (fun a b => a ∈ sched ∧ par a = b)) (hS : ∀ k < n, (S k).Nodup) (t : Tree N)
    (hcl : ∀ k < n, ∃ ck, Dict.get? t.C k = some ck ∧ ck.scope = S k ∧ ck.psi = some (psi k) ∧ ck.belief = some (psi k) ∧ ck.msgs = [])
    (hgood : ∀ k < n, Valid t.heap (psi k) ∧ (t.heap.get (psi k)).WF c ∧ ∀ v ∈ (t.heap.get (psi k)).scope, v ∈ S k)
    (hdisj : ∀ k < n, ∀ k' < n, k ≠ k' → Disj (psi k) (psi k'))
    (hcov : ∀ k < n, ∀ x ∈ S k, ∃ k' < n, x ∈ (t.heap.get (psi k')).scope) (target : N) (ht : target ∈ S r) :
    ∃ t1 t2 f, sendAll h t (sched.map fun i => (i, par i)) = .ok t1 ∧ collectBeliefs h t1 r = .ok t2 ∧ collectBeliefs h t2 r = .ok t2 ∧ marginalizeOver t2 r target = .ok f ∧ f.scope = [target] ∧
      f.cpt.length = c target ∧
      ∀ others : List N, others.Nodup → (∀ x, x ∈ others ↔ x ≠ target ∧ ∃ k < n, x ∈ S k) → ∀ a, a target < c target →
        f.cpt[a target]? = some (sumAll c others (fun a => ((List.range n).map fun k => (t.heap.get (psi k)).val a).prod) a) := by
  obtain ⟨t1, t2, cr, b, e1, e2, e3, e4, e5, w, e6, e7⟩ := upward_spec h u hrip hS t hcl hgood hdisj hcov
  have hrn : r < n := List.mem_range.1 (u.perm.mem_iff.1 (by simp))
  obtain ⟨f, f1, f2, f3, -, f5, f6⟩ := Factor.sumover_ok w ((e6 target).2 ht)
  refine ⟨t1, t2, f, e1, e2, ?_, ?_, f3, f5, ?_⟩
  · unfold collectBeliefs
    rw [Dict.get_of_get? e3, Py.bind_ok, e5]; rfl
  · unfold marginalizeOver
    rw [Dict.get_of_get? e3, Py.bind_ok, e4]; exact f1
  · intro others ho hom a ha
    rw [(f6 a ha).2]
    congr 1
    -- split the other variables into those of the root clique and those outside
    set inn := (t2.heap.get b).scope.erase target with hinn
    set out := others.filter (· ∉ S r) with hout
    have hinnd : inn.Nodup := w.scope_nodup.erase _
    have hinm : ∀ x, x ∈ inn ↔ x ≠ target ∧ x ∈ S r := fun x => by rw [hinn, w.scope_nodup.mem_erase_iff, e6]
    have houtnd : out.Nodup := ho.filter _
    have houtm : ∀ x, x ∈ out ↔ x ∉ S r ∧ ∃ k < n, x ∈ S k := by
      intro x
      rw [hout, List.mem_filter, hom]
      simp only [decide_eq_true_eq]
      constructor
      · exact fun ⟨⟨_, h2⟩, h3⟩ => ⟨h3, h2⟩
      · exact fun ⟨h1, h2⟩ => ⟨⟨fun he => h1 (he ▸ ht), h2⟩, h1⟩
    have happ : (inn ++ out).Nodup := by
      rw [List.nodup_append]
      refine ⟨hinnd, houtnd, fun x hx y hy hxy => ?_⟩
      subst hxy
      exact ((houtm x).1 hy).1 ((hinm x).1 hx).2
    have hp : (inn ++ out).Perm others := by
      refine (List.perm_ext_iff_of_nodup happ ho).2 fun x => ?_
      rw [List.mem_append, hinm, houtm, hom]
      constructor
      · rintro (⟨h1, h2⟩ | ⟨h1, h2⟩)
        · exact ⟨h1, r, hrn, h2⟩
        · exact ⟨fun he => h1 (he ▸ ht), h2⟩
      · rintro ⟨h1, h2⟩
        by_cases hx : x ∈ S r
        · exact Or.inl ⟨h1, hx⟩
        · exact Or.inr ⟨hx, h2⟩
    -- the belief does not depend on the variables outside, which can be made legal
    have hpos : ∀ k < n, ∀ v ∈ S k, 0 < c v := by
      intro k hk v hv
      obtain ⟨k', hk', hvk⟩ := hcov k hk v hv
      exact (hgood k' hk').2.1.card_pos v hvk
    rw [← sumAll_perm hp _ happ a, sumAll_append]
    refine sumAll_congr (fun x hx1 hx2 => ?_) hinnd
    let x' : Asg N := fun v => if v ∈ S r then x v else 0
    have hx' : ∀ k < n, ∀ v ∈ S k, x' v < c v := by
      intro k hk v hv
      by_cases hvr : v ∈ S r
      · simp only [x', if_pos hvr]
        by_cases hvt : v = target
        · rw [hvt, hx1 target (by rw [hinm]; simp)]; exact ha
        · exact hx2 v ((hinm v).2 ⟨hvt, hvr⟩)
      · simp only [x', if_neg hvr]; exact hpos k hk v hv
    rw [Factor.val_congr (b := x') fun v hv => by simp only [x', if_pos ((e6 v).1 hv)], e7 out houtnd houtm x' hx']
    -- both sides only depend on the variables of the cliques
    have hdep : ∀ y z : Asg N, (∀ k < n, ∀ v ∈ S k, y v = z v) →
        ((List.range n).map fun k => (t.heap.get (psi k)).val y).prod = ((List.range n).map fun k => (t.heap.get (psi k)).val z).prod := by
      intro y z hyz
      refine congrArg List.prod (List.map_congr_left fun k hk => ?_)
      exact Factor.val_congr fun v hv => hyz k (List.mem_range.1 hk) v ((hgood k (List.mem_range.1 hk)).2.2 v hv)
    have hgen : ∀ (l : List N) (y z : Asg N), (∀ k < n, ∀ v ∈ S k, v ∉ l → y v = z v) →
        sumAll c l (fun a => ((List.range n).map fun k => (t.heap.get (psi k)).val a).prod) y = sumAll c l (fun a => ((List.range n).map fun k => (t.heap.get (psi k)).val a).prod) z := by
      intro l
      induction l with
      | nil => intro y z hyz; exact hdep y z fun k hk v hv => hyz k hk v hv (by simp)
      | cons w l ih =>
        intro y z hyz
        simp only [sumAll]
        refine Finset.sum_congr rfl fun s _ => ih _ _ fun k hk v hv hvl => ?_
        unfold Asg.upd
        by_cases hvw : v = w
        · simp [hvw]
        · simp only [if_neg hvw]; exact hyz k hk v hv (by simp [hvw, hvl])
    refine hgen out x' x fun k hk v hv hvo => ?_
    have : v ∈ S r := by
      by_contra hc
      exact hvo ((houtm v).2 ⟨hc, k, hk, hv⟩)
    simp only [x', if_pos this]

end Clq
end PyBN
