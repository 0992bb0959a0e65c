import Verif.Proofs.RowOrder
import Verif.Props.ScoreCall

/-!
# Repeated data: mutual information, entropy and the searches
-/

set_option linter.unusedSectionVars false

namespace PyBN
namespace Indep

/-- `l'` has every element `k` times as often as `l`. -/
def KF {α : Type _} (k : ℕ) (l l' : List α) : Prop := ∀ p : α → Bool, l'.countP p = k * l.countP p

theorem KF.of_perm {α : Type _} {k : ℕ} {l l' : List α} (h : l'.Perm (List.replicate k l).flatten) : KF k l l' := by
  intro p
  rw [h.countP_eq, List.countP_flatten, List.map_replicate, List.sum_replicate, smul_eq_mul]

theorem KF.map {α β : Type _} {k : ℕ} {l l' : List α} (h : KF k l l') (f : α → β) : KF k (l.map f) (l'.map f) := by
  intro p
  rw [List.countP_map, List.countP_map]; exact h _

theorem KF.length {α : Type _} {k : ℕ} {l l' : List α} (h : KF k l l') : l'.length = k * l.length := by
  have := h fun _ => true
  simpa using this

theorem KF.mem {α : Type _} {k : ℕ} (hk : 0 < k) {l l' : List α} (h : KF k l l') (x : α) : x ∈ l' ↔ x ∈ l := by
  classical
  have := h fun y => decide (y = x)
  have e : ∀ m : List α, x ∈ m ↔ 0 < m.countP fun y => decide (y = x) := fun m => by
    rw [List.countP_pos_iff]; simp
  rw [e, e, this]
  exact Nat.mul_pos_iff_of_pos_left hk

theorem KF.nil_iff {α : Type _} {k : ℕ} (hk : 0 < k) {l l' : List α} (h : KF k l l') : l' = [] ↔ l = [] := by
  rw [← List.length_eq_zero_iff, ← List.length_eq_zero_iff, h.length]
  simp [hk.ne']

theorem KF.uniqueVals {k : ℕ} (hk : 0 < k) {l l' : List ℕ} (h : KF k l l') : uniqueVals l' = uniqueVals l :=
  RowOrder.sortedUnique_eq (uniqueVals_sorted _) (uniqueVals_sorted _) fun x => by rw [mem_uniqueVals, mem_uniqueVals, h.mem hk]

theorem KF.colHi {k : ℕ} (hk : 0 < k) {l l' : List ℕ} (h : KF k l l') : colHi l' = colHi l := by
  by_cases hl : l = []
  · have := (h.nil_iff hk).2 hl
    rw [hl, this]
  · exact colHi_eq ((h.mem hk _).2 (colHi_mem hl)) fun x hx => le_colHi ((h.mem hk _).1 hx)

theorem KF.colLo {k : ℕ} (hk : 0 < k) {l l' : List ℕ} (h : KF k l l') : colLo l' = colLo l := by
  by_cases hl : l = []
  · have := (h.nil_iff hk).2 hl
    rw [hl, this]
  · exact colLo_eq ((h.mem hk _).2 (colLo_mem hl)) fun x hx => colLo_le ((h.mem hk _).1 hx)

section
variable {k : ℕ} (hk : 0 < k) {rows rows' : List (List ℕ)} (h : KF k rows rows')
include hk h

omit hk in
theorem KF.column (j : ℕ) : KF k (Indep.column rows j) (Indep.column rows' j) := h.map _

theorem KF.nbins : nbins rows' = nbins rows := by
  funext j; unfold Indep.nbins; rw [(h.column j).uniqueVals hk]

theorem KF.histBin (j : ℕ) : Indep.histBin (Indep.column rows' j) = Indep.histBin (Indep.column rows j) := by
  funext b x
  unfold Indep.histBin
  rw [(h.column j).colLo hk, (h.column j).colHi hk]

theorem KF.hist1 (b i : ℕ) : hist1 rows' b i = k * hist1 rows b i := by
  unfold Indep.hist1; rw [h.histBin hk]; exact h _

theorem KF.hist2 (a b i j : ℕ) : hist2 rows' a b i j = k * hist2 rows a b i j := by
  unfold Indep.hist2; rw [h.histBin hk, h.histBin hk]; exact h _

theorem KF.hist3 (a b c i j l : ℕ) : hist3 rows' a b c i j l = k * hist3 rows a b c i j l := by
  unfold Indep.hist3; rw [h.histBin hk, h.histBin hk, h.histBin hk]; exact h _

omit hk in
theorem KF.joinFrom (c : ℕ) : KF k (joinFrom c rows) (joinFrom c rows') := h.map _

omit hk in
theorem KF.select (cols : List ℕ) : KF k (select cols rows) (select cols rows') := h.map _

omit hk in
theorem KF.ite (p : Prop) [Decidable p] (c : ℕ) : KF k (if p then Indep.joinFrom c rows else rows) (if p then Indep.joinFrom c rows' else rows') := by
  split
  · exact h.joinFrom c
  · exact h

theorem KF.frac (c d : ℕ) : ((k * c : ℕ) : ℝ) / ((k * d : ℕ) : ℝ) = (c : ℝ) / d := by
  have : (k : ℝ) ≠ 0 := by exact_mod_cast hk.ne'
  push_cast
  exact mul_div_mul_left _ _ this

theorem KF.zero_iff (c : ℕ) : k * c = 0 ↔ c = 0 := by simp [hk.ne']

theorem KF.miStat (n : ℕ) : miStat n rows' = miStat n rows := by
  unfold Indep.miStat
  dsimp only
  simp only [(h.ite (3 < n) 2).nbins hk, (h.ite (3 < n) 2).hist3 hk, h.nbins hk, h.hist2 hk, h.length, h.frac hk]

theorem KF.ddof (n : ℕ) : ddof n rows' = ddof n rows := by
  unfold Indep.ddof
  dsimp only
  simp only [(h.ite (3 < n) 2).nbins hk, h.nbins hk]

theorem KF.miTestMI (n : ℕ) : miTestMI n rows' = miTestMI n rows := by
  unfold Indep.miTestMI; simp only [h.nil_iff hk, h.miStat hk]

theorem KF.mutualInformation (n : ℕ) (c : Bool) : mutualInformation n rows' c = mutualInformation n rows c := by
  unfold Indep.mutualInformation
  dsimp only
  simp only [h.nil_iff hk, h.nbins hk, h.hist1 hk, h.hist2 hk, h.length, h.frac hk, h.zero_iff hk, (h.joinFrom 1).hist2 hk, (h.ite (3 < n) 2).hist3 hk,
    ((h.ite (3 < n) 2).column 0).colHi hk, ((h.ite (3 < n) 2).column 1).colHi hk,
    ((h.ite (3 < n) 2).column 2).colHi hk]

theorem KF.entropy (n : ℕ) : entropy n rows' = entropy n rows := by
  unfold Indep.entropy
  dsimp only
  simp only [h.nil_iff hk, h.nbins hk, h.hist1 hk, h.hist2 hk, h.length, h.frac hk, h.zero_iff hk, (h.ite (3 < n) 2).hist3 hk,
    ((h.ite (3 < n) 2).column 0).colHi hk, ((h.ite (3 < n) 2).column 1).colHi hk,
    ((h.ite (3 < n) 2).column 2).colHi hk]

theorem KF.miFromEn (n : ℕ) (hn : n ≠ 2) : miFromEn n rows' = miFromEn n rows := by
  unfold Indep.miFromEn
  dsimp only
  rw [if_neg hn, if_neg hn, ((h.ite (3 < n) 2).select [0, 2]).entropy hk, (h.ite (3 < n) 2).entropy hk]

theorem KF.dataScore : dataScore rows' = dataScore rows := by
  funext cols; unfold Indep.dataScore; rw [(h.select cols).mutualInformation hk]

end
end Indep

/-! ## The searches and the number of rows -/

section
variable {N : Type _} [DecidableEq N] {A : Type}

/-- The pass with its delta multiplied by `c`. -/
def Pass.scale (c : ℚ) (p : Pass N) : Pass N := ⟨p.before, p.move.map fun d => (c * d.1, d.2), p.after⟩

variable (c : ℚ) (hc : 0 < c) (env : HcEnv N)

/-- The environment with the number of rows multiplied by `c`. -/
def HcEnv.times (env : HcEnv N) (c : ℚ) : HcEnv N := { env with nrow := c * env.nrow }

theorem deltaOf_times (o n : List N) : deltaOf (env.times c) o n = (deltaOf env o n).map (c * ·) := by
  unfold deltaOf HcEnv.times
  dsimp only
  cases env.mi o <;> cases env.mi n <;> simp [mul_assoc]

theorem revDelta_times (pv : List N) (u v : N) : revDelta (env.times c) pv u v = (revDelta env pv u v).map (c * ·) := by
  unfold revDelta
  rw [deltaOf_times, deltaOf_times]
  cases deltaOf env (u :: pv) (u :: pv ++ [v]) <;> cases deltaOf env (v :: pv) (((v :: pv).filter (· ≠ u)).map fun _ => u) <;> simp [mul_add]

/-- The best move with its delta multiplied by `c`. -/
def bestScale (b : Best N) : Best N := (c * b.1, b.2)

include hc in
theorem bump_times (b : Best N) (d : Option ℚ) (m : Move) (u v : N) : bump (bestScale c b) (d.map (c * ·)) m u v = bestScale c (bump b d m u v) := by
  cases d with
  | none => rfl
  | some d =>
      unfold bump bestScale
      simp only [Option.map_some, mul_lt_mul_iff_right₀ hc]
      split_ifs <;> rfl

theorem considerAdd_times (blocked : Move → N → N → Bool) (st : CP N) (b : Best N) (uv : N × N) (hc : 0 < c) :
    considerAdd (env.times c) blocked st (bestScale c b) uv = (considerAdd env blocked st b uv).map (bestScale c) := by
  unfold considerAdd
  split
  · rfl
  · cases st.c.get uv.1 with
    | error e => rfl
    | ok cu =>
      simp only [Py.bind_ok]
      split
      · rw [show (env.times c).fc = env.fc from rfl, show (env.times c).restriction = env.restriction from rfl]
        cases wouldCauseCycle env.fc st.c uv.1 uv.2 false with
        | error e => rfl
        | ok cyc =>
          simp only [Py.bind_ok]
          split
          · cases st.p.get uv.2 with
            | error e => rfl
            | ok pv =>
              simp only [Py.bind_ok]
              unfold addDelta
              rw [deltaOf_times, bump_times c hc]
              rfl
          · rfl
      · rfl

theorem considerDel_times (blocked : Move → N → N → Bool) (st : CP N) (b : Best N) (uv : N × N) (hc : 0 < c) :
    considerDel (env.times c) blocked st (bestScale c b) uv = (considerDel env blocked st b uv).map (bestScale c) := by
  unfold considerDel
  split
  · rfl
  · cases st.c.get uv.1 with
    | error e => rfl
    | ok cu =>
      simp only [Py.bind_ok]
      split
      · cases st.p.get uv.2 with
        | error e => rfl
        | ok pv =>
          simp only [Py.bind_ok]
          unfold delDelta
          rw [deltaOf_times, bump_times c hc]
          rfl
      · rfl

theorem considerRev_times (blocked : Move → N → N → Bool) (st : CP N) (b : Best N) (uv : N × N) (hc : 0 < c) :
    considerRev (env.times c) blocked st (bestScale c b) uv = (considerRev env blocked st b uv).map (bestScale c) := by
  unfold considerRev
  split
  · rfl
  · cases st.c.get uv.1 with
    | error e => rfl
    | ok cu =>
      simp only [Py.bind_ok]
      split
      · rw [show (env.times c).fc = env.fc from rfl]
        cases wouldCauseCycle env.fc st.c uv.2 uv.1 true with
        | error e => rfl
        | ok cyc =>
          simp only [Py.bind_ok]
          split
          · cases st.p.get uv.2 with
            | error e => rfl
            | ok pv =>
              simp only [Py.bind_ok]
              rw [revDelta_times, bump_times c hc]
              rfl
          · rfl
      · rfl

theorem scan_times {f g : Best N → N × N → Py (Best N)} (h : ∀ b uv, g (bestScale c b) uv = (f b uv).map (bestScale c)) :
    ∀ (l : List (N × N)) (b : Best N), scan g (bestScale c b) l = (scan f b l).map (bestScale c)
  | [], _ => rfl
  | uv :: l, b => by
      unfold scan
      rw [h]
      cases f b uv with
      | error e => rfl
      | ok b' => exact scan_times h l b'

theorem bestMove_times (blocked : Move → N → N → Bool) (st : CP N) (hc : 0 < c) :
    bestMove (env.times c) blocked st = (bestMove env blocked st).map (bestScale c) := by
  unfold bestMove
  have e0 : ((0, none) : Best N) = bestScale c (0, none) := by unfold bestScale; simp
  rw [show (env.times c).V = env.V from rfl]
  conv_lhs => rw [e0]
  rw [scan_times c fun b uv => considerAdd_times c env blocked st b uv hc]
  cases scan (considerAdd env blocked st) (0, none) (pairsOf env.V) with
  | error e => rfl
  | ok b1 =>
    show (scan _ (bestScale c b1) _ >>= _) = _
    rw [scan_times c fun b uv => considerDel_times c env blocked st b uv hc]
    simp only [Py.bind_ok]
    cases scan (considerDel env blocked st) b1 (pairsOf env.V) with
    | error e => rfl
    | ok b2 => exact scan_times c (fun b uv => considerRev_times c env blocked st b uv hc) _ _

theorem onePass_times (blocked : Move → N → N → Bool) (st : CP N) (hc : 0 < c) :
    onePass (env.times c) blocked st = (onePass env blocked st).map (Pass.scale c) := by
  unfold onePass
  rw [bestMove_times c env blocked st hc]
  cases bestMove env blocked st with
  | error e => rfl
  | ok b =>
    show (improve env.debug st (bestScale c b) >>= _) = Except.map _ (improve env.debug st b >>= _)
    unfold improve
    have e : (bestScale c b).1 ≠ 0 ↔ b.1 ≠ 0 := by unfold bestScale; simp [hc.ne']
    simp only [e, show (bestScale c b).2 = b.2 from rfl]
    split
    · cases b.2 with
      | none => rfl
      | some d =>
        obtain ⟨m, u, v⟩ := d
        dsimp only
        cases applyMove env.debug st m u v with
        | error e => rfl
        | ok st' => rfl
    · rfl

theorem Pass.scale_move (p : Pass N) : (p.scale c).move = none ↔ p.move = none := by unfold Pass.scale; simp

theorem climb_times (hc : 0 < c) : ∀ (left : ℕ) (st : CP N),
    climb (env.times c) left st = (climb env left st).map fun r => (r.1, r.2.1, r.2.2.map (Pass.scale c))
  | 0, st => by
      unfold climb
      rw [onePass_times c env _ st hc]
      cases onePass env (fun _ _ _ => false) st with
      | error e => rfl
      | ok p =>
        show Except.ok _ = Except.ok _
        simp only [Pass.scale_move]
        rfl
  | left + 1, st => by
      unfold climb
      rw [onePass_times c env _ st hc]
      cases onePass env (fun _ _ _ => false) st with
      | error e => rfl
      | ok p =>
        show (if (p.scale c).move = none then _ else _) = Except.map _ (if p.move = none then _ else _)
        simp only [Pass.scale_move]
        split
        · rfl
        · show (climb (env.times c) left p.after >>= _) = Except.map _ (climb env left p.after >>= _)
          rw [climb_times hc left p.after]
          cases climb env left p.after with
          | error e => rfl
          | ok r => rfl

theorem tabuUpdate_times (debug : Bool) (tl : List (Option (N × N × Move))) (iter : ℕ) (p : Pass N) :
    tabuUpdate debug tl iter (p.scale c).move = tabuUpdate debug tl iter p.move := by
  unfold Pass.scale
  cases p.move <;> rfl

theorem tabuLoop_times (hc : 0 < c) : ∀ (left iter : ℕ) (tl : List (Option (N × N × Move))) (st : CP N),
    tabuLoop (env.times c) left iter tl st = (tabuLoop env left iter tl st).map fun r => (r.1, r.2.map (Pass.scale c))
  | 0, iter, tl, st => by
      unfold tabuLoop
      rw [onePass_times c env _ st hc]
      cases onePass env (tabuBlocked tl) st with
      | error e => rfl
      | ok p =>
        show (tabuUpdate env.debug tl iter (p.scale c).move >>= _) = Except.map _ (tabuUpdate env.debug tl iter p.move >>= _)
        rw [tabuUpdate_times]
        cases tabuUpdate env.debug tl iter p.move <;> rfl
  | left + 1, iter, tl, st => by
      unfold tabuLoop
      rw [onePass_times c env _ st hc]
      cases onePass env (tabuBlocked tl) st with
      | error e => rfl
      | ok p =>
        show (tabuUpdate env.debug tl iter (p.scale c).move >>= _) = Except.map _ (tabuUpdate env.debug tl iter p.move >>= _)
        rw [tabuUpdate_times]
        cases tabuUpdate env.debug tl iter p.move with
        | error e => rfl
        | ok tl' =>
          show (if (p.scale c).move = none then _ else _) = Except.map _ (if p.move = none then _ else _)
          simp only [Pass.scale_move]
          split
          · rfl
          · show (tabuLoop (env.times c) left (iter + 1) tl' p.after >>= _) = Except.map _ (tabuLoop env left (iter + 1) tl' p.after >>= _)
            rw [tabuLoop_times hc]
            cases tabuLoop env left (iter + 1) tl' p.after <;> rfl

theorem randomOp_times (op : ℕ) (st : CP N) : ∀ draws, randomOp (env.times c) op st draws = randomOp env op st draws
  | [] => rfl
  | (u, v) :: draws => by
      unfold randomOp
      simp only [randomOp_times op st draws, show (env.times c).fc = env.fc from rfl]

theorem randomOps_times : ∀ (m : ℕ) (st : CP N) (ops : List ℕ) (draws : List (N × N)),
    randomOps (env.times c) m st ops draws = randomOps env m st ops draws
  | 0, _, _, _ => by unfold randomOps; rfl
  | _ + 1, _, [], _ => by unfold randomOps; rfl
  | m + 1, st, op :: ops, draws => by
      unfold randomOps
      simp only [randomOp_times, randomOps_times m, show (env.times c).V = env.V from rfl]

theorem rrLoop_times (hc : 0 < c) (maxIter M : ℕ) : ∀ (restarts left : ℕ) (st : CP N) (ops : List ℕ) (draws : List (N × N)),
    rrLoop (env.times c) maxIter M restarts left st ops draws =
      (rrLoop env maxIter M restarts left st ops draws).map fun r => (r.1, r.2.map (Pass.scale c))
  | 0, left, st, _, _ => by
      unfold rrLoop
      rw [climb_times c env hc]
      cases climb env left st <;> rfl
  | restarts + 1, left, st, ops, draws => by
      unfold rrLoop
      rw [climb_times c env hc]
      cases climb env left st with
      | error e => rfl
      | ok r =>
        show (if r.1 = .limit then _ else _) = Except.map _ (if r.1 = .limit then _ else _)
        split
        · rfl
        · show (randomOps (env.times c) M r.2.1 ops draws >>= _) = Except.map _ (randomOps env M r.2.1 ops draws >>= _)
          rw [randomOps_times]
          cases randomOps env M r.2.1 ops draws with
          | error e => rfl
          | ok q =>
            show (if maxIter = 0 then _ else _) = Except.map _ (if maxIter = 0 then _ else _)
            split
            · rfl
            · show (rrLoop (env.times c) maxIter M restarts (maxIter - 1) q.1 q.2.1 q.2.2 >>= _) =
                Except.map _ (rrLoop env maxIter M restarts (maxIter - 1) q.1 q.2.1 q.2.2 >>= _)
              rw [rrLoop_times hc]
              cases rrLoop env maxIter M restarts (maxIter - 1) q.1 q.2.1 q.2.2 with
              | error e => rfl
              | ok r' =>
                show Except.ok _ = Except.ok _
                dsimp only
                rw [List.map_append]

end

section
variable (A : Type) (h : HashOrder ℕ) (a : HcArgs) (c : ℚ)

theorem hc_nrow (hc0 : 0 < c) (maxIter : ℤ) :
    hc A h { a with nrow := c * a.nrow } maxIter = (hc A h a maxIter).map fun r => (r.1, r.2.map (Pass.scale c)) := by
  unfold hc
  rw [show HcArgs.init { a with nrow := c * a.nrow } = a.init from rfl]
  cases BayesNet.setStructure (A := A) h a.init.c none with
  | error e => rfl
  | ok bn =>
    show (climb ((a.env bn.V).times c) maxIter.toNat a.init >>= _) = Except.map _ (climb (a.env bn.V) maxIter.toNat a.init >>= _)
    rw [climb_times c _ hc0]
    cases climb (a.env bn.V) maxIter.toNat a.init with
    | error e => rfl
    | ok r =>
      show (BayesNet.setStructure (A := A) h r.2.1.c none >>= _) = Except.map _ (BayesNet.setStructure (A := A) h r.2.1.c none >>= _)
      cases BayesNet.setStructure (A := A) h r.2.1.c none <;> rfl

theorem tabu_nrow (hc0 : 0 < c) (k maxIter : ℤ) :
    tabu A h { a with nrow := c * a.nrow } k maxIter = (tabu A h a k maxIter).map fun r => (r.1, r.2.map (Pass.scale c)) := by
  unfold tabu
  rw [show HcArgs.init { a with nrow := c * a.nrow } = a.init from rfl]
  cases BayesNet.setStructure (A := A) h a.init.c none with
  | error e => rfl
  | ok bn =>
    show (tabuLoop ((a.env bn.V).times c) maxIter.toNat 0 _ a.init >>= _) = Except.map _ (tabuLoop (a.env bn.V) maxIter.toNat 0 _ a.init >>= _)
    rw [tabuLoop_times c _ hc0]
    cases tabuLoop (a.env bn.V) maxIter.toNat 0 (List.replicate k.toNat none) a.init with
    | error e => rfl
    | ok r =>
      show (BayesNet.setStructure (A := A) h r.1.c none >>= _) = Except.map _ (BayesNet.setStructure (A := A) h r.1.c none >>= _)
      cases BayesNet.setStructure (A := A) h r.1.c none <;> rfl

theorem hcRr_nrow (hc0 : 0 < c) (M R maxIter : ℤ) (ops : List ℕ) (draws : List (ℕ × ℕ)) :
    hcRr A h { a with nrow := c * a.nrow } M R maxIter ops draws =
      (hcRr A h a M R maxIter ops draws).map fun r => (r.1, r.2.map (Pass.scale c)) := by
  unfold hcRr
  rw [show HcArgs.init { a with nrow := c * a.nrow } = a.init from rfl]
  cases BayesNet.setStructure (A := A) h a.init.c none with
  | error e => rfl
  | ok bn =>
    show (rrLoop ((a.env bn.V).times c) maxIter.toNat M.toNat R.toNat maxIter.toNat a.init ops draws >>= _) =
      Except.map _ (rrLoop (a.env bn.V) maxIter.toNat M.toNat R.toNat maxIter.toNat a.init ops draws >>= _)
    rw [rrLoop_times c _ hc0]
    cases rrLoop (a.env bn.V) maxIter.toNat M.toNat R.toNat maxIter.toNat a.init ops draws with
    | error e => rfl
    | ok r =>
      show (BayesNet.setStructure (A := A) h r.1.c none >>= _) = Except.map _ (BayesNet.setStructure (A := A) h r.1.c none >>= _)
      cases BayesNet.setStructure (A := A) h r.1.c none <;> rfl

end
end PyBN
