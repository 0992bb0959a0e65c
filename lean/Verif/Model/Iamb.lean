import Verif.Model.Constraint

/-!
# `iamb`, `fast_iamb` and `orient_edges_gs2`

`pyBN/learning/structure/constraint/{iamb,fast_iamb}.py`, `pyBN/utils/orient_edges.py`.

As in `Model/Constraint.lean` variables are column numbers and the outcomes of the statistical tests are arbitrary functions of the tuple of columns:
`lt cols` for `are_independent(data[:,cols])` (which is `pval < alpha`), `mi cols` for `mi_test(data[:,cols],test=False)`.
-/

namespace PyBN
namespace Constraint

/-! ## `iamb` -/

/-- iamb.py:109-116: the loop that looks for the candidate of largest association; the accumulator holds `max_x` and `max_val`. -/
def pick (mi : List ℕ → ℚ) (t : ℕ) (mb : List ℕ) : List ℕ → Option ℕ → ℚ → Option ℕ
  | [], best, _ => best
  | x :: xs, best, v => if mi (x :: t :: mb) > v then pick mi t mb xs (some x) (mi (x :: t :: mb)) else pick mi t mb xs best v

/-- iamb.py:111: `V - set(Mb[T]) - {T}`, in order of iteration. -/
def iambCands (h : HashOrder ℕ) (n t : ℕ) (mb : List ℕ) : List ℕ := h.iter ((List.range n).filter fun v => decide (v ≠ t ∧ v ∉ mb))

/-- iamb.py:103-123: growing phase.  Line 120 appends `X`, which after the loop is the *last* candidate. -/
def iambGrow (lt : List ℕ → Bool) (mi : List ℕ → ℚ) (h : HashOrder ℕ) (n t : ℕ) : ℕ → List ℕ → Py (List ℕ)
  | 0, _ => .error .diverges
  | fuel + 1, mb =>
      match pick mi t mb (iambCands h n t mb) none (-1), (iambCands h n t mb).getLast? with
      | some m, some x => if lt (m :: t :: mb) then iambGrow lt mi h n t fuel (mb ++ [x]) else .ok mb
      | _, _ => .ok mb

/-- iamb.py:125-132 (and fast_iamb.py:116-123): `for X in Mb[T]` over the live list, removing from it; `i` is the position of the iterator.  The list only
shrinks, so its length at the start bounds the number of steps. -/
def shrinkLive (lt : List ℕ → Bool) (h : HashOrder ℕ) (t : ℕ) : ℕ → ℕ → List ℕ → List ℕ
  | 0, _, mb => mb
  | k + 1, i, mb =>
      match mb[i]? with
      | none => mb
      | some x => if lt (x :: t :: h.iter (mb.filter fun v => decide (v ≠ x))) then shrinkLive lt h t k (i + 1) (mb.erase x) else shrinkLive lt h t k (i + 1) mb

/-- iamb.py:98-132 for one target: the growing phase tests at the default level 0.05, the shrinking phase at `alpha`. -/
def iambBlanket (lt05 ltA : List ℕ → Bool) (mi : List ℕ → ℚ) (h : HashOrder ℕ) (n fuel t : ℕ) : Py (List ℕ) := do
  let mb ← iambGrow lt05 mi h n t fuel []
  pure (shrinkLive ltA h t mb.length 0 mb)

/-- iamb.py:88-132: all blankets. -/
def iambBlankets (lt05 ltA : List ℕ → Bool) (mi : List ℕ → ℚ) (h : HashOrder ℕ) (n fuel : ℕ) : Py (Dict ℕ (List ℕ)) := do
  let l ← pyMap (fun t => do let b ← iambBlanket lt05 ltA mi h n fuel t; pure (t, b)) (List.range n)
  pure (Dict.ofPairs l)

/-! ## `orient_edges_gs2` -/

/-- orient_edges.py:111-116: the tests for one `Z`. -/
def gs2Tests (lt : List ℕ → Bool) (x y z : ℕ) : List (List ℕ) → Dict ℕ (List ℕ) → Py (Dict ℕ (List ℕ))
  | [], d => .ok d
  | s :: ss, d => do
      let dy ← d.get y
      let d' ← if lt (y :: z :: x :: s) = true ∧ x ∈ dy then removeAt d y x else pure d
      gs2Tests lt x y z ss d'

/-- orient_edges.py:107-118: the loop over `Z`. -/
def gs2Z (lt : List ℕ → Bool) (h : HashOrder ℕ) (mb : Dict ℕ (List ℕ)) (x y : ℕ) : List ℕ → Dict ℕ (List ℕ) → Py (Dict ℕ (List ℕ))
  | [], d => .ok d
  | z :: zs, d => do
      let d1 ← addArc d x y
      let my ← mb.get y
      let mz ← mb.get z
      let b := minSet ((my.dedup.erase x).erase z) ((mz.dedup.erase x).erase y)
      let d2 ← gs2Tests lt x y z ((List.range b.length).flatMap fun i => combinations (h.iter b) i) d1
      let dy ← d2.get y
      if x ∈ dy then pure d2 else gs2Z lt h mb x y zs d2

/-- orient_edges.py:105-118: the loop over the neighbours of `x`. -/
def gs2Y (lt : List ℕ → Bool) (h : HashOrder ℕ) (e mb : Dict ℕ (List ℕ)) (x : ℕ) : List ℕ → Dict ℕ (List ℕ) → Py (Dict ℕ (List ℕ))
  | [], d => .ok d
  | y :: ys, d => do
      let ex ← e.get x
      let ey ← e.get y
      let d' ← gs2Z lt h mb x y (h.iter ((ex.dedup.filter fun v => decide (v ∉ ey)).erase y)) d
      gs2Y lt h e mb x ys d'

/-- orient_edges.py:104-118: the loop over the keys. -/
def gs2X (lt : List ℕ → Bool) (h : HashOrder ℕ) (e mb : Dict ℕ (List ℕ)) : List ℕ → Dict ℕ (List ℕ) → Py (Dict ℕ (List ℕ))
  | [], d => .ok d
  | x :: xs, d => do
      let ex ← e.get x
      let d' ← gs2Y lt h e mb x ex d
      gs2X lt h e mb xs d'

/-- orient_edges.py:98-119 `orient_edges_gs2(edge_dict, Mb, data, alpha)`. -/
def orientGs2 (lt : List ℕ → Bool) (h : HashOrder ℕ) (e mb : Dict ℕ (List ℕ)) : Py (Dict ℕ (List ℕ)) :=
  gs2X lt h e mb (h.iter e.keys) (Dict.ofPairs ((h.iter e.keys).map fun v => (v, [])))

/-- iamb.py:53-150 `iamb(data, alpha)` with `feature_selection=None`; `gt05` are the tests of `resolve_markov_blanket`, with its default level. -/
def iamb {A : Type} [DecidableEq A] (lt05 ltA gt05 : List ℕ → Bool) (mi : List ℕ → ℚ) (h : HashOrder ℕ) (n fuel : ℕ) (vd : Dict ℕ (List A)) :
    Py (BayesNet ℕ A) := do
  let mb ← iambBlankets lt05 ltA mi h n fuel
  let e ← resolve gt05 n mb
  let d ← orientGs2 ltA h e mb
  BayesNet.setStructure h d (some vd)

/-- iamb.py:91-95, 98-132, 152 `iamb(data, alpha, feature_selection=t)`: the answer is looked up as `Mb[_T]` with `_T = [t]`; a list is not hashable. -/
def iambFeature (lt05 ltA : List ℕ → Bool) (mi : List ℕ → ℚ) (h : HashOrder ℕ) (n fuel t : ℕ) : Py (List ℕ) := do
  let _ ← iambBlanket lt05 ltA mi h n fuel t
  .error .typeError

/-! ## `fast_iamb` -/

/-- fast_iamb.py:96-99: `for A in S: if ...: S.remove(A)`; taking the next element of a set that has changed raises `RuntimeError`. -/
def fastStart (lt : List ℕ → Bool) (t : ℕ) : List ℕ → Py Unit
  | [] => .ok ()
  | a :: as => if lt [a, t] then fastStart lt t as else .error .runtimeError

/-- fast_iamb.py:110: `(N / card[x_i]*card[T]*np.prod([card[b] for b in Mb[T]])) >= k`. -/
def fastEnough (card : ℕ → ℕ) (N k t x : ℕ) (mb : List ℕ) : Bool := decide ((k : ℚ) ≤ (N : ℚ) / card x * card t * ((mb.map fun b => (card b : ℚ)).prod))

/-- fast_iamb.py:108-114: growing; the flag is `insufficient_data`. -/
def fastGrow (card : ℕ → ℕ) (N k t : ℕ) : List ℕ → List ℕ → List ℕ × Bool
  | [], mb => (mb, false)
  | x :: xs, mb => if fastEnough card N k t x mb then fastGrow card N k t xs (mb ++ [x]) else (mb, true)

/-- fast_iamb.py:101-137: the `while` loop.  `srt mb` is the order of the candidates by test value for the blanket `mb`. -/
def fastLoop (lt : List ℕ → Bool) (srt : List ℕ → HashOrder ℕ) (h : HashOrder ℕ) (card : ℕ → ℕ) (n N k t : ℕ) : ℕ → List ℕ → List ℕ → Py (List ℕ)
  | 0, _, _ => .error .diverges
  | fuel + 1, S, mb =>
      if S = [] then .ok mb
      else
        let g := fastGrow card N k t ((srt mb).iter S) mb
        let mb' := shrinkLive lt h t g.1.length 0 g.1
        if g.2 = true ∧ mb'.length = g.1.length then .ok mb'
        else fastLoop lt srt h card n N k t fuel ((List.range n).filter fun a => decide (a ≠ t ∧ a ∉ mb') && lt (a :: t :: mb')) mb'

/-- fast_iamb.py:95-139 for one target. -/
def fastBlanket (lt : List ℕ → Bool) (srt : ℕ → List ℕ → HashOrder ℕ) (h : HashOrder ℕ) (card : ℕ → ℕ) (n N k fuel t : ℕ) : Py (List ℕ) := do
  let S := (List.range n).filter fun v => decide (v ≠ t)
  fastStart lt t (h.iter S)
  fastLoop lt (srt t) h card n N k t fuel S []

/-- fast_iamb.py:82-143 `fast_iamb(data, k)` after the preparation of the data: `resolve_markov_blanket` is not imported. -/
def fastIamb (lt : List ℕ → Bool) (srt : ℕ → List ℕ → HashOrder ℕ) (h : HashOrder ℕ) (card : ℕ → ℕ) (n N k fuel : ℕ) : Py (BayesNet ℕ ℕ) := do
  let _ ← pyMap (fun t => fastBlanket lt srt h card n N k fuel t) (List.range n)
  .error .nameError

end Constraint
end PyBN
