import Verif.Model.BayesNetOps

/-!
# Constraint-based structure learning

`pyBN/utils/markov_blanket.py` (`resolve_markov_blanket`), `pyBN/utils/orient_edges.py`,
`pyBN/learning/structure/constraint/{grow_shrink,iamb,path_condition}.py`, `pyBN/learning/structure/tree/chow_liu.py`.

Variables are column numbers.  The outcome of `mi_test(data[:,cols])` enters through arbitrary predicates on the column tuple
`cols`: `lt cols` for `pval < alpha` and `gt cols` for `pval > alpha` (both may fail: equality, `nan`).  The statistic itself
and exceptions raised inside it are not modelled here.
-/

namespace PyBN

/-- `itertools.combinations(l, k)`, in its order. -/
def combinations {α : Type _} : List α → ℕ → List (List α)
  | _, 0 => [[]]
  | [], _ + 1 => []
  | x :: l, k + 1 => (combinations l k).map (x :: ·) ++ combinations l (k + 1)

namespace Constraint

/-- `d[k].append(v)`. -/
def appendAt (d : Dict ℕ (List ℕ)) (k v : ℕ) : Py (Dict ℕ (List ℕ)) := do
  let l ← d.get k
  pure (d.set k (l ++ [v]))

/-- `d[k].remove(v)`. -/
def removeAt (d : Dict ℕ (List ℕ)) (k v : ℕ) : Py (Dict ℕ (List ℕ)) := do
  let l ← d.get k
  let l' ← pyRemove l v
  pure (d.set k l')

/-- `dict([(rv, []) for rv in range(n)])`. -/
def emptyGraph (n : ℕ) : Dict ℕ (List ℕ) := Dict.ofPairs ((List.range n).map fun v => (v, []))

/-! ## `resolve_markov_blanket` -/

/-- markov_blanket.py:91-98: the candidate conditioning variables. -/
def candidates (mb : Dict ℕ (List ℕ)) (x y : ℕ) : Py (List ℕ) := do
  let bx ← mb.get x
  let by_ ← mb.get y
  pure (if bx.length < by_.length then bx.erase y else by_.erase x)

/-- markov_blanket.py:102-108: `direct_neighbors`; the sizes tried are `range(len(T))`. -/
def direct (gt : List ℕ → Bool) (t : List ℕ) (x y : ℕ) : Bool :=
  (List.range t.length).all fun i => (combinations t i).all fun s => !gt (x :: y :: s)

/-- markov_blanket.py:110-113. -/
def link (e : Dict ℕ (List ℕ)) (x y : ℕ) : Py (Dict ℕ (List ℕ)) := do
  let ex ← e.get x
  let ey ← e.get y
  let e1 ← if y ∉ ex ∧ x ∉ ey then appendAt e x y else pure e
  let ey1 ← e1.get y
  if x ∉ ey1 then appendAt e1 y x else pure e1

/-- markov_blanket.py:87-113: the loop over the blanket of `x`. -/
def resolveRow (gt : List ℕ → Bool) (mb : Dict ℕ (List ℕ)) (x : ℕ) : List ℕ → Dict ℕ (List ℕ) → Py (Dict ℕ (List ℕ))
  | [], e => .ok e
  | y :: ys, e => do
      let t ← candidates mb x y
      let e' ← if direct gt t x y then link e x y else pure e
      resolveRow gt mb x ys e'

/-- markov_blanket.py:86-113: the loop over the variables. -/
def resolveLoop (gt : List ℕ → Bool) (mb : Dict ℕ (List ℕ)) : List ℕ → Dict ℕ (List ℕ) → Py (Dict ℕ (List ℕ))
  | [], e => .ok e
  | x :: xs, e => do
      let bx ← mb.get x
      let e' ← resolveRow gt mb x bx e
      resolveLoop gt mb xs e'

/-- markov_blanket.py:51-114 `resolve_markov_blanket(Mb, data, alpha)`; `n` is `data.shape[1]`. -/
def resolve (gt : List ℕ → Bool) (n : ℕ) (mb : Dict ℕ (List ℕ)) : Py (Dict ℕ (List ℕ)) :=
  resolveLoop gt mb (List.range n) (emptyGraph n)

/-! ## `gs` -/

/-- grow_shrink.py:109-117: one pass over the variables; the flag is `grow_condition`. -/
def growPass (lt : List ℕ → Bool) (x : ℕ) : List ℕ → List ℕ → Bool → List ℕ × Bool
  | [], s, f => (s, f)
  | y :: ys, s, f =>
      if x ≠ y ∧ y ∉ s ∧ lt (x :: y :: s) = true then growPass lt x ys (s ++ [y]) true else growPass lt x ys s f

/-- grow_shrink.py:105-117: the `while` loop. -/
def growLoop (lt : List ℕ → Bool) (n x : ℕ) : ℕ → List ℕ → Py (List ℕ)
  | 0, _ => .error .diverges
  | fuel + 1, s =>
      let r := growPass lt x (List.range n) s false
      if r.2 then growLoop lt n x fuel r.1 else .ok r.1

/-- grow_shrink.py:122-134: one pass over `S`: the kept variables and `shrink_condition`. -/
def shrinkPass (lt : List ℕ → Bool) (x : ℕ) (s : List ℕ) : List ℕ → List ℕ × Bool
  | [] => ([], false)
  | y :: ys =>
      let r := shrinkPass lt x s ys
      if lt (x :: y :: s.erase y) then (y :: r.1, r.2) else (r.1, true)

/-- grow_shrink.py:119-134: the `while` loop; `S` is not updated by it. -/
def shrinkLoop (lt : List ℕ → Bool) (x : ℕ) (s : List ℕ) : ℕ → Py (List ℕ)
  | 0 => .error .diverges
  | fuel + 1 =>
      let r := shrinkPass lt x s s
      if r.2 then shrinkLoop lt x s fuel else .ok r.1

/-- grow_shrink.py:102-136 for one variable.  `fuel` bounds the number of passes of each `while` loop. -/
def gsBlanket (lt : List ℕ → Bool) (n fuel x : ℕ) : Py (List ℕ) := do
  let s ← growLoop lt n x fuel []
  shrinkLoop lt x s fuel

/-- grow_shrink.py:99-136: the blankets of all variables. -/
def gsBlankets (lt : List ℕ → Bool) (n fuel : ℕ) : Py (Dict ℕ (List ℕ)) := do
  let l ← pyMap (fun x => do let b ← gsBlanket lt n fuel x; pure (x, b)) (List.range n)
  pure (Dict.ofPairs l)

/-! ## `orient_edges_MB` -/

/-- orient_edges.py:73-75: `min(by, bz)` on sets: `<` is proper inclusion, so the second is taken only when it is a proper subset
of the first. -/
def minSet (a b : List ℕ) : List ℕ := if (∀ v ∈ b, v ∈ a) ∧ ¬ (∀ v ∈ a, v ∈ b) then b else a

/-- orient_edges.py:77-86: the tests for one `Z`, given the list of conditioning tuples. -/
def orientTests (lt : List ℕ → Bool) (x y z : ℕ) : List (List ℕ) → Dict ℕ (List ℕ) → Py (Dict ℕ (List ℕ))
  | [], e => .ok e
  | s :: ss, e => do
      let ex ← e.get x
      let e' ← if y ∈ ex then
          (if lt (y :: z :: x :: s) then removeAt e x y else removeAt e y x)
        else pure e
      orientTests lt x y z ss e'

/-- orient_edges.py:87-95: the single test when `T` is empty. -/
def orientOne (lt : List ℕ → Bool) (x y z : ℕ) (e : Dict ℕ (List ℕ)) : Py (Dict ℕ (List ℕ)) := do
  if lt [y, z, x] then
    let ex ← e.get x
    if y ∈ ex then removeAt e x y else pure e
  else
    let ey ← e.get y
    if x ∈ ey then removeAt e y x else pure e

/-- orient_edges.py:72-95: the loop over `Z`. -/
def orientZ (lt : List ℕ → Bool) (h : HashOrder ℕ) (mb : Dict ℕ (List ℕ)) (x y : ℕ) :
    List ℕ → Dict ℕ (List ℕ) → Py (Dict ℕ (List ℕ))
  | [], e => .ok e
  | z :: zs, e => do
      let my ← mb.get y
      let mz ← mb.get z
      let t := minSet ((my.dedup.erase x).erase z) ((mz.dedup.erase x).erase y)
      let e' ← if 0 < t.length then
          orientTests lt x y z ((List.range t.length).flatMap fun i => combinations (h.iter t) i) e
        else orientOne lt x y z e
      orientZ lt h mb x y zs e'

/-- orient_edges.py:69-95: `for Y in edge_dict[X]` over the live list: `i` is the position of the iterator. -/
def orientY (lt : List ℕ → Bool) (h : HashOrder ℕ) (mb : Dict ℕ (List ℕ)) (x : ℕ) :
    ℕ → ℕ → Dict ℕ (List ℕ) → Py (Dict ℕ (List ℕ))
  | 0, _, e => .ok e
  | k + 1, i, e => do
      let ex ← e.get x
      match ex[i]? with
      | none => pure e
      | some y => do
          let ey ← e.get y
          let nxy := h.iter ((ex.dedup.filter fun v => decide (v ∉ ey)).erase y)
          let e' ← orientZ lt h mb x y nxy e
          orientY lt h mb x k (i + 1) e'

/-- orient_edges.py:68-95: the loop over the keys. -/
def orientX (lt : List ℕ → Bool) (h : HashOrder ℕ) (mb : Dict ℕ (List ℕ)) : List ℕ → Dict ℕ (List ℕ) → Py (Dict ℕ (List ℕ))
  | [], e => .ok e
  | x :: xs, e => do
      let ex ← e.get x
      -- the list only shrinks, so its present length bounds the number of steps of the iterator
      let e' ← orientY lt h mb x ex.length 0 e
      orientX lt h mb xs e'

/-- orient_edges.py:21-96 `orient_edges_MB(edge_dict, Mb, data, alpha)`: the changed dictionary. -/
def orientMB (lt : List ℕ → Bool) (h : HashOrder ℕ) (e mb : Dict ℕ (List ℕ)) : Py (Dict ℕ (List ℕ)) :=
  orientX lt h mb (h.iter e.keys) e

/-- grow_shrink.py:48-156 `gs(data, alpha)` with `feature_selection=None`.  `lt` are the tests at level `alpha`, `gt` those of
`resolve_markov_blanket`, which uses its own default level 0.05 (line 143).  `value_dict` is passed through. -/
def gs {A : Type} [DecidableEq A] (lt gt : List ℕ → Bool) (h : HashOrder ℕ) (n fuel : ℕ) (vd : Dict ℕ (List A)) :
    Py (BayesNet ℕ A) := do
  let mb ← gsBlankets lt n fuel
  let e ← resolve gt n mb
  let d ← orientMB lt h e mb
  BayesNet.setStructure h d (some vd)

/-- grow_shrink.py:93-97, 158 `gs(data, alpha, feature_selection=k)`: only the blanket of `k` is computed, and `Mb[_T]` uses a list as
a dictionary key. -/
def gsFeatures (lt : List ℕ → Bool) (n fuel k : ℕ) : Py (List ℕ) := do
  let _ ← gsBlanket lt n fuel k
  .error .typeError

/-! ## `pc` -/

/-- `block_dict[x]`: initially the list `[]`, later a dictionary with one entry. -/
abbrev Blocks := Dict ℕ (Dict ℕ (List ℕ))

/-- path_condition.py:117-121. -/
def cut (x y : ℕ) (z : List ℕ) (e : Dict ℕ (List ℕ)) (b : Blocks) : Py (Dict ℕ (List ℕ) × Blocks) := do
  let b' := (b.set x [(y, z)]).set y [(x, z)]
  let ex ← e.get x
  if y ∈ ex then do
    let e1 ← removeAt e x y
    let e2 ← removeAt e1 y x
    pure (e2, b')
  else pure (e, b')

/-- path_condition.py:111-121: the loop over the conditioning tuples for one pair. -/
def pcTests (gt : List ℕ → Bool) (x y : ℕ) : List (List ℕ) → Dict ℕ (List ℕ) → Blocks → Py (Dict ℕ (List ℕ) × Blocks)
  | [], e, b => .ok (e, b)
  | z :: zs, e, b =>
      if y ∉ z ∧ gt (x :: y :: z) = true then do
        let r ← cut x y z e b
        pcTests gt x y zs r.1 r.2
      else pcTests gt x y zs e b

/-- path_condition.py:103-121: `for y in edge_dict[x]` over the live list, `i ≥ 1` (lines 105-109, `i == 0`, are never reached). -/
def pcY (gt : List ℕ → Bool) (i x : ℕ) : ℕ → ℕ → Dict ℕ (List ℕ) → Blocks → Py (Dict ℕ (List ℕ) × Blocks)
  | 0, _, e, b => .ok (e, b)
  | k + 1, p, e, b => do
      let ex ← e.get x
      match ex[p]? with
      | none => pure (e, b)
      | some y => do
          let r ← pcTests gt x y (combinations ex i) e b
          pcY gt i x k (p + 1) r.1 r.2

/-- path_condition.py:102-121: the loop over the variables. -/
def pcX (gt : List ℕ → Bool) (i : ℕ) : List ℕ → Dict ℕ (List ℕ) → Blocks → Py (Dict ℕ (List ℕ) × Blocks)
  | [], e, b => .ok (e, b)
  | x :: xs, e, b => do
      let ex ← e.get x
      let r ← pcY gt i x ex.length 0 e b
      pcX gt i xs r.1 r.2

/-- path_condition.py:124-128: `stop`, with the incremented `i`. -/
def pcStop (i : ℕ) (e : Dict ℕ (List ℕ)) : List ℕ → Py Bool
  | [] => .ok true
  | x :: xs => do
      let ex ← e.get x
      if ex.length > i - 1 then pure false else pcStop i e xs

/-- path_condition.py:101-128: the `while` loop. -/
def pcLoop (gt : List ℕ → Bool) (n : ℕ) : ℕ → ℕ → Dict ℕ (List ℕ) → Blocks → Py (Dict ℕ (List ℕ) × Blocks)
  | 0, _, _, _ => .error .diverges
  | fuel + 1, i, e, b => do
      let r ← pcX gt i (List.range n) e b
      let stop ← pcStop (i + 1) r.1 (List.range n)
      if stop then pure r else pcLoop gt n fuel (i + 1) r.1 r.2

/-- path_condition.py:97: the complete graph. -/
def completeGraph (n : ℕ) : Dict ℕ (List ℕ) :=
  Dict.ofPairs ((List.range n).map fun i => (i, (List.range n).filter fun j => decide (i ≠ j)))

/-- path_condition.py:91-128: skeleton and separating sets. -/
def pcSkeleton (gt : List ℕ → Bool) (n fuel : ℕ) : Py (Dict ℕ (List ℕ) × Blocks) :=
  pcLoop gt n fuel 1 (completeGraph n) (Dict.ofPairs ((List.range n).map fun i => (i, [])))

/-- `if v not in d[k]: d[k].append(v)` (orient_edges.py:165-173). -/
def addArc (d : Dict ℕ (List ℕ)) (k v : ℕ) : Py (Dict ℕ (List ℕ)) := do
  let l ← d.get k
  if v ∉ l then appendAt d k v else pure d

/-- orient_edges.py:162-173 for one triple. -/
def csTriple (e : Dict ℕ (List ℕ)) (b : Blocks) (x z y : ℕ) (d : Dict ℕ (List ℕ)) : Py (Dict ℕ (List ℕ)) := do
  let ey ← e.get y
  let ex ← e.get x
  if y ≠ x ∧ x ∉ ey ∧ y ∉ ex then do
    let bx ← b.get x
    match bx.get? y with
    | none => pure d
    | some s =>
        if z ∉ s then do
          let d1 ← addArc d x z
          addArc d1 y z
        else do
          let d1 ← addArc d z x
          addArc d1 z y
  else pure d

/-- orient_edges.py:161-173: the loop over the neighbours of `z`. -/
def csY (e : Dict ℕ (List ℕ)) (b : Blocks) (x z : ℕ) : List ℕ → Dict ℕ (List ℕ) → Py (Dict ℕ (List ℕ))
  | [], d => .ok d
  | y :: ys, d => do
      let d' ← csTriple e b x z y d
      csY e b x z ys d'

/-- orient_edges.py:160-173: the loop over the neighbours of `x`. -/
def csZ (e : Dict ℕ (List ℕ)) (b : Blocks) (x : ℕ) : List ℕ → Dict ℕ (List ℕ) → Py (Dict ℕ (List ℕ))
  | [], d => .ok d
  | z :: zs, d => do
      let ez ← e.get z
      let d' ← csY e b x z ez d
      csZ e b x zs d'

/-- orient_edges.py:159-173: the loop over the keys. -/
def csX (e : Dict ℕ (List ℕ)) (b : Blocks) : List ℕ → Dict ℕ (List ℕ) → Py (Dict ℕ (List ℕ))
  | [], d => .ok d
  | x :: xs, d => do
      let ex ← e.get x
      let d' ← csZ e b x ex d
      csX e b xs d'

/-- orient_edges.py:121-175 `orient_edges_CS(edge_dict, block_dict)`. -/
def orientCS (h : HashOrder ℕ) (e : Dict ℕ (List ℕ)) (b : Blocks) : Py (Dict ℕ (List ℕ)) :=
  csX e b (h.iter e.keys) (Dict.ofPairs ((h.iter e.keys).map fun v => (v, [])))

/-- path_condition.py:55-136 `pc(data, alpha)`; `vd` are the observed values of the columns. -/
def pc {A : Type} [DecidableEq A] (gt : List ℕ → Bool) (h : HashOrder ℕ) (n fuel : ℕ) (vd : Dict ℕ (List A)) :
    Py (BayesNet ℕ A) := do
  let r ← pcSkeleton gt n fuel
  let d ← orientCS h r.1 r.2
  BayesNet.setStructure h d (some vd)

/-! ## `chow_liu` -/

/-- `edge_list.sort(key=itemgetter(2), reverse=True)`: stable, largest first. -/
def insertDesc (x : ℕ × ℕ × ℚ) : List (ℕ × ℕ × ℚ) → List (ℕ × ℕ × ℚ)
  | [] => [x]
  | y :: l => if y.2.2 ≤ x.2.2 then x :: y :: l else y :: insertDesc x l

/-- `edge_list.sort(key=itemgetter(2), reverse=True)`. -/
def sortDesc : List (ℕ × ℕ × ℚ) → List (ℕ × ℕ × ℚ)
  | [] => []
  | x :: l => insertDesc x (sortDesc l)

/-- chow_liu.py:51-54: the sorted list of pairs; `w i j` is the weight of the pair. -/
def edgeList (w : ℕ → ℕ → ℚ) (n : ℕ) : List (ℕ × ℕ × ℚ) :=
  sortDesc ((List.range n).flatMap fun i => (List.range' (i + 1) (n - (i + 1))).map fun j => (i, j, w i j))

/-- chow_liu.py:58-64: the selection loop; `c` is `vertex_cache`. -/
def clLoop : List (ℕ × ℕ × ℚ) → List ℕ → Dict ℕ (List ℕ) → Py (Dict ℕ (List ℕ))
  | [], _, t => .ok t
  | (i, j, _) :: es, c, t =>
      if i ∈ c ∧ j ∉ c then do
        let t' ← appendAt t i j
        clLoop es (c ++ [j]) t'
      else if i ∉ c ∧ j ∈ c then do
        let t' ← appendAt t j i
        clLoop es (c ++ [i]) t'
      else clLoop es c t

/-- chow_liu.py:51-64 with the weights computed: the tree.  `edge_list[0]` raises on fewer than two variables. -/
def clTree (w : ℕ → ℕ → ℚ) (n : ℕ) : Py (Dict ℕ (List ℕ)) :=
  match edgeList w n with
  | [] => .error .indexError
  | (i, j, q) :: es => clLoop ((i, j, q) :: es) [i] (emptyGraph n)

/-- chow_liu.py:21-70 `chow_liu(data)` as called: `mi_test` has no argument `chi2_test` (independence_tests.py:105), so the first
evaluation raises `TypeError`. -/
def chowLiu (n : ℕ) : Py (Dict ℕ (List ℕ)) :=
  if 2 ≤ n then .error .typeError else .error .indexError

end Constraint
end PyBN
