import Verif.Model.BayesNetOps

/-!
# `pyBN/io/write.py` and `pyBN/io/read.py`: the `.bn` (JSON) format

The file is a sequence of JSON tokens (white space and the spelling of numbers and strings are not modelled; Python's `json` writes
floats with `repr`, which reads back exactly).  Names and values are strings, integers or floats.
-/

namespace PyBN

/-- A name or a value: `str`, `int` or `float`. -/
inductive Scalar where
  | str (s : String) | int (i : ℤ) | num (q : ℚ)
  deriving DecidableEq

/-- JSON tokens. -/
inductive Tok where
  | lbrace | rbrace | lbrack | rbrack | comma | colon | sc (s : Scalar)
  deriving DecidableEq

/-- JSON documents. -/
inductive Json where
  | sc (s : Scalar)
  | arr (l : List Json)
  | obj (l : List (String × Json))

namespace Json

mutual
/-- `json.dump`: the tokens written for a value. -/
def toks : Json → List Tok
  | .sc s => [.sc s]
  | .arr l => .lbrack :: (arrToks l ++ [.rbrack])
  | .obj l => .lbrace :: (objToks l ++ [.rbrace])
/-- The elements of an array, separated by commas. -/
def arrToks : List Json → List Tok
  | [] => []
  | x :: l => toks x ++ arrRest l
/-- The elements after the first. -/
def arrRest : List Json → List Tok
  | [] => []
  | x :: l => .comma :: (toks x ++ arrRest l)
/-- The members of an object, separated by commas. -/
def objToks : List (String × Json) → List Tok
  | [] => []
  | (k, v) :: l => .sc (.str k) :: .colon :: (toks v ++ objRest l)
/-- The members after the first. -/
def objRest : List (String × Json) → List Tok
  | [] => []
  | (k, v) :: l => .comma :: .sc (.str k) :: .colon :: (toks v ++ objRest l)
end

mutual
/-- `json.loads`: parse one value; `none` stands for `ValueError`.  `fuel` makes the recursion structural (`loads` supplies the number of
tokens). -/
def pVal : ℕ → List Tok → Option (Json × List Tok)
  | 0, _ => none
  | f + 1, ts =>
      match ts with
      | .sc s :: r => some (.sc s, r)
      | .lbrack :: .rbrack :: r => some (.arr [], r)
      | .lbrack :: r => (pElems f r).map fun q => (.arr q.1, q.2)
      | .lbrace :: .rbrace :: r => some (.obj [], r)
      | .lbrace :: r => (pMembers f r).map fun q => (.obj q.1, q.2)
      | _ => none
/-- The elements of a non-empty array up to its closing bracket. -/
def pElems : ℕ → List Tok → Option (List Json × List Tok)
  | 0, _ => none
  | f + 1, ts =>
      (pVal f ts).bind fun q =>
        match q.2 with
        | .rbrack :: r => some ([q.1], r)
        | .comma :: r => (pElems f r).map fun p => (q.1 :: p.1, p.2)
        | _ => none
/-- The members of a non-empty object up to its closing brace. -/
def pMembers : ℕ → List Tok → Option (List (String × Json) × List Tok)
  | 0, _ => none
  | f + 1, ts =>
      match ts with
      | .sc (.str k) :: .colon :: r0 =>
          (pVal f r0).bind fun q =>
            match q.2 with
            | .rbrace :: r => some ([(k, q.1)], r)
            | .comma :: r => (pMembers f r).map fun p => ((k, q.1) :: p.1, p.2)
            | _ => none
      | _ => none
end

/-- `json.loads(text)`: one value and nothing after it, otherwise `ValueError`. -/
def loads (ts : List Tok) : Py Json :=
  match pVal (ts.length + 1) ts with
  | some (j, []) => .ok j
  | _ => .error .valueError

end Json

namespace IO

/-- The string under which `json.dump` writes a dictionary key (`repr` of a float is left abstract: `fl`). -/
def keyText (fl : ℚ → String) : Scalar → String
  | .str s => s
  | .int i => toString i
  | .num q => fl q

/-- A list of names or values. -/
def jList (l : List Scalar) : Json := .arr (l.map .sc)

/-- write.py:75-77 for one `bn.F[rv]`. -/
def jNode (d : NodeData Scalar Scalar) : Json :=
  .obj [("cpt", .arr (d.cpt.map fun q => .sc (.num q))), ("parents", jList d.parents), ("values", jList d.values)]

/-- The items of a dictionary in iteration order. -/
def items {V : Type} (h : HashOrder Scalar) (d : Dict Scalar V) : Py (List (Scalar × V)) :=
  pyMap (fun k => do let v ← d.get k; pure (k, v)) (h.iter d.keys)

/-- write.py:75-77 `write_json(bn, path)`: the document. -/
def toJson (fl : ℚ → String) (h : HashOrder Scalar) (bn : BayesNet Scalar Scalar) : Py Json := do
  let es ← items h bn.E
  let fs ← items h bn.F
  pure (.obj [("V", jList bn.V), ("E", .obj (es.map fun kv => (keyText fl kv.1, jList kv.2))),
    ("F", .obj (fs.map fun kv => (keyText fl kv.1, jNode kv.2)))])

/-- write.py:75-77: the contents of the file once the write is complete. -/
def writeBn (fl : ℚ → String) (h : HashOrder Scalar) (bn : BayesNet Scalar Scalar) : Py (List Tok) := do
  let j ← toJson fl h bn
  pure j.toks

/-- A JSON array of scalars as a Python list (anything else: outside the model, `typeError`). -/
def asScalars : List Json → Py (List Scalar)
  | [] => .ok []
  | .sc s :: l => do let r ← asScalars l; pure (s :: r)
  | _ :: _ => .error .typeError

/-- As `asScalars`, for a document. -/
def asList : Json → Py (List Scalar)
  | .arr l => asScalars l
  | _ => .error .typeError

/-- A table of floats. -/
def asNum : Scalar → Py ℚ
  | .num q => .ok q
  | .int i => .ok i
  | .str _ => .error .typeError

/-- The members of a JSON object as a Python dict (a repeated key keeps its last value). -/
def asObj : Json → Py (Dict String Json)
  | .obj l => .ok (Dict.ofPairs l)
  | _ => .error .typeError

/-- One entry of `F`. -/
def asNode (j : Json) : Py (NodeData Scalar Scalar) := do
  let d ← asObj j
  let c ← d.get "cpt"
  let p ← d.get "parents"
  let v ← d.get "values"
  let c' ← asList c
  let cq ← pyMap asNum c'
  let p' ← asList p
  let v' ← asList v
  pure ⟨p', v', cq⟩

/-- The members of a JSON object with converted values, keyed by strings. -/
def asDict {V : Type} (f : Json → Py V) (j : Json) : Py (Dict Scalar V) := do
  let d ← asObj j
  let l ← pyMap (fun kv => do let v ← f kv.2; pure (Scalar.str kv.1, v)) d
  pure (Dict.ofPairs l)

/-- read.py:207-210: the three attributes from the document. -/
def fromJson (j : Json) : Py (BayesNet Scalar Scalar) := do
  let d ← asObj j
  let v ← d.get "V"
  let e ← d.get "E"
  let f ← d.get "F"
  let v' ← asList v
  let e' ← asDict asList e
  let f' ← asDict asNode f
  pure ⟨v', e', f'⟩

/-- read.py:200-216 `read_json(path)`: a file that is not JSON gives a printed message and the empty network; the node list is
recomputed by `topsort`. -/
def readBn (h : HashOrder Scalar) (file : List Tok) : Py (BayesNet Scalar Scalar) := do
  let bn ← match Json.loads file with
    | .ok j => fromJson j
    | .error _ => pure ⟨[], [], []⟩
  let v ← topsort h bn.E none
  pure { bn with V := v }

/-- write.py:76-77: the states the file goes through: emptied by `open(path, 'w')`, then longer and longer prefixes of the document.
`writeStates fl h bn` lists them; a crash leaves one of them. -/
def writeStates (fl : ℚ → String) (h : HashOrder Scalar) (bn : BayesNet Scalar Scalar) : Py (List (List Tok)) := do
  let ts ← writeBn fl h bn
  pure ((List.range (ts.length + 1)).map fun k => ts.take k)

end IO
end PyBN
