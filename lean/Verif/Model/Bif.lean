import Verif.Model.Graph
import Verif.Model.BayesNetOps

/-!
# `pyBN/io/read.py`: the `.bif` and `.mat` formats

Character level: a file is the list of its lines, each with its line end (so no line is empty; `readline` past the end gives `''`).  `float` of a
word is a parameter `fl` (`none` = `ValueError`).  Names and values are strings.
-/

namespace PyBN

/-- Strings. -/
abbrev Str := List Char

namespace Bif

/-- What `str.split()` splits at. -/
def isSpace (c : Char) : Bool := c == ' ' || c == '\t' || c == '\n' || c == '\r' || c == '\x0b' || c == '\x0c'

/-- `str.split()`: `acc` is the word being read, reversed. -/
def wordsAux : Str → Str → List Str
  | [], acc => if acc = [] then [] else [acc.reverse]
  | c :: cs, acc =>
      if isSpace c then (if acc = [] then wordsAux cs [] else acc.reverse :: wordsAux cs [])
      else wordsAux cs (c :: acc)

/-- `s.split()`. -/
def words (s : Str) : List Str := wordsAux s []

/-- `s.replace(c, ' ')` for every `c` in `cs`. -/
def blank (cs : List Char) (s : Str) : Str := s.map fun x => if x ∈ cs then ' ' else x

/-- `w in s`. -/
def hasSub (w : Str) : Str → Bool
  | [] => w.isEmpty
  | c :: cs => w.isPrefixOf (c :: cs) || hasSub w cs

/-- `l[-k:]`. -/
def lastK {α : Type _} (k : ℕ) (l : List α) : List α := if k = 0 then l else l.drop (l.length - k)

/-- `l[a:-b]` for `b > 0`. -/
def innerSlice {α : Type _} (a b : ℕ) (l : List α) : List α := (l.take (l.length - b)).drop a

/-- `float(w)`. -/
def float (fl : Str → Option ℚ) (w : Str) : Py ℚ :=
  match fl w with
  | some q => .ok q
  | none => .error .valueError

/-- read.py:81-83 and the variable `new_vertex`. -/
structure St where
  parents : Dict Str (List Str)
  cpt : Dict Str (List (List ℚ))
  vals : Dict Str (List Str)
  last : Option Str

/-- read.py:114: `len(_vals[new_vertex])`; unbound before the first variable. -/
def St.width (st : St) : Py ℕ :=
  match st.last with
  | none => .error .nameError
  | some n => do
      let v ← st.vals.get n
      pure v.length

/-- read.py:109-116: the rows of a conditional table up to a line with `}`.  At the end of the file `readline` gives `''` for ever. -/
def rowsLoop (fl : Str → Option ℚ) (width : Py ℕ) : List Str → Py (List (List ℚ) × List Str)
  | [] => .error .diverges
  | line :: rest =>
      if hasSub "}".toList line then .ok ([], rest)
      else do
        let k ← width
        let row ← pyMap (float fl) (lastK k (words (blank [',', ';', '(', ')'] line)))
        let r ← rowsLoop fl width rest
        pure (row :: r.1, r.2)

/-- read.py:86: `f.readline()`. -/
def readline (lines : List Str) : Str := lines.headD []

/-- read.py:85-119: the main loop over the lines; the fuel is the number of lines (`readBif`). -/
def loop (fl : Str → Option ℚ) : ℕ → List Str → St → Py St
  | _, [], st => .ok st
  | 0, _ :: _, _ => .error .diverges
  | fuel + 1, line :: rest, st =>
      if hasSub "variable".toList line then do
        let name ← pyIdx (words line) 1
        let vs := innerSlice 6 1 (words (blank [','] (readline rest)))
        loop fl fuel rest.tail ⟨st.parents.set name [], st.cpt.set name [], st.vals.set name vs, some name⟩
      else if hasSub "probability".toList line then do
        let child ← pyIdx (words (blank [','] line)) 2
        let ps := innerSlice 4 2 (words (blank [','] line))
        if ps = [] then do
          let c ← st.cpt.get child
          let row ← pyMap (float fl) ((words (blank [',', ';'] (readline rest))).drop 1)
          loop fl fuel rest.tail { st with cpt := st.cpt.set child (c ++ [row]) }
        else do
          let p ← st.parents.get child
          let r ← rowsLoop fl st.width rest
          let c ← st.cpt.get child
          loop fl fuel r.2 { st with parents := st.parents.set child (p ++ ps), cpt := st.cpt.set child (c ++ r.1) }
      else loop fl fuel rest st

/-- read.py:125: `[c for c in _vals.keys() if rv in _parents[c]]`. -/
def childrenIn (st : St) (rv : Str) : List Str → Py (List Str)
  | [] => .ok []
  | c :: cs => do
      let p ← st.parents.get c
      let r ← childrenIn st rv cs
      pure (if rv ∈ p then c :: r else r)

/-- read.py:124-131: the entries for one variable. -/
def entryOf (st : St) (keys : List Str) (rv : Str) : Py (Str × List Str × NodeData Str Str) := do
  let ch ← childrenIn st rv keys
  let p ← st.parents.get rv
  let v ← st.vals.get rv
  let c ← st.cpt.get rv
  pure (rv, ch, ⟨p, v, c.flatten⟩)

/-- read.py:121-138: the network. -/
def build (h : HashOrder Str) (st : St) : Py (BayesNet Str Str) := do
  let es ← pyMap (entryOf st (h.iter st.vals.keys)) (h.iter st.vals.keys)
  let e : Dict Str (List Str) := Dict.ofPairs (es.map fun x => (x.1, x.2.1))
  let f : Dict Str (NodeData Str Str) := Dict.ofPairs (es.map fun x => (x.1, x.2.2))
  let v ← topsort h e none
  pure ⟨v, e, f⟩

/-- read.py:57-140 `read_bif(path)` on the lines of the file. -/
def readBif (h : HashOrder Str) (fl : Str → Option ℚ) (lines : List Str) : Py (BayesNet Str Str) := do
  let st ← loop fl lines.length lines ⟨[], [], [], none⟩
  build h st

/-- `line.split(' ')[0]`. -/
def firstField (line : Str) : Str := line.takeWhile (· ≠ ' ')

/-- read.py:219-241 `read_mat(path)`. -/
def readMat (h : HashOrder Str) (lines : List Str) : Py (BayesNet Str Str) :=
  BayesNet.setStructure h (lines.foldl (fun e line => e.set (firstField line) []) []) none

/-- What `read_bn` does with a path. -/
inductive Reader where
  | bif | bn | mat | unknown
  deriving DecidableEq, Repr

/-- read.py:47-55 `read_bn(path)`: which reader is used (`unknown`: a message and `None`). -/
def chooseReader (path : Str) : Reader :=
  if hasSub ".bif".toList path then .bif
  else if hasSub ".bn".toList path then .bn
  else if hasSub ".mat".toList path then .mat
  else .unknown

end Bif
end PyBN
