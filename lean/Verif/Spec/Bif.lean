import Verif.Py.Basic

/-!
# The BIF text format

Independent of the reader: what the file of a network looks like (as in `/repo/data/cancer.bif`).
-/

namespace PyBN
namespace Bif

/-- A variable with its conditional table: one row per configuration of the parents (a single row without label if there are none). -/
structure Var where
  name : List Char
  values : List (List Char)
  parents : List (List Char)
  rows : List (List (List Char) × List ℚ)

/-- How numbers are written. -/
structure Fmt where
  num : ℚ → List Char
  count : ℕ → List Char

/-- `a, b, c`. -/
def commaSep : List (List Char) → List Char
  | [] => []
  | [w] => w
  | w :: l => w ++ ", ".toList ++ commaSep l

/-- The declaration of a variable. -/
def declLines (fmt : Fmt) (v : Var) : List (List Char) :=
  ["variable ".toList ++ v.name ++ " {\n".toList,
   "  type discrete [ ".toList ++ fmt.count v.values.length ++ " ] { ".toList ++ commaSep v.values ++ " };\n".toList,
   "}\n".toList]

/-- The head of a probability block. -/
def headLine (v : Var) : List Char :=
  if v.parents = [] then "probability ( ".toList ++ v.name ++ " ) {\n".toList
  else "probability ( ".toList ++ v.name ++ " | ".toList ++ commaSep v.parents ++ " ) {\n".toList

/-- One row of a probability block. -/
def rowLine (fmt : Fmt) (v : Var) (r : List (List Char) × List ℚ) : List Char :=
  if v.parents = [] then "  table ".toList ++ commaSep (r.2.map fmt.num) ++ ";\n".toList
  else "  (".toList ++ commaSep r.1 ++ ") ".toList ++ commaSep (r.2.map fmt.num) ++ ";\n".toList

/-- A probability block. -/
def probLines (fmt : Fmt) (v : Var) : List (List Char) := headLine v :: (v.rows.map (rowLine fmt v) ++ ["}\n".toList])

/-- The file. -/
def render (fmt : Fmt) (doc : List Var) : List (List Char) :=
  ["network unknown {\n".toList, "}\n".toList] ++ doc.flatMap (declLines fmt) ++ doc.flatMap (probLines fmt)

/-- A word that can stand in such a file. -/
def Clean (w : List Char) : Prop := w ≠ [] ∧ ∀ c ∈ w, c ∉ [' ', '\t', '\n', '\r', '\x0b', '\x0c', ',', ';', '(', ')', '{', '}']

/-- The keyword occurs inside a name. -/
def Mentions (w name : List Char) : Prop := w <:+: name

/-- A document as a tool would write it: distinct names, words without separators, a parentless variable has one row, a row of a conditional
table is labelled. -/
structure DocOk (fmt : Fmt) (doc : List Var) : Prop where
  nodup : (doc.map Var.name).Nodup
  name : ∀ v ∈ doc, Clean v.name
  values : ∀ v ∈ doc, ∀ x ∈ v.values, Clean x
  parents : ∀ v ∈ doc, ∀ p ∈ v.parents, p ∈ doc.map Var.name
  prior : ∀ v ∈ doc, v.parents = [] → ∃ ps, v.rows = [([], ps)]
  label : ∀ v ∈ doc, v.parents ≠ [] → ∀ r ∈ v.rows, r.1 ≠ [] ∧ ∀ x ∈ r.1, Clean x
  num : ∀ v ∈ doc, ∀ r ∈ v.rows, ∀ q ∈ r.2, Clean (fmt.num q)
  count : ∀ v ∈ doc, Clean (fmt.count v.values.length)

/-- The number of values of the last declared variable. -/
def lastCard (doc : List Var) : ℕ := (doc.getLast?.map fun v => v.values.length).getD 0

end Bif
end PyBN
