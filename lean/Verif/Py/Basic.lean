import Mathlib.Data.Rat.Defs
import Mathlib.Algebra.Order.Field.Rat
import Mathlib.Data.List.Perm.Basic
import Mathlib.Data.List.Dedup

/-!
# Python primitives

Errors as values, dictionaries, list operations, hash iteration order.
These are the parts of the Python 2.7 / numpy runtime the model rests on; they are not code of `/repo`.
-/

namespace PyBN

/-- The exceptions the modelled code can raise.  `diverges` stands for a `while` loop that never ends. -/
inductive PyErr where
  | keyError | indexError | valueError | zeroDivision | nameError | typeError
  | attributeError | assertionError | runtimeError | networkxError | diverges
  deriving DecidableEq, Repr

/-- A Python computation: either an exception or a value. -/
abbrev Py (α : Type _) := Except PyErr α

/-- A Python `dict`: an association list.  Its list order stands for the dict's internal state
(history); iteration goes through `HashOrder`, never through this order directly. -/
abbrev Dict (K : Type _) (V : Type _) := List (K × V)

namespace Dict
variable {K V : Type _} [DecidableEq K]

/-- `d.get(k)` as an option. -/
def get? : Dict K V → K → Option V
  | [], _ => none
  | (k', v) :: d, k => if k' = k then some v else get? d k

/-- `d[k]`: raises `KeyError` when absent. -/
def get (d : Dict K V) (k : K) : Py V :=
  match get? d k with
  | some v => .ok v
  | none => .error .keyError

/-- `d[k] = v`. -/
def set : Dict K V → K → V → Dict K V
  | [], k, v => [(k, v)]
  | (k', v') :: d, k, v => if k' = k then (k', v) :: d else (k', v') :: set d k v

/-- The dict without the key `k`. -/
def erase : Dict K V → K → Dict K V
  | [], _ => []
  | (k', v') :: d, k => if k' = k then d else (k', v') :: erase d k

/-- `del d[k]`: raises `KeyError` when absent. -/
def del (d : Dict K V) (k : K) : Py (Dict K V) :=
  match get? d k with
  | some _ => .ok (erase d k)
  | none => .error .keyError

/-- The keys, in internal order. -/
def keys (d : Dict K V) : List K := d.map Prod.fst

/-- The values, in internal order. -/
def vals (d : Dict K V) : List V := d.map Prod.snd

/-- `d.update(e)`. -/
def update (d e : Dict K V) : Dict K V := e.foldl (fun d kv => set d kv.1 kv.2) d

/-- `dict([(k, v), ...])`: later pairs override earlier ones. -/
def ofPairs (l : List (K × V)) : Dict K V := update [] l

end Dict

/-- The iteration order of a hash container (`dict`, `set`) whose internal state is the given list:
an arbitrary function of that state returning each element exactly once.
Every theorem quantifies over all such orders. -/
structure HashOrder (K : Type _) where
  iter : List K → List K
  perm : ∀ l, (iter l).Perm l

/-- The order that happens to coincide with insertion order (used for concrete examples). -/
def HashOrder.id {K : Type _} : HashOrder K := ⟨fun l => l, fun _ => List.Perm.refl _⟩

/-- The reverse order (used for concrete examples). -/
def HashOrder.rev {K : Type _} : HashOrder K := ⟨List.reverse, fun l => l.reverse_perm⟩

/-- `l[i]` on a list or 1-D array, with Python's negative indices. -/
def pyIdx {α : Type _} (l : List α) (i : ℤ) : Py α :=
  if 0 ≤ i then
    match l[i.toNat]? with
    | some x => .ok x
    | none => .error .indexError
  else if -(l.length : ℤ) ≤ i then
    match l[(l.length + i).toNat]? with
    | some x => .ok x
    | none => .error .indexError
  else .error .indexError

/-- `l.remove(x)`: removes the first occurrence, `ValueError` when absent. -/
def pyRemove {α : Type _} [DecidableEq α] (l : List α) (x : α) : Py (List α) :=
  if x ∈ l then .ok (l.erase x) else .error .valueError

/-- `l.index(x)`: position of the first occurrence, `ValueError` when absent. -/
def pyIndex {α : Type _} [DecidableEq α] : List α → α → Py ℕ
  | [], _ => .error .valueError
  | y :: l, x => if y = x then .ok 0 else
      match pyIndex l x with
      | .ok n => .ok (n + 1)
      | .error e => .error e

/-- `l[lo:hi]` for `0 ≤ lo ≤ hi`. -/
def pySlice {α : Type _} (l : List α) (lo hi : ℕ) : List α := (l.drop lo).take (hi - lo)

/-- Insert into a list sorted by `key`, after all elements with a smaller or equal key placed before it
in the input (the building block of a stable sort, processed from the right). -/
def insertBy {α : Type _} (key : α → ℕ) (x : α) : List α → List α
  | [] => [x]
  | y :: l => if key x ≤ key y then x :: y :: l else y :: insertBy key x l

/-- `sorted(l, key=key)`: stable. -/
def sortBy {α : Type _} (key : α → ℕ) : List α → List α
  | [] => []
  | x :: l => insertBy key x (sortBy key l)

/-- `insertBy` with a rational key. -/
def insertByQ {α : Type _} (key : α → ℚ) (x : α) : List α → List α
  | [] => [x]
  | y :: l => if key x ≤ key y then x :: y :: l else y :: insertByQ key x l

/-- `l.sort(key=key)` with a rational key: stable. -/
def sortByQ {α : Type _} (key : α → ℚ) : List α → List α
  | [] => []
  | x :: l => insertByQ key x (sortByQ key l)

end PyBN
