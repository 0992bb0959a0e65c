import Verif.Model.Indep

/-!
# `mb_fitness` (`pyBN/utils/markov_blanket.py`)
-/

namespace PyBN
namespace Indep

/-- `1/pval` for the Python float `round(p, 4)` returns: dividing by 0.0 raises. -/
noncomputable def PFloat.recip : PFloat → Py PFloat
  | .nan => .ok .nan
  | .inf => .ok (.fin 0)
  | .fin x => open Classical in if x = 0 then .error .zeroDivision else .ok (.fin (1 / x))

/-- Addition of floats none of which is `-inf`. -/
noncomputable def PFloat.add : PFloat → PFloat → PFloat
  | .nan, _ => .nan
  | _, .nan => .nan
  | .inf, _ => .inf
  | _, .inf => .inf
  | .fin x, .fin y => .fin (x + y)

/-- markov_blanket.py:157-159: `for X in non_blanket: fitness_dict[T] += 1/pval`, from the value `acc` on. -/
noncomputable def fitLoop (rows : List (List ℕ)) (mb : List ℕ) (t : ℕ) : List ℕ → PFloat → Py PFloat
  | [], acc => .ok acc
  | x :: xs, acc => do
    let p ← miTest (2 + mb.length) (select (t :: x :: mb) rows)
    let q ← p.recip
    fitLoop rows mb t xs (acc.add q)

/-- The argument `target` of `mb_fitness`: absent, one column, or several. -/
inductive Target where
  | none | one (t : ℕ) | many (ts : List ℕ)

/-- markov_blanket.py:145-151: the set `nodes`. -/
def targetNodes (Mb : Dict ℕ (List ℕ)) : Target → List ℕ
  | .none => Mb.keys.dedup
  | .one t => [t]
  | .many ts => ts.dedup

/-- markov_blanket.py:154-159: the loop over `nodes`; `ho` is the iteration order of sets. -/
noncomputable def fitNodes (ho : HashOrder ℕ) (rows : List (List ℕ)) (Mb : Dict ℕ (List ℕ)) (nodes : List ℕ) : List ℕ → Dict ℕ PFloat → Py (Dict ℕ PFloat)
  | [], d => .ok d
  | t :: ts, d => do
    let mb ← Mb.get t
    let v ← fitLoop rows mb t (ho.iter (nodes.filter fun x => x ∉ mb ∧ x ≠ t)) (.fin 0)
    fitNodes ho rows Mb nodes ts (d.set t v)

/-- markov_blanket.py:116-160 `mb_fitness(data, Mb, target)`; every column index must be that of a column of `data` (otherwise `IndexError`, not modelled). -/
noncomputable def mbFitness (ho : HashOrder ℕ) (rows : List (List ℕ)) (Mb : Dict ℕ (List ℕ)) (target : Target) : Py (Dict ℕ PFloat) :=
  fitNodes ho rows Mb (targetNodes Mb target) (ho.iter (targetNodes Mb target)) ((ho.iter (targetNodes Mb target)).map fun t => (t, .fin 0))

end Indep
end PyBN
