import Verif.Spec.Learn
import Verif.Model.Learn

/-!
# Data with imagined rows: the specification for C266
-/

namespace PyBN

/-- All rows whose `i`-th entry is taken from the `i`-th list. -/
def grid : List (List ℤ) → List (List ℤ)
  | [] => [[]]
  | l :: L => l.flatMap fun x => (grid L).map (x :: ·)

/-- The data followed by `k` copies of every row that can be made of the values `vals i` of the columns. -/
def Data.withGrid (data : Data) (vals : ℕ → List ℤ) (k : ℕ) : Data :=
  ⟨data.ncol, data.rows ++ (List.replicate k (grid ((List.range data.ncol).map vals))).flatten⟩

end PyBN
