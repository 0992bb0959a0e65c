import Verif.Model.BayesNetOps
import Verif.Model.Edit

/-!
# `pyBN/classes/bayesnet.py`: networks as dictionary keys (`__hash__`, with `__eq__`)
-/

namespace PyBN
namespace BayesNet
variable {N A : Type _} [DecidableEq N]

/-- bayesnet.py:97-102 `__hash__`: `hash((str(self.V), str(self.E)))`.  `H` stands for printing the two and hashing the pair of
strings: any function of the node list and of the children dictionary in their orders.  (Simplification: which strings are printed and
how Python hashes them is not modelled; theorems that need it assume that `H` does not collide.) -/
def hashOf (H : List N → Dict N (List N) → ℤ) (bn : BayesNet N A) : ℤ := H bn.V bn.E

end BayesNet

/-- One slot of a Python dictionary whose keys are networks: the hash cached when the key was stored, the key object (its identity)
and the value. -/
structure KeySlot (W : Type _) where
  hash : ℤ
  key : ℕ
  val : W

namespace KeySlot
variable {N A W : Type _} [DecidableEq N]

/-- `d[q]` on a dictionary `d` with network keys (CPython's lookup, bayesnet.py:88-102 supplying `__hash__` and `__eq__`): the slots
with the hash of `q` are visited in insertion order; the same object is a hit without a comparison, otherwise `key == q` is evaluated.
`σ` gives what the objects contain *now*.  (Simplification: no deletions from `d`.) -/
def lookup (H : List N → Dict N (List N) → ℤ) (σ : ℕ → BayesNet N A) (q : ℕ) : List (KeySlot W) → Py W
  | [] => .error .keyError
  | s :: d =>
      if s.hash = (σ q).hashOf H then
        if s.key = q then .ok s.val
        else do
          let b ← BayesNet.eq (σ s.key) (σ q)
          if b then .ok s.val else lookup H σ q d
      else lookup H σ q d

/-- `d[q] = w`: the same search; a hit replaces the value (the stored key object stays), otherwise a slot is appended. -/
def store (H : List N → Dict N (List N) → ℤ) (σ : ℕ → BayesNet N A) (q : ℕ) (w : W) : List (KeySlot W) → Py (List (KeySlot W))
  | [] => .ok [⟨(σ q).hashOf H, q, w⟩]
  | s :: d =>
      if s.hash = (σ q).hashOf H then
        if s.key = q then .ok ({ s with val := w } :: d)
        else do
          let b ← BayesNet.eq (σ s.key) (σ q)
          if b then .ok ({ s with val := w } :: d) else do
            let d' ← store H σ q w d
            .ok (s :: d')
      else do
        let d' ← store H σ q w d
        .ok (s :: d')

end KeySlot
end PyBN
