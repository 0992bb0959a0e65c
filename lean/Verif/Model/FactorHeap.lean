import Verif.Model.Factor

/-!
# `pyBN/classes/factor.py` with object identity for the `card` dictionaries

`multiply_factor` executes `phi1.card.update(phi2.card)` (line 288) and `self.card = phi1.card` (line 312), so two factors can
end up holding the same dictionary object.  `scope`, `stride` and `cpt` are always fresh objects (lines 139-148, 311, 313), so
only `card` needs an address.
-/

namespace PyBN

/-- A store of `card` dictionaries, indexed by address. -/
abbrev CardStore (N : Type _) := List (Dict N ℕ)

/-- A factor object whose `card` attribute is a reference.  `data.card` is unused (the store holds the value). -/
structure HFactor (N : Type _) where
  data : Factor N
  card : ℕ

namespace HFactor
variable {N : Type _} [DecidableEq N]

/-- The factor as seen by a reader: the reference is followed. -/
def deref (s : CardStore N) (f : HFactor N) : Factor N := { f.data with card := (s[f.card]?).getD [] }

/-- factor.py:245-319 on objects: returns the store and the new `self`; the right operand object keeps its reference. -/
def mul (h : HashOrder N) (s : CardStore N) (self other : HFactor N) : Py (CardStore N × HFactor N) := do
  let (f', _) ← Factor.mul h (deref s self) (deref s other)
  if (deref s self).scope.length ≥ (deref s other).scope.length then
    pure (s.set self.card f'.card, ⟨f', self.card⟩)
  else
    pure (s.set other.card f'.card, ⟨f', other.card⟩)

/-- factor.py:399-448 on objects: `del self.card[rv]` changes the referenced dictionary. -/
def sumout (h : HashOrder N) (s : CardStore N) (self : HFactor N) (rv : N) : Py (CardStore N × HFactor N) := do
  let f' ← Factor.sumout h (deref s self) rv
  pure (s.set self.card f'.card, ⟨f', self.card⟩)

end HFactor
end PyBN
