import Mathlib.Algebra.Field.ZMod

/-!
# Specification: which values a range constraint is meant to allow

Independent of the implementation in `Verif.Model.RangeConstraint`.
-/

namespace Verif.Spec

variable {p : ℕ}

/-- `v` lies in the cyclic interval `min, min + 1, ..., max`: counting up from
`min` one reaches `v` before having passed `max`. -/
def Between (min max v : ZMod p) : Prop :=
  ∃ k : ℕ, v = min + (k : ZMod p) ∧ ∀ j < k, min + (j : ZMod p) ≠ max

/-- Every bit that is set in `n` is also set in `mask`. -/
def BitsWithin (mask n : ℕ) : Prop := ∀ i, n.testBit i = true → mask.testBit i = true

end Verif.Spec
