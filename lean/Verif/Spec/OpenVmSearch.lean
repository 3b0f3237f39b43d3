import Verif.Spec.OpenVm
import Verif.Spec.Search

/-! # Specification: interactions with known fields that the OpenVM handler lets pass -/

namespace Verif

variable {p : ℕ}

/-- A lookup of the exclusive or of two numbers that are not both bytes, with the right result. It is
not in the table. -/
def XorOfLarge (m : BusMap) (b : BusInteraction (ZMod p)) : Prop :=
  ∃ x y z, (b.busId.val, BusType.other .bitwiseLookup) ∈ m ∧ b.payload = [x, y, z, 1] ∧
    z = ((x.val ^^^ y.val : ℕ) : ZMod p) ∧ (256 ≤ x.val ∨ 256 ≤ y.val)

end Verif
