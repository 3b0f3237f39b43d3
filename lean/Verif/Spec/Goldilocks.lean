import Mathlib.Data.ZMod.Basic
import Verif.Model.Solve

/-! Specification of field arithmetic on 64-bit representations. -/

namespace Verif.Goldilocks

/-- The Goldilocks prime, 2^64 - 2^32 + 1. -/
abbrev P : ℕ := 2 ^ 64 - 2 ^ 32 + 1

/-- `r` returned normally, with the canonical representation (the number below `P`) of
the field element `v`. -/
def Returns (r : Except Panic ℕ) (v : ZMod P) : Prop :=
  ∃ n : ℕ, r = .ok n ∧ n < P ∧ (n : ZMod P) = v

end Verif.Goldilocks
