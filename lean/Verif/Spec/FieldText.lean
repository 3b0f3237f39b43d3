import Verif.Model.FieldText
import Verif.Spec.Elf
import Mathlib.Data.Nat.Digits.Defs
import Mathlib.Data.Int.ModEq

/-!
# Specification of numerals and canonical numbers
-/

namespace Verif

/-- `c` is the digit `d` of a numeral with the given radix: `0` to `9`, then the letters, lower or upper case. -/
def IsDigit (radix : ℕ) (c : Char) (d : ℕ) : Prop :=
  d < radix ∧ ((d < 10 ∧ c.toNat = '0'.toNat + d) ∨
    (10 ≤ d ∧ d < 36 ∧ (c.toNat = 'a'.toNat + (d - 10) ∨ c.toNat = 'A'.toNat + (d - 10))))

/-- `s` is a numeral for `n`: one or more digits, the most significant first, possibly after a plus. -/
def IsRadixNumeral (radix : ℕ) (s : List Char) (n : ℕ) : Prop :=
  ∃ (cs : List Char) (ds : List ℕ), (s = cs ∨ s = '+' :: cs) ∧ ds ≠ [] ∧ List.Forall₂ (IsDigit radix) cs ds ∧
    n = Nat.ofDigits radix ds.reverse

/-- `m` is the number below `p` that stands for the integer `n` modulo `p`. -/
def IsCanonical (p : ℕ) (m : ℕ) (n : ℤ) : Prop := m < p ∧ (m : ℤ) ≡ n [ZMOD p]

/-- The fields: with at most 31 bits, Goldilocks, and larger ones whose elements fit into the limbs. -/
def FieldKind.Valid : FieldKind → Prop
  | small p => 0 < p ∧ p ≤ 2 ^ 31
  | goldilocks => True
  | large p limbs => 0 < p ∧ p ≤ 2 ^ (64 * limbs)

/-- The characteristic. -/
def FieldKind.char : FieldKind → ℕ
  | small p => p
  | goldilocks => 2 ^ 64 - 2 ^ 32 + 1
  | large p _ => p

end Verif
