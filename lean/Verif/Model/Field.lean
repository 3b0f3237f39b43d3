import Mathlib.Algebra.Field.ZMod

/-!
# Field elements

Models the parts of `number/src/traits.rs` (`FieldElement`, `LargeInt`) and
`number/src/lib.rs` that the constraint solver uses. A field is `ZMod p` for a
prime `p`; `ZMod.val` is `FieldElement::to_integer` (the canonical
representative), and comparisons of field elements compare canonical
representatives.
-/

namespace Verif

variable {p : ℕ}

/-- `a <= b` on field elements: derived `Ord` on the canonical value
(number/src/goldilocks.rs:22-37, number/src/plonky3_macros.rs:25-40). -/
abbrev fle (a b : ZMod p) : Prop := a.val ≤ b.val

/-- `cmp::min` on field elements (std; first argument on ties). -/
def fmin (a b : ZMod p) : ZMod p := if a.val ≤ b.val then a else b

/-- `cmp::max` on field elements (std; second argument on ties). -/
def fmax (a b : ZMod p) : ZMod p := if a.val ≤ b.val then b else a

/-- `FieldElement::is_in_lower_half`: `value <= (modulus - 1) / 2`
(number/src/traits.rs:184-185, number/src/goldilocks.rs:385-387). -/
def isInLowerHalf (a : ZMod p) : Bool := a.val ≤ (p - 1) / 2

/-- `LargeInt::num_bits`: number of bits needed to encode `n`
(number/src/goldilocks.rs:528-530: `64 - leading_zeros`). -/
def numBits (n : ℕ) : ℕ := if n = 0 then 0 else n.log2 + 1

/-- `BigUint::trailing_zeros` (crate `ibig`): `None` for zero, else the index of the lowest
set bit. -/
def trailingZeros (n : ℕ) : Option ℕ := (List.range (numBits n)).find? fun i => n.testBit i

/-- `log2_exact` (number/src/lib.rs:34-38). -/
def log2Exact (n : ℕ) : Option ℕ :=
  (trailingZeros n).filter fun zeros => n = 1 <<< zeros

end Verif
