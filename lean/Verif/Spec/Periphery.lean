import Verif.Model.Periphery
import Verif.Spec.TraceGen

/-!
# Specification: balanced lookups

A lookup argument is balanced if every entry of a table has the multiplicity with which it is sent.
-/

namespace Verif

/-- The entries of the table of the bitwise lookup: two bytes with 0 and 0, or two bytes with their exclusive or
and 1. -/
def BitwiseEntry (t : List ℕ) : Prop :=
  ∃ x y, x < 256 ∧ y < 256 ∧ (t = [x, y, 0, 0] ∨ t = [x, y, x ^^^ y, 1])

/-- The entries of the table of the range checker: a value and the number of bits it fits in. -/
def RangeEntry (maxBits : ℕ) (t : List ℕ) : Prop := ∃ x bits, t = [x, bits] ∧ bits ≤ maxBits ∧ x < 2 ^ bits

/-- The entries of the table of the tuple range checker. -/
def TupleEntry (sizes : ℕ × ℕ) (t : List ℕ) : Prop := ∃ x y, t = [x, y] ∧ x < sizes.1 ∧ y < sizes.2

/-- The buses are different from each other and from the execution bus, the memory bus and the program bus. -/
structure PeripheryBusIds.Apart (ids : PeripheryBusIds) : Prop where
  range : 2 < ids.rangeChecker ∧ ids.rangeChecker < 2 ^ 16
  bitwise : ∀ b, ids.bitwiseLookup = some b → 2 < b ∧ b < 2 ^ 16 ∧ b ≠ ids.rangeChecker
  tuple : ∀ b, ids.tupleRangeChecker = some b → 2 < b ∧ b < 2 ^ 16 ∧ b ≠ ids.rangeChecker ∧
    ids.bitwiseLookup ≠ some b

/-- There is a chip for each bus. -/
def PeripheryChips.Serves (c : PeripheryChips) (ids : PeripheryBusIds) : Prop :=
  (∀ b, ids.bitwiseLookup = some b → c.bitwise.isSome) ∧
  ∀ b, ids.tupleRangeChecker = some b → c.tuple.isSome

/-- The multiplicity of an entry in the table behind a bus. -/
def PeripheryChips.multiplicity (c : PeripheryChips) (ids : PeripheryBusIds) (bus : ℕ) (t : List ℕ) : ℕ :=
  if ids.bitwiseLookup = some bus then (c.bitwise.getD []).count t
  else if ids.rangeChecker = bus then c.range.count t
  else if ids.tupleRangeChecker = some bus then (c.tuple.getD []).count t
  else 0

/-- The message is one that the lookups and the other buses of the VM allow: it is on a bus that exists, and on a lookup
bus it has the right length and, if its multiplicity is not zero, it is an entry of the table. -/
def AllowedMessage {p : ℕ} (ids : PeripheryBusIds) (c : PeripheryChips) (x : ℕ × ZMod p × List (ZMod p)) : Prop :=
  x.1 ≤ 2 ∨
  (ids.bitwiseLookup = some x.1 ∧ x.2.2.length = 4 ∧ (x.2.1 ≠ 0 → BitwiseEntry (x.2.2.map ZMod.val))) ∨
  (ids.rangeChecker = x.1 ∧ x.2.2.length = 2 ∧ (x.2.1 ≠ 0 → RangeEntry c.rangeMaxBits (x.2.2.map ZMod.val))) ∨
  (ids.tupleRangeChecker = some x.1 ∧ x.2.2.length = 2 ∧
    (x.2.1 ≠ 0 → TupleEntry c.tupleSizes (x.2.2.map ZMod.val)))

/-- The sum of the multiplicities with which the payload is sent on the bus. -/
def totalSent {p : ℕ} (bus : ℕ) (payload : List (ZMod p)) : List (ℕ × ZMod p × List (ZMod p)) → ZMod p
  | [] => 0
  | x :: t => (if x.1 = bus ∧ x.2.2 = payload then x.2.1 else 0) + totalSent bus payload t

/-- The sum of the multiplicities, as numbers below the size of the field. -/
def totalSentNat {p : ℕ} (bus : ℕ) (payload : List ℕ) : List (ℕ × ZMod p × List (ZMod p)) → ℕ
  | [] => 0
  | x :: t => (if x.1 = bus ∧ x.2.2.map ZMod.val = payload then x.2.1.val else 0) + totalSentNat bus payload t

end Verif
