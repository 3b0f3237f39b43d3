import Verif.Model.OpenVm
import Verif.Spec.ConstraintSystem

/-!
# Specification: the OpenVM buses

What the tables contain is that of the OpenVM documentation quoted in the code.
-/

namespace Verif

variable {p : ℕ}

/-- `x`, `y` are bytes and either `op = 0` and `z = 0`, or `op = 1` and `z` is the bitwise exclusive
or of `x` and `y` (bitwise_lookup.rs:12-15). -/
def BitwiseTable (x y z op : ZMod p) : Prop :=
  x.val < 256 ∧ y.val < 256 ∧ ((op = 0 ∧ z = 0) ∨ (op = 1 ∧ z.val = x.val ^^^ y.val))

/-- `x < 2^bits` for at most 25 bits (variable_range_checker.rs:7-17). -/
def VariableRangeTable (x bits : ZMod p) : Prop := bits.val ≤ 25 ∧ x.val < 2 ^ bits.val

/-- `x < size0` and `y < size1` (tuple_range_checker.rs:32-33). -/
def TupleRangeTable (size0 size1 : ℕ) (x y : ZMod p) : Prop := x.val < size0 ∧ y.val < size1

/-- The assumptions on the memory bus that are documented in memory.rs:33-41: all data received from
registers (address space 1) or memory (address space 2) are bytes, and register zero contains zero.
The payload is (address space, pointer, data, timestamp). -/
def MemoryAssumption (multiplicity : ZMod p) (payload : List (ZMod p)) : Prop :=
  ∀ space pointer data timestamp, payload = space :: pointer :: (data ++ [timestamp]) →
    multiplicity = -1 → (space.val = 1 ∨ space.val = 2) →
      ∀ d ∈ data, d.val < 256 ∧ (space.val = 1 → pointer = 0 → d = 0)

/-- The payloads admitted by a bus of the given type. The execution bridge and the program lookup
may carry anything. -/
def BusType.Admits (multiplicity : ZMod p) (payload : List (ZMod p)) : BusType → Prop
  | .executionBridge => True
  | .pcLookup => True
  | .memory => MemoryAssumption multiplicity payload
  | .other .bitwiseLookup => ∃ x y z op, payload = [x, y, z, op] ∧ BitwiseTable x y z op
  | .other .variableRangeChecker => ∃ x bits, payload = [x, bits] ∧ VariableRangeTable x bits
  | .other (.tupleRangeChecker s0 s1) => ∃ x y, payload = [x, y] ∧ TupleRangeTable s0 s1 x y

/-- The admissible bus interactions: with multiplicity zero anything, otherwise the payload must be
admitted by the bus. -/
def openVmBus (m : BusMap) : Bus p := fun b =>
  b.multiplicity ≠ 0 → ∃ t, (b.busId.val, t) ∈ m ∧ t.Admits b.multiplicity b.payload

/-- A bus map that fits the field: the keys are distinct and elements of the field, and the sizes of
the tuple range checker are positive and at most the size of the field. -/
structure BusMap.Fits (m : BusMap) (p : ℕ) : Prop where
  keys : (m.map Prod.fst).Nodup
  ids : ∀ x ∈ m, x.1 < p
  sizes : ∀ id s0 s1, (id, BusType.other (.tupleRangeChecker s0 s1)) ∈ m →
    0 < s0 ∧ s0 ≤ p ∧ 0 < s1 ∧ s1 ≤ p

end Verif
