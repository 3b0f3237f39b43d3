import Verif.Model.FixedInt

/-!
# Specification: integers with a fixed number of bits
-/

namespace Verif

/-- The operation returns (it does not panic) a valid integer with this value. -/
def Returns (I : IntOps) (valid : I.Carrier → Prop) (r : Except Panic I.Carrier) (n : ℕ) : Prop :=
  ∃ c, r = .ok c ∧ valid c ∧ I.toArbitrary c = n

/-- What is expected of an integer type with `width` bits: the valid integers stand for the numbers below `2^width`
(`toArbitrary`), each number has exactly one representation, and the operations are those of the numbers as long as the
result is below `2^width` (for the shifts: and the amount is below `width`). -/
structure FixedWidth (I : IntOps) (valid : I.Carrier → Prop) : Prop where
  lt : ∀ a, valid a → I.toArbitrary a < 2 ^ I.width
  unique : ∀ a b, valid a → valid b → I.toArbitrary a = I.toArbitrary b → a = b
  ofCanonical : ∀ n, n < 2 ^ I.width → valid (I.ofCanonical n) ∧ I.toArbitrary (I.ofCanonical n) = n
  fromU64 : ∀ n, n < 2 ^ 64 → valid (I.fromU64 n) ∧ I.toArbitrary (I.fromU64 n) = n % 2 ^ I.width
  fromU32 : ∀ n, n < 2 ^ 32 → valid (I.fromU32 n) ∧ I.toArbitrary (I.fromU32 n) = n
  zero : valid I.zero ∧ I.toArbitrary I.zero = 0
  one : valid I.one ∧ I.toArbitrary I.one = 1
  max : valid I.max ∧ I.toArbitrary I.max = 2 ^ I.width - 1
  add : ∀ a b, valid a → valid b → I.toArbitrary a + I.toArbitrary b < 2 ^ I.width →
    Returns I valid (I.add a b) (I.toArbitrary a + I.toArbitrary b)
  sub : ∀ a b, valid a → valid b → I.toArbitrary b ≤ I.toArbitrary a →
    Returns I valid (I.sub a b) (I.toArbitrary a - I.toArbitrary b)
  shl : ∀ a k, valid a → k < I.width → I.toArbitrary a * 2 ^ k < 2 ^ I.width →
    Returns I valid (I.shl a k) (I.toArbitrary a * 2 ^ k)
  shr : ∀ a k, valid a → k < I.width → Returns I valid (I.shr a k) (I.toArbitrary a / 2 ^ k)
  and : ∀ a b, valid a → valid b → valid (I.and a b) ∧
    ∀ i, (I.toArbitrary (I.and a b)).testBit i = ((I.toArbitrary a).testBit i && (I.toArbitrary b).testBit i)
  or : ∀ a b, valid a → valid b → valid (I.or a b) ∧
    ∀ i, (I.toArbitrary (I.or a b)).testBit i = ((I.toArbitrary a).testBit i || (I.toArbitrary b).testBit i)
  xor : ∀ a b, valid a → valid b → valid (I.xor a b) ∧
    ∀ i, (I.toArbitrary (I.xor a b)).testBit i = ((I.toArbitrary a).testBit i ^^ (I.toArbitrary b).testBit i)
  not : ∀ a, valid a → valid (I.not a) ∧ I.toArbitrary a + I.toArbitrary (I.not a) + 1 = 2 ^ I.width
  eq : ∀ a b, valid a → valid b → (I.eq a b = true ↔ I.toArbitrary a = I.toArbitrary b)
  less : ∀ a b, valid a → valid b → (I.lt a b = true ↔ I.toArbitrary a < I.toArbitrary b)
  isZero : ∀ a, valid a → (I.isZero a = true ↔ I.toArbitrary a = 0)
  isOne : ∀ a, valid a → (I.isOne a = true ↔ I.toArbitrary a = 1)
  numBits : ∀ a k, valid a → (I.numBits a ≤ k ↔ I.toArbitrary a < 2 ^ k)
  tryIntoU64 : ∀ a n, valid a → (I.tryIntoU64 a = some n ↔ I.toArbitrary a = n ∧ n < 2 ^ 64)
  tryIntoU32 : ∀ a n, valid a → (I.tryIntoU32 a = some n ↔ I.toArbitrary a = n ∧ n < 2 ^ 32)
  fromHex : ∀ n, n < 2 ^ I.width → Returns I valid (I.fromHex (Nat.toDigits 16 n)) n

/-- The words with `w` bits. -/
def WordValid (w n : ℕ) : Prop := n < 2 ^ w

/-- Lists of `n` limbs with 64 bits. -/
def LimbsValid (n : ℕ) (l : List ℕ) : Prop := l.length = n ∧ ∀ x ∈ l, x < 2 ^ 64

/-- The value of a list of limbs, the lowest first. -/
def limbsValue : List ℕ → ℕ
  | [] => 0
  | x :: t => x + 2 ^ 64 * limbsValue t

namespace MachineRange

variable {I : IntOps} {p : ℕ}

/-- The range constraint with the mask as a number. -/
def abs (r : MachineRange I p) : RangeConstraint p := ⟨I.toArbitrary r.mask, r.min, r.max⟩

/-- The operation returns a range constraint with a valid mask, and it is this one. -/
def Gives (valid : I.Carrier → Prop) (x : Except Panic (MachineRange I p)) (r : RangeConstraint p) : Prop :=
  ∃ y, x = .ok y ∧ valid y.mask ∧ y.abs = r

end MachineRange

/-- A computation with range constraints: the constructors and the operations of the API (`range_constraint.rs`), in any
order and number. `mask` has an argument of type `u64`, `maxBit` one of type `usize`. -/
inductive RangeTerm (p : ℕ) where
  | range (min max : ZMod p)
  | value (v : ZMod p)
  | all
  | mask (m : ℕ)
  | maxBit (k : ℕ)
  | sum (a b : RangeTerm p)
  | product (a b : RangeTerm p)
  | multiple (a : RangeTerm p) (factor : ZMod p)
  | square (a : RangeTerm p)
  | conjunction (a b : RangeTerm p)
  | disjunction (a b : RangeTerm p)
  | neg (a : RangeTerm p)

namespace RangeTerm

variable {p : ℕ} [Fact p.Prime]

/-- The masks are `u64` (as the type of the argument says). -/
def Typed : RangeTerm p → Prop
  | range _ _ | value _ | all | maxBit _ => True
  | mask m => m < 2 ^ 64
  | sum a b | product a b | conjunction a b | disjunction a b => a.Typed ∧ b.Typed
  | multiple a _ | square a | neg a => a.Typed

/-- The computation with machine integers, stopping at the first panic. -/
def run (I : IntOps) : RangeTerm p → Except Panic (MachineRange I p)
  | range min max => MachineRange.fromRange I min max
  | value v => .ok (MachineRange.fromValue I v)
  | all => MachineRange.unconstrained I
  | mask m => MachineRange.fromMaskU64 I m
  | maxBit k => MachineRange.fromMaxBit I k
  | sum a b => do
    let x ← a.run I
    let y ← b.run I
    x.combineSum y
  | product a b => do
    let x ← a.run I
    let y ← b.run I
    x.combineProduct y
  | multiple a factor => do
    let x ← a.run I
    x.multiple factor
  | square a => do
    let x ← a.run I
    x.square
  | conjunction a b => do
    let x ← a.run I
    let y ← b.run I
    x.conjunction y
  | disjunction a b => do
    let x ← a.run I
    let y ← b.run I
    x.disjunction y
  | neg a => do
    let x ← a.run I
    x.neg

/-- The bits that are asked for exist in an integer with `width` bits. -/
def BitsExist (width : ℕ) : RangeTerm p → Prop
  | range _ _ | value _ | all | mask _ => True
  | maxBit k => k < width
  | sum a b | product a b | conjunction a b | disjunction a b => a.BitsExist width ∧ b.BitsExist width
  | multiple a _ | square a | neg a => a.BitsExist width

/-- The computation with unbounded numbers as masks. -/
def ideal (width : ℕ) : RangeTerm p → RangeConstraint p
  | range min max => RangeConstraint.fromRange min max
  | value v => RangeConstraint.fromValue v
  | all => RangeConstraint.unconstrained
  | mask m => RangeConstraint.fromMask (m % 2 ^ width)
  | maxBit k => RangeConstraint.fromMask (2 ^ (k + 1) - 1)
  | sum a b => (a.ideal width).combineSum (b.ideal width)
  | product a b => (a.ideal width).combineProduct (b.ideal width)
  | multiple a factor => (a.ideal width).multiple factor
  | square a => (a.ideal width).square
  | conjunction a b => (a.ideal width).conjunction (b.ideal width)
  | disjunction a b => (a.ideal width).disjunction (b.ideal width)
  | neg a => (a.ideal width).neg

end RangeTerm

end Verif
