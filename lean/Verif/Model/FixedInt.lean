import Verif.Model.RangeConstraint
import Verif.Model.FieldText
import Verif.Model.Solve

/-!
# Model of the integers of the fields

The implementations of the trait `LargeInt` (number/src/traits.rs:15-77): a single word (`GLLargeInt`,
number/src/goldilocks.rs:519-590, and `BBLargeInt`, number/src/plonky3_macros.rs:349-423) and a list of 64-bit limbs
(`LargeIntImpl`, number/src/macros.rs:36-270); and range constraints (constraint-solver/src/range_constraint.rs) on top of
them. In `Verif.Model.RangeConstraint` the mask is an unbounded number; here it is a machine integer, and all operations
may panic.

`checks` says if overflow checks are on (the profile of the build): then the operators of the primitive integers panic,
otherwise they wrap around. The operators of the words are derived (`derive_more`), so they are those of the primitive
integers. `add_with_carry`, `sub_with_borrow`, `num_bits`, `to_bytes_le` and the order of limbs are those of `ark_ff`.
-/

namespace Verif

/-- The operations of `LargeInt` (traits.rs:15-77) that are used by the range constraints, and `to_integer` of a field
element with a given canonical number (`ofCanonical`). -/
structure IntOps where
  Carrier : Type
  width : ℕ
  zero : Carrier
  one : Carrier
  max : Carrier
  ofCanonical : ℕ → Carrier
  fromU64 : ℕ → Carrier
  fromU32 : ℕ → Carrier
  add : Carrier → Carrier → Except Panic Carrier
  sub : Carrier → Carrier → Except Panic Carrier
  and : Carrier → Carrier → Carrier
  or : Carrier → Carrier → Carrier
  xor : Carrier → Carrier → Carrier
  not : Carrier → Carrier
  shl : Carrier → ℕ → Except Panic Carrier
  shr : Carrier → ℕ → Except Panic Carrier
  eq : Carrier → Carrier → Bool
  lt : Carrier → Carrier → Bool
  isZero : Carrier → Bool
  isOne : Carrier → Bool
  toArbitrary : Carrier → ℕ
  numBits : Carrier → ℕ
  tryIntoU64 : Carrier → Option ℕ
  tryIntoU32 : Carrier → Option ℕ
  fromHex : List Char → Except Panic Carrier

/-! ## One word -/

/-- `leading_zeros` of a number with `w` bits (std): the number of bits that are zero, from the highest on. -/
def leadingZeros : ℕ → ℕ → ℕ
  | 0, _ => 0
  | w + 1, n => if n.testBit w then 0 else leadingZeros w n + 1

namespace WordInt

/-- `Add` (derived, goldilocks.rs:504, plonky3_macros.rs:335). -/
def add (checks : Bool) (w a b : ℕ) : Except Panic ℕ :=
  if a + b < 2 ^ w then .ok (a + b) else if checks then .error .assertion else .ok ((a + b) % 2 ^ w)

/-- `Sub` (derived, goldilocks.rs:505, plonky3_macros.rs:336). -/
def sub (checks : Bool) (w a b : ℕ) : Except Panic ℕ :=
  if b ≤ a then .ok (a - b) else if checks then .error .assertion else .ok (a + 2 ^ w - b)

/-- `Shl` (derived, goldilocks.rs:510, plonky3_macros.rs:341): only the amount is checked; bits are lost. -/
def shl (checks : Bool) (w a k : ℕ) : Except Panic ℕ :=
  if k < w then .ok ((a <<< k) % 2 ^ w)
  else if checks then .error .assertion else .ok ((a <<< (k % w)) % 2 ^ w)

/-- `Shr` (derived, goldilocks.rs:509, plonky3_macros.rs:340). -/
def shr (checks : Bool) (w a k : ℕ) : Except Panic ℕ :=
  if k < w then .ok (a >>> k) else if checks then .error .assertion else .ok (a >>> (k % w))

/-- `Not` (goldilocks.rs:584-590, plonky3_macros.rs:416-422). -/
def not (w a : ℕ) : ℕ := 2 ^ w - 1 - a

/-- `from_hex` (goldilocks.rs:548-550, plonky3_macros.rs:380-382). -/
def fromHex (w : ℕ) (s : List Char) : Except Panic ℕ :=
  match fromStrRadix (2 ^ w) 16 s with
  | some n => .ok n
  | none => .error .assertion

end WordInt

/-- `GLLargeInt` for 64 bits (goldilocks.rs:519-590) and `BBLargeInt` for 32 bits (plonky3_macros.rs:349-423).
`From<u64>` cuts off the higher bits (plonky3_macros.rs:391-395). -/
def wordInt (checks : Bool) (w : ℕ) : IntOps where
  Carrier := ℕ
  width := w
  zero := 0
  one := 1
  max := 2 ^ w - 1
  ofCanonical := fun n => n
  fromU64 := fun n => n % 2 ^ w
  fromU32 := fun n => n
  add := WordInt.add checks w
  sub := WordInt.sub checks w
  and := (· &&& ·)
  or := (· ||| ·)
  xor := (· ^^^ ·)
  not := WordInt.not w
  shl := WordInt.shl checks w
  shr := WordInt.shr checks w
  eq := fun a b => a = b
  lt := fun a b => a < b
  isZero := fun a => a = 0
  isOne := fun a => a = 1
  toArbitrary := fun a => a
  numBits := fun a => w - leadingZeros w a
  tryIntoU64 := fun a => if a < 2 ^ 64 then some a else none
  tryIntoU32 := fun a => if a < 2 ^ 32 then some a else none
  fromHex := WordInt.fromHex w

/-! ## Limbs -/

namespace LimbInt

/-- A number as `n` limbs, the lowest first (`BigInt` of `ark_ff`). -/
def ofNat : ℕ → ℕ → List ℕ
  | 0, _ => []
  | n + 1, a => a % 2 ^ 64 :: ofNat n (a / 2 ^ 64)

/-- `BigUint::from_le_bytes(&self.value.to_bytes_le())` (macros.rs:77, 87, 234-236): the bytes of all limbs. -/
def toArbitrary (l : List ℕ) : ℕ := FieldKind.ofLeBytes (l.flatMap fun x => FieldKind.leBytes 8 x)

/-- `TryFrom<BigUint>` (macros.rs:217-226): an error if the number has too many bits. -/
def tryFromBig (n a : ℕ) : Except Panic (List ℕ) :=
  if a < 2 ^ (64 * n) then .ok (ofNat n a) else .error .assertion

/-- `BitAnd`, `BitOr`, `BitXor` and the assigning forms (macros.rs:93-165): limb by limb. -/
def zip (f : ℕ → ℕ → ℕ) : List ℕ → List ℕ → List ℕ
  | x :: t, y :: u => f x y :: zip f t u
  | l, _ => l

/-- `Not` (macros.rs:167-176). -/
def not (l : List ℕ) : List ℕ := l.map fun x => 2 ^ 64 - 1 - x

/-- `add_with_carry` (macros.rs:178-190), the last carry is dropped. -/
def addCarry : ℕ → List ℕ → List ℕ → List ℕ
  | c, x :: t, y :: u => (x + y + c) % 2 ^ 64 :: addCarry ((x + y + c) / 2 ^ 64) t u
  | _, l, _ => l

/-- `sub_with_borrow` (macros.rs:192-204), the last borrow is dropped. -/
def subBorrow : ℕ → List ℕ → List ℕ → List ℕ
  | c, x :: t, y :: u =>
    (x + 2 ^ 64 - y - c) % 2 ^ 64 :: subBorrow (if x < y + c then 1 else 0) t u
  | _, l, _ => l

/-- `Shl` (macros.rs:73-81). -/
def shl (n : ℕ) (l : List ℕ) (k : ℕ) : Except Panic (List ℕ) := tryFromBig n (toArbitrary l <<< k)

/-- `Shr` (macros.rs:83-91). -/
def shr (n : ℕ) (l : List ℕ) (k : ℕ) : Except Panic (List ℕ) := tryFromBig n (toArbitrary l >>> k)

/-- The order (macros.rs:36, `Ord` of `ark_ff`): the highest limb that differs decides. -/
def lt : List ℕ → List ℕ → Bool
  | x :: t, y :: u => if lt t u then true else if t = u then x < y else false
  | _, _ => false

/-- `num_bits` (macros.rs:237-239, `ark_ff`): from the highest limb on, until one is not zero. The argument has the
highest limb first. -/
def numBitsFrom : ℕ → List ℕ → ℕ
  | ret, [] => ret
  | ret, x :: t => if leadingZeros 64 x = 64 then numBitsFrom (ret - 64) t else ret - leadingZeros 64 x

/-- `try_into_u64` (macros.rs:249-256). -/
def tryIntoU64 (l : List ℕ) : Option ℕ := if l.tail.all (· = 0) then l.head? else none

/-- `try_into_u32` (macros.rs:258-261). -/
def tryIntoU32 (l : List ℕ) : Option ℕ := (tryIntoU64 l).bind fun v => if v < 2 ^ 32 then some v else none

/-- `from_hex` (macros.rs:263-265). -/
def fromHex (n : ℕ) (s : List Char) : Except Panic (List ℕ) :=
  match FieldKind.bigFromStr 16 s with
  | some a => tryFromBig n a
  | none => .error .assertion

end LimbInt

/-- `LargeIntImpl` with `n` limbs (macros.rs:36-270). -/
def limbInt (n : ℕ) : IntOps where
  Carrier := List ℕ
  width := n * 64
  zero := List.replicate n 0
  one := LimbInt.ofNat n 1
  max := List.replicate n (2 ^ 64 - 1)
  ofCanonical := LimbInt.ofNat n
  fromU64 := LimbInt.ofNat n
  fromU32 := LimbInt.ofNat n
  add := fun a b => .ok (LimbInt.addCarry 0 a b)
  sub := fun a b => .ok (LimbInt.subBorrow 0 a b)
  and := LimbInt.zip (· &&& ·)
  or := LimbInt.zip (· ||| ·)
  xor := LimbInt.zip (· ^^^ ·)
  not := LimbInt.not
  shl := LimbInt.shl n
  shr := LimbInt.shr n
  eq := fun a b => a = b
  lt := LimbInt.lt
  isZero := fun a => a.all (· = 0)
  isOne := fun a => a = LimbInt.ofNat n 1
  toArbitrary := LimbInt.toArbitrary
  numBits := fun a => LimbInt.numBitsFrom (64 * n) a.reverse
  tryIntoU64 := LimbInt.tryIntoU64
  tryIntoU32 := LimbInt.tryIntoU32
  fromHex := LimbInt.fromHex n

/-! ## Range constraints with machine integers -/

/-- `RangeConstraint` (range_constraint.rs:39-48). -/
structure MachineRange (I : IntOps) (p : ℕ) where
  mask : I.Carrier
  min : ZMod p
  max : ZMod p

namespace MachineRange

variable {I : IntOps} {p : ℕ}

/-- `to_integer` of a field element (traits.rs:164). -/
def toInt (I : IntOps) (a : ZMod p) : I.Carrier := I.ofCanonical a.val

/-- `modulus()` (traits.rs:170). -/
def modulus (I : IntOps) (p : ℕ) : I.Carrier := I.ofCanonical p

/-- `From<T::Integer>` of the field (macros.rs:279-285, plonky3_macros.rs:184-189, goldilocks.rs:441-446). A number that is
not below the modulus is a panic here; `GoldilocksField` would reduce it, but it does not happen (C89). -/
def toField (p : ℕ) (n : I.Carrier) : Except Panic (ZMod p) :=
  if I.toArbitrary n < p then .ok (I.toArbitrary n : ZMod p) else .error .assertion

/-- `cmp::min` on integers (std; the first argument on ties). -/
def minInt (a b : I.Carrier) : I.Carrier := if I.lt b a then b else a

/-- `mask_from_bits` (range_constraint.rs:346-355). -/
def maskFromBits (I : IntOps) (bits : ℕ) : Except Panic I.Carrier :=
  if bits = 0 then .ok I.zero
  else if bits ≤ I.width then I.shr (I.not I.zero) (I.width - bits)
  else .error .assertion

/-- `from_mask` (range_constraint.rs:58-66), after the conversion of the argument. -/
def fromMask (mask : I.Carrier) : Except Panic (MachineRange I p) := do
  let max ← toField p (minInt mask (toInt I (-1 : ZMod p)))
  pure ⟨mask, 0, max⟩

/-- `from_mask` (range_constraint.rs:58-66) with an argument of type `u64`. -/
def fromMaskU64 (I : IntOps) (mask : ℕ) : Except Panic (MachineRange I p) := fromMask (I.fromU64 mask)

/-- `from_max_bit` (range_constraint.rs:52-54). -/
def fromMaxBit (I : IntOps) (maxBit : ℕ) : Except Panic (MachineRange I p) := do
  let mask ← maskFromBits I (maxBit + 1)
  fromMask mask

/-- `from_value` (range_constraint.rs:69-75). -/
def fromValue (I : IntOps) (value : ZMod p) : MachineRange I p := ⟨toInt I value, value, value⟩

/-- The mask of `unconstrained()` (range_constraint.rs:93-95 through 83-85). -/
def unconstrainedMask (I : IntOps) (p : ℕ) : Except Panic I.Carrier :=
  maskFromBits I (I.numBits (toInt I (-1 : ZMod p)))

/-- `from_range` (range_constraint.rs:83-90). -/
def fromRange (I : IntOps) (min max : ZMod p) : Except Panic (MachineRange I p) := do
  let mask ← if fle min max then maskFromBits I (I.numBits (toInt I max)) else unconstrainedMask I p
  pure ⟨mask, min, max⟩

/-- `unconstrained` (range_constraint.rs:93-95). -/
def unconstrained (I : IntOps) : Except Panic (MachineRange I p) := fromRange I 0 (-1)

/-- `range_width` (range_constraint.rs:337-343). -/
def rangeWidth (I : IntOps) (min max : ZMod p) : I.Carrier :=
  if max + 1 = min then modulus I p else toInt I (max - min + 1)

/-- `range_width`, also `size_estimate` (range_constraint.rs:122-129). -/
def width (r : MachineRange I p) : I.Carrier := rangeWidth I r.min r.max

/-- `is_unconstrained` (range_constraint.rs:99-102). -/
def isUnconstrained (r : MachineRange I p) : Except Panic Bool := do
  let un : MachineRange I p ← unconstrained I
  pure (I.eq r.width un.width && I.eq (I.and r.mask un.mask) un.mask)

/-- `allows_value` (range_constraint.rs:131-139). -/
def allowsValue (r : MachineRange I p) (v : ZMod p) : Bool :=
  (if fle r.min r.max then decide (fle r.min v) && decide (fle v r.max)
    else decide (fle r.min v) || decide (fle v r.max)) &&
  I.eq (I.and (toInt I v) r.mask) (toInt I v)

/-- `mask &= Self::from_range(min, max).mask` if `min <= max` (range_constraint.rs:165-167, 239-241). -/
def tighten (mask : I.Carrier) (min max : ZMod p) : Except Panic (MachineRange I p) := do
  let mask ← if fle min max then do
      let r ← fromRange I min max
      pure (I.and mask r.mask)
    else pure mask
  pure ⟨mask, min, max⟩

/-- `combine_sum` (range_constraint.rs:144-169). -/
def combineSum (a b : MachineRange I p) : Except Panic (MachineRange I p) := do
  let un : MachineRange I p ← unconstrained I
  let mask ← if I.toArbitrary a.mask + I.toArbitrary b.mask ≥ I.toArbitrary (modulus I p) then pure un.mask
    else do
      let s ← I.add a.mask b.mask
      pure (I.or (I.or s a.mask) b.mask)
  if I.toArbitrary a.width + I.toArbitrary b.width ≤ I.toArbitrary un.width
  then tighten mask (a.min + b.min) (a.max + b.max)
  else tighten mask un.min un.max

/-- `range_multiple` (range_constraint.rs:361-371). -/
def rangeMultiple (I : IntOps) (min max factor : ZMod p) : ZMod p × ZMod p :=
  if I.toArbitrary (rangeWidth I min max) * factor.val ≤ I.toArbitrary (modulus I p)
  then (min * factor, max * factor) else (1, 0)

/-- The shifted mask of `multiple` (range_constraint.rs:281-284). -/
def shiftedMask (r : MachineRange I p) (factor : ZMod p) : Except Panic (Option I.Carrier) :=
  match log2Exact factor.val with
  | none => .ok none
  | some exponent =>
    if I.toArbitrary r.mask <<< exponent < I.toArbitrary (modulus I p)
    then (I.shl r.mask exponent).map some else .ok none

/-- The interval of `multiple` (range_constraint.rs:285-289). -/
def multipleInterval (r : MachineRange I p) (factor : ZMod p) : ZMod p × ZMod p :=
  if isInLowerHalf factor then rangeMultiple I r.min r.max factor
  else rangeMultiple I (-r.max) (-r.min) (-factor)

/-- `multiple` (range_constraint.rs:280-295). -/
def multiple (r : MachineRange I p) (factor : ZMod p) : Except Panic (MachineRange I p) := do
  match ← shiftedMask r factor with
  | some mask => pure ⟨mask, (r.multipleInterval factor).1, (r.multipleInterval factor).2⟩
  | none => fromRange I (r.multipleInterval factor).1 (r.multipleInterval factor).2

/-- `try_to_single_value` (range_constraint.rs:298-304). -/
def tryToSingleValue (r : MachineRange I p) : Option (ZMod p) :=
  if r.min = r.max ∧ I.eq (I.and (toInt I r.min) r.mask) (toInt I r.min) = true then some r.min else none

/-- `combine_product` (range_constraint.rs:174-188). -/
def combineProduct (a b : MachineRange I p) : Except Panic (MachineRange I p) :=
  match b.tryToSingleValue with
  | some v => a.multiple v
  | none =>
    match a.tryToSingleValue with
    | some v => b.multiple v
    | none =>
      if fle a.min a.max ∧ fle b.min b.max ∧ a.max.val * b.max.val < I.toArbitrary (modulus I p)
      then fromRange I (a.min * b.min) (a.max * b.max)
      else unconstrained I

/-- `square` (range_constraint.rs:192-205). -/
def square (r : MachineRange I p) : Except Panic (MachineRange I p) :=
  if ¬ fle r.min r.max ∧
      (fmax (-r.min) r.max).val * (fmax (-r.min) r.max).val < I.toArbitrary (modulus I p)
  then fromRange I 0 (fmax (-r.min) r.max * fmax (-r.min) r.max)
  else r.combineProduct r

/-- One shift of `interval_intersection` (range_constraint.rs:384-389). -/
def attempt (a b : ZMod p × ZMod p) (shift : ZMod p) :
    Option (ZMod p × (ZMod p × ZMod p) × (ZMod p × ZMod p)) :=
  if fle (a.1 + -shift) (a.2 + -shift) ∧ fle (b.1 + -shift) (b.2 + -shift) then
    some (shift, (a.1 + -shift, a.2 + -shift), (b.1 + -shift, b.2 + -shift)) else none

/-- `interval_intersection` (range_constraint.rs:379-408). -/
def intervalIntersection (I : IntOps) (a b : ZMod p × ZMod p) : Option (ZMod p × ZMod p) :=
  match (attempt a b a.1).or (attempt a b b.1) with
  | some (shift, aS, bS) =>
    if fle (fmax aS.1 bS.1) (fmin aS.2 bS.2) then some (fmax aS.1 bS.1 + shift, fmin aS.2 bS.2 + shift) else none
  | none => if I.lt (rangeWidth I b.1 b.2) (rangeWidth I a.1 a.2) then some b else some a

/-- The new interval of `conjunction` (range_constraint.rs:217-237). -/
def conjunctionInterval (mask : I.Carrier) (i : ZMod p × ZMod p) : Except Panic (ZMod p × ZMod p) :=
  if I.lt mask (modulus I p) then
    if fle i.1 i.2 then do
      let m ← toField p mask
      pure (fmin m i.1, fmin m i.2)
    else if I.lt mask (toInt I i.1) then do
      let m ← toField p mask
      pure (0, fmin m i.2)
    else pure i
  else pure i

/-- `conjunction` (range_constraint.rs:213-244). -/
def conjunction (a b : MachineRange I p) : Except Panic (MachineRange I p) := do
  let i ← conjunctionInterval (I.and a.mask b.mask)
    ((intervalIntersection I (a.min, a.max) (b.min, b.max)).getD (0, 0))
  tighten (I.and a.mask b.mask) i.1 i.2

/-- `disjunction` (range_constraint.rs:252-275). -/
def disjunction (a b : MachineRange I p) : Except Panic (MachineRange I p) :=
  if fle a.min a.max then
    if fle b.min b.max then pure ⟨I.or a.mask b.mask, fmin a.min b.min, fmax a.max b.max⟩
    else fromMask (I.or a.mask b.mask)
  else
    if fle b.min b.max then fromMask (I.or a.mask b.mask)
    else if fle (fmin a.min b.min) (fmax a.max b.max) then fromMask (I.or a.mask b.mask)
    else pure ⟨I.or a.mask b.mask, fmin a.min b.min, fmax a.max b.max⟩

/-- `is_disjoint` (range_constraint.rs:308-318). -/
def isDisjoint (a b : MachineRange I p) : Bool :=
  (!(a.allowsValue 0 && b.allowsValue 0) && I.isZero (I.and a.mask b.mask)) ||
  (intervalIntersection I (a.min, a.max) (b.min, b.max)).isNone

/-- `allowed_values` (range_constraint.rs:323-327). -/
def allowedValues (r : MachineRange I p) : Except Panic (List (ZMod p)) :=
  match I.tryIntoU32 r.width with
  | some n => .ok (((List.range n).map fun (offset : ℕ) => r.min + (offset : ZMod p)).filter
      fun value => r.allowsValue value)
  | none => .error .assertion

/-- `Neg` (range_constraint.rs:414-421). -/
def neg (r : MachineRange I p) : Except Panic (MachineRange I p) := fromRange I (-r.max) (-r.min)

end MachineRange

end Verif
