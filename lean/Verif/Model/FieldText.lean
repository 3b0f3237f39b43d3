import Verif.Model.Goldilocks
import Verif.Model.Numerals

/-!
# Model of conversions of field elements

`number/src/plonky3_macros.rs` (fields with 31 bits), `number/src/goldilocks.rs` and `number/src/macros.rs` (fields of
arkworks). A field element is its canonical number. The fields of Plonky3 and of arkworks themselves are not modelled:
`from_canonical_checked` returns the element if the number is below the characteristic, `into_bigint` and
`as_canonical_u32` return the canonical number, `From<BigInt>` panics for numbers that are not below it, and
`From<num_bigint::BigUint>`, `From<u64>` and `From<i64>` of arkworks reduce.
-/

namespace Verif

/-- A conversion returns an error, or panics. -/
inductive NumError where
  | err
  | panic
deriving DecidableEq

/-- The implementations of fields: `powdr_field_plonky3!` with characteristic `p`, `GoldilocksField`, and `powdr_field!`
with characteristic `p` and the number of 64-bit limbs. -/
inductive FieldKind where
  | small (p : ℕ)
  | goldilocks
  | large (p limbs : ℕ)

namespace FieldKind

/-- `modulus` (plonky3_macros.rs:84-87, goldilocks.rs:337-339, macros.rs:372-374). -/
def modulus : FieldKind → ℕ
  | small p => p
  | goldilocks => Goldilocks.ORDER
  | large p _ => p

/-- `from_canonical_checked(n).unwrap()` (plonky3_macros.rs:52-54, 143-154). -/
def checkedSmall (p n : ℕ) : Except NumError ℕ := if n < p then .ok n else .error .panic

/-- `wrap` (goldilocks.rs:133-139). -/
def wrapGoldilocks (n : ℕ) : Except NumError ℕ :=
  match Goldilocks.wrap n with
  | .ok m => .ok m
  | .error _ => .error .panic

/-- `From<u64>` (plonky3_macros.rs:149-154, goldilocks.rs:428-433, macros.rs:293-297). -/
def fromU64 : FieldKind → ℕ → Except NumError ℕ
  | small p, n => checkedSmall p n
  | goldilocks, n => wrapGoldilocks n
  | large p _, n => .ok (n % p)

/-- `From<u32>` (plonky3_macros.rs:143-147, goldilocks.rs:422-426, macros.rs:287-291). -/
def fromU32 : FieldKind → ℕ → Except NumError ℕ
  | small p, n => checkedSmall p n
  | goldilocks, n => .ok n
  | large p _, n => .ok (n % p)

/-- `From<i64>` and `From<i32>` (plonky3_macros.rs:156-176, goldilocks.rs:410-420, macros.rs:299-309). `n as u64` of a
negative number is `2^64 + n`. -/
def fromI64 : FieldKind → ℤ → Except NumError ℕ
  | small p, n =>
    checkedSmall p (if n < 0 then (p + (2 ^ 64 + n).toNat) % 2 ^ 64 else n.toNat)
  | goldilocks, n =>
    match Goldilocks.ofI64 n with
    | .ok m => .ok m
    | .error _ => .error .panic
  | large p _, n => .ok (n % p).toNat

/-- `From<BigUint>` (plonky3_macros.rs:178-182, goldilocks.rs:435-439, macros.rs:272-277). -/
def fromBig (k : FieldKind) (n : ℕ) : Except NumError ℕ :=
  match k with
  | large p _ => .ok (n % p)
  | k => if n < 2 ^ 64 then k.fromU64 n else .error .panic

/-- `BigUint::from_str_radix` (ibig): numerals without a limit. -/
def bigFromStr (radix : ℕ) (s : List Char) : Option ℕ :=
  if stripPlus s = [] then none else digitsValue radix (stripPlus s) 0

/-- `from_str` (plonky3_macros.rs:219-230, goldilocks.rs:476-487, macros.rs:317-328). -/
def fromStr (k : FieldKind) (s : List Char) : Except NumError ℕ :=
  match bigFromStr 10 s with
  | none => .error .err
  | some n => if n ≥ k.modulus then .error .err else k.fromBig n

/-- `from_str_radix` (plonky3_macros.rs:102-106, goldilocks.rs:368-375, macros.rs:344-352). -/
def fromStrRadix (k : FieldKind) (s : List Char) (radix : ℕ) : Except NumError ℕ :=
  match k with
  | small p =>
    match Verif.fromStrRadix (2 ^ 32) radix s with
    | none => .error .err
    | some n => checkedSmall p n
  | goldilocks =>
    match Verif.fromStrRadix (2 ^ 64) radix s with
    | none => .error .err
    | some n => if n < Goldilocks.ORDER then .ok n else .error .err
  | large p _ =>
    match bigFromStr radix s with
    | none => .error .err
    | some n => if n ≥ p then .error .err else .ok (n % p)

/-- `checked_from` (plonky3_macros.rs:108-114, goldilocks.rs:377-383, macros.rs:354-361). -/
def checkedFrom (k : FieldKind) (n : ℕ) : Except NumError (Option ℕ) :=
  if n < k.modulus then (k.fromBig n).map some else .ok none

/-- `Display` (plonky3_macros.rs:36, goldilocks.rs:37, macros.rs:521-526). -/
def display (a : ℕ) : List Char := Nat.toDigits 10 a

/-- `LowerHex` (plonky3_macros.rs:131-135, goldilocks.rs:398-402, macros.rs:330-334). -/
def lowerHex (a : ℕ) : List Char := Nat.toDigits 16 a

/-- `to_le_bytes` with `n` bytes (std, ark_ff). -/
def leBytes : ℕ → ℕ → List (BitVec 8)
  | 0, _ => []
  | n + 1, a => BitVec.ofNat 8 a :: leBytes n (a / 256)

/-- `from_le_bytes` (std, ibig; macros.rs:386-401 by limbs). -/
def ofLeBytes : List (BitVec 8) → ℕ
  | [] => 0
  | b :: t => b.toNat + 256 * ofLeBytes t

/-- The number of bytes of an element (plonky3_macros.rs:93-95, goldilocks.rs:360-362, macros.rs:382-384). -/
def numBytes : FieldKind → ℕ
  | small _ => 4
  | goldilocks => 8
  | large _ limbs => limbs * 8

/-- `to_bytes_le` (plonky3_macros.rs:93-95, goldilocks.rs:360-362, macros.rs:382-384). -/
def toBytesLe (k : FieldKind) (a : ℕ) : List (BitVec 8) := leBytes k.numBytes a

/-- `from_bytes_le` (plonky3_macros.rs:97-100, goldilocks.rs:364-366, macros.rs:386-401). -/
def fromBytesLe (k : FieldKind) (b : List (BitVec 8)) : Except NumError ℕ :=
  match k with
  | small p => if b.length = 4 then checkedSmall p (ofLeBytes b) else .error .panic
  | goldilocks =>
    if ofLeBytes b < 2 ^ 64 then
      match wrapGoldilocks (ofLeBytes b) with
      | .ok n => wrapGoldilocks n
      | .error e => .error e
    else .error .panic
  | large p limbs =>
    if b.length = limbs * 8 then (if ofLeBytes b < p then .ok (ofLeBytes b) else .error .panic) else .error .panic

/-- `is_in_lower_half` (plonky3_macros.rs:116-119, goldilocks.rs:385-387, macros.rs:403-405). -/
def isInLowerHalf (k : FieldKind) (a : ℕ) : Bool := a ≤ (k.modulus - 1) / 2

/-- `to_signed_integer` (traits.rs:194-201). -/
def toSigned (k : FieldKind) (a : ℕ) : ℤ := if k.isInLowerHalf a then a else (a : ℤ) - k.modulus

end FieldKind
end Verif
