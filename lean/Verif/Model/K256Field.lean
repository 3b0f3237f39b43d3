import Mathlib.Data.Nat.Notation
import Mathlib.Data.Nat.Bitwise

/-!
# The k256 field element of the hints

Model of `openvm-riscv/extensions/hints-circuit/src/field10x26_k256.rs`: arithmetic modulo the
prime of secp256k1 on ten limbs of 26 bits.

The limbs are natural numbers.  Every addition, subtraction and multiplication of `u32` and `u64`
values is checked: a function returns `none` where a build with overflow checks panics, and also
where a `debug_assert!` of the source fails.  A sum of products is checked once, as a whole, since
its parts are not larger than the whole.  `& 0x3FFFFFF` is `% 2^26`, `>> 26` is `/ 2^26`, and
`as u32` is `% 2^32`.
-/

namespace Verif

/-- `FieldElement10x26` (field10x26_k256.rs:50-56): ten limbs, least significant first. -/
structure FieldElement10x26 where
  l0 : ℕ
  l1 : ℕ
  l2 : ℕ
  l3 : ℕ
  l4 : ℕ
  l5 : ℕ
  l6 : ℕ
  l7 : ℕ
  l8 : ℕ
  l9 : ℕ
deriving DecidableEq, Repr

namespace FieldElement10x26

/-- A check that stops the program when it fails: an overflow check or a `debug_assert!`. -/
def check (P : Prop) [Decidable P] : Option Unit := if P then some () else none

/-- `ZERO` (field10x26_k256.rs:61-62). -/
def zero : FieldElement10x26 := ⟨0, 0, 0, 0, 0, 0, 0, 0, 0, 0⟩

/-- `ONE` (field10x26_k256.rs:64-65). -/
def one : FieldElement10x26 := ⟨1, 0, 0, 0, 0, 0, 0, 0, 0, 0⟩

/-- `add_modulus_correction` (field10x26_k256.rs:170-205): adds `x * (2^256 - p)` and carries.
`x << 6` drops the bits above the 32nd. -/
def addModulusCorrection (a : FieldElement10x26) (x : ℕ) : Option FieldElement10x26 := do
  let t0 := a.l0 + x * 0x3D1
  check (t0 < 2 ^ 32)
  let t1 := a.l1 + x * 64 % 2 ^ 32 + t0 / 2 ^ 26
  check (t1 < 2 ^ 32)
  let t2 := a.l2 + t1 / 2 ^ 26
  check (t2 < 2 ^ 32)
  let t3 := a.l3 + t2 / 2 ^ 26
  check (t3 < 2 ^ 32)
  let t4 := a.l4 + t3 / 2 ^ 26
  check (t4 < 2 ^ 32)
  let t5 := a.l5 + t4 / 2 ^ 26
  check (t5 < 2 ^ 32)
  let t6 := a.l6 + t5 / 2 ^ 26
  check (t6 < 2 ^ 32)
  let t7 := a.l7 + t6 / 2 ^ 26
  check (t7 < 2 ^ 32)
  let t8 := a.l8 + t7 / 2 ^ 26
  check (t8 < 2 ^ 32)
  let t9 := a.l9 + t8 / 2 ^ 26
  check (t9 < 2 ^ 32)
  some ⟨t0 % 2 ^ 26, t1 % 2 ^ 26, t2 % 2 ^ 26, t3 % 2 ^ 26, t4 % 2 ^ 26, t5 % 2 ^ 26, t6 % 2 ^ 26, t7 % 2 ^ 26, t8 % 2 ^ 26, t9⟩

/-- `subtract_modulus_approximation` (field10x26_k256.rs:207-219): drops the bits above the 256th
and returns them. -/
def subtractModulusApproximation (a : FieldElement10x26) : FieldElement10x26 × ℕ :=
  (⟨a.l0, a.l1, a.l2, a.l3, a.l4, a.l5, a.l6, a.l7, a.l8, a.l9 % 2 ^ 22⟩, a.l9 / 2 ^ 22)

/-- `get_overflow` (field10x26_k256.rs:221-229).  The operators `|` and `&` on booleans do not
short-circuit, so the additions are checked in every case. -/
def getOverflow (a : FieldElement10x26) : Option Bool := do
  let m := a.l2 &&& a.l3 &&& a.l4 &&& a.l5 &&& a.l6 &&& a.l7 &&& a.l8
  check (a.l0 + 0x3D1 < 2 ^ 32)
  let s := a.l1 + 0x40 + (a.l0 + 0x3D1) / 2 ^ 26
  check (s < 2 ^ 32)
  some (a.l9 / 2 ^ 22 != 0 ||
    (a.l9 == 0x3FFFFF && m == 0x3FFFFFF && decide (s > 0x3FFFFFF)))

/-- `normalize_weak` (field10x26_k256.rs:231-243). -/
def normalizeWeak (a : FieldElement10x26) : Option FieldElement10x26 := do
  let (t, x) := a.subtractModulusApproximation
  let res ← t.addModulusCorrection x
  check (res.l9 / 2 ^ 23 = 0)
  some res

/-- `conditional_select` (field10x26_k256.rs:776-790): the second argument if the choice is set. -/
def conditionalSelect (a b : FieldElement10x26) (choice : Bool) : FieldElement10x26 :=
  if choice then b else a

/-- `normalize` (field10x26_k256.rs:245-265). -/
def normalize (a : FieldElement10x26) : Option FieldElement10x26 := do
  let res ← a.normalizeWeak
  let overflow ← res.getOverflow
  let corrected ← res.addModulusCorrection 1
  let (corrected, x) := corrected.subtractModulusApproximation
  check (x = overflow.toNat)
  some (conditionalSelect res corrected overflow)

/-- `normalizes_to_zero` (field10x26_k256.rs:267-296). -/
def normalizesToZero (a : FieldElement10x26) : Option Bool := do
  let t ← a.normalizeWeak
  let z0 := t.l0 ||| t.l1 ||| t.l2 ||| t.l3 ||| t.l4 ||| t.l5 ||| t.l6 ||| t.l7 ||| t.l8 ||| t.l9
  let z1 := (t.l0 ^^^ 0x3D0) &&& (t.l1 ^^^ 0x40) &&& t.l2 &&& t.l3 &&& t.l4 &&& t.l5 &&& t.l6
    &&& t.l7 &&& t.l8 &&& (t.l9 ^^^ 0x3C00000)
  some (z0 == 0 || z1 == 0x3FFFFFF)

/-- `is_zero` (field10x26_k256.rs:298-317). -/
def isZero (a : FieldElement10x26) : Bool :=
  (a.l0 ||| a.l1 ||| a.l2 ||| a.l3 ||| a.l4 ||| a.l5 ||| a.l6 ||| a.l7 ||| a.l8 ||| a.l9) == 0

/-- `is_odd` (field10x26_k256.rs:319-326). -/
def isOdd (a : FieldElement10x26) : Bool := a.l0 % 2 ^ 8 % 2 == 1

/-- `max_magnitude` (field10x26_k256.rs:328-331). -/
def maxMagnitude : ℕ := 31

/-- A checked subtraction of `u32` values. -/
def sub32 (x y : ℕ) : Option ℕ := if y ≤ x ∧ x < 2 ^ 32 then some (x - y) else none

/-- `negate` (field10x26_k256.rs:333-348). -/
def negate (a : FieldElement10x26) (magnitude : ℕ) : Option FieldElement10x26 := do
  let m := magnitude + 1
  let r0 ← sub32 (0x3FFFC2F * 2 * m) a.l0
  let r1 ← sub32 (0x3FFFFBF * 2 * m) a.l1
  let r2 ← sub32 (0x3FFFFFF * 2 * m) a.l2
  let r3 ← sub32 (0x3FFFFFF * 2 * m) a.l3
  let r4 ← sub32 (0x3FFFFFF * 2 * m) a.l4
  let r5 ← sub32 (0x3FFFFFF * 2 * m) a.l5
  let r6 ← sub32 (0x3FFFFFF * 2 * m) a.l6
  let r7 ← sub32 (0x3FFFFFF * 2 * m) a.l7
  let r8 ← sub32 (0x3FFFFFF * 2 * m) a.l8
  let r9 ← sub32 (0x3FFFFF * 2 * m) a.l9
  some ⟨r0, r1, r2, r3, r4, r5, r6, r7, r8, r9⟩

/-- A checked addition of `u32` values. -/
def add32 (x y : ℕ) : Option ℕ := if x + y < 2 ^ 32 then some (x + y) else none

/-- `add` (field10x26_k256.rs:350-365). -/
def add (a b : FieldElement10x26) : Option FieldElement10x26 := do
  let r0 ← add32 a.l0 b.l0
  let r1 ← add32 a.l1 b.l1
  let r2 ← add32 a.l2 b.l2
  let r3 ← add32 a.l3 b.l3
  let r4 ← add32 a.l4 b.l4
  let r5 ← add32 a.l5 b.l5
  let r6 ← add32 a.l6 b.l6
  let r7 ← add32 a.l7 b.l7
  let r8 ← add32 a.l8 b.l8
  let r9 ← add32 a.l9 b.l9
  some ⟨r0, r1, r2, r3, r4, r5, r6, r7, r8, r9⟩

/-- A checked multiplication of `u32` values. -/
def mul32 (x y : ℕ) : Option ℕ := if x * y < 2 ^ 32 then some (x * y) else none

/-- `mul_single` (field10x26_k256.rs:367-382). -/
def mulSingle (a : FieldElement10x26) (n : ℕ) : Option FieldElement10x26 := do
  let r0 ← mul32 a.l0 n
  let r1 ← mul32 a.l1 n
  let r2 ← mul32 a.l2 n
  let r3 ← mul32 a.l3 n
  let r4 ← mul32 a.l4 n
  let r5 ← mul32 a.l5 n
  let r6 ← mul32 a.l6 n
  let r7 ← mul32 a.l7 n
  let r8 ← mul32 a.l8 n
  let r9 ← mul32 a.l9 n
  some ⟨r0, r1, r2, r3, r4, r5, r6, r7, r8, r9⟩

/-- One of the nine columns of `mul_inner` (field10x26_k256.rs:448-650), which the source writes
out one after the other:
```
c += pc; d += pd; u = d & m; d >>= 26; c += u * rr0; t = c & m; c >>= 26; c += u * rr1;
```
The bounds are those of the `debug_assert!`s of the column: on `c` and `d` after the first two
additions, on `d` after the shift, on `c` after `u * rr0` and on `c` at the end; `2^64` where the
source has none, which is then the overflow check.  The result is `(t, c, d)`. -/
def mulColumn (c d pc pd : ℕ) (cb db db' cb' cb'' : ℕ) : Option (ℕ × ℕ × ℕ) := do
  let c := c + pc
  check (c < cb)
  let d := d + pd
  check (d < db)
  let u := d % 2 ^ 26
  let d := d / 2 ^ 26
  let c := c + u * 0x3D10
  check (d < db')
  check (c < cb')
  let t := c % 2 ^ 26
  let c := c / 2 ^ 26 + u * 0x400
  check (c < cb'')
  some (t, c, d)

/-- The end of `mul_inner` (field10x26_k256.rs:653-693): the part above 256 bits is folded into the
lower limbs once more. -/
def mulFinish (c d t0 t1 t2 r3 r4 r5 r6 r7 r8 t9 : ℕ) : Option FieldElement10x26 := do
  let c := c + d % 2 ^ 32 * 0x3D10 + t9
  check (c < 2 ^ 45)
  let r9 := c % 2 ^ 22
  let c := c / 2 ^ 22 + d * (0x400 * 16)
  check (c < 2 ^ 46)
  let d := c * 0x3D1 + t0
  check (d < 2 ^ 56)
  let r0 := d % 2 ^ 26
  let d := d / 2 ^ 26
  check (d < 2 ^ 30)
  let d := d % 2 ^ 32 + c * 0x40 + t1
  check (d < 2 ^ 53)
  check (d ≤ 0x10000003FFFFBF)
  let r1 := d % 2 ^ 26
  let d := d / 2 ^ 26
  check (d < 2 ^ 27)
  check (d ≤ 0x4000000)
  let d := d % 2 ^ 32 + t2
  check (d < 2 ^ 27)
  some ⟨r0, r1, d % 2 ^ 32, r3, r4, r5, r6, r7, r8, r9⟩

/-- `mul_inner` (field10x26_k256.rs:384-694).  The factor `d32` of the last but one column is `d`
as a `u32`. -/
def mulInner (a b : FieldElement10x26) : Option FieldElement10x26 := do
  let d := a.l0 * b.l9 + a.l1 * b.l8 + a.l2 * b.l7 + a.l3 * b.l6 + a.l4 * b.l5 +
    a.l5 * b.l4 + a.l6 * b.l3 + a.l7 * b.l2 + a.l8 * b.l1 + a.l9 * b.l0
  check (d < 2 ^ 64)
  let t9 := d % 2 ^ 26
  let d := d / 2 ^ 26
  check (d < 2 ^ 38)
  let (t0, c, d) ← mulColumn 0 d (a.l0 * b.l0)
    (a.l1 * b.l9 + a.l2 * b.l8 + a.l3 * b.l7 + a.l4 * b.l6 + a.l5 * b.l5 +
    a.l6 * b.l4 + a.l7 * b.l3 + a.l8 * b.l2 + a.l9 * b.l1)
    (2 ^ 60) (2 ^ 63) (2 ^ 37) (2 ^ 61) (2 ^ 37)
  let (t1, c, d) ← mulColumn c d (a.l0 * b.l1 + a.l1 * b.l0)
    (a.l2 * b.l9 + a.l3 * b.l8 + a.l4 * b.l7 + a.l5 * b.l6 + a.l6 * b.l5 +
    a.l7 * b.l4 + a.l8 * b.l3 + a.l9 * b.l2)
    (2 ^ 62) (2 ^ 63) (2 ^ 37) (2 ^ 63) (2 ^ 38)
  let (t2, c, d) ← mulColumn c d (a.l0 * b.l2 + a.l1 * b.l1 + a.l2 * b.l0)
    (a.l3 * b.l9 + a.l4 * b.l8 + a.l5 * b.l7 + a.l6 * b.l6 + a.l7 * b.l5 +
    a.l8 * b.l4 + a.l9 * b.l3)
    (2 ^ 62) (2 ^ 63) (2 ^ 37) (2 ^ 63) (2 ^ 38)
  let (t3, c, d) ← mulColumn c d (a.l0 * b.l3 + a.l1 * b.l2 + a.l2 * b.l1 + a.l3 * b.l0)
    (a.l4 * b.l9 + a.l5 * b.l8 + a.l6 * b.l7 + a.l7 * b.l6 + a.l8 * b.l5 +
    a.l9 * b.l4)
    (2 ^ 63) (2 ^ 63) (2 ^ 37) (2 ^ 64) (2 ^ 39)
  let (t4, c, d) ← mulColumn c d (a.l0 * b.l4 + a.l1 * b.l3 + a.l2 * b.l2 + a.l3 * b.l1 + a.l4 * b.l0)
    (a.l5 * b.l9 + a.l6 * b.l8 + a.l7 * b.l7 + a.l8 * b.l6 + a.l9 * b.l5)
    (2 ^ 63) (2 ^ 62) (2 ^ 36) (2 ^ 64) (2 ^ 39)
  let (t5, c, d) ← mulColumn c d (a.l0 * b.l5 + a.l1 * b.l4 + a.l2 * b.l3 + a.l3 * b.l2 + a.l4 * b.l1 +
    a.l5 * b.l0)
    (a.l6 * b.l9 + a.l7 * b.l8 + a.l8 * b.l7 + a.l9 * b.l6)
    (2 ^ 63) (2 ^ 62) (2 ^ 36) (2 ^ 64) (2 ^ 39)
  let (t6, c, d) ← mulColumn c d (a.l0 * b.l6 + a.l1 * b.l5 + a.l2 * b.l4 + a.l3 * b.l3 + a.l4 * b.l2 +
    a.l5 * b.l1 + a.l6 * b.l0)
    (a.l7 * b.l9 + a.l8 * b.l8 + a.l9 * b.l7)
    (2 ^ 63) (2 ^ 61) (2 ^ 35) (2 ^ 64) (2 ^ 39)
  let (t7, c, d) ← mulColumn c d (a.l0 * b.l7 + a.l1 * b.l6 + a.l2 * b.l5 + a.l3 * b.l4 + a.l4 * b.l3 +
    a.l5 * b.l2 + a.l6 * b.l1 + a.l7 * b.l0)
    (a.l8 * b.l9 + a.l9 * b.l8)
    (0x8000007C00000007 + 1) (2 ^ 58) (2 ^ 32) (0x800001703FFFC2F7 + 1) (2 ^ 38)
  let (t8, c, d) ← mulColumn c (d % 2 ^ 32) (a.l0 * b.l8 + a.l1 * b.l7 + a.l2 * b.l6 + a.l3 * b.l5 + a.l4 * b.l4 +
    a.l5 * b.l3 + a.l6 * b.l2 + a.l7 * b.l1 + a.l8 * b.l0)
    (a.l9 * b.l9)
    (0x9000007B80000008 + 1) (2 ^ 57) (2 ^ 31) (0x9000016FBFFFC2F8 + 1) (2 ^ 39)
  mulFinish c d t0 t1 t2 t3 t4 t5 t6 t7 t8 t9

/-- `mul` (field10x26_k256.rs:696-701). -/
def mul (a b : FieldElement10x26) : Option FieldElement10x26 := a.mulInner b

/-- `square` (field10x26_k256.rs:703-708). -/
def square (a : FieldElement10x26) : Option FieldElement10x26 := a.mulInner a

/-- `pow2k` (field10x26_k256.rs:710-716). -/
def pow2k (a : FieldElement10x26) : ℕ → Option FieldElement10x26
  | 0 => some a
  | k + 1 => do (← a.square).pow2k k

/-- `x.pow2k(k).mul(y)`, the step from which `invert` and `sqrt` are made. -/
def pow2kMul (a : FieldElement10x26) (k : ℕ) (b : FieldElement10x26) :
    Option FieldElement10x26 := do
  (← a.pow2k k).mul b

/-- The common beginning of `invert` and `sqrt` (field10x26_k256.rs:721-731, 747-757): the powers
`2^2 - 1`, `2^22 - 1` and `2^223 - 1`. -/
def powerChain (a : FieldElement10x26) :
    Option (FieldElement10x26 × FieldElement10x26 × FieldElement10x26) := do
  let x2 ← a.pow2kMul 1 a
  let x3 ← x2.pow2kMul 1 a
  let x6 ← x3.pow2kMul 3 x3
  let x9 ← x6.pow2kMul 3 x3
  let x11 ← x9.pow2kMul 2 x2
  let x22 ← x11.pow2kMul 11 x11
  let x44 ← x22.pow2kMul 22 x22
  let x88 ← x44.pow2kMul 44 x44
  let x176 ← x88.pow2kMul 88 x88
  let x220 ← x176.pow2kMul 44 x44
  let x223 ← x220.pow2kMul 3 x3
  some (x2, x22, x223)

/-- `invert` (field10x26_k256.rs:718-742). -/
def invert (a : FieldElement10x26) : Option FieldElement10x26 := do
  let (x2, x22, x223) ← a.powerChain
  let y ← x223.pow2kMul 23 x22
  let y ← y.pow2kMul 5 a
  let y ← y.pow2kMul 3 x2
  y.pow2kMul 2 a

/-- The candidate root of `sqrt` (field10x26_k256.rs:747-760). -/
def sqrtCandidate (a : FieldElement10x26) : Option FieldElement10x26 := do
  let (x2, x22, x223) ← a.powerChain
  let y ← x223.pow2kMul 23 x22
  let y ← y.pow2kMul 6 x2
  y.pow2k 2

/-- `sqrt` (field10x26_k256.rs:744-766).  The outer `Option` is the program stopping, the inner one
the `CtOption` of the source. -/
def sqrt (a : FieldElement10x26) : Option (Option FieldElement10x26) := do
  let res ← a.sqrtCandidate
  let isRoot ← (← (← (← res.mul res).negate 1).add a).normalizesToZero
  some (if isRoot then some res else none)

/-- `from_bytes_unchecked` (field10x26_k256.rs:67-111): 32 bytes, most significant first.  The
operands of `|` do not overlap, so `|` is written as `+`. -/
def fromBytesUnchecked (b : ℕ → ℕ) : FieldElement10x26 :=
  ⟨b 31 + b 30 * 2 ^ 8 + b 29 * 2 ^ 16 + b 28 % 4 * 2 ^ 24,
   b 28 / 4 + b 27 * 2 ^ 6 + b 26 * 2 ^ 14 + b 25 % 16 * 2 ^ 22,
   b 25 / 16 + b 24 * 2 ^ 4 + b 23 * 2 ^ 12 + b 22 % 64 * 2 ^ 20,
   b 22 / 64 + b 21 * 2 ^ 2 + b 20 * 2 ^ 10 + b 19 * 2 ^ 18,
   b 18 + b 17 * 2 ^ 8 + b 16 * 2 ^ 16 + b 15 % 4 * 2 ^ 24,
   b 15 / 4 + b 14 * 2 ^ 6 + b 13 * 2 ^ 14 + b 12 % 16 * 2 ^ 22,
   b 12 / 16 + b 11 * 2 ^ 4 + b 10 * 2 ^ 12 + b 9 % 64 * 2 ^ 20,
   b 9 / 64 + b 8 * 2 ^ 2 + b 7 * 2 ^ 10 + b 6 * 2 ^ 18,
   b 5 + b 4 * 2 ^ 8 + b 3 * 2 ^ 16 + b 2 % 4 * 2 ^ 24,
   b 2 / 4 + b 1 * 2 ^ 6 + b 0 * 2 ^ 14⟩

/-- `from_bytes` (field10x26_k256.rs:113-122). -/
def fromBytes (b : ℕ → ℕ) : Option (Option FieldElement10x26) := do
  let res := fromBytesUnchecked b
  let overflow ← res.getOverflow
  some (if overflow then none else some res)

/-- `from_u64` (field10x26_k256.rs:124-130). -/
def fromU64 (val : ℕ) : FieldElement10x26 :=
  ⟨val % 2 ^ 32 % 2 ^ 26, val / 2 ^ 26 % 2 ^ 32 % 2 ^ 26, val / 2 ^ 26 / 2 ^ 26 % 2 ^ 32,
    0, 0, 0, 0, 0, 0, 0⟩

/-- `to_bytes` (field10x26_k256.rs:132-168).  `as u8` is `% 2^8`; the operands of `|` do not
overlap, so `|` is written as `+`. -/
def toBytes (a : FieldElement10x26) : List ℕ :=
  [a.l9 / 2 ^ 14 % 2 ^ 8, a.l9 / 2 ^ 6 % 2 ^ 8,
   a.l9 % 2 ^ 8 % 2 ^ 6 * 4 + a.l8 / 2 ^ 24 % 2 ^ 8 % 4,
   a.l8 / 2 ^ 16 % 2 ^ 8, a.l8 / 2 ^ 8 % 2 ^ 8, a.l8 % 2 ^ 8,
   a.l7 / 2 ^ 18 % 2 ^ 8, a.l7 / 2 ^ 10 % 2 ^ 8, a.l7 / 2 ^ 2 % 2 ^ 8,
   a.l7 % 2 ^ 8 % 4 * 2 ^ 6 + a.l6 / 2 ^ 20 % 2 ^ 8 % 2 ^ 6,
   a.l6 / 2 ^ 12 % 2 ^ 8, a.l6 / 2 ^ 4 % 2 ^ 8,
   a.l6 % 2 ^ 8 % 2 ^ 4 * 2 ^ 4 + a.l5 / 2 ^ 22 % 2 ^ 8 % 2 ^ 4,
   a.l5 / 2 ^ 14 % 2 ^ 8, a.l5 / 2 ^ 6 % 2 ^ 8,
   a.l5 % 2 ^ 8 % 2 ^ 6 * 4 + a.l4 / 2 ^ 24 % 2 ^ 8 % 4,
   a.l4 / 2 ^ 16 % 2 ^ 8, a.l4 / 2 ^ 8 % 2 ^ 8, a.l4 % 2 ^ 8,
   a.l3 / 2 ^ 18 % 2 ^ 8, a.l3 / 2 ^ 10 % 2 ^ 8, a.l3 / 2 ^ 2 % 2 ^ 8,
   a.l3 % 2 ^ 8 % 4 * 2 ^ 6 + a.l2 / 2 ^ 20 % 2 ^ 8 % 2 ^ 6,
   a.l2 / 2 ^ 12 % 2 ^ 8, a.l2 / 2 ^ 4 % 2 ^ 8,
   a.l2 % 2 ^ 8 % 2 ^ 4 * 2 ^ 4 + a.l1 / 2 ^ 22 % 2 ^ 8 % 2 ^ 4,
   a.l1 / 2 ^ 14 % 2 ^ 8, a.l1 / 2 ^ 6 % 2 ^ 8,
   a.l1 % 2 ^ 8 % 2 ^ 6 * 4 + a.l0 / 2 ^ 24 % 2 ^ 8 % 4,
   a.l0 / 2 ^ 16 % 2 ^ 8, a.l0 / 2 ^ 8 % 2 ^ 8, a.l0 % 2 ^ 8]

end FieldElement10x26

end Verif
