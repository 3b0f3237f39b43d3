import Verif.Model.Solve

/-!
# The Goldilocks field

Model of `number/src/goldilocks.rs`. A `u64`/`u128` is a natural number; overflow is explicit.
The plain operators `+`, `-`, `*` of Rust panic on overflow in debug builds and wrap in
release builds: they are modelled as operations that return `Except.error`
if they overflow, so a theorem that a result is `Except.ok` covers both kinds of build.
`debug_assert!` and `assume` are modelled in the same way.
-/

namespace Verif.Goldilocks

/-- `GoldilocksField::ORDER` (goldilocks.rs:43). -/
def ORDER : ℕ := 0xFFFFFFFF00000001

/-- `EPSILON` (goldilocks.rs:22). -/
def EPSILON : ℕ := 2 ^ 32 - 1

/-- `a + b` on `u64` (std). -/
def addU64 (a b : ℕ) : Except Panic ℕ := if a + b < 2 ^ 64 then .ok (a + b) else .error .assertion
/-- `a - b` on `u64` (std). -/
def subU64 (a b : ℕ) : Except Panic ℕ := if b ≤ a then .ok (a - b) else .error .assertion
/-- `a * b` on `u64` (std). -/
def mulU64 (a b : ℕ) : Except Panic ℕ := if a * b < 2 ^ 64 then .ok (a * b) else .error .assertion
/-- `a * b` on `u128` (std). -/
def mulU128 (a b : ℕ) : Except Panic ℕ := if a * b < 2 ^ 128 then .ok (a * b) else .error .assertion
/-- `u64::overflowing_add` (std). -/
def overflowingAdd (a b : ℕ) : ℕ × Bool := ((a + b) % 2 ^ 64, decide (2 ^ 64 ≤ a + b))
/-- `u64::overflowing_sub` (std). -/
def overflowingSub (a b : ℕ) : ℕ × Bool := ((2 ^ 64 + a - b) % 2 ^ 64, decide (a < b))

/-- `debug_assert!` / `assume` (std; goldilocks.rs:288-295). -/
def check (c : Bool) : Except Panic Unit := if c then .ok () else .error .assertion

/-- `wrap` (goldilocks.rs:133-139). -/
def wrap (x : ℕ) : Except Panic ℕ := if x ≥ ORDER then subU64 x ORDER else .ok x

/-- `Neg` (goldilocks.rs:141-152). -/
def neg (a : ℕ) : Except Panic ℕ := if a = 0 then .ok 0 else subU64 ORDER a

/-- `Add` (goldilocks.rs:154-165). -/
def add (a b : ℕ) : Except Panic ℕ := do
  let (sum, over) := overflowingAdd a b
  let (sum, over) := overflowingAdd sum ((if over then 1 else 0) * EPSILON)
  check (!over)
  wrap sum

/-- `Sub` (goldilocks.rs:174-185). -/
def sub (a b : ℕ) : Except Panic ℕ := do
  let (diff, under) := overflowingSub a b
  let (diff, under) := overflowingSub diff ((if under then 1 else 0) * EPSILON)
  check (!under)
  wrap diff

/-- `add_no_canonicalize_trashing_input` (goldilocks.rs:222-247 for x86-64, 249-255 otherwise).
The inline assembly computes the wrapped sum and, by subtract-with-borrow of a register from
itself, `EPSILON` if there was a carry and 0 otherwise. -/
def addNoCanonicalize (x y : ℕ) : Except Panic ℕ := do
  let (resWrapped, carry) := overflowingAdd x y
  let adjustment := if carry then EPSILON else 0
  check (x ≠ 0 ∨ (resWrapped = y ∧ adjustment = 0))
  check (y ≠ 0 ∨ (resWrapped = x ∧ adjustment = 0))
  addU64 resWrapped adjustment

/-- `reduce128` (goldilocks.rs:259-273), with `split` (282-284). -/
def reduce128 (x : ℕ) : Except Panic ℕ := do
  let xLo := x % 2 ^ 64
  let xHi := x / 2 ^ 64
  let xHiHi := xHi >>> 32
  let xHiLo := xHi &&& EPSILON
  let (t0, borrow) := overflowingSub xLo xHiHi
  let t0 ← if borrow then subU64 t0 EPSILON else .ok t0
  let t1 ← mulU64 xHiLo EPSILON
  let t2 ← addNoCanonicalize t0 t1
  wrap t2

/-- `Mul` (goldilocks.rs:194-200). -/
def mul (a b : ℕ) : Except Panic ℕ := do
  let x ← mulU128 a b
  reduce128 x

/-- `square` (goldilocks.rs:96-98). -/
def square (a : ℕ) : Except Panic ℕ := mul a a

/-- `exp_power_of_2` (goldilocks.rs:100-106). -/
def expPowerOf2 (a : ℕ) : ℕ → Except Panic ℕ
  | 0 => .ok a
  | n + 1 => do
    let b ← square a
    expPowerOf2 b n

/-- `exp_acc` (goldilocks.rs:277-279). -/
def expAcc (n base tail : ℕ) : Except Panic ℕ := do
  let b ← expPowerOf2 base n
  mul b tail

/-- `x.square() * y`. -/
def squareMul (x y : ℕ) : Except Panic ℕ := do
  let s ← square x
  mul s y

/-- `try_inverse` (goldilocks.rs:55-94). -/
def tryInverse (a : ℕ) : Except Panic (Option ℕ) :=
  if a = 0 then .ok none
  else do
    let t2 ← squareMul a a
    let t3 ← squareMul t2 a
    let t6 ← expAcc 3 t3 t3
    let t12 ← expAcc 6 t6 t6
    let t24 ← expAcc 12 t12 t12
    let t30 ← expAcc 6 t24 t6
    let t31 ← squareMul t30 a
    let t63 ← expAcc 32 t31 t31
    let r ← squareMul t63 a
    pure (some r)

/-- `Div` (goldilocks.rs:208-215); dividing by zero panics (`unwrap`). -/
def div (a b : ℕ) : Except Panic ℕ := do
  match ← tryInverse b with
  | none => .error .assertion
  | some i => mul a i

/-- The loop of `pow` (goldilocks.rs:348-357), including the final `r * x`. -/
def powLoop (x r exp : ℕ) : Except Panic ℕ :=
  if 2 ≤ exp then do
    let r ← if exp &&& 1 ≠ 0 then mul r x else .ok r
    let x ← square x
    powLoop x r (exp >>> 1)
  else mul r x
termination_by exp
decreasing_by rw [Nat.shiftRight_eq_div_pow]; omega

/-- `pow` (goldilocks.rs:341-358). -/
def pow (a exp : ℕ) : Except Panic ℕ :=
  if exp = 0 then .ok 1 else if exp = 1 then .ok a else powLoop a 1 exp

/-- `From<u64>` (goldilocks.rs:428-433), also `From<GLLargeInt>` (441-446), `From<BigUint>`
(435-439) of a number that fits 64 bits, and `from_bytes_le` (364-366). -/
def ofU64 (n : ℕ) : Except Panic ℕ := wrap n

/-- `from_canonical_u64` (goldilocks.rs:109-112). -/
def fromCanonicalU64 (n : ℕ) : Except Panic ℕ := do
  check (decide (n < ORDER))
  pure n

/-- `from_noncanonical_i64` (goldilocks.rs:115-124), also `From<i32>`, `From<i64>` (410-420).
`n as u64` of a negative number is `2^64 + n`. -/
def ofI64 (n : ℤ) : Except Panic ℕ :=
  if n < 0 then fromCanonicalU64 ((ORDER + (2 ^ 64 + n).toNat) % 2 ^ 64)
  else fromCanonicalU64 n.toNat

/-- `checked_from` (goldilocks.rs:377-383). -/
def checkedFrom (n : ℕ) : Except Panic (Option ℕ) :=
  if n < ORDER then (ofU64 n).map some else .ok none

/-- `is_in_lower_half` (goldilocks.rs:385-387). -/
def isInLowerHalf (a : ℕ) : Bool := a ≤ (ORDER - 1) / 2

/-- `to_signed_integer` (traits.rs:192-199). -/
def toSigned (a : ℕ) : ℤ := if isInLowerHalf a then a else (a : ℤ) - ORDER

end Verif.Goldilocks
