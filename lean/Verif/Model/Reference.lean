import Verif.Model.Blocks
import Mathlib.Data.List.Basic

/-!
# Model of the serialisation of column references (`autoprecompiles/src/expression.rs`)

A string is a list of characters. The code cuts the UTF-8 bytes of the string at the position of the ASCII
character `@`; this is the same as cutting the list of characters. The escape of strings by the serialisation
format itself (JSON) is not modelled. `u64::from_str` and the display of `u64` are modelled after the
documentation of the Rust standard library.
-/

namespace Verif

/-- `AlgebraicReference` (expression.rs:12-19). -/
structure ColumnReference where
  name : List Char
  id : ℕ
  deriving DecidableEq

/-- The decimal digit of a number below ten. -/
def decimalDigit (n : ℕ) : Char := Char.ofNat (48 + n)

/-- `Display` of `u64` (Rust standard library). -/
def displayNat (n : ℕ) : List Char :=
  if n < 10 then [decimalDigit n] else displayNat (n / 10) ++ [decimalDigit (n % 10)]
termination_by n

/-- `Serialize for AlgebraicReference` (expression.rs:50-57). -/
def ColumnReference.serialize (r : ColumnReference) : List Char := r.name ++ '@' :: displayNat r.id

/-- The value of a decimal digit. -/
def digitValue (c : Char) : Option ℕ := if 48 ≤ c.toNat ∧ c.toNat ≤ 57 then some (c.toNat - 48) else none

/-- The loop of `u64::from_str` (Rust standard library), with overflow checks. -/
def parseDigits : List Char → ℕ → Option ℕ
  | [], acc => some acc
  | c :: t, acc =>
    match digitValue c with
    | none => none
    | some d => if acc * 10 + d < 2 ^ 64 then parseDigits t (acc * 10 + d) else none

/-- `u64::from_str` (Rust standard library): an optional plus sign and at least one digit. -/
def parseU64 (s : List Char) : Option ℕ :=
  match s with
  | [] => none
  | ['+'] => none
  | ['-'] => none
  | c :: t => if c = '+' then parseDigits t 0 else parseDigits (c :: t) 0

/-- `str::rfind`: the position of the last occurrence. -/
def rfindChar (c : Char) : List Char → Option ℕ
  | [] => none
  | a :: t =>
    match rfindChar c t with
    | some i => some (i + 1)
    | none => if a = c then some 0 else none

/-- `Deserialize for AlgebraicReference` (expression.rs:59-80). `none` is an error. -/
def ColumnReference.deserialize (s : List Char) : Option ColumnReference :=
  match rfindChar '@' s with
  | none => none
  | some pos =>
    match parseU64 (s.drop (pos + 1)) with
    | none => none
    | some id => some ⟨s.take pos, id⟩

/-- `PartialEq for AlgebraicReference` (expression.rs:39-43). -/
def ColumnReference.eq (a b : ColumnReference) : Bool := a.id = b.id

/-- `Ord for AlgebraicReference` (expression.rs:27-37). -/
def ColumnReference.cmp (a b : ColumnReference) : Ordering := compare a.id b.id

end Verif
