import Mathlib.Data.Nat.Notation

/-!
# Model of numerals

Printing and parsing of unsigned integers by the standard library, as used by
`autoprecompiles/src/expression.rs` and `number/src`.
-/

namespace Verif

/-- `char::to_digit` (std). -/
def digitOf (radix : ℕ) (c : Char) : Option ℕ :=
  if 48 ≤ c.toNat ∧ c.toNat ≤ 57 ∧ c.toNat - 48 < radix then some (c.toNat - 48)
  else if 97 ≤ c.toNat ∧ c.toNat ≤ 122 ∧ c.toNat - 87 < radix then some (c.toNat - 87)
  else if 65 ≤ c.toNat ∧ c.toNat ≤ 90 ∧ c.toNat - 55 < radix then some (c.toNat - 55)
  else none

/-- The loop of `from_str_radix` (std). -/
def digitsValue (radix : ℕ) : List Char → ℕ → Option ℕ
  | [], acc => some acc
  | c :: t, acc =>
    match digitOf radix c with
    | none => none
    | some d => digitsValue radix t (acc * radix + d)

/-- The numeral without a plus at its beginning (std, ibig). -/
def stripPlus : List Char → List Char
  | '+' :: t => t
  | s => s

/-- `from_str_radix` of an unsigned type with maximum below `limit` (std): an optional plus and at least one digit. -/
def fromStrRadix (limit radix : ℕ) (s : List Char) : Option ℕ :=
  if stripPlus s = [] then none
  else
    match digitsValue radix (stripPlus s) 0 with
    | none => none
    | some n => if n < limit then some n else none

/-- `rfind` and the two slices around the position (std; autoprecompiles/src/expression.rs:66-72). -/
def splitLast (c : Char) : List Char → Option (List Char × List Char)
  | [] => none
  | x :: t =>
    match splitLast c t with
    | some (a, b) => some (x :: a, b)
    | none => if x = c then some ([], t) else none

end Verif
