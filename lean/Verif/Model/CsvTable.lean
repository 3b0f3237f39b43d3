import Verif.Model.FieldText
import Verif.Model.Solve

/-!
# Model of tables of field elements in CSV files

`number/src/serialize.rs`. A file is its list of records, and a record is its list of cells: the quoting of the crate
`csv` is not modelled, only that it gives back the records that were written, and that a reader (it is not "flexible")
returns an error for a record with a different number of cells than the header. The header of an empty file has no cells.
-/

namespace Verif
namespace CsvTable

/-- `CsvRenderMode` (serialize.rs:14-20). -/
inductive Mode where
  | signedBase10
  | unsignedBase10
  | hex
deriving DecidableEq

/-- `ROW_NAME` (serialize.rs:22). -/
def rowName : List Char := ['R', 'o', 'w']

/-- The text of a value (serialize.rs:45-49). -/
def render : Mode → ℕ → List Char
  | .signedBase10, v => FieldKind.display v
  | .unsignedBase10, v => FieldKind.display v
  | .hex, v => '0' :: 'x' :: FieldKind.lowerHex v

/-- One row (serialize.rs:40-52): the number of the row, then the value of each column or an empty cell. -/
def row (mode : Mode) (polys : List (List Char × List ℕ)) (i : ℕ) : List (List Char) :=
  Nat.toDigits 10 i :: polys.map fun c => (c.2[i]?.map (render mode)).getD []

/-- `iter().max()` of the lengths (serialize.rs:38, std). -/
def maxLength : List (List Char × List ℕ) → Option ℕ
  | [] => none
  | c :: t => some (t.foldl (fun m d => max m d.2.length) c.2.length)

/-- `write_polys_csv_file` (serialize.rs:24-57). -/
def write (mode : Mode) (polys : List (List Char × List ℕ)) : Except Panic (List (List (List Char))) :=
  if polys.any (fun c => c.1 = rowName) then .error .assertion
  else match maxLength polys with
    | none => .error .assertion
    | some n => .ok ((rowName :: polys.map Prod.fst) :: (List.range n).map (row mode polys))

/-- `char::is_whitespace` (std): the characters with the property `White_Space`. -/
def isWhitespace (c : Char) : Bool :=
  (9 ≤ c.toNat && c.toNat ≤ 13) || c.toNat = 0x20 || c.toNat = 0x85 || c.toNat = 0xa0 || c.toNat = 0x1680 ||
  (0x2000 ≤ c.toNat && c.toNat ≤ 0x200a) || c.toNat = 0x2028 || c.toNat = 0x2029 || c.toNat = 0x202f ||
  c.toNat = 0x205f || c.toNat = 0x3000

/-- `Neg` of a field element (plonky3, goldilocks.rs:187-196, arkworks). -/
def negate (k : FieldKind) (n : ℕ) : ℕ := (k.modulus - n) % k.modulus

/-- `unwrap` of the result of a conversion. -/
def unwrapNum : Except NumError ℕ → Except Panic ℕ
  | .ok n => .ok n
  | .error _ => .error .assertion

/-- A cell that is not empty (serialize.rs:75-81). -/
def readValue (k : FieldKind) : List Char → Except Panic ℕ
  | '0' :: 'x' :: t => unwrapNum (k.fromStrRadix t 16)
  | '-' :: t => (unwrapNum (k.fromStr t)).map (negate k)
  | t => unwrapNum (k.fromStr t)

/-- One cell (serialize.rs:71-82): nothing is appended for an empty one (`value.trim().is_empty()`). -/
def readCell (k : FieldKind) (cell : List Char) : Except Panic (Option ℕ) :=
  if cell.all isWhitespace then .ok none else (readValue k cell).map some

/-- One record (serialize.rs:68-83): the cells are appended to the columns. The number of cells was compared with that of
the header by the reader. -/
def readCells (k : FieldKind) : List (List Char × List ℕ) → List (List Char) → Except Panic (List (List Char × List ℕ))
  | c :: cs, cell :: cells => do
    let v ← readCell k cell
    let rest ← readCells k cs cells
    pure ((c.1, c.2 ++ v.toList) :: rest)
  | cs, _ => .ok cs

/-- One record (serialize.rs:67-84), where `result.unwrap()` panics if its length is wrong. -/
def readRecord (k : FieldKind) (polys : List (List Char × List ℕ)) (record : List (List Char)) :
    Except Panic (List (List Char × List ℕ)) :=
  if record.length = polys.length then readCells k polys record else .error .assertion

/-- The loop over the records (serialize.rs:67-84). -/
def readRecords (k : FieldKind) : List (List Char × List ℕ) → List (List (List Char)) →
    Except Panic (List (List Char × List ℕ))
  | polys, [] => .ok polys
  | polys, r :: rs => do
    let polys ← readRecord k polys r
    readRecords k polys rs

/-- `read_polys_csv_file` (serialize.rs:59-91). -/
def read (k : FieldKind) (file : List (List (List Char))) : Except Panic (List (List Char × List ℕ)) := do
  let polys ← readRecords k ((file.headD []).map fun name => (name, [])) file.tail
  pure (polys.filter fun c => c.1 ≠ rowName)

end CsvTable
end Verif
