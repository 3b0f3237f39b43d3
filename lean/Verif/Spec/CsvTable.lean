import Verif.Model.CsvTable
import Verif.Spec.FieldText

/-!
# Specification: what the cells of a table stand for
-/

namespace Verif
namespace CsvTable

/-- Only white space. -/
def Blank (cell : List Char) : Prop := ∀ c ∈ cell, isWhitespace c = true

/-- The field element a cell stands for: nothing for an empty one, and otherwise a hexadecimal numeral after `0x`, a
decimal numeral, or a decimal numeral after a minus, of a number below the characteristic. -/
def CellStandsFor (k : FieldKind) (cell : List Char) (o : Option ℕ) : Prop :=
  (Blank cell ∧ o = none) ∨
  ∃ n, o = some n ∧
    ((∃ t, cell = '0' :: 'x' :: t ∧ IsRadixNumeral 16 t n ∧ n < k.char) ∨
     (IsRadixNumeral 10 cell n ∧ n < k.char) ∨
     (∃ t m, cell = '-' :: t ∧ IsRadixNumeral 10 t m ∧ m < k.char ∧ IsCanonical k.char n (-(m : ℤ))))

/-- The values in column `i`, without the empty cells. -/
def columnValues (table : List (List (Option ℕ))) (i : ℕ) : List ℕ := table.filterMap fun row => row[i]?.join

end CsvTable
end Verif
