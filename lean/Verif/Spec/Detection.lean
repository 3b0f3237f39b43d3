import Verif.Model.Detection
import Verif.Spec.Empirical

/-! # Specification of the detection of empirical constraints -/

namespace Verif

/-- Strictly earlier. -/
def Timestamp.Lt (a b : Timestamp) : Prop := a.1 < b.1 ∨ a.1 = b.1 ∧ a.2 < b.2

/-- The rows recorded for a segment: those of all chips that are not padding. -/
def segmentRows (i : ℕ) (seg : List ChipTrace) : List TraceRow :=
  seg.flatMap fun chip => (chip.rows.filter fun row => row.valid).map fun row =>
    ⟨row.pc, (i, row.time), row.cells⟩

/-- The rows recorded for an input, from segment `i` on. -/
def inputRows : ℕ → List (List ChipTrace) → List TraceRow
  | _, [] => []
  | i, seg :: t => segmentRows i seg ++ inputRows (i + 1) t

/-- The execution that was recorded: the same rows in the order of time. -/
structure IsExecution (rows exec : List TraceRow) : Prop where
  perm : exec.Perm rows
  ordered : exec.Pairwise fun a b => Timestamp.Lt a.timestamp b.timestamp

/-- A block starts at this program counter. -/
def IsBlockStart {I : Type} (blocks : List (BasicBlock I)) (pc : ℕ) : Prop :=
  ∃ b ∈ blocks, b.startPc = pc

/-- The execution follows the blocks: from the start of a block it runs through the block, and there is no
start of another block inside. The last block may be incomplete. -/
def FollowsBlocks {I : Type} (blocks : List (BasicBlock I)) (exec : List TraceRow) : Prop :=
  ∀ i row, exec[i]? = some row → ∀ b ∈ blocks, b.startPc = row.pc →
    b.instructions ≠ [] ∧ ∀ j row', 0 < j → j < b.instructions.length → exec[i + j]? = some row' →
      row'.pc = row.pc + 4 * j ∧ ¬ IsBlockStart blocks row'.pc

/-- The value of a cell in the run of a block of `n` instructions that starts at position `i` of the
execution. -/
def instanceCell (exec : List TraceRow) (i n : ℕ) (x : BlockCell) : Option ℕ :=
  if x.1 < n then (exec[i + x.1]?).bind fun row => row.cells[x.2]? else none

/-- The two cells have the same value whenever the execution reaches the start of the block. -/
def AlwaysEqual (exec : List TraceRow) (start n : ℕ) (x y : BlockCell) : Prop :=
  ∀ i row, exec[i]? = some row → row.pc = start →
    ∃ v, instanceCell exec i n x = some v ∧ instanceCell exec i n y = some v

/-- The number of times the instruction at a program counter was executed. -/
def executions (pc : ℕ) (exec : List TraceRow) : ℕ := exec.countP fun row => row.pc = pc

/-- The number of times a column was below a value. -/
def executionsBelow (pc col v : ℕ) (exec : List TraceRow) : ℕ :=
  exec.countP fun row => row.pc = pc && (row.cells[col]?).any fun w => w < v

/-- The number of times a column was above a value. -/
def executionsAbove (pc col v : ℕ) (exec : List TraceRow) : ℕ :=
  exec.countP fun row => row.pc = pc && (row.cells[col]?).any fun w => v < w

/-- The chip of an instruction, the names and the number of its columns are fixed. -/
structure ChipsConform (airOf : ℕ → ℕ) (names : ℕ → List String) (width : ℕ → ℕ)
    (input : List (List ChipTrace)) : Prop where
  names : ∀ seg ∈ input, ∀ chip ∈ seg, chip.columnNames = names chip.airId
  airs : ∀ seg ∈ input, ∀ chip ∈ seg, ∀ row ∈ chip.rows, row.valid = true → airOf row.pc = chip.airId
  widths : ∀ seg ∈ input, ∀ chip ∈ seg, ∀ row ∈ chip.rows, row.valid = true →
    row.cells.length = width row.pc

/-- The first segment reaches the start of a block. -/
def ReachesBlock {I : Type} (blocks : List (BasicBlock I)) (input : List (List ChipTrace)) : Prop :=
  ∀ seg ∈ input.head?, ∃ row ∈ segmentRows 0 seg, IsBlockStart blocks row.pc

end Verif
