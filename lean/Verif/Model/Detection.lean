import Verif.Model.Empirical
import Mathlib.Data.List.Sort

/-!
# Model of `openvm/src/empirical_constraints.rs`

A `BTreeMap` is a list of pairs with different keys, as in `Verif.Model.Empirical`. The execution of the
program (`do_with_cpu_trace`) is a parameter: a list of segments, and for each segment a list of the traces
of instruction chips. The evaluation of the execution bus interaction of a row is in the row: whether the
multiplicity is nonzero, and the two arguments. Numbers are natural numbers.
-/

namespace Verif

/-- `Timestamp` (openvm/src/empirical_constraints.rs:30-35): segment index and value. -/
abbrev Timestamp := ℕ × ℕ

/-- The derived order of `Timestamp` (openvm/src/empirical_constraints.rs:30). -/
def Timestamp.Le (a b : Timestamp) : Prop := a.1 < b.1 ∨ a.1 = b.1 ∧ a.2 ≤ b.2

instance : DecidableRel Timestamp.Le := fun a b => by unfold Timestamp.Le; infer_instance

/-- `Row` (openvm/src/empirical_constraints.rs:37-46). -/
structure TraceRow where
  pc : ℕ
  timestamp : Timestamp
  cells : List ℕ
  deriving DecidableEq

/-- `entry(key).or_insert(Vec::new()).push(value)` for all values in order. -/
def groupByKey {V : Type} (l : List (ℕ × V)) : List (ℕ × List V) :=
  l.foldl (fun m x => pcMapUpsert x.1 (fun vs => vs ++ [x.2]) [x.2] m) []

/-- `Trace::rows_by_pc` (openvm/src/empirical_constraints.rs:56-62). -/
def rowsByPc (rows : List TraceRow) : List (ℕ × List TraceRow) :=
  groupByKey (rows.map fun row => (row.pc, row))

/-- The order used by `rows_sorted_by_time` (openvm/src/empirical_constraints.rs:66). -/
def rowLe (a b : TraceRow) : Prop := a.timestamp.Le b.timestamp

instance : DecidableRel rowLe := fun a b => by unfold rowLe; infer_instance

/-- `Trace::rows_sorted_by_time` (openvm/src/empirical_constraints.rs:64-67). The sort is stable. -/
def rowsSortedByTime (rows : List TraceRow) : List TraceRow := rows.insertionSort rowLe

/-- `ConcreteBlock::equivalence_classes` (openvm/src/empirical_constraints.rs:273-289), the pairs of value
and cell. -/
def cellsByValue (rows : List TraceRow) : List (ℕ × BlockCell) :=
  rows.zipIdx.flatMap fun x => x.1.cells.zipIdx.map fun y => (y.1, (x.2, y.2))

/-- `ConcreteBlock::equivalence_classes` (openvm/src/empirical_constraints.rs:273-289): the possible
results. -/
def InstanceClasses (rows : List TraceRow) (r : Except LoopStop (Partition BlockCell)) : Prop :=
  ∃ vs : List (List BlockCell), vs.Perm ((groupMap (cellsByValue rows)).map Prod.snd) ∧
    r = Partition.fromIter vs

/-- `row.cells[col_index]` (openvm/src/empirical_constraints.rs:351). -/
def rowCell (row : TraceRow) (col : ℕ) : Except LoopStop ℕ :=
  match row.cells[col]? with
  | none => .error .panic
  | some v => .ok v

/-- `(values[p1_index], values[p99_index])` of a column
(openvm/src/empirical_constraints.rs:348-358). -/
def columnRange (rows : List TraceRow) (col : ℕ) : Except LoopStop (ℕ × ℕ) := do
  let values ← rows.mapM fun row => rowCell row col
  let sorted := values.insertionSort (· ≤ ·)
  let len := sorted.length
  match sorted[len / 100]?, sorted[len * 99 / 100]? with
  | some lo, some hi => pure (lo, hi)
  | _, _ => .error .panic

/-- `detect_column_ranges` (openvm/src/empirical_constraints.rs:340-359). -/
def detectColumnRanges (rows : List TraceRow) : Except LoopStop (List (ℕ × ℕ)) :=
  match rows with
  | [] => .error .panic
  | first :: _ =>
    if rows.all fun row => row.cells.length = first.cells.length then
      (List.range first.cells.length).mapM fun col => columnRange rows col
    else .error .panic

/-- `detect_column_ranges_by_pc` (openvm/src/empirical_constraints.rs:332-339). -/
def detectColumnRangesByPc (rows : List TraceRow) : Except LoopStop (List (ℕ × List (ℕ × ℕ))) :=
  (rowsByPc rows).mapM fun x => do
    let ranges ← detectColumnRanges x.2
    pure (x.1, ranges)

/-- The assertion on consecutive rows (openvm/src/empirical_constraints.rs:419-421). -/
def consecutivePcs : List TraceRow → Bool
  | [] => true
  | [_] => true
  | r1 :: r2 :: t => r2.pc = r1.pc + 4 && consecutivePcs (r2 :: t)

/-- The iterator of `get_blocks` (openvm/src/empirical_constraints.rs:405-423), up to the grouping. The first
argument bounds the number of steps; the number of rows is enough. A block with no instructions
underflows. -/
def getBlocksLoop (counts : List (ℕ × ℕ)) : ℕ → List TraceRow →
    Except LoopStop (List (ℕ × List TraceRow))
  | 0, _ => .ok []
  | _, [] => .ok []
  | n + 1, first :: t =>
    match counts.lookup first.pc with
    | some 0 => .error .panic
    | some (count + 1) =>
      let rows := first :: t.take count
      if consecutivePcs rows then do
        let rest ← getBlocksLoop counts n (t.drop count)
        pure ((first.pc, rows) :: rest)
      else .error .panic
    | none => getBlocksLoop counts n t

/-- `get_blocks` (openvm/src/empirical_constraints.rs:401-429). -/
def getBlocks (counts : List (ℕ × ℕ)) (rows : List TraceRow) :
    Except LoopStop (List (ℕ × List (List TraceRow))) := do
  let blocks ← getBlocksLoop counts rows.length (rowsSortedByTime rows)
  pure (groupByKey blocks)

/-- The classes of all instances of a block (openvm/src/empirical_constraints.rs:386-388). -/
inductive InstancesClasses : List (List TraceRow) → Except LoopStop (List (Partition BlockCell)) → Prop
  | nil : InstancesClasses [] (.ok [])
  | cons {rows t p ps} : InstanceClasses rows (.ok p) → InstancesClasses t (.ok ps) →
      InstancesClasses (rows :: t) (.ok (p :: ps))
  | here {rows t e} : InstanceClasses rows (.error e) → InstancesClasses (rows :: t) (.error e)
  | there {rows t e} : InstancesClasses t (.error e) → InstancesClasses (rows :: t) (.error e)

/-- The intersection for each block (openvm/src/empirical_constraints.rs:373-396): the possible results. -/
inductive BlocksClasses : List (ℕ × List (List TraceRow)) →
    Except LoopStop (List (ℕ × Partition BlockCell)) → Prop
  | nil : BlocksClasses [] (.ok [])
  | cons {k is t ps p m} : InstancesClasses is (.ok ps) → ParallelIntersect ps (.ok p) →
      BlocksClasses t (.ok m) → BlocksClasses ((k, is) :: t) (.ok ((k, p) :: m))
  | classes {k is t e} : InstancesClasses is (.error e) → BlocksClasses ((k, is) :: t) (.error e)
  | intersect {k is t ps e} : InstancesClasses is (.ok ps) → ParallelIntersect ps (.error e) →
      BlocksClasses ((k, is) :: t) (.error e)
  | later {k is t ps p e} : InstancesClasses is (.ok ps) → ParallelIntersect ps (.ok p) →
      BlocksClasses t (.error e) → BlocksClasses ((k, is) :: t) (.error e)

/-- `generate_equivalence_classes_by_block` (openvm/src/empirical_constraints.rs:361-397): the possible
results. -/
def ClassesByBlock (counts : List (ℕ × ℕ)) (rows : List TraceRow)
    (r : Except LoopStop (List (ℕ × Partition BlockCell))) : Prop :=
  match getBlocks counts rows with
  | .error e => r = .error e
  | .ok blocks => BlocksClasses blocks r

/-- The statistics of one trace (openvm/src/empirical_constraints.rs:309-325): the possible results. -/
def TraceConstraints (counts : List (ℕ × ℕ)) (rows : List TraceRow) (debugInfo : DebugInfo)
    (r : Except LoopStop EmpiricalConstraints) : Prop :=
  ∃ classes, ClassesByBlock counts rows classes ∧ r = (do
    let classes ← classes
    let ranges ← detectColumnRangesByPc rows
    pure ⟨ranges, classes, debugInfo, (rowsByPc rows).map fun x => (x.1, x.2.length)⟩)

/-- `process_trace` (openvm/src/empirical_constraints.rs:308-330): the possible results. -/
inductive ProcessTrace (counts : List (ℕ × ℕ)) (acc : EmpiricalConstraints) (rows : List TraceRow)
    (debugInfo : DebugInfo) (r : Except LoopStop EmpiricalConstraints) : Prop
  | ok {e} : TraceConstraints counts rows debugInfo (.ok e) → acc.CombineWith e r →
      ProcessTrace counts acc rows debugInfo r
  | panic {s} : TraceConstraints counts rows debugInfo (.error s) → r = .error s →
      ProcessTrace counts acc rows debugInfo r

/-- `max` of the timestamps (openvm/src/empirical_constraints.rs:240-241). -/
def latestTimestamp : List Timestamp → Option Timestamp
  | [] => none
  | t :: ts => some (ts.foldl (fun m x => if m.Le x then x else m) t)

/-- `take_complete_blocks` (openvm/src/empirical_constraints.rs:234-258). -/
def takeCompleteBlocks (counts : List (ℕ × ℕ)) (rows : List TraceRow) :
    Except LoopStop (List TraceRow × List TraceRow) :=
  match latestTimestamp ((rows.filter fun row => (counts.lookup row.pc).isSome).map
      fun row => row.timestamp) with
  | none => .error .panic
  | some latest =>
    .ok (rows.filter fun row => ¬ latest.Le row.timestamp, rows.filter fun row => latest.Le row.timestamp)

/-- A row of the trace of a chip: whether it is valid, the arguments of the execution bus interaction and the
cells (openvm/src/empirical_constraints.rs:159-180). -/
structure ChipRow where
  valid : Bool
  pc : ℕ
  time : ℕ
  cells : List ℕ

/-- The trace of an instruction chip (openvm/src/empirical_constraints.rs:127-157). -/
structure ChipTrace where
  airId : ℕ
  columnNames : List String
  rows : List ChipRow

/-- The loop over the rows of a chip (openvm/src/empirical_constraints.rs:159-202). -/
def collectRows (segIdx airId : ℕ) : List ChipRow → List TraceRow → DebugInfo →
    Except LoopStop (List TraceRow × DebugInfo)
  | [], rows, debugInfo => .ok (rows, debugInfo)
  | row :: t, rows, debugInfo =>
    if row.valid then
      let rows := rows ++ [⟨row.pc, (segIdx, row.time), row.cells⟩]
      match debugInfo.airIdByPc.lookup row.pc with
      | none => collectRows segIdx airId t rows
          { debugInfo with airIdByPc := pcMapInsert row.pc airId debugInfo.airIdByPc }
      | some a => if a = airId then collectRows segIdx airId t rows debugInfo else .error .panic
    else collectRows segIdx airId t rows debugInfo

/-- The loop over the chips (openvm/src/empirical_constraints.rs:127-203). -/
def collectChips (segIdx : ℕ) : List ChipTrace → List TraceRow → DebugInfo →
    Except LoopStop (List TraceRow × DebugInfo)
  | [], rows, debugInfo => .ok (rows, debugInfo)
  | chip :: t, rows, debugInfo => do
    let debugInfo := if (debugInfo.columnNamesByAirId.lookup chip.airId).isSome then debugInfo
      else { debugInfo with
        columnNamesByAirId := pcMapInsert chip.airId chip.columnNames debugInfo.columnNamesByAirId }
    let (rows, debugInfo) ← collectRows segIdx chip.airId chip.rows rows debugInfo
    collectChips segIdx t rows debugInfo

/-- `detect_empirical_constraints_from_input` (openvm/src/empirical_constraints.rs:104-220), with the trace
and the debug information so far, from segment `segIdx` on: the possible results. -/
inductive DetectInput (counts : List (ℕ × ℕ)) (maxSegments : ℕ) : ℕ → List (List ChipTrace) →
    List TraceRow → DebugInfo → EmpiricalConstraints → Except LoopStop EmpiricalConstraints → Prop
  | finish {i rows debugInfo acc r} : ProcessTrace counts acc rows debugInfo r →
      DetectInput counts maxSegments i [] rows debugInfo acc r
  | collectPanic {i seg t rows debugInfo acc e} : collectChips i seg rows debugInfo = .error e →
      DetectInput counts maxSegments i (seg :: t) rows debugInfo acc (.error e)
  | zero {i seg t rows debugInfo acc rows' debugInfo'} :
      collectChips i seg rows debugInfo = .ok (rows', debugInfo') → maxSegments = 0 →
      DetectInput counts maxSegments i (seg :: t) rows debugInfo acc (.error .panic)
  | keep {i seg t rows debugInfo acc rows' debugInfo' r} :
      collectChips i seg rows debugInfo = .ok (rows', debugInfo') → maxSegments ≠ 0 →
      (i + 1) % maxSegments ≠ 0 →
      DetectInput counts maxSegments (i + 1) t rows' debugInfo' acc r →
      DetectInput counts maxSegments i (seg :: t) rows debugInfo acc r
  | cutPanic {i seg t rows debugInfo acc rows' debugInfo' e} :
      collectChips i seg rows debugInfo = .ok (rows', debugInfo') → maxSegments ≠ 0 →
      (i + 1) % maxSegments = 0 → takeCompleteBlocks counts rows' = .error e →
      DetectInput counts maxSegments i (seg :: t) rows debugInfo acc (.error e)
  | processPanic {i seg t rows debugInfo acc rows' debugInfo' now later e} :
      collectChips i seg rows debugInfo = .ok (rows', debugInfo') → maxSegments ≠ 0 →
      (i + 1) % maxSegments = 0 → takeCompleteBlocks counts rows' = .ok (now, later) →
      ProcessTrace counts acc now debugInfo' (.error e) →
      DetectInput counts maxSegments i (seg :: t) rows debugInfo acc (.error e)
  | process {i seg t rows debugInfo acc rows' debugInfo' now later acc' r} :
      collectChips i seg rows debugInfo = .ok (rows', debugInfo') → maxSegments ≠ 0 →
      (i + 1) % maxSegments = 0 → takeCompleteBlocks counts rows' = .ok (now, later) →
      ProcessTrace counts acc now debugInfo' (.ok acc') →
      DetectInput counts maxSegments (i + 1) t later ⟨[], []⟩ acc' r →
      DetectInput counts maxSegments i (seg :: t) rows debugInfo acc r

/-- The loop over the inputs in `detect_empirical_constraints`
(openvm/src/empirical_constraints.rs:76-102): the possible results. -/
inductive DetectInputs (counts : List (ℕ × ℕ)) (maxSegments : ℕ) : List (List (List ChipTrace)) →
    EmpiricalConstraints → Except LoopStop EmpiricalConstraints → Prop
  | nil {acc} : DetectInputs counts maxSegments [] acc (.ok acc)
  | cons {input t acc acc' r} :
      DetectInput counts maxSegments 0 input [] ⟨[], []⟩ acc (.ok acc') →
      DetectInputs counts maxSegments t acc' r → DetectInputs counts maxSegments (input :: t) acc r
  | panic {input t acc e} : DetectInput counts maxSegments 0 input [] ⟨[], []⟩ acc (.error e) →
      DetectInputs counts maxSegments (input :: t) acc (.error e)

/-- `detect_empirical_constraints` (openvm/src/empirical_constraints.rs:76-102): the possible results. The
counts are a map from the first program counter of the blocks. -/
def DetectEmpiricalConstraints {I : Type} (blocks : List (BasicBlock I)) (maxSegments : ℕ)
    (inputs : List (List (List ChipTrace))) (r : Except LoopStop EmpiricalConstraints) : Prop :=
  DetectInputs (blocks.foldl (fun m b => pcMapInsert b.startPc b.instructions.length m) []) maxSegments
    inputs .default r

end Verif
