import Verif.Model.Machine
import Mathlib.Data.List.Sort
import Mathlib.Data.List.Dedup
import Mathlib.Data.Nat.Log
import Mathlib.Algebra.Field.Basic

/-!
# Model of the execution of precompiles and of their trace generation

`openvm/src/powdr_extension/executor/mod.rs` (preflight execution),
`openvm/src/extraction_utils.rs` (sizes of the arenas),
`autoprecompiles/src/trace_handler.rs` (`generate_trace`) and
`openvm/src/powdr_extension/trace_generator/cpu/mod.rs` (`generate_witness`).

Simplifications:
* The execution of an instruction by OpenVM is a function `step` on abstract states, which writes exactly one
  record to the arena it is given, or fails. A record beyond the capacity of an arena is a panic.
* The trace generation of an OpenVM chip is a function from the records of its arena to a matrix.
* The name of the AIR of an instruction is part of the instruction. `usize` does not overflow.
* The iteration over the calls is parallel in `generate_trace`; as the iterations do not interact, it is a map.
* Metrics are left out. The GPU version is in `Model/Gpu`.
-/

namespace Verif

/-! ## Arenas and preflight execution -/

/-- `RecordArenaDimension` (executor/mod.rs:176-181), without the width. -/
structure ArenaDimension where
  realHeight : ℕ
  dummyHeight : ℕ
deriving DecidableEq

section
variable {A : Type} [LinearOrder A]

/-- The body of the fold of `record_arena_dimension_by_air_name_per_apc_call` (extraction_utils.rs:141-163): the
entry of an AIR after one more instruction. -/
def ArenaDimension.count (d : ArenaDimension) (useDummy : Bool) : ArenaDimension :=
  if useDummy then { d with dummyHeight := d.dummyHeight + 1 }
  else { d with realHeight := d.realHeight + 1 }

/-- Insert into a map sorted by keys, as `BTreeMap::entry` followed by an update. -/
def btreeUpdate {B : Type} (a : A) (new : B) (f : B → B) : List (A × B) → List (A × B)
  | [] => [(a, f new)]
  | (k, b) :: t =>
    if a < k then (a, f new) :: (k, b) :: t
    else if a = k then (k, f b) :: t
    else (k, b) :: btreeUpdate a new f t

/-- `record_arena_dimension_by_air_name_per_apc_call` (extraction_utils.rs:134-164). -/
def arenaDimensions (airs : List A) (subs : List (List (ℕ × ℕ))) :
    Except Panic (List (A × ArenaDimension)) :=
  if airs.length ≠ subs.length then .error .assertion
  else .ok ((airs.zip subs).foldl
    (fun acc x => btreeUpdate x.1 ⟨0, 0⟩ (·.count x.2.isEmpty) acc) [])

/-- An arena: its capacity and its records. -/
structure RecordArena (R : Type) where
  capacity : ℕ
  records : List R

/-- A new record. -/
def RecordArena.push {R : Type} (a : RecordArena R) (r : R) : Except Panic (RecordArena R) :=
  if a.records.length < a.capacity then .ok { a with records := a.records ++ [r] }
  else .error .assertion

/-- `ArenaPair` (executor/mod.rs:171-174). -/
structure RecordArenaPair (R : Type) where
  real : RecordArena R
  dummy : RecordArena R

/-- `InitializedOriginalArenas` (executor/mod.rs:96-104). -/
structure OriginalArenas (A R : Type) where
  arenas : List (Option (RecordArenaPair R))
  index : List (A × ℕ)
  numberOfCalls : ℕ

/-- `InitializedOriginalArenas::new` (executor/mod.rs:107-145). -/
def OriginalArenas.new {R : Type} (estimate : ℕ) (airs : List A) (subs : List (List (ℕ × ℕ))) :
    Except Panic (OriginalArenas A R) := do
  let dims ← arenaDimensions airs subs
  pure {
    arenas := dims.map fun x => some
      ⟨⟨x.2.realHeight * estimate, []⟩, ⟨x.2.dummyHeight * estimate, []⟩⟩
    index := dims.zipIdx.map fun x => (x.1.1, x.2)
    numberOfCalls := 0 }

/-- `CachedInstructionMeta` (executor/mod.rs:183-188), without the index of the executor. -/
structure CachedMeta where
  arenaIndex : ℕ
  useReal : Bool

/-- The metadata of one instruction (executor/mod.rs:622-638). -/
def cachedMetaOf (index : List (A × ℕ)) (x : A × List (ℕ × ℕ)) : Except Panic CachedMeta :=
  match index.find? fun y => y.1 = x.1 with
  | none => .error .assertion
  | some y => .ok ⟨y.2, !x.2.isEmpty⟩

/-- The metadata of all instructions (executor/mod.rs:613-639). -/
def cachedMetas (airs : List A) (subs : List (List (ℕ × ℕ))) : Except Panic (List CachedMeta) := do
  let dims ← arenaDimensions airs subs
  let index := dims.zipIdx.map fun x => (x.1.1, x.2)
  if airs.length ≠ subs.length then .error .assertion
  else (airs.zip subs).mapM (cachedMetaOf index)

end

/-- What stops an execution: an error of the VM or a panic. -/
inductive ExecStop where
  | vm
  | panic
deriving DecidableEq

section
variable {A I S R : Type}

/-- Add a record to one of the arenas of a pair. -/
def RecordArenaPair.push (useReal : Bool) (q : RecordArenaPair R) (r : R) :
    Except Panic (RecordArenaPair R) := do
  if useReal then
    let a ← q.real.push r
    pure { q with real := a }
  else
    let a ← q.dummy.push r
    pure { q with dummy := a }

/-- Add a record to the arena chosen by the metadata (executor/mod.rs:498-502, 147-163). -/
def OriginalArenas.push (o : OriginalArenas A R) (c : CachedMeta) (r : R) :
    Except Panic (OriginalArenas A R) :=
  match o.arenas[c.arenaIndex]? with
  | some (some q) =>
    match q.push c.useReal r with
    | .ok q' => .ok { o with arenas := o.arenas.set c.arenaIndex (some q') }
    | .error e => .error e
  | _ => .error .assertion

/-- The loop over the instructions (executor/mod.rs:491-517). -/
def executeInstructions (step : I → S → Option (S × R)) :
    List (I × CachedMeta) → S → OriginalArenas A R → Except ExecStop (S × OriginalArenas A R)
  | [], s, o => .ok (s, o)
  | (i, c) :: t, s, o =>
    match step i s with
    | none => .error .vm
    | some (s', r) =>
      match o.push c r with
      | .error _ => .error .panic
      | .ok o' => executeInstructions step t s' o'

/-- `PreflightExecutor::execute` (executor/mod.rs:460-523) with initialized arenas. -/
def executeCall (step : I → S → Option (S × R)) (is : List I) (metas : List CachedMeta) (s : S)
    (o : OriginalArenas A R) : Except ExecStop (S × OriginalArenas A R) :=
  if is.length ≠ metas.length then .error .panic
  else
    match executeInstructions step (is.zip metas) s o with
    | .error e => .error e
    | .ok (s', o') => .ok (s', { o' with numberOfCalls := o'.numberOfCalls + 1 })

/-- `ensure_initialized` (executor/mod.rs:73-93). -/
def ensureInitialized [LinearOrder A] (estimate : ℕ) (airs : List A)
    (subs : List (List (ℕ × ℕ))) (o : Option (OriginalArenas A R)) : Except Panic (OriginalArenas A R) :=
  match o with
  | none => OriginalArenas.new estimate airs subs
  | some o => .ok o

/-- The calls of a segment, one after the other, each from the state in which the VM then is
(executor/mod.rs:460-523). The estimate of the number of calls is only used by the first one. -/
def executeSegment [LinearOrder A] (step : I → S → Option (S × R)) (is : List I) (airs : List A)
    (subs : List (List (ℕ × ℕ))) (metas : List CachedMeta) (estimate : ℕ) :
    List S → Option (OriginalArenas A R) → Except ExecStop (List S × Option (OriginalArenas A R))
  | [], o => .ok ([], o)
  | s :: t, o =>
    match ensureInitialized estimate airs subs o with
    | .error _ => .error .panic
    | .ok o1 =>
      match executeCall step is metas s o1 with
      | .error e => .error e
      | .ok (s', o2) =>
        match executeSegment step is airs subs metas estimate t (some o2) with
        | .error e => .error e
        | .ok (ss, o3) => .ok (s' :: ss, o3)

/-- `take_real_arena` (executor/mod.rs:165-168). -/
def OriginalArenas.takeReal [DecidableEq A] (o : OriginalArenas A R) (a : A) :
    Option (RecordArena R) × OriginalArenas A R :=
  match o.index.find? fun y => y.1 = a with
  | none => (none, o)
  | some y =>
    match o.arenas[y.2]? with
    | some (some q) => (some q.real, { o with arenas := o.arenas.set y.2 none })
    | _ => (none, o)

end

/-! ## Trace generation -/

/-- The trace of a chip (`TraceTrait`, trace_handler.rs:31-37). -/
structure DummyTrace (F : Type) where
  width : ℕ
  values : List F
deriving DecidableEq

section
variable {A F : Type} [DecidableEq A]

/-- The loop over the chips (cpu/mod.rs:122-143): the traces by AIR name. `chips` are the names of the AIRs in the
order of the inventory. -/
def dummyTraces {R : Type} (gen : A → List R → DummyTrace F) :
    List A → OriginalArenas A R → List (A × DummyTrace F)
  | [], _ => []
  | a :: t, o =>
    match o.takeReal a with
    | (some ra, o') => (a, gen a ra.records) :: dummyTraces gen t o'
    | (none, o') => dummyTraces gen t o'

/-- `OriginalRowReference` (trace_handler.rs:12-16). -/
structure RowReference (F : Type) where
  data : List F
  start : ℕ
  length : ℕ

/-- `TraceData` (trace_handler.rs:18-30). The map from ids to indices is the sorted list of the ids; the index of an
id is its position. -/
structure TraceData (F : Type) where
  dummyValues : List (List (RowReference F))
  indices : List (List (ℕ × ℕ))
  columns : List ℕ
  compute : List (ℕ × SymMethod F ℕ)

/-- `main_columns` (symbolic_machine.rs) by `unique_references` (powdr.rs:42-58): the ids in increasing order. -/
def SymMachine.mainColumns (m : SymMachine F ℕ) : List ℕ := m.refs.dedup.insertionSort (· ≤ ·)

/-- The lookup in `apc_poly_id_to_index`. -/
def columnIndex (columns : List ℕ) (id : ℕ) : Except Panic ℕ :=
  if id ∈ columns then .ok (columns.idxOf id) else .error .assertion

/-- The state of `scan` (trace_handler.rs:77-88): the count by AIR. -/
def tableOffsets : List A → (A → ℕ) → List ℕ
  | [], _ => []
  | a :: t, counts => counts a :: tableOffsets t (Function.update counts a (counts a + 1))

/-- The reference to the row of one instruction (trace_handler.rs:110-121). -/
def rowReference (traces : List (A × DummyTrace F)) (occurrences : A → ℕ) (row : ℕ) (x : A × ℕ) :
    Except Panic (RowReference F) :=
  match traces.find? fun y => y.1 = x.1 with
  | none => .error .assertion
  | some y => .ok ⟨y.2.values, (row * occurrences x.1 + x.2) * y.2.width, y.2.width⟩

/-- The index pairs of one instruction (trace_handler.rs:90-102). -/
def indexPairs (columns : List ℕ) (subs : List (ℕ × ℕ)) : Except Panic (List (ℕ × ℕ)) :=
  subs.mapM fun s => do
    let i ← columnIndex columns s.2
    pure (s.1, i)

/-- `generate_trace` (trace_handler.rs:40-134). -/
def generateTrace (traces : List (A × DummyTrace F)) (calls : ℕ) (airs : List A)
    (subs : List (List (ℕ × ℕ))) (m : SymMachine F ℕ) : Except Panic (TraceData F) := do
  if airs.length ≠ subs.length then .error .assertion
  else
    let kept := (airs.zip subs).filter fun x => !x.2.isEmpty
    let ids := kept.map Prod.fst
    let occurrences := fun a => ids.count a
    let columns := m.mainColumns
    let offsets := tableOffsets ids fun _ => 0
    let indices ← kept.mapM fun x => indexPairs columns x.2
    let dummyValues ← (List.range calls).mapM fun row =>
      (ids.zip offsets).mapM (rowReference traces occurrences row)
    pure ⟨dummyValues, indices, columns, m.derived⟩

end

section
variable {F : Type}

/-- The slice of the data (cpu/mod.rs:172). It panics if it is out of range. -/
def RowReference.slice (r : RowReference F) : Except Panic (List F) :=
  if r.start + r.length ≤ r.data.length then .ok ((r.data.drop r.start).take r.length)
  else .error .assertion

/-- An assignment to a cell of the row (cpu/mod.rs:176). -/
def copyCell (dummyRow : List F) (row : List F) (x : ℕ × ℕ) : Except Panic (List F) :=
  match dummyRow[x.1]? with
  | none => .error .assertion
  | some v => if x.2 < row.length then .ok (row.set x.2 v) else .error .assertion

/-- The cells of one instruction (cpu/mod.rs:170-178). -/
def copyCells (row : List F) (x : RowReference F × List (ℕ × ℕ)) : Except Panic (List F) := do
  let dummyRow ← x.1.slice
  x.2.foldlM (copyCell dummyRow) row

/-- The value of a column in the row (cpu/mod.rs:190, expression.rs: `MappingRowEvaluator::eval_var`). -/
def rowValue (columns : List ℕ) (row : List F) (id : ℕ) : Except Panic F := do
  let i ← columnIndex columns id
  match row[i]? with
  | none => .error .assertion
  | some v => pure v

variable [Field F] [DecidableEq F]

/-- `to_expression` with numbers and columns of the row (expression/src/lib.rs: `to_expression`;
`eval_expr`, expression.rs). -/
def evalRow (columns : List ℕ) (row : List F) : AlgExpr F ℕ → Except Panic F
  | .reference r => rowValue columns row r
  | .number n => .ok n
  | .binary l .add r => do
    let a ← evalRow columns row l
    let b ← evalRow columns row r
    pure (a + b)
  | .binary l .sub r => do
    let a ← evalRow columns row l
    let b ← evalRow columns row r
    pure (a - b)
  | .binary l .mul r => do
    let a ← evalRow columns row l
    let b ← evalRow columns row r
    pure (a * b)
  | .minus e => do
    let a ← evalRow columns row e
    pure (-a)

/-- The value of a computed column (cpu/mod.rs:184-201). -/
def computeValue (columns : List ℕ) (row : List F) : SymMethod F ℕ → Except Panic F
  | .constant c => .ok c
  | .quotientOrZero e1 e2 => do
    let d ← evalRow columns row e2
    if d = 0 then pure 0
    else
      let n ← evalRow columns row e1
      pure (d⁻¹ * n)

/-- One computed column (cpu/mod.rs:182-202). -/
def computeColumn (columns : List ℕ) (row : List F) (d : ℕ × SymMethod F ℕ) : Except Panic (List F) := do
  let i ← columnIndex columns d.1
  let v ← computeValue columns row d.2
  if i < row.length then pure (row.set i v) else .error .assertion

/-- The message of an interaction (expression.rs: `eval_bus_interaction`). -/
def evalInteraction (columns : List ℕ) (row : List F) (b : SymBus F ℕ) : Except Panic (ℕ × F × List F) := do
  let mult ← evalRow columns row b.mult
  let args ← b.args.mapM (evalRow columns row)
  pure (b.id, mult, args)

/-- The work on one row (cpu/mod.rs:166-226): the row and the messages that are replayed on the periphery. -/
def witnessRow (d : TraceData F) (bus : List (SymBus F ℕ)) (refs : List (RowReference F)) (row : List F) :
    Except Panic (List F × List (ℕ × F × List F)) := do
  if refs.length ≠ d.indices.length then .error .assertion
  else
    let row ← (refs.zip d.indices).foldlM copyCells row
    let row ← d.compute.foldlM (computeColumn d.columns) row
    let messages ← bus.mapM (evalInteraction d.columns row)
    pure (row, messages)

/-- `next_power_of_two_or_zero` (OpenVM). -/
def nextPowerOfTwoOrZero (n : ℕ) : ℕ := if n = 0 then 0 else 2 ^ Nat.clog 2 n

/-- `generate_witness` (cpu/mod.rs:91-229) after the traces of the chips have been made: the rows of the matrix and the
messages. `chunks_mut` panics on chunks of size zero. -/
def fillWitness (d : TraceData F) (bus : List (SymBus F ℕ)) (calls : ℕ) :
    Except Panic (List F × List (List (ℕ × F × List F))) := do
  let width := d.columns.length
  let height := nextPowerOfTwoOrZero calls
  if width = 0 then .error .assertion
  else
    let filled ← (d.dummyValues.take height).mapM fun refs =>
      witnessRow d bus refs (List.replicate width 0)
    let rows := filled.map Prod.fst ++
      List.replicate (height - filled.length) (List.replicate width 0)
    pure (rows.flatten, filled.map Prod.snd)

/-- `generate_witness` (cpu/mod.rs:91-229). -/
def generateWitness {A R : Type} [DecidableEq A] (gen : A → List R → DummyTrace F) (chips : List A)
    (o : Option (OriginalArenas A R)) (airs : List A) (subs : List (List (ℕ × ℕ))) (m : SymMachine F ℕ) :
    Except Panic (List F × List (List (ℕ × F × List F))) :=
  match o with
  | none => .ok ([], [])
  | some o => do
    let d ← generateTrace (dummyTraces gen chips.reverse o) o.numberOfCalls airs subs m
    fillWitness d m.bus o.numberOfCalls

end

end Verif
