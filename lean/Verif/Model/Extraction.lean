import Verif.Model.Machine
import Verif.Model.OpenVm

/-!
# Model of the extraction of instruction machines from the AIRs of a virtual machine

`openvm/src/utils.rs`, `try_convert` (autoprecompiles/src/expression.rs:84-112) and `openvm/src/extraction_utils.rs`.

Simplifications:
* An AIR of OpenVM is what `get_columns`, `get_constraints` and `get_air_metrics` ask it for: a name, a width, names of
  columns, the width of the preprocessed trace, and symbolic constraints and interactions.
* A `HashMap` or `BTreeMap` is a function to optional values; `opcodes` is the list of its keys where they are asked for.
* The name of a column is left out of its reference, as in `Model/Expression`.
* `u64`, `u16` and `usize` do not overflow.
-/

namespace Verif

/-- How an extraction fails: with a panic, or with `UnsupportedOpenVmReferenceError` (utils.rs:43-46). -/
inductive ExtractError where
  | panic
  | unsupported
deriving DecidableEq

/-- `Entry` of OpenVM (imported in utils.rs:8): a column of the main trace (`part_index`, `offset`), or of another trace
(preprocessed, permutation, public, challenge, exposed). -/
inductive AirEntry where
  | main (part offset : ℕ)
  | other (kind : ℕ)
deriving DecidableEq

/-- `SymbolicExpression` of OpenVM (imported in utils.rs:7), without the degrees. -/
inductive AirExpr (F : Type) where
  | constant (c : F)
  | column (entry : AirEntry) (index : ℕ)
  | isFirstRow
  | isLastRow
  | isTransition
  | add (x y : AirExpr F)
  | sub (x y : AirExpr F)
  | mul (x y : AirExpr F)
  | neg (x : AirExpr F)
deriving DecidableEq

/-- `OpenVmReference` (utils.rs:23-29). -/
inductive OpenVmRef where
  | witness (id : ℕ) (next : Bool)
  | isFirstRow
  | isLastRow
  | isTransition
deriving DecidableEq

section
variable {F : Type}

/-- The reference for a variable (utils.rs:75-95). -/
def symbolicVariable (columns : List String) (entry : AirEntry) (index : ℕ) : Except ExtractError OpenVmRef :=
  match entry with
  | .main part offset =>
    if part ≠ 0 then .error .panic
    else if offset ≠ 0 ∧ offset ≠ 1 then .error .panic
    else if index < columns.length then .ok (.witness index (decide (offset = 1)))
    else .error .panic
  | .other _ => .error .panic

/-- `symbolic_to_algebraic` (utils.rs:59-104). -/
def symbolicToAlgebraic (columns : List String) : AirExpr F → Except ExtractError (AlgExpr F OpenVmRef)
  | .constant c => .ok (.number c)
  | .add x y => do
    let x ← symbolicToAlgebraic columns x
    let y ← symbolicToAlgebraic columns y
    pure (.binary x .add y)
  | .sub x y => do
    let x ← symbolicToAlgebraic columns x
    let y ← symbolicToAlgebraic columns y
    pure (.binary x .sub y)
  | .mul x y => do
    let x ← symbolicToAlgebraic columns x
    let y ← symbolicToAlgebraic columns y
    pure (.binary x .mul y)
  | .neg x => do
    let x ← symbolicToAlgebraic columns x
    pure (.minus x)
  | .column entry index => do
    let r ← symbolicVariable columns entry index
    pure (.reference r)
  | .isFirstRow => .ok (.reference .isFirstRow)
  | .isLastRow => .ok (.reference .isLastRow)
  | .isTransition => .ok (.reference .isTransition)

/-- `TryFrom<OpenVmReference> for AlgebraicReference` (utils.rs:48-57). -/
def OpenVmRef.tryInto : OpenVmRef → Except ExtractError ℕ
  | .witness id false => .ok id
  | _ => .error .unsupported

/-- `try_convert` (expression.rs:84-112). -/
def tryConvert : AlgExpr F OpenVmRef → Except ExtractError (AlgExpr F ℕ)
  | .reference r => do
    let r ← r.tryInto
    pure (.reference r)
  | .number n => .ok (.number n)
  | .binary l op r => do
    let l ← tryConvert l
    let r ← tryConvert r
    pure (.binary l op r)
  | .minus e => do
    let e ← tryConvert e
    pure (.minus e)

/-- `try_convert(symbolic_to_algebraic(expr, columns))`. -/
def extractExpr (columns : List String) (e : AirExpr F) : Except ExtractError (AlgExpr F ℕ) := do
  let e ← symbolicToAlgebraic columns e
  tryConvert e

/-- `SymbolicInteraction` of OpenVM. -/
structure AirInteraction (F : Type) where
  busIndex : ℕ
  message : List (AirExpr F)
  count : AirExpr F
deriving DecidableEq

/-- `openvm_bus_interaction_to_powdr` (utils.rs:106-120). -/
def extractInteraction (columns : List String) (i : AirInteraction F) : Except ExtractError (SymBus F ℕ) := do
  let mult ← extractExpr columns i.count
  let args ← i.message.mapM (extractExpr columns)
  pure ⟨i.busIndex, mult, args⟩

/-- What the extraction asks of an AIR. -/
structure VmAir (F : Type) where
  name : String
  width : ℕ
  columnNames : Option (List String)
  preprocessed : Option ℕ
  constraints : List (AirExpr F)
  interactions : List (AirInteraction F)

/-- `get_columns` (extraction_utils.rs:377-388). -/
def getColumns (a : VmAir F) : Except ExtractError (List String) :=
  match a.columnNames with
  | some l => if l.length = a.width then .ok l else .error .panic
  | none => .ok ((List.range a.width).map fun i => "unknown_" ++ toString i)

/-- `AirWidths` (extraction_utils.rs:426-430) and `AirMetrics` (openvm/src/lib.rs:459-463). -/
structure AirMetrics where
  preprocessed : ℕ
  main : ℕ
  constraints : ℕ
  busInteractions : ℕ
deriving DecidableEq

/-- `get_air_metrics` (extraction_utils.rs:401-417). -/
def getAirMetrics (a : VmAir F) : AirMetrics where
  preprocessed := a.preprocessed.getD 0
  main := a.width
  constraints := a.constraints.length
  busInteractions := a.interactions.length

/-- `AirStats` (autoprecompiles/src/evaluation.rs:12-21). -/
structure AirStats where
  mainColumns : ℕ
  constraints : ℕ
  busInteractions : ℕ
deriving DecidableEq

/-- `From<AirMetrics> for AirStats` (openvm/src/lib.rs:465-473). -/
def AirMetrics.toStats (m : AirMetrics) : AirStats := ⟨m.main, m.constraints, m.busInteractions⟩

/-- The closure `machine` of `airs` (extraction_utils.rs:281-305). -/
def extractMachine (a : VmAir F) : Except ExtractError (SymMachine F ℕ × AirMetrics) := do
  let columns ← getColumns a
  let constraints ← a.constraints.mapM (extractExpr columns)
  let bus ← a.interactions.mapM (extractInteraction columns)
  pure (⟨constraints.map AlgExpr.toConstraint, bus, []⟩, getAirMetrics a)

/-- `OriginalAirs` (extraction_utils.rs:39-49). -/
structure OriginalAirs (F : Type) where
  degreeBound : ℕ
  opcodes : List ℕ
  opcodeToAir : ℕ → Option String
  airNameToMachine : String → Option (SymMachine F ℕ × AirMetrics)

/-- `with_degree_bound` (extraction_utils.rs:119-126). -/
def OriginalAirs.withDegreeBound (degreeBound : ℕ) : OriginalAirs F :=
  ⟨degreeBound, [], fun _ => none, fun _ => none⟩

/-- The insertion of the opcode (extraction_utils.rs:95). -/
def OriginalAirs.addOpcode (o : OriginalAirs F) (opcode : ℕ) (airName : String) : OriginalAirs F :=
  { o with opcodes := o.opcodes ++ [opcode], opcodeToAir := Function.update o.opcodeToAir opcode (some airName) }

/-- `insert_opcode` (extraction_utils.rs:80-97). -/
def OriginalAirs.insertOpcode (o : OriginalAirs F) (opcode : ℕ) (airName : String)
    (machine : Except ExtractError (SymMachine F ℕ × AirMetrics)) : Except ExtractError (OriginalAirs F) :=
  if (o.opcodeToAir opcode).isSome then .error .panic
  else if (o.airNameToMachine airName).isSome then .ok (o.addOpcode opcode airName)
  else do
    let m ← machine
    pure ({ o with airNameToMachine := Function.update o.airNameToMachine airName (some m) }.addOpcode opcode airName)

/-- `get_instruction_air_and_id` (extraction_utils.rs:56-68). -/
def OriginalAirs.airAndId (o : OriginalAirs F) (opcode : ℕ) : Except Panic (String × SymMachine F ℕ) :=
  match o.opcodeToAir opcode with
  | none => .error .assertion
  | some id =>
    match o.airNameToMachine id with
    | none => .error .assertion
    | some m => .ok (id, m.1)

/-- `get_instruction_metrics` (extraction_utils.rs:99-105). -/
def OriginalAirs.instructionMetrics (o : OriginalAirs F) (opcode : ℕ) : Option AirMetrics :=
  (o.opcodeToAir opcode).bind fun name => (o.airNameToMachine name).map Prod.snd

/-- `get_instruction_air_stats` (extraction_utils.rs:70-74). -/
def OriginalAirs.airStats (o : OriginalAirs F) (opcode : ℕ) : Except Panic AirStats :=
  match o.instructionMetrics opcode with
  | none => .error .assertion
  | some m => .ok m.toStats

/-- `allow_list` (extraction_utils.rs:107-109). -/
def OriginalAirs.allowList (o : OriginalAirs F) : List ℕ := o.opcodes

/-- The inventories of the virtual machine: `instruction_lookup` of the executors, `executor_idx_to_insertion_idx` of the
chips, and the AIRs in the order of insertion. -/
structure VmInventory (F : Type) where
  instructionLookup : ℕ → Option ℕ
  insertionIndex : List ℕ
  extAirs : List (VmAir F)

/-- The AIR of an executor (extraction_utils.rs:273-275). -/
def VmInventory.airOfExecutor (v : VmInventory F) (executor : ℕ) : Except ExtractError (VmAir F) :=
  match v.insertionIndex[executor]? with
  | none => .error .panic
  | some i =>
    match v.extAirs[i]? with
    | none => .error .panic
    | some a => .ok a

/-- One step of the fold in `airs` (extraction_utils.rs:266-308). -/
def addAllowed (v : VmInventory F) (o : OriginalAirs F) (op : ℕ) : Except ExtractError (OriginalAirs F) :=
  match v.instructionLookup op with
  | none => .ok o
  | some executor => do
    let a ← v.airOfExecutor executor
    o.insertOpcode op a.name (extractMachine a)

/-- `OriginalVmConfig::airs` (extraction_utils.rs:254-310). -/
def VmInventory.airs (v : VmInventory F) (degreeBound : ℕ) (allowed : List ℕ) : Except ExtractError (OriginalAirs F) :=
  allowed.foldlM (addAllowed v) (OriginalAirs.withDegreeBound degreeBound)

/-- `AirStats::new` (autoprecompiles/src/evaluation.rs:24-30) with `main_columns` (symbolic_machine.rs:130-132): the references of the machine,
each once. -/
def machineStats (m : SymMachine F ℕ) : AirStats :=
  ⟨m.refs.dedup.length, m.constraints.length, m.bus.length⟩

/-- `Add for AirStats` and `Sum for AirStats` (autoprecompiles/src/evaluation.rs:33-48). -/
def sumStats (l : List AirStats) : AirStats :=
  l.foldl (fun a b => ⟨a.mainColumns + b.mainColumns, a.constraints + b.constraints,
    a.busInteractions + b.busInteractions⟩) ⟨0, 0, 0⟩

/-- `evaluate_apc` (autoprecompiles/src/evaluation.rs:63-79), for the opcodes of the block: the statistics before and after. -/
def evaluateApc (o : OriginalAirs F) (opcodes : List ℕ) (machine : SymMachine F ℕ) :
    Except Panic (AirStats × AirStats) := do
  let before ← opcodes.mapM o.airStats
  pure (sumStats before, machineStats machine)

end

/-! ## The map of the buses -/

/-- One pair in `from_id_type_pairs` (bus_map.rs:40-44). The map is ordered by id. -/
def BusMap.insertPair (k : ℕ) (t : BusType) : BusMap → Except Panic BusMap
  | [] => .ok [(k, t)]
  | (k', t') :: m =>
    if k < k' then .ok ((k, t) :: (k', t') :: m)
    else if k = k' then if t' = t then .ok ((k', t') :: m) else .error .assertion
    else do
      let m ← BusMap.insertPair k t m
      pure ((k', t') :: m)

/-- `BusMap::from_id_type_pairs` (autoprecompiles/src/bus_map.rs:37-48). -/
def BusMap.fromPairs (pairs : List (ℕ × BusType)) : Except Panic BusMap :=
  pairs.foldlM (fun m x => BusMap.insertPair x.1 x.2 m) []

/-- `OriginalVmConfig::bus_map` (extraction_utils.rs:312-358): the indices of the buses of the connector and the memory, and
of the first lookup chips, if there are any. -/
def vmBusMap (execution memory program range : ℕ) (bitwise : Option ℕ) (tuple : Option (ℕ × ℕ × ℕ)) :
    Except Panic BusMap :=
  BusMap.fromPairs ([(execution, .executionBridge), (memory, .memory), (program, .pcLookup),
    (range, .other .variableRangeChecker)] ++ bitwise.toList.map (fun i => (i, .other .bitwiseLookup)) ++
    tuple.toList.map fun x => (x.1, .other (.tupleRangeChecker x.2.1 x.2.2)))

/-! ## The cached chip complex -/

section
variable {C X : Type}

/-- The clones of an `OriginalVmConfig` (extraction_utils.rs:181-186): each has its own configuration, and all share one
`Arc<Mutex<Option<ChipComplex>>>`. -/
structure VmConfigs (C X : Type) where
  configs : List C
  cache : Option X

/-- What can be done with the clones of a configuration. `update` is `config_mut` followed by a change of the result. -/
inductive VmConfigOp (C : Type) where
  | clone (i : ℕ)
  | update (i : ℕ) (f : C → C)
  | chipComplex (i : ℕ)

/-- `OriginalVmConfig::new` (extraction_utils.rs:221-226). -/
def VmConfigs.new (c : C) : VmConfigs C X := ⟨[c], none⟩

/-- One operation (`Clone`, `config_mut`, extraction_utils.rs:232-236, `chip_complex`, extraction_utils.rs:238-252). The result is that
of `chip_complex`. An operation on an object that does not exist does nothing. -/
def VmConfigs.step (create : C → X) (s : VmConfigs C X) : VmConfigOp C → VmConfigs C X × Option X
  | .clone i =>
    match s.configs[i]? with
    | none => (s, none)
    | some c => ({ s with configs := s.configs ++ [c] }, none)
  | .update i f =>
    match s.configs[i]? with
    | none => (s, none)
    | some c => (⟨s.configs.set i (f c), none⟩, none)
  | .chipComplex i =>
    match s.configs[i]? with
    | none => (s, none)
    | some c =>
      match s.cache with
      | some x => (s, some x)
      | none => ({ s with cache := some (create c) }, some (create c))

/-- A history of operations. -/
def VmConfigs.run (create : C → X) (s : VmConfigs C X) (ops : List (VmConfigOp C)) : VmConfigs C X :=
  ops.foldl (fun s op => (s.step create op).1) s

end

end Verif
