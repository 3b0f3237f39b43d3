import Verif.Model.Interpret
import Verif.Model.Extraction
import Verif.Model.Periphery

/-!
# Model of the assembly of the specialised VM

`openvm/src/powdr_extension/vm.rs`, `openvm/src/powdr_extension/opcode.rs`, `openvm/src/lib.rs:145-440, 459-542`,
the constructors in `openvm/src/powdr_extension/chip.rs`, and the totals of columns in `openvm/src/extraction_utils.rs`.

Simplifications:
* The original VM is given by its executors, its AIRs and its chips. The inventories of OpenVM are modelled as lists in
  the order of insertion.
* `Rc` is an address; two references with the same address are the same arena.
* The generator of the traces in a chip is a precompile and the tables it uses (its other arguments are the same for
  all).
-/

namespace Verif

section
variable {A E M : Type}

/-- `PowdrOpcode` with `global_opcode` (opcode.rs:5-29): the opcode is the `class_offset`. -/
structure PowdrOpcode where
  classOffset : ℕ
deriving DecidableEq

/-- `global_opcode` (opcode.rs:26-28). -/
def PowdrOpcode.globalOpcode (o : PowdrOpcode) : ℕ := o.classOffset

/-- `AirWidths` (extraction_utils.rs:426-429). -/
structure ColumnWidths where
  preprocessed : ℕ
  main : ℕ
deriving DecidableEq

/-- `Add for AirWidths` (extraction_utils.rs:431-439). -/
def ColumnWidths.add (a b : ColumnWidths) : ColumnWidths := ⟨a.preprocessed + b.preprocessed, a.main + b.main⟩

/-- `Sub for AirWidths` (extraction_utils.rs:441-449): the subtraction of `usize` panics if it overflows (with checks
enabled). -/
def ColumnWidths.sub (a b : ColumnWidths) : Except Panic ColumnWidths :=
  if b.preprocessed ≤ a.preprocessed ∧ b.main ≤ a.main then .ok ⟨a.preprocessed - b.preprocessed, a.main - b.main⟩
  else .error .assertion

/-- `total` (extraction_utils.rs:457-461). -/
def ColumnWidths.total (a : ColumnWidths) : ℕ := a.preprocessed + a.main

/-- `AirWidthsDiff` (extraction_utils.rs:476-484). -/
structure WidthsDiff where
  before : ColumnWidths
  after : ColumnWidths
deriving DecidableEq

/-- `columns_saved` (extraction_utils.rs:486-488). -/
def WidthsDiff.columnsSaved (d : WidthsDiff) : Except Panic ColumnWidths := d.before.sub d.after

/-- `Add for AirWidthsDiff` (extraction_utils.rs:491-500). -/
def WidthsDiff.add (a b : WidthsDiff) : WidthsDiff := ⟨a.before.add b.before, a.after.add b.after⟩

/-- `Sum for AirWidthsDiff` (extraction_utils.rs:502-507). -/
def WidthsDiff.sum (l : List WidthsDiff) : WidthsDiff := l.foldl WidthsDiff.add ⟨⟨0, 0⟩, ⟨0, 0⟩⟩

/-- `widths` of `AirMetrics` (openvm/src/lib.rs:459-463). -/
def AirMetrics.widths (m : AirMetrics) : ColumnWidths := ⟨m.preprocessed, m.main⟩

/-- `Add for AirMetrics` (openvm/src/lib.rs:475-485). -/
def AirMetrics.add (a b : AirMetrics) : AirMetrics :=
  ⟨(a.widths.add b.widths).preprocessed, (a.widths.add b.widths).main, a.constraints + b.constraints,
    a.busInteractions + b.busInteractions⟩

/-- `Sum for AirMetrics` (openvm/src/lib.rs:487-491). -/
def AirMetrics.sum (l : List AirMetrics) : AirMetrics := l.foldl AirMetrics.add ⟨0, 0, 0, 0⟩

/-- `total_width` (openvm/src/lib.rs:493-497). -/
def AirMetrics.totalWidth (m : AirMetrics) : ℕ := m.widths.total

/-- `PowdrPrecompile` (vm.rs:42-51). -/
structure Precompile (A : Type) where
  name : String
  opcode : PowdrOpcode
  apc : A
  widths : WidthsDiff
  arenaCpu : ℕ
  arenaGpu : ℕ

/-- `PowdrPrecompile::new` (vm.rs:54-69): the arenas are new ones. `fresh` is an address that is not in use. -/
def Precompile.new (fresh : ℕ) (name : String) (opcode : PowdrOpcode) (apc : A) (widths : WidthsDiff) : Precompile A :=
  ⟨name, opcode, apc, widths, fresh, fresh⟩

/-- The precompiles in `setup` (customize_exe.rs:324-352), with the addresses of their arenas from `fresh` on. `startPc`
is the start of the block. -/
def setupPrecompiles (startPc : A → ℕ) (widths : A → WidthsDiff) (fresh : ℕ) (apcs : List A) : List (Precompile A) :=
  apcs.zipIdx.map fun x => Precompile.new (fresh + x.2) ("PowdrAutoprecompile_" ++ toString (startPc x.1))
    ⟨powdrOpcode + x.2⟩ x.1 (widths x.1)

/-- The executors of the specialised VM: `SpecializedExecutor` (openvm/src/lib.rs:405-417) with `PowdrExecutor::new`
(executor/mod.rs:602-650) for the second case. -/
inductive VmExecutor (E A : Type) where
  | original (e : E)
  | powdr (apc : A) (arenaCpu arenaGpu heightChange : ℕ)

/-- `ExecutorInventory` of OpenVM. -/
structure ExecInventory (X : Type) where
  executors : List X
  lookup : List (ℕ × ℕ)

/-- `add_executor` of OpenVM, for one opcode: an error if the opcode has an executor. -/
def ExecInventory.addExecutor {X : Type} (inv : ExecInventory X) (x : X) (opcode : ℕ) : Except ℕ (ExecInventory X) :=
  match inv.lookup.lookup opcode with
  | some _ => .error opcode
  | none => .ok ⟨inv.executors ++ [x], inv.lookup ++ [(opcode, inv.executors.length)]⟩

/-- `get_executor` of OpenVM. -/
def ExecInventory.getExecutor {X : Type} (inv : ExecInventory X) (opcode : ℕ) : Option X := do
  let i ← inv.lookup.lookup opcode
  inv.executors[i]?

/-- `extend_execution` (vm.rs:97-117). -/
def extendExecution : List (Precompile A) → ExecInventory (VmExecutor E A) → Except ℕ (ExecInventory (VmExecutor E A))
  | [], inv => .ok inv
  | p :: ps, inv => do
    let inv ← inv.addExecutor (.powdr p.apc p.arenaCpu p.arenaGpu 1) p.opcode.globalOpcode
    extendExecution ps inv

/-- `create_executors` (openvm/src/lib.rs:433-439): `transmute` wraps the executors of the original VM. -/
def createExecutors (orig : ExecInventory E) (precompiles : List (Precompile A)) :
    Except ℕ (ExecInventory (VmExecutor E A)) :=
  extendExecution precompiles ⟨orig.executors.map .original, orig.lookup⟩

/-- The lookup tables among the AIRs and chips. -/
inductive TableKind where
  | rangeChecker
  | bitwiseLookup
  | tupleRangeChecker
deriving DecidableEq

/-- An AIR of the original VM: its name, and its bus if it is a lookup table. -/
structure OrigAir where
  name : String
  table : Option (TableKind × ℕ)
  metrics : AirMetrics
deriving DecidableEq

/-- An AIR of the specialised VM. -/
inductive AssembledAir (M : Type) where
  | original (a : OrigAir)
  | powdr (machine : M)

/-- `create_airs` (openvm/src/lib.rs:422-427) with `extend_circuit` (vm.rs:125-130) and `PowdrAir::new` (chip.rs:75-80). -/
def createAirs (machine : A → M) (orig : List OrigAir) (precompiles : List (Precompile A)) : List (AssembledAir M) :=
  orig.map .original ++ precompiles.map fun p => .powdr (machine p.apc)

/-- The tables shared by the chips: the numbers of the chips, and the buses. -/
structure SharedTables where
  rangeChecker : ℕ
  bitwiseLookup : Option ℕ
  tupleRangeChecker : Option ℕ
  busIds : PeripheryBusIds

/-- A chip. The chip of a precompile (chip.rs:32-60) takes the records in an arena. -/
inductive AssembledChip (A : Type) where
  | original (table : Option TableKind)
  | powdr (name : String) (arena : ℕ) (apc : A) (shared : SharedTables)

/-- `ChipInventory` of OpenVM: the AIRs, the chips in the order of their AIRs, and the chip of each executor. -/
structure ChipInventory (A M : Type) where
  airs : List (AssembledAir M)
  chips : List (AssembledChip A)
  executorChips : List ℕ

/-- Is it a `PowdrAir`? -/
def AssembledAir.isPowdr : AssembledAir M → Bool
  | .powdr _ => true
  | .original _ => false

/-- The bus of an AIR of the kind. -/
def AssembledAir.tableBus (k : TableKind) : AssembledAir M → Option ℕ
  | .original ⟨_, some (k', bus), _⟩ => if k' = k then some bus else none
  | _ => none

/-- `find_air::<T>().next()`. -/
def findAirBus (k : TableKind) (airs : List (AssembledAir M)) : Option ℕ := airs.findSome? (AssembledAir.tableBus k)

/-- Is it the chip of a table of the kind? -/
def AssembledChip.isTable (k : TableKind) : AssembledChip A → Bool
  | .original (some k') => k' == k
  | _ => false

/-- `find_chip::<T>().next()`. -/
def findTableChip (k : TableKind) (chips : List (AssembledChip A)) : Option ℕ := chips.findIdx? (AssembledChip.isTable k)

/-- `get_periphery_bus_ids` (openvm/src/lib.rs:337-364). -/
def peripheryBusIds (airs : List (AssembledAir M)) : Except Panic PeripheryBusIds :=
  match findAirBus .rangeChecker airs with
  | none => .error .assertion
  | some range => .ok ⟨range, findAirBus .bitwiseLookup airs, findAirBus .tupleRangeChecker airs⟩

/-- The shared tables in `extend_prover` (openvm/src/lib.rs:296-316). -/
def sharedTables (inv : ChipInventory A M) : Except Panic SharedTables :=
  match findTableChip .rangeChecker inv.chips with
  | none => .error .assertion
  | some range => do
    let busIds ← peripheryBusIds inv.airs
    pure ⟨range, findTableChip .bitwiseLookup inv.chips, findTableChip .tupleRangeChecker inv.chips, busIds⟩

/-- `next_air::<PowdrAir<_>>` of OpenVM: the AIR of the next chip. -/
def ChipInventory.nextPowdrAir (inv : ChipInventory A M) : Except Panic M :=
  match inv.airs[inv.chips.length]? with
  | some (.powdr m) => .ok m
  | _ => .error .assertion

/-- `add_executor_chip` of OpenVM. -/
def ChipInventory.addExecutorChip (inv : ChipInventory A M) (chip : AssembledChip A) : ChipInventory A M :=
  { inv with chips := inv.chips ++ [chip], executorChips := inv.executorChips ++ [inv.chips.length] }

/-- Which prover: the GPU uses the other arena (openvm/src/lib.rs:224-268, chip.rs:151-179). -/
inductive ProverKind where
  | cpu
  | gpu
deriving DecidableEq

/-- `PowdrChipCpu::new` (chip.rs:39-59) and `PowdrChipGpu::new` (chip.rs:158-178). -/
def powdrChip (kind : ProverKind) (shared : SharedTables) (p : Precompile A) : AssembledChip A :=
  match kind with
  | .cpu => .powdr p.name p.arenaCpu p.apc shared
  | .gpu => .powdr p.name p.arenaGpu p.apc shared

/-- The loop of `extend_prover` (openvm/src/lib.rs:254-265, 318-329). -/
def addPowdrChips (kind : ProverKind) (shared : SharedTables) :
    List (Precompile A) → ChipInventory A M → Except Panic (ChipInventory A M)
  | [], inv => .ok inv
  | p :: ps, inv => do
    let _ ← inv.nextPowdrAir
    addPowdrChips kind shared ps (inv.addExecutorChip (powdrChip kind shared p))

/-- `create_chip_complex` (openvm/src/lib.rs:145-165, 187-207) with `extend_prover` (openvm/src/lib.rs:224-268, 289-332).
The original VM has built its chips: `chips`, and the chip of each executor. -/
def createChipComplex (kind : ProverKind) (airs : List (AssembledAir M)) (chips : List (Option TableKind))
    (executorChips : List ℕ) (precompiles : List (Precompile A)) : Except Panic (ChipInventory A M) := do
  let inv : ChipInventory A M := ⟨airs, chips.map .original, executorChips⟩
  let shared ← sharedTables inv
  addPowdrChips kind shared precompiles inv

/-- `name` of an AIR, which is the name of the type. -/
def AssembledAir.name : AssembledAir M → String
  | .original a => a.name
  | .powdr _ => "PowdrAir"

/-- `get_air_metrics` of an AIR, given those of the machines. -/
def AssembledAir.metrics (metricsOf : M → AirMetrics) : AssembledAir M → AirMetrics
  | .original a => a.metrics
  | .powdr m => metricsOf m

/-- The fold in `air_metrics` (openvm/src/lib.rs:523-541). -/
def airMetricsLoop (metricsOf : M → AirMetrics) : List (AssembledAir M) → List WidthsDiff →
    List (AirMetrics × WidthsDiff) → List AirMetrics → Except Panic (List (AirMetrics × WidthsDiff) × List AirMetrics)
  | [], _, powdr, other => .ok (powdr, other)
  | a :: airs, stats, powdr, other =>
    if "PowdrAir".toList.isPrefixOf a.name.toList then
      match stats with
      | [] => .error .assertion
      | w :: stats => airMetricsLoop metricsOf airs stats (powdr ++ [(a.metrics metricsOf, w)]) other
    else airMetricsLoop metricsOf airs stats powdr (other ++ [a.metrics metricsOf])

/-- `CompiledProgram::air_metrics` (openvm/src/lib.rs:501-542), after the chips have been created. -/
def airMetrics (metricsOf : M → AirMetrics) (airs : List (AssembledAir M)) (precompiles : List (Precompile A)) :
    Except Panic (List (AirMetrics × WidthsDiff) × List AirMetrics) :=
  airMetricsLoop metricsOf airs (precompiles.map (·.widths)) [] []

/-- `chip_inventory_air_metrics` (extraction_utils.rs:362-374): a map, so of several AIRs with the same name the last
one counts. The order of the entries is not that of the hash map. -/
def airMetricsByName (airs : List OrigAir) : List (String × AirMetrics) :=
  airs.foldl (fun m a => (m.filter fun x => x.1 ≠ a.name) ++ [(a.name, a.metrics)]) []

/-- `total_non_apc_columns` in `compile_apcs` (customize_exe.rs:212-217). -/
def nonApcColumns (airs : List OrigAir) : ℕ := ((airMetricsByName airs).map (·.2.totalWidth)).sum

end

end Verif
