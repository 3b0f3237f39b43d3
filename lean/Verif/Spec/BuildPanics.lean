import Verif.Spec.Build
import Verif.Spec.OptimizerPanics
import Verif.Spec.OptimizerDegree

/-!
# Specification: the generation of a precompile for the buses of OpenVM
-/

namespace Verif

section
variable {T R : Type}

/-- The arguments that a bus of OpenVM expects: a constant address space, a pointer, data of the size of
the address space and a timestamp for memory, two operands, a result and an operation, which is the
constant zero or one, for bitwise lookups, and two arguments for the range checkers. -/
def BusType.HasArgs [Zero T] [One T] (size : T → ℕ) : BusType → List (AlgExpr T R) → Prop
  | .executionBridge, _ => True
  | .pcLookup, _ => True
  | .memory, l => ∃ space pointer data timestamp,
    l = .number space :: pointer :: (data ++ [timestamp]) ∧ data.length = size space ∧ data ≠ []
  | .other .bitwiseLookup, l => ∃ x y z op, l = [x, y, z, .number op] ∧ (op = 0 ∨ op = 1)
  | .other .variableRangeChecker, l => l.length = 2
  | .other (.tupleRangeChecker _ _), l => l.length = 2

/-- The constraints have degree at most `n`, and what is sent degree at most `k`. -/
structure SymMachine.Degrees (m : SymMachine T R) (n k : ℕ) : Prop where
  constraints : ∀ x ∈ m.constraints, x.degree ≤ n
  mult : ∀ b ∈ m.bus, b.mult.degree ≤ k
  args : ∀ b ∈ m.bus, ∀ x ∈ b.args, x.degree ≤ k

end

section
variable {U : Type} [CommRing U]

/-- The machine of an instruction of OpenVM: its columns are numbered from zero without gaps, it receives
and sends one state, it looks up one row of the program, its bus interactions are with known buses and
have the arguments that these expect, and it respects the degree bound. -/
structure InstrAir.OpenVmForm (bm : BusMap) (execBus pcBus : ℕ) (size : U → ℕ) (bound : DegreeBound)
    (i : InstrAir U) : Prop where
  columns : ∃ n, 0 < n ∧ ∀ k, k ∈ i.machine.refs ↔ k < n
  states : (i.machine.onBus execBus).length = 2
  program : ∃ pc, i.machine.onBus pcBus = [pc] ∧ pc.args.length = i.pcLookupRow.length
  bus : ∀ b ∈ i.machine.bus, ∃ t, (b.id, t) ∈ bm ∧ t.HasArgs size b.args
  degrees : i.machine.Degrees bound.identities bound.busInteractions

/-- The statistics are about columns that the instructions have: a column that always had the same value
and columns that were always equal are columns of the instructions of the block. `keep` are the columns
considered. -/
structure KnownColumns {I : Type} (e : EmpiricalConstraints) (step : ℕ) (blocks : List (BasicBlock I))
    (keep : BlockCell → Bool) (is : List (InstrAir U)) : Prop where
  constant : ∀ (k pc c v : ℕ), (superBlockPcs step blocks)[k]? = some pc →
    e.range (pcU32 pc) c = some (v, v) →
    (∀ j, (superBlockPcs step blocks)[j]? = some (pcU32 pc) → keep (j, c) = true) →
    ∃ i : InstrAir U, is[k]? = some i ∧ c ∈ i.machine.refs
  equal : ∀ x y, superBlockEquates e 0 blocks x y → keep x = true → keep y = true →
    ∃ i : InstrAir U, is[x.1]? = some i ∧ x.2 ∈ i.machine.refs

/-- The number of columns of all instructions together. -/
def columnCount (is : List (InstrAir U)) : ℕ := (is.map fun i => i.machine.refs.dedup.length).sum

end

/-- New columns get increasing ids that are not used before, and are computed from columns with smaller
ids. -/
structure IssuedColumns {p N : ℕ} (next : ℕ) (news : List (DerivedVariable p (Fin N))) : Prop where
  order : news.Pairwise fun d d' => d.column < d'.column
  after : ∀ d ∈ news, next ≤ d.column
  known : ∀ d ∈ news, ∀ v ∈ d.method.vars, v < d.column

/-- The rows are an execution of the block that satisfies the empirical constraints: all messages are
admissible, and the memory operations lead from one memory to the other. -/
structure BlockExecution {p : ℕ} [Fact p.Prime] {U I : Type} [CommRing U] (φ : U ≃+* ZMod p) (bm : BusMap) (execBus pcBus step : ℕ)
    (memoryBusId : Option ℕ) (air : ℕ × I → InstrAir U) (blocks : List (BasicBlock I))
    (e : EmpiricalConstraints) (keep : Option (BlockCell → Bool)) (rows : ℕ → ℕ → U)
    (m m' : Memory p) : Prop where
  block : BlockRows execBus pcBus ((superBlockInstructions step blocks).map air) rows
  empirical : EmpiricallyTrue e step blocks (keep.getD fun _ => true) rows
  accepted : ∀ b ∈ asInteractions φ (rowMessages ((superBlockInstructions step blocks).map air) rows),
    openVmBus bm b
  memory : ∀ id, memoryBusId = some id → MemoryRun (id : ZMod p)
    (asInteractions φ (rowMessages ((superBlockInstructions step blocks).map air) rows)) m m'

end Verif
