import Verif.Model.Assemble

/-!
# Specification of the assembled VM

`Wired`: what belongs to one precompile in the assembled VM.
-/

namespace Verif

section
variable {A E M : Type}

/-- The original VM is in order: it has built one chip for each of its AIRs, and an executor chip for each executor, and a
chip is a lookup table if its AIR is one. -/
structure OriginalInOrder (airs : List OrigAir) (chips : List (Option TableKind)) (executors executorChips : ℕ) : Prop where
  chips_eq : chips = airs.map fun a => a.table.map (·.1)
  executors_eq : executorChips = executors

/-- No opcode is used twice, and none of those of the precompiles is one of the original VM. -/
def OpcodesFree (orig : ExecInventory E) (precompiles : List (Precompile A)) : Prop :=
  (precompiles.map (·.opcode.classOffset)).Nodup ∧
    ∀ p ∈ precompiles, ∀ x ∈ orig.lookup, x.1 ≠ p.opcode.classOffset

/-- The arena a chip takes its records from is the one its executor writes to. -/
def recordArenaOf (kind : ProverKind) (p : Precompile A) : ℕ :=
  match kind with
  | .cpu => p.arenaCpu
  | .gpu => p.arenaGpu

/-- The precompile has an opcode, an executor, a chip and an AIR that belong together: its opcode is that of the executor
number `e`, the chip of the executor number `e` is the chip number `c`, and the AIR of the chip number `c` is the machine
of the precompile. -/
def Wired (machine : A → M) (kind : ProverKind) (execs : ExecInventory (VmExecutor E A)) (chips : ChipInventory A M)
    (p : Precompile A) (e c : ℕ) : Prop :=
  execs.lookup.lookup p.opcode.classOffset = some e ∧
    execs.executors[e]? = some (.powdr p.apc p.arenaCpu p.arenaGpu 1) ∧
    chips.executorChips[e]? = some c ∧
    (∃ shared, chips.chips[c]? = some (.powdr p.name (recordArenaOf kind p) p.apc shared)) ∧
    chips.airs[c]? = some (.powdr (machine p.apc))

/-- The number of the first AIR that is a table of the kind. -/
def FirstTable (airs : List OrigAir) (k : TableKind) (i bus : ℕ) : Prop :=
  (∃ a, airs[i]? = some a ∧ a.table = some (k, bus)) ∧
    ∀ (j : ℕ) (a : OrigAir) (bus' : ℕ), j < i → airs[j]? = some a → a.table ≠ some (k, bus')

/-- There is no table of the kind. -/
def NoTable (airs : List OrigAir) (k : TableKind) : Prop := ∀ a ∈ airs, ∀ bus, a.table ≠ some (k, bus)

end

end Verif
