import Verif.Spec.Build
import Verif.Spec.TraceGen

/-!
# Specification: executions of a block and rows of the precompile in a trace
-/

namespace Verif

/-- The rows of the chips of the original instructions for the records of one call: `recordRows .. k c` is the value in
column `c` of the row of instruction `k`. -/
def recordRows {A R F : Type} [Zero F] (airs : List A) (row : A → R → List F) (records : List R) : ℕ → ℕ → F := fun k c =>
  match airs[k]?, records[k]? with
  | some a, some r => (row a r).getD c 0
  | _, _ => 0

variable {p : ℕ} [Fact p.Prime] {U I : Type} [Field U] [DecidableEq U] {N : ℕ}

/-- The rows are an execution of the block that meets the empirical constraints, sends only messages the buses allow,
and leads from one memory to another. -/
structure ExecutesBlock (φ : U ≃+* ZMod p) (execBus step : ℕ) (c : OptimizerConfig p (Fin N))
    (air : ℕ × I → InstrAir U) (blocks : List (BasicBlock I)) (e : EmpiricalConstraints) (keep : Option (BlockCell → Bool))
    (bus : Bus p) (rows : ℕ → ℕ → U) (m m' : Memory p) : Prop where
  block : BlockRows execBus c.pcLookupId ((superBlockInstructions step blocks).map air) rows
  empirical : EmpiricallyTrue e step blocks (keep.getD fun _ => true) rows
  allowed : ∀ b ∈ asInteractions φ (rowMessages ((superBlockInstructions step blocks).map air) rows), bus b
  memory : ∀ id, c.memoryBusId = some id → MemoryRun (id : ZMod p)
    (asInteractions φ (rowMessages ((superBlockInstructions step blocks).map air) rows)) m m'

/-- The row of the precompile satisfies its constraints, and its messages do the same as those of the rows of the
original instructions. -/
structure ReplacesBlock (φ : U ≃+* ZMod p) (step : ℕ) (c : OptimizerConfig p (Fin N))
    (air : ℕ × I → InstrAir U) (blocks : List (BasicBlock I)) (bus : Bus p) (rows : ℕ → ℕ → U) (m m' : Memory p)
    (apc : SymMachine U ℕ) (row : ℕ → U) : Prop where
  holds : apc.Holds row
  allowed : ∀ b ∈ asInteractions φ (apc.messages row), bus b
  memory : ∀ id, c.memoryBusId = some id → MemoryRun (id : ZMod p) (asInteractions φ (apc.messages row)) m m'
  balance : ∀ id : ℕ, c.otherStateful (id : ZMod p) = true → ∀ payload,
    messageBalance (apc.messages row) id payload =
      messageBalance (rowMessages ((superBlockInstructions step blocks).map air) rows) id payload

end Verif
