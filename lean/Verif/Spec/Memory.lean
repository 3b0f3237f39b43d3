import Verif.Model.Memory
import Verif.Spec.Solver

/-!
# Specification: memory
-/

namespace Verif

open GExpr

variable {p : ℕ} {V : Type}

/-- The sum of the multiplicities with which the message is sent on the bus. The bus argument proves
that the sum of these numbers over all rows of all chips is zero, for every bus and message. -/
def busBalance (σ : V → ZMod p) (bs : List (BusInteraction (GExpr p V))) (busId : ZMod p)
    (message : List (ZMod p)) : ZMod p :=
  (bs.map fun b => if (b.evalAt σ).busId = busId ∧ (b.evalAt σ).payload = message
    then (b.evalAt σ).multiplicity else 0).sum

/-- The state of a memory: at each address (address space and pointer) there is either a content
(data and timestamp) that was set and not fetched yet, or there is none. -/
abbrev Memory (p : ℕ) := ZMod p × ZMod p → Option (List (ZMod p) × ZMod p)

/-- The effect of a memory operation. "Get previous" (multiplicity -1) fetches the content that is
there. "Set new" (multiplicity 1) sets a new content where there is none. A bus interaction on
another bus, or with multiplicity zero, has no effect. Nothing is assumed about interactions with
other multiplicities. -/
def MemoryStep (memoryBusId : ZMod p) (b : BusInteraction (ZMod p)) (m m' : Memory p) : Prop :=
  (b.busId ≠ memoryBusId ∨ b.multiplicity = 0 → m' = m) ∧
  ∀ space pointer data timestamp, b.busId = memoryBusId →
    b.payload = space :: pointer :: (data ++ [timestamp]) →
    (b.multiplicity = 1 → m (space, pointer) = none ∧
      m' = Function.update m (space, pointer) (some (data, timestamp))) ∧
    (b.multiplicity = -1 → b.multiplicity ≠ 1 → m (space, pointer) = some (data, timestamp) ∧
      m' = Function.update m (space, pointer) none)

/-- A chronological sequence of bus interactions. -/
def MemoryRun (memoryBusId : ZMod p) : List (BusInteraction (ZMod p)) → Memory p → Memory p → Prop
  | [], m, m' => m' = m
  | b :: bs, m, m' => ∃ m1, MemoryStep memoryBusId b m m1 ∧ MemoryRun memoryBusId bs m1 m'

/-- The bus interactions of the system form a chronological sequence of memory operations that
starts and ends with the given memories. -/
def ConstraintSystem.UsesMemory (s : ConstraintSystem p V) (memoryBusId : ℕ) (σ : V → ZMod p)
    (m m' : Memory p) : Prop :=
  MemoryRun (memoryBusId : ZMod p) (s.bus.map fun b => b.evalAt σ) m m'

/-- The solver has been made by a history of calls which assert only what is true for all
assignments in `A`. -/
def Solver.MadeFor [LinearOrder V] [Fact p.Prime] (bus : Bus p) (h : Handler p)
    (A : (V → ZMod p) → Prop) (s : Solver p V) : Prop :=
  ∃ (ops : List (SolverOp p V)) (outs : List (SolverOut p V)), (∀ op ∈ ops, op.WF) ∧
    runOps h ops Solver.new = .ok (outs, s) ∧ ∀ σ, A σ → ∀ op ∈ ops, op.Holds bus σ

end Verif
