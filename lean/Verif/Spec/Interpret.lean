import Verif.Model.Interpret
import Verif.Spec.Compile
import Verif.Spec.Optimistic

/-!
# Specification: interpretation of a precompile
-/

namespace Verif

section
variable {I E X : Type}

/-- The function the interpreter prepares for the instruction at the program counter. -/
def VmInterpreter.Prepares (vm : VmInterpreter I E X) (pc : ℕ) (i : I) (h : X → Option X) : Prop :=
  ∃ executor, vm.getExecutor (vm.opcode i) = some executor ∧ vm.preCompute executor pc i = .ok h

/-- A step of the interpreter without precompiles: in a state which is running (it has not stopped or failed), the
function prepared for the instruction of the program at the program counter is called. -/
def InterpStep (vm : VmInterpreter I E X) (running : X → Bool) (prog : VmProgram I) (x y : X) : Prop :=
  running x = true ∧ ∃ i h, prog.Holds (vm.pc x) i ∧ vm.Prepares (vm.pc x) i h ∧ h x = some y

/-- An execution without precompiles in which the instructions executed are at these program counters. -/
inductive VmPath (vm : VmInterpreter I E X) (running : X → Bool) (prog : VmProgram I) : List ℕ → X → X → Prop
  | nil (x : X) : VmPath vm running prog [] x x
  | cons {x y z : X} {pcs : List ℕ} (step : InterpStep vm running prog x y) (rest : VmPath vm running prog pcs y z) :
      VmPath vm running prog (vm.pc x :: pcs) x z

/-- A state that has stopped or failed remains so, whatever is called. -/
def VmInterpreter.StopsForGood (vm : VmInterpreter I E X) (running : X → Bool) : Prop :=
  ∀ pc i h x y, vm.Prepares pc i h → h x = some y → running y = true → running x = true

/-- The instruction at a program counter, if it does not branch, goes on to the next one, or it stops or fails. -/
def VmInterpreter.GoesOn (vm : VmInterpreter I E X) (running : X → Bool) (isBranching : I → Bool) : Prop :=
  ∀ pc i h x y, vm.Prepares pc i h → isBranching i = false → vm.pc x = pc → h x = some y → running y = true →
    vm.pc y = pc + 4

/-- The blocks are code of the program: the instructions from an index on, at program counters of 32 bits. No block is
empty and no instruction but the last one of a block branches. -/
structure BlocksOfProgram (isBranching : I → Bool) (prog : VmProgram I) (blocks : List (BasicBlock I)) : Prop where
  several : blocks ≠ []
  code : ∀ b ∈ blocks, ∃ s, b.startPc = prog.pcBase + s * 4 ∧
    (prog.slots.drop s).take b.instructions.length = b.instructions.map some
  nonempty : ∀ b ∈ blocks, b.instructions ≠ []
  branch : ∀ b ∈ blocks, ∀ j i, b.instructions[j]? = some i → isBranching i = true → j + 1 = b.instructions.length
  small : ∀ b ∈ blocks, b.startPc + b.instructions.length * 4 ≤ 2 ^ 32

/-- Values of 32 bits: `u32::try_from`. -/
def pcFitsU32 (pc : ℕ) : Option ℕ := if pc < 2 ^ 32 then some pc else none

/-- The states after each of the calls, one call after the other. -/
inductive HandlerRun : List (X → Option X) → X → List X → Prop
  | nil (x : X) : HandlerRun [] x []
  | cons {h : X → Option X} {t : List (X → Option X)} {x y : X} {ys : List X} (call : h x = some y)
      (rest : HandlerRun t y ys) : HandlerRun (h :: t) x (y :: ys)

/-- The interpreter as the effect of instructions: it is an error if nothing can be prepared, or if the state stops or
fails. -/
def VmInterpreter.asExec (vm : VmInterpreter I E X) (running : X → Bool) : VmExec I X where
  pc := vm.pc
  exec i x :=
    match (vm.getExecutor (vm.opcode i)).map fun executor => vm.preCompute executor (vm.pc x) i with
    | some (.ok h) => (h x).filter running
    | _ => none

end

end Verif
