import Verif.Model.Optimistic
import Verif.Model.Compile

/-!
# Model of the interpretation of precompiles

`openvm/src/powdr_extension/executor/mod.rs:190-453` (pure and metered execution) and the executor indices cached by
`PowdrExecutor::new`.

Simplifications:
* The interpreter of OpenVM is a parameter: the executors, what they prepare for an instruction at a program counter, and
  the effect of an `ExecuteFunc` together with its data on the state (`none` is a panic). The state has everything in
  `VmExecState`, with the context of the execution and the exit code.
* Data in bytes are the values they stand for.
* The versions for tail calls (`tco`) and for compiled code (`aot`) are not implemented in the code, and not part of the
  model.
-/

namespace Verif

section
variable {I E X : Type}

/-- `StaticProgramError` of OpenVM, as far as it is used, and any other one. -/
inductive StaticErr where
  | invalidInstruction (pc : ℕ)
  | executorNotFound (opcode : ℕ)
  | other (code : ℕ)
deriving DecidableEq

/-- What is used of OpenVM: the opcode of an instruction, the `ExecutorInventory`, `pre_compute` of an executor for a
program counter of 32 bits and an instruction, the program counter of a state, and `on_height_change` of the context. -/
structure VmInterpreter (I E X : Type) where
  opcode : I → ℕ
  instructionLookup : ℕ → Option ℕ
  executors : List E
  preCompute : E → ℕ → I → Except StaticErr (X → Option X)
  pc : X → ℕ
  onHeightChange : ℕ → ℕ → X → X

/-- `get_executor` of OpenVM. -/
def VmInterpreter.getExecutor (vm : VmInterpreter I E X) (opcode : ℕ) : Option E := do
  let i ← vm.instructionLookup opcode
  vm.executors[i]?

/-- The operands of an `Instruction` of OpenVM, as canonical numbers. -/
structure InstrOperands where
  a : ℕ
  b : ℕ
  c : ℕ
  d : ℕ
  e : ℕ
  f : ℕ
  g : ℕ

/-- `PowdrExecutor` (executor/mod.rs:46-54), as far as it is used for interpretation. -/
structure ApcExecutor (I : Type) where
  blocks : List (BasicBlock I)
  optimisticConstraints : OptConstraints Unit ℕ
  heightChange : ℕ

/-- `PowdrPreCompute` (executor/mod.rs:190-197). -/
structure ApcPreCompute (X : Type) where
  heightChange : ℕ
  originalInstructions : List (X → Option X)
  optimisticConstraints : OptConstraints Unit ℕ

/-- The closure of `map` in `pre_compute_impl` (executor/mod.rs:362-378): the instructions are those
of `SuperBlock::par_instructions` (autoprecompiles/src/blocks/mod.rs:132-138). -/
def prepareInstruction (vm : VmInterpreter I E X) (x : ℕ × I) : Except StaticErr (X → Option X) :=
  match vm.getExecutor (vm.opcode x.2) with
  | none => .error (.executorNotFound (vm.opcode x.2))
  | some executor => vm.preCompute executor (pcU32 x.1) x.2

/-- `collect` of a parallel iterator of results (rayon): if there is an error, it is one of the errors, not always the
first one. -/
def ParCollect {ε α : Type} (results : List (Except ε α)) : Except ε (List α) → Prop
  | .ok l => results = l.map .ok
  | .error e => .error e ∈ results

/-- The test of the operands in `pre_compute_impl` (executor/mod.rs:345-354). -/
def InstrOperands.anyNonzero (o : InstrOperands) : Bool :=
  o.a != 0 || o.b != 0 || o.c != 0 || o.d != 0 || o.e != 0 || o.f != 0 || o.g != 0

/-- `pre_compute_impl` (executor/mod.rs:321-387). -/
def PreComputeImpl (vm : VmInterpreter I E X) (apc : ApcExecutor I) (pc : ℕ) (inst : InstrOperands)
    (r : Except StaticErr (ApcPreCompute X)) : Prop :=
  if inst.anyNonzero then r = .error (.invalidInstruction pc)
  else ∃ instrs, ParCollect ((superBlockInstructions defaultPcStep apc.blocks).map (prepareInstruction vm)) instrs ∧
    r = (do
      let originalInstructions ← instrs
      pure ⟨apc.heightChange, originalInstructions, apc.optimisticConstraints⟩)

/-- The functions of `OpenVmExecutionState` that are not implemented, and panic (customize_exe.rs:75-85): `reg` and
`value_limb`. Their values are arbitrary here: the constraints of a precompile do not use them, and the properties hold
for all values. -/
structure Unimplemented where
  reg : Unit → ℕ
  limb : ℕ → ℕ → ℕ
  clk : ℕ

/-- `OpenVmExecutionState::from` and `pc` (customize_exe.rs:55-73). -/
def VmInterpreter.execState (vm : VmInterpreter I E X) (u : Unimplemented) (x : X) : ExecState Unit ℕ :=
  ⟨vm.pc x, u.reg, u.clk⟩

/-- `assert!(try_next_execution_step(..).is_ok())` (executor/mod.rs:410-415, 419-424). -/
def assertNextStep (vm : VmInterpreter I E X) (u : Unimplemented) (oc : OptConstraints Unit ℕ) (ev : OptEvaluator Unit ℕ)
    (x : X) : Option (OptEvaluator Unit ℕ) :=
  match ev.tryNext u.limb (vm.execState u x) oc with
  | .ok (some ev') => some ev'
  | _ => none

/-- The loop over the original instructions (executor/mod.rs:416-425). -/
def interpretInstructions (vm : VmInterpreter I E X) (u : Unimplemented) (oc : OptConstraints Unit ℕ) :
    List (X → Option X) → OptEvaluator Unit ℕ → X → Option X
  | [], _, x => some x
  | executor :: t, ev, x => do
    let y ← executor x
    let ev' ← assertNextStep vm u oc ev y
    interpretInstructions vm u oc t ev' y

/-- `execute_e12_impl` (executor/mod.rs:404-426) and `execute_e1_impl` (executor/mod.rs:429-436). -/
def executeApc (vm : VmInterpreter I E X) (u : Unimplemented) (pre : ApcPreCompute X) (x : X) : Option X := do
  let ev ← assertNextStep vm u pre.optimisticConstraints .new x
  interpretInstructions vm u pre.optimisticConstraints pre.originalInstructions ev x

/-- `execute_e2_impl` (executor/mod.rs:439-453). `chip` is stored by `metered_pre_compute` (executor/mod.rs:247-264). -/
def executeApcMetered (vm : VmInterpreter I E X) (u : Unimplemented) (chip : ℕ) (pre : ApcPreCompute X) (x : X) :
    Option X :=
  executeApc vm u pre (vm.onHeightChange chip pre.heightChange x)

/-- The executor indices in `PowdrExecutor::new` (executor/mod.rs:620-638). An opcode that is not found panics. -/
def cachedExecutorIndices (vm : VmInterpreter I E X) (blocks : List (BasicBlock I)) : Option (List ℕ) :=
  (superBlockInstructions defaultPcStep blocks).mapM fun x => vm.instructionLookup (vm.opcode x.2)

/-- The executor of an instruction in preflight execution (executor/mod.rs:496, 568). -/
def preflightExecutor (vm : VmInterpreter I E X) (cached : List ℕ) (k : ℕ) : Option E := do
  let i ← cached[k]?
  vm.executors[i]?

end

end Verif
