import Verif.Model.Selection
import Verif.Model.Solve
import Verif.Model.Build

/-!
# Model of the compilation of a program with precompiles

`openvm/src/program.rs`, `openvm/src/customize_exe.rs` (`compile_apcs`, `setup`), `autoprecompiles/src/adapter.rs`
(`filter_blocks_and_create_apcs_with_pgo`), `autoprecompiles/src/pgo/instruction.rs`, `autoprecompiles/src/pgo/none.rs`,
`autoprecompiles/src/pgo/mod.rs` and `autoprecompiles/src/pgo/cell/mod.rs`.

Simplifications:
* Generating a precompile is a relation between a block and its result (`none` is an error). Its model is in
  `Model/Build`. The type of precompiles has its block and its columns as functions.
* `add_apc_instruction_at_pc_index` is a function of OpenVM and not part of the code. Here it sets an entry of a map from
  indices of instructions to opcodes and panics if there is no instruction with the index.
* Debug output, labels and the export of candidates are left out.
* Arithmetic wraps around as in a release build, where this is said. Otherwise numbers are natural numbers.
-/

namespace Verif

variable {I A : Type}

/-- `Program` of OpenVM, as far as it is used: an instruction can be missing. `apcAt` are the opcodes of precompiles by
index of the instruction. -/
structure VmProgram (I : Type) where
  pcBase : ℕ
  slots : List (Option I)
  apcAt : List (ℕ × ℕ)
deriving DecidableEq

/-- `DEFAULT_PC_STEP` of OpenVM. -/
def defaultPcStep : ℕ := 4

/-- `Prog::instructions` (program.rs:75-82). -/
def VmProgram.instructions (prog : VmProgram I) : List I := prog.slots.filterMap id

/-- The parameters of the instruction set (customize_exe.rs:131-137, program.rs:44). -/
structure IsaInfo (I : Type) where
  isBranching : I → Bool
  isAllowed : I → Bool
  jumpDest : ℕ → Bool

/-- The parameters of block detection for a program (program.rs:71-73, customize_exe.rs:175-177). -/
def VmProgram.detection (prog : VmProgram I) (isa : IsaInfo I) : DetectionConfig I :=
  ⟨isa.isBranching, isa.isAllowed, isa.jumpDest, prog.pcBase, defaultPcStep⟩

/-- `OriginalCompiledProgram::collect_basic_blocks` (program.rs:43-49). -/
def VmProgram.basicBlocks (prog : VmProgram I) (isa : IsaInfo I) : List (BasicBlock I) :=
  collectBasicBlocks (prog.detection isa) prog.instructions

/-- `PgoConfig` (pgo/mod.rs:25-35), with the list of executed program counters of the profile. -/
inductive PgoMode where
  | cell (pcList : List ℕ) (maxColumns : Option ℕ)
  | instruction (pcList : List ℕ)
  | none
deriving DecidableEq

/-- `execution_profile` (adapter.rs:90-92, cell/mod.rs:178-180, instruction.rs:80-82). -/
def PgoMode.profile : PgoMode → Option (List ℕ)
  | .cell pcs _ => some pcs
  | .instruction pcs => some pcs
  | .none => Option.none

/-- The fields of `PowdrConfig` (autoprecompiles/src/lib.rs:64-83) that are used. -/
structure CompileConfig where
  autoprecompiles : ℕ
  skipAutoprecompiles : ℕ
  superblocks : SuperblockConfig

/-- `PowdrConfig::new` (autoprecompiles/src/lib.rs:86-98). -/
def CompileConfig.new (autoprecompiles skipAutoprecompiles : ℕ) : CompileConfig :=
  ⟨autoprecompiles, skipAutoprecompiles, ⟨1, 1, 2 ^ 32 - 1⟩⟩

/-- Superblocks with their counts, and runs with their counts: `ExecutionBlocks` (blocks/mod.rs:209-215). -/
abbrev ExecutionBlocks (I : Type) := List (List (BasicBlock I) × ℕ) × List (List ℕ × ℕ)

/-- Without a profile (adapter.rs:68-75) with `new_without_pgo` (blocks/mod.rs:218-226). -/
def blocksWithoutPgo (blocks : List (BasicBlock I)) : ExecutionBlocks I :=
  (((blocks.map fun b => [b]).filter fun sb => (sb.flatMap (·.instructions)).length > 1).map fun sb => (sb, 0), [])

/-- The first part of `filter_blocks_and_create_apcs_with_pgo` (adapter.rs:66-76). -/
def FilterBlocks (cfg : CompileConfig) (profile : Option (List ℕ)) (blocks : List (BasicBlock I))
    (r : ExecutionBlocks I) : Prop :=
  match profile with
  | some pcs => DetectSuperblocks cfg.superblocks pcs blocks r
  | none => r = blocksWithoutPgo blocks

/-- The number of instructions of a superblock as `u32`. -/
def superblockLength (sb : List (BasicBlock I)) : ℕ := (sb.flatMap (·.instructions)).length % 2 ^ 32

/-- The key of `InstructionPgo` (instruction.rs:46-49), wrapping around. -/
def instructionValue (x : List (BasicBlock I) × ℕ) : ℕ := x.2 * superblockLength x.1 % 2 ^ 32

/-- The key of `NonePgo` (none.rs:33-36). -/
def lengthValue (x : List (BasicBlock I) × ℕ) : ℕ := superblockLength x.1

/-- `sorted_by_key` with `Reverse` (std: the sort is stable), then the assertion for each block
(instruction.rs:42-69, none.rs:29-49). -/
def sortBlocks (value : List (BasicBlock I) × ℕ → ℕ) (blocks : List (List (BasicBlock I) × ℕ)) :
    Except Panic (List (List (BasicBlock I))) :=
  (blocks.mergeSort fun a b => decide (value b ≤ value a)).mapM fun x =>
    if x.1.length = 1 then .ok x.1 else .error .assertion

/-- `create_apcs_for_all_blocks` (pgo/mod.rs:76-113): an error of the generation is a panic. -/
def CreateForAll (built : List (BasicBlock I) → Option A → Prop) (cfg : CompileConfig)
    (blocks : List (List (BasicBlock I))) (r : Except Panic (List A)) : Prop :=
  match r with
  | .ok as => List.Forall₂ (fun b a => built b (some a))
      ((blocks.drop cfg.skipAutoprecompiles).take cfg.autoprecompiles) as
  | .error _ => ∃ b ∈ (blocks.drop cfg.skipAutoprecompiles).take cfg.autoprecompiles, built b none

/-- `create_apcs_with_pgo` of `InstructionPgo` (instruction.rs:29-78). -/
def InstructionApcs (built : List (BasicBlock I) → Option A → Prop) (cfg : CompileConfig) (blocks : ExecutionBlocks I)
    (r : Except Panic (List A)) : Prop :=
  if cfg.autoprecompiles = 0 then r = .ok []
  else match sortBlocks instructionValue blocks.1 with
    | .error e => r = .error e
    | .ok sorted => CreateForAll built cfg sorted r

/-- `create_apcs_with_pgo` of `NonePgo` (none.rs:21-58). -/
def NoneApcs (built : List (BasicBlock I) → Option A → Prop) (cfg : CompileConfig) (blocks : ExecutionBlocks I)
    (r : Except Panic (List A)) : Prop :=
  match sortBlocks lengthValue blocks.1 with
  | .error e => r = .error e
  | .ok sorted => CreateForAll built cfg sorted r

/-- What is used of a precompile: its block, the number of columns of the original instructions, and the number of its
own columns (`widths`, customize_exe.rs:110-129). -/
structure ApcInfo (I A : Type) where
  block : A → List (BasicBlock I)
  widthBefore : A → ℕ
  widthAfter : A → ℕ

/-- Subtraction of `usize`, wrapping around. -/
def wrappingSub (a b : ℕ) : ℕ := if b ≤ a then a - b else a + 2 ^ 64 - b

/-- `BlockCandidate::new` (selection.rs:28-39) with `OpenVmApcCandidate` (customize_exe.rs:391-401). -/
def blockCandidate (info : ApcInfo I A) (x : A × (List (BasicBlock I) × ℕ)) : BlockCandidate :=
  ⟨x.2.1.map (·.startPc), info.widthAfter x.1, wrappingSub (info.widthBefore x.1) (info.widthAfter x.1), x.2.2⟩

/-- `apcs[position].take().unwrap()` for each position (cell/mod.rs:169-175). -/
def takeApcs : List (Option A) → List ℕ → Except Panic (List A)
  | _, [] => .ok []
  | apcs, i :: is =>
    match apcs[i]? with
    | some (some a) => do
      let rest ← takeApcs (apcs.set i none) is
      pure (a :: rest)
    | _ => .error .assertion

/-- `create_apcs_with_pgo` of `CellPgo` (cell/mod.rs:102-176). -/
def CellApcs (built : List (BasicBlock I) → Option A → Prop) (info : ApcInfo I A) (cfg : CompileConfig) (budget : ℕ)
    (blocks : ExecutionBlocks I) (r : Except Panic (List A)) : Prop :=
  if cfg.autoprecompiles = 0 then r = .ok []
  else ∃ results : List (Option A), List.Forall₂ (fun x a => built x.1 a) blocks.1 results ∧
    ∃ is, CellPgoIndices cfg.autoprecompiles cfg.skipAutoprecompiles budget
        (((results.zip blocks.1).filterMap fun x => x.1.map fun a => (a, x.2)).map (blockCandidate info)) blocks.2 is ∧
      r = takeApcs (results.filterMap fun x => x.map some) is

/-- The budget (customize_exe.rs:211-219, cell/mod.rs:161): the subtraction wraps around. -/
def cellBudget (otherColumns : ℕ) : Option ℕ → ℕ
  | none => 2 ^ 64 - 1
  | some columns => wrappingSub columns otherColumns

/-- `compile_apcs` (customize_exe.rs:203-243) with `compile_apcs_with_adapter` (customize_exe.rs:245-304):
the possible results. -/
def CompileApcs (isa : IsaInfo I) (built : List (BasicBlock I) → Option A → Prop) (info : ApcInfo I A)
    (otherColumns : ℕ) (prog : VmProgram I) (cfg : CompileConfig) (mode : PgoMode) (r : Except Panic (List A)) : Prop :=
  ∃ blocks, FilterBlocks cfg mode.profile (prog.basicBlocks isa) blocks ∧
    match mode with
    | .cell _ maxColumns => CellApcs built info cfg (cellBudget otherColumns maxColumns) blocks r
    | .instruction _ => InstructionApcs built cfg blocks r
    | .none => NoneApcs built cfg blocks r

/-- `POWDR_OPCODE` (customize_exe.rs:41). -/
def powdrOpcode : ℕ := 0x10ff

/-- `add_apc_instruction_at_pc_index` of OpenVM. -/
def VmProgram.addApcInstruction (prog : VmProgram I) (index opcode : ℕ) : Except Panic (VmProgram I) :=
  if index < prog.slots.length then
    .ok { prog with apcAt := (prog.apcAt.filter fun x => x.1 ≠ index) ++ [(index, opcode)] }
  else .error .assertion

/-- The start of the block (customize_exe.rs:330-337) with `try_as_basic_block` (blocks/mod.rs:69-75): a superblock of
several blocks is a panic; so is a start before the start of the program. -/
def apcStartIndex (prog : VmProgram I) : List (BasicBlock I) → Except Panic ℕ
  | [b] => if prog.pcBase ≤ b.startPc then .ok ((b.startPc - prog.pcBase) / defaultPcStep) else .error .assertion
  | _ => .error .assertion

/-- The loop of `setup` (customize_exe.rs:324-352): the program, and the precompiles with their opcodes. -/
def setupLoop (info : ApcInfo I A) : List A → ℕ → VmProgram I → Except Panic (VmProgram I × List (ℕ × A))
  | [], _, prog => .ok (prog, [])
  | a :: as, i, prog => do
    let index ← apcStartIndex prog (info.block a)
    let prog ← prog.addApcInstruction index (powdrOpcode + i)
    let (prog, rest) ← setupLoop info as (i + 1) prog
    pure (prog, (powdrOpcode + i, a) :: rest)

/-- `setup` (customize_exe.rs:309-358). -/
def setupProgram (info : ApcInfo I A) (prog : VmProgram I) (apcs : List A) :
    Except Panic (VmProgram I × List (ℕ × A)) :=
  setupLoop info apcs 0 prog

end Verif
