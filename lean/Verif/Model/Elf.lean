import Verif.Model.Compile

/-!
# Model of the loader of RISC-V programs

`riscv-elf/src/lib.rs` (addresses of code that are referenced, the lifting of instructions, the initial memory) and
`openvm-riscv/src/isa` (the destinations of jumps, the opcodes).

Simplifications:
* The parser of ELF files (`goblin`) and the decoder of instructions (`raki`) are not part of the code. A file is what
  the parser returns; the decoder is a parameter.
* `u32` and `i32` are words of 32 bits, and additions wrap around, as in a release build.
* A `BTreeSet` of addresses is the list of the addresses inserted; only membership matters. The map of data is a
  function.
* The names of symbols and the debug information are in `Model/Symbols`. Here a label is its address.
-/

namespace Verif

/-! ## Instructions -/

/-- `raki::OpcodeKind`: those that the code looks at, and the others. -/
inductive RvOp where
  | lui | auipc | jal | jalr | beq | bne | blt | bge | bltu | bgeu
  | lb | lh | lw | lbu | lhu | sb | sh | sw
  | addi | andi | slli | srli | srai | add | sub | xor | or | and
  | ecall | ebreak | csrrw
  | cLw | cSw | cNop | cAddi | cAddi16sp | cAddi4spn | cLi | cJal | cLui | cSrli | cSrai | cAndi | cSub | cXor | cOr
  | cAnd | cJ | cBeqz | cBnez | cSlli | cLwsp | cJr | cMv | cEbreak | cJalr | cAdd | cSwsp
  | other (code : ℕ)
deriving DecidableEq

/-- `raki::Extensions`: those that the code looks at, and the others. -/
inductive RvExtension where
  | a | c | other
deriving DecidableEq

/-- `raki::Instruction`. -/
structure RvIns where
  opc : RvOp
  rd : Option ℕ
  rs1 : Option ℕ
  rs2 : Option ℕ
  imm : Option (BitVec 32)
  extension : RvExtension
deriving DecidableEq

/-- `UnimpOrInstruction` (lib.rs:647-651). -/
inductive UnimpOrInstruction where
  | unimp16
  | unimp32
  | instruction (ins : RvIns)
deriving DecidableEq

/-- `UnimpOrInstruction::len` (lib.rs:653-664). -/
def UnimpOrInstruction.len : UnimpOrInstruction → BitVec 32
  | unimp16 => 2
  | unimp32 => 4
  | instruction ins => if ins.extension = .c then 2 else 4

/-- `MaybeInstruction` (lib.rs:666-669). -/
structure MaybeIns where
  address : BitVec 32
  insn : UnimpOrInstruction
deriving DecidableEq

/-- `HighLevelImmediate` (lib.rs:672-676). -/
inductive LiftedImm where
  | none
  | codeLabel (addr : BitVec 32)
  | value (v : BitVec 32)
deriving DecidableEq

/-- `HighLevelArgs` (lib.rs:679-696). -/
structure LiftedArgs where
  rd : Option ℕ := Option.none
  rs1 : Option ℕ := Option.none
  rs2 : Option ℕ := Option.none
  imm : LiftedImm := .none
deriving DecidableEq

/-- The names of lifted instructions: `op` of `HighLevelInsn` (lib.rs:705-709). An instruction of the machine has the
name of its opcode. -/
inductive LiftedOp where
  | la | li | tail | unimp
  | syscall (name : String)
  | ins (op : RvOp)
deriving DecidableEq

/-- `HighLevelInsn` with its `Location` (lib.rs:699-709). -/
structure LiftedIns where
  address : BitVec 32
  size : BitVec 32
  op : LiftedOp
  args : LiftedArgs
deriving DecidableEq

/-! ## Decoding -/

/-- The result of decoding 16 bits. -/
inductive DecodeResult where
  | ok (ins : RvIns)
  | illegal
  | error

/-- `raki::decode::Decode`. -/
structure RvDecoder where
  decode32 : BitVec 32 → Option RvIns
  decode16 : BitVec 16 → DecodeResult

/-- `to_32bit_equivalent` (lib.rs:1191-1312). -/
def to32BitEquivalent (i : RvIns) : Except Panic RvIns :=
  match i.opc with
  | .cLw => .ok { i with opc := .lw }
  | .cSw => .ok { i with opc := .sw }
  | .cNop => .ok { i with opc := .addi, rd := some 0, rs1 := some 0 }
  | .cAddi => .ok { i with opc := .addi }
  | .cAddi16sp => .ok { i with opc := .addi }
  | .cAddi4spn => .ok { i with opc := .addi, rs1 := some 2 }
  | .cLi => .ok { i with opc := .addi, rs1 := some 0 }
  | .cJal => .ok { i with opc := .jal, rd := some 1 }
  | .cLui => .ok { i with opc := .lui }
  | .cSrli => .ok { i with opc := .srli }
  | .cSrai => .ok { i with opc := .srai }
  | .cAndi => .ok { i with opc := .andi }
  | .cSub => .ok { i with opc := .sub }
  | .cXor => .ok { i with opc := .xor }
  | .cOr => .ok { i with opc := .or }
  | .cAnd => .ok { i with opc := .and }
  | .cJ => .ok { i with opc := .jal, rd := some 0 }
  | .cBeqz => .ok { i with opc := .beq, rs2 := some 0 }
  | .cBnez => .ok { i with opc := .bne, rs2 := some 0 }
  | .cSlli => .ok { i with opc := .slli }
  | .cLwsp => .ok { i with opc := .lw, rs1 := some 2 }
  | .cJr => .ok { i with opc := .jalr, rd := some 0, rs2 := none, imm := some 0 }
  | .cMv => .ok { i with opc := .add, rs1 := some 0 }
  | .cEbreak => .ok { i with opc := .ebreak }
  | .cJalr => .ok { i with opc := .jalr, rd := some 1, rs2 := none, imm := some 0 }
  | .cAdd => .ok { i with opc := .add }
  | .cSwsp => .ok { i with opc := .sw, rs1 := some 2 }
  | _ => .error .assertion

/-- A 32-bit instruction (lib.rs:1115-1145). -/
def decodeWord (d : RvDecoder) (b0 b1 b2 b3 : BitVec 8) : UnimpOrInstruction :=
  match d.decode32 (b3 ++ b2 ++ b1 ++ b0) with
  | some ins => if ins.opc = .csrrw then .unimp32 else .instruction ins
  | none => .unimp32

/-- A 16-bit instruction (lib.rs:1147-1180). -/
def decodeHalf (d : RvDecoder) (b0 b1 : BitVec 8) : Except Panic UnimpOrInstruction :=
  match d.decode16 (b1 ++ b0) with
  | .ok ins => (to32BitEquivalent ins).map .instruction
  | .illegal => if b1 ++ b0 = (0 : BitVec 16) then .ok .unimp16 else .error .assertion
  | .error => .error .assertion

/-- `RiscVInstructionIterator` (lib.rs:1092-1188): all instructions of a segment. -/
def rvInstructions (d : RvDecoder) (addr : BitVec 32) : List (BitVec 8) → Except Panic (List MaybeIns)
  | [] => .ok []
  | [_] => .error .assertion
  | [b0, b1] =>
    if b0 &&& 3 = 3 then .error .assertion
    else do
      let i ← decodeHalf d b0 b1
      pure [⟨addr, i⟩]
  | [b0, b1, b2] =>
    if b0 &&& 3 = 3 then .error .assertion
    else do
      let i ← decodeHalf d b0 b1
      let l ← rvInstructions d (addr + 2) [b2]
      pure (⟨addr, i⟩ :: l)
  | b0 :: b1 :: b2 :: b3 :: t =>
    if b0 &&& 3 = 3 then do
      let l ← rvInstructions d (addr + 4) t
      pure (⟨addr, decodeWord d b0 b1 b2 b3⟩ :: l)
    else do
      let i ← decodeHalf d b0 b1
      let l ← rvInstructions d (addr + 2) (b2 :: b3 :: t)
      pure (⟨addr, i⟩ :: l)
termination_by l => l.length

/-! ## Lifting -/

/-- The system calls (syscalls/src/lib.rs:61-77): number and name. -/
def syscallTable : List (ℕ × String) :=
  [(1, "input"), (2, "output"), (3, "poseidon_gl"), (4, "affine_256"), (5, "ec_add"), (6, "ec_double"), (7, "keccakf"),
    (8, "mod_256"), (9, "halt"), (10, "poseidon2_gl"), (11, "native_hash"), (12, "commit_public"), (13, "invert_gl"),
    (14, "split_gl_vec"), (15, "merge_gl")]

/-- `Syscall::try_from(u8)` and `name` (syscalls/src/lib.rs:17-58), after `u8::try_from` of an `i32`. -/
def syscallName (v : BitVec 32) : Option String :=
  if v.toNat < 256 then (syscallTable.find? fun x => x.1 = v.toNat).map Prod.snd else none

/-- What `InstructionLifter` (lib.rs:716-720) knows. `referenced` is `none` while the referenced addresses are collected
(`ReadOrWrite::Write`). -/
structure Lifter where
  relocated : BitVec 32 → Bool
  inText : BitVec 32 → Bool
  referenced : Option (BitVec 32 → Bool)

/-- `composed_immediate` (lib.rs:723-769). -/
def Lifter.composedImmediate (c : Lifter) (hi lo : BitVec 32) (rdUi rdAddi : ℕ) (insn2 : BitVec 32)
    (isAddress : Bool) : Option (LiftedOp × LiftedArgs) :=
  let immediate := hi + lo
  if isAddress && c.inText immediate && decide (rdAddi ≠ 3) then
    some (.la, { rd := some rdUi, imm := .codeLabel immediate })
  else if rdUi = rdAddi then
    match c.referenced with
    | some referenced =>
      if referenced insn2 then none else some (.li, { rd := some rdUi, imm := .value immediate })
    | none => some (.li, { rd := some rdUi, imm := .value immediate })
  else none

/-- The opcodes of loads (lib.rs:881). -/
def RvOp.isLoad (op : RvOp) : Bool := op ∈ [RvOp.lb, .lh, .lw, .lbu, .lhu]

/-- The opcodes of stores (lib.rs:910). -/
def RvOp.isStore (op : RvOp) : Bool := op ∈ [RvOp.sb, .sh, .sw]

/-- The opcodes of jumps to an address relative to the instruction (lib.rs:985). -/
def RvOp.isJump (op : RvOp) : Bool := op ∈ [RvOp.jal, .beq, .bne, .blt, .bge, .bltu, .bgeu]

/-- The instruction after an `auipc` (lib.rs:846-953). `hi` is the value of the register. -/
def Lifter.afterAuipc (c : Lifter) (hi : BitVec 32) (rdAuipc : ℕ) (insn2 : BitVec 32) (i : RvIns) :
    Except Panic (Option (LiftedOp × LiftedArgs)) :=
  match i.opc, i.rd, i.rs1, i.rs2, i.imm with
  | .addi, some rd, some rs1, _, some lo =>
    if rdAuipc = rs1 then .ok (c.composedImmediate hi lo rdAuipc rd insn2 true) else .error .assertion
  | .jalr, some rd, some rs1, none, some lo =>
    if rdAuipc = rs1 ∧ rs1 = rd then .ok (some (.ins .jal, { rd := some rd, imm := .codeLabel (hi + lo) }))
    else if rd = 0 ∧ rs1 = 6 ∧ rdAuipc = 6 then .ok (some (.tail, { imm := .codeLabel (hi + lo) }))
    else .error .assertion
  | op, some rd, some rs1, none, some lo =>
    if op.isLoad ∧ rdAuipc = rd ∧ rd = rs1 then
      if c.inText (hi + lo) then .error .assertion
      else .ok (some (.ins op, { rd := some rd, rs1 := some 0, imm := .value (hi + lo) }))
    else .error .assertion
  | op, none, some rs1, some _, some lo =>
    if op.isStore ∧ rdAuipc = rs1 then
      if c.inText (hi + lo) then .error .assertion else .ok none
    else .error .assertion
  | _, _, _, _, _ => .error .assertion

/-- The part of `try_map_two` on two instructions (lib.rs:789-955). -/
def Lifter.fuse (c : Lifter) (addr1 addr2 : BitVec 32) (i1 i2 : RvIns) :
    Except Panic (Option (LiftedOp × LiftedArgs)) :=
  match i1.opc, i1.rd, i1.rs1, i1.imm with
  | .lui, some rdLui, _, some hi =>
    match i2.opc, i2.rd, i2.rs1, i2.imm with
    | .addi, some rd, some rs1, some lo =>
      if rdLui = rs1 then .ok (c.composedImmediate hi lo rdLui rd addr2 (c.relocated addr1)) else .ok none
    | _, _, _, _ => .ok none
  | .addi, some rd, some rs1, some number =>
    if rd = 5 ∧ rs1 = 0 ∧ i2.opc = .ecall then .ok ((syscallName number).map fun name => (.syscall name, {}))
    else .ok none
  | .auipc, some rd, _, some hi => c.afterAuipc (hi + addr1) rd addr2 i2
  | _, _, _, _ => .ok none

/-- `try_map_two` (lib.rs:773-968). The address that is inserted in the set of referenced addresses is the label of the
result, see `codeLabels`. -/
def Lifter.tryMapTwo (c : Lifter) (a b : MaybeIns) : Except Panic (Option LiftedIns) :=
  match a.insn, b.insn with
  | .instruction i1, .instruction i2 => do
    let x ← c.fuse a.address b.address i1 i2
    pure (x.map fun x => ⟨a.address, a.insn.len + b.insn.len, x.1, x.2⟩)
  | _, _ => .ok none

/-- `insn.imm.unwrap()`. -/
def RvIns.unwrapImm (i : RvIns) : Except Panic (BitVec 32) :=
  match i.imm with
  | some v => .ok v
  | none => .error .assertion

/-- The immediate of an instruction that is lifted alone (lib.rs:983-1032), other than `auipc`. -/
def liftImm (addr : BitVec 32) (i : RvIns) : Except Panic LiftedImm :=
  if i.opc.isJump then do
    let v ← i.unwrapImm
    pure (.codeLabel (v + addr))
  else if i.opc = .jalr then do
    let v ← i.unwrapImm
    if v = 0 then pure (.value 0) else .error .assertion
  else if i.opc = .lui then do
    let v ← i.unwrapImm
    pure (.value (v.sshiftRight 12))
  else
    match i.imm with
    | some v => .ok (.value v)
    | none => .ok .none

/-- `map_one` (lib.rs:970-1049). -/
def mapOne (a : MaybeIns) : Except Panic LiftedIns :=
  match a.insn with
  | .instruction i =>
    if i.opc = .auipc then do
      let v ← i.unwrapImm
      pure ⟨a.address, a.insn.len, .li, { rd := i.rd, imm := .value (v + a.address) }⟩
    else do
      let imm ← liftImm a.address i
      pure ⟨a.address, a.insn.len, .ins i.opc,
        { rd := i.rd, rs1 := i.rs1, rs2 := i.rs2, imm := if i.extension = .a then .none else imm }⟩
  | _ => .ok ⟨a.address, a.insn.len, .unimp, {}⟩

/-- `try_map_two_by_two` (lib.rs:1329-1350). -/
def tryMapTwoByTwo {E R : Type} (two : E → E → Except Panic (Option R)) (one : E → Except Panic R) :
    List E → Except Panic (List R)
  | [] => .ok []
  | [a] => do
    let r ← one a
    pure [r]
  | a :: b :: t => do
    let m ← two a b
    match m with
    | some r => do
      let l ← tryMapTwoByTwo two one t
      pure (r :: l)
    | none => do
      let r ← one a
      let l ← tryMapTwoByTwo two one (b :: t)
      pure (r :: l)

/-- `lift_instructions` (lib.rs:1075-1090). -/
def Lifter.lift (c : Lifter) (l : List MaybeIns) : Except Panic (List LiftedIns) :=
  tryMapTwoByTwo c.tryMapTwo mapOne l

/-- The addresses that are inserted in the set of referenced addresses (lib.rs:959-965, 987-989). -/
def codeLabels (l : List LiftedIns) : List (BitVec 32) :=
  l.filterMap fun i =>
    match i.args.imm with
    | .codeLabel a => some a
    | _ => none

/-! ## The file -/

/-- `ProgramHeader` of a `PT_LOAD` segment, with the bytes in the file. -/
structure ElfSegment where
  vaddr : BitVec 32
  memsz : BitVec 32
  executable : Bool
  bytes : List (BitVec 8)

/-- The relocation types that the code looks at (lib.rs:13). -/
inductive RelocType where
  | riscv32 | hi20 | relative | other
deriving DecidableEq

/-- `goblin::elf::Reloc`. -/
structure ElfReloc where
  offset : BitVec 32
  type : RelocType
  addend : Option (BitVec 32)

/-- What the parser of ELF files returns, for a little-endian RISC-V file of 32 bits. -/
structure ElfFile where
  entry : BitVec 32
  dynamic : Bool
  loads : List ElfSegment
  relocs : List ElfReloc
  dynRelas : List ElfReloc
  dynRels : ℕ

/-- Insertion in a map ordered by address. -/
def insertSegment (s : ElfSegment) : List ElfSegment → List ElfSegment
  | [] => [s]
  | x :: t =>
    if s.vaddr.toNat < x.vaddr.toNat then s :: x :: t
    else if s.vaddr = x.vaddr then s :: t
    else x :: insertSegment s t

/-- `AddressMap` (lib.rs:595, 80-88): the segments in the order of their addresses. -/
def addressMap (loads : List ElfSegment) : List ElfSegment :=
  loads.foldl (fun m s => insertSegment s m) []

/-- `get_section_of_addr` (lib.rs:608-622). -/
def sectionOfAddr (m : List ElfSegment) (addr : BitVec 32) : Option ElfSegment :=
  match (m.filter fun s => s.vaddr.toNat ≤ addr.toNat).getLast? with
  | some s => if addr.toNat > (s.vaddr + s.memsz).toNat then none else some s
  | none => none

/-- `is_in_data_section` (lib.rs:598-601). -/
def isInDataSection (m : List ElfSegment) (addr : BitVec 32) : Bool :=
  (sectionOfAddr m addr).any fun s => !s.executable

/-- `is_in_text_section` (lib.rs:603-606). -/
def isInTextSection (m : List ElfSegment) (addr : BitVec 32) : Bool :=
  (sectionOfAddr m addr).any fun s => s.executable

/-- `Data` (lib.rs:626-629). -/
inductive ElfData where
  | textLabel (addr : BitVec 32)
  | value (v : BitVec 32)
deriving DecidableEq

/-- The initial memory: `BTreeMap<u32, Data>`. -/
abbrev DataMap := BitVec 32 → Option ElfData

/-- Insertion of a word that is not zero (lib.rs:636-641). -/
def insertWord (m : DataMap) (addr value : BitVec 32) : DataMap :=
  if value ≠ 0 then Function.update m addr (some (.value value)) else m

/-- `load_data_section` (lib.rs:631-645). -/
def loadDataSection (addr : BitVec 32) : List (BitVec 8) → DataMap → DataMap
  | [], m => m
  | [b0], m => insertWord m addr (0#8 ++ 0#8 ++ 0#8 ++ b0)
  | [b0, b1], m => insertWord m addr (0#8 ++ 0#8 ++ b1 ++ b0)
  | [b0, b1, b2], m => insertWord m addr (0#8 ++ b2 ++ b1 ++ b0)
  | b0 :: b1 :: b2 :: b3 :: t, m => loadDataSection (addr + 4) t (insertWord m addr (b3 ++ b2 ++ b1 ++ b0))

/-- One relocation of `pie_relocate_data_sections` (lib.rs:217-239). -/
def pieRelocate (m : List ElfSegment) (x : DataMap × List (BitVec 32)) (r : ElfReloc) :
    Except Panic (DataMap × List (BitVec 32)) :=
  if !isInDataSection m r.offset then .error .assertion
  else if r.type ≠ .relative then .error .assertion
  else
    match r.addend with
    | none => .error .assertion
    | some v =>
      if isInTextSection m v then .ok (Function.update x.1 r.offset (some (.textLabel v)), x.2 ++ [v])
      else .ok (Function.update x.1 r.offset (some (.value v)), x.2)

/-- One relocation of `static_relocate_data_sections` (lib.rs:250-275). -/
def staticRelocate (m : List ElfSegment) (x : DataMap × List (BitVec 32)) (r : ElfReloc) :
    Except Panic (DataMap × List (BitVec 32)) :=
  if !isInDataSection m r.offset then .ok x
  else if r.type ≠ .riscv32 then .error .assertion
  else
    match x.1 r.offset with
    | some (.value v) =>
      if isInTextSection m v then .ok (Function.update x.1 r.offset (some (.textLabel v)), x.2 ++ [v])
      else .ok x
    | _ => .error .assertion

/-- `pie_relocate_data_sections` or `static_relocate_data_sections` (lib.rs:133-146, 211-276). -/
def relocateData (f : ElfFile) (m : List ElfSegment) (x : DataMap × List (BitVec 32)) :
    Except Panic (DataMap × List (BitVec 32)) :=
  if f.dynamic then do
    let x ← f.dynRelas.foldlM (pieRelocate m) x
    if f.dynRels ≠ 0 then .error .assertion else pure x
  else f.relocs.foldlM (staticRelocate m) x

/-- The addresses of `R_RISCV_HI20` relocations (lib.rs:104-112). -/
def relocatedText (f : ElfFile) (addr : BitVec 32) : Bool :=
  f.relocs.any fun r => decide (r.type = .hi20) && decide (r.offset = addr)

/-- One segment in the first loop (lib.rs:119-131). -/
def scanSegment (d : RvDecoder) (f : ElfFile) (m : List ElfSegment) (x : DataMap × List (BitVec 32)) (s : ElfSegment) :
    Except Panic (DataMap × List (BitVec 32)) :=
  if s.executable then do
    let l ← rvInstructions d s.vaddr s.bytes
    let l ← Lifter.lift ⟨relocatedText f, isInTextSection m, none⟩ l
    pure (x.1, x.2 ++ codeLabels l)
  else .ok (loadDataSection s.vaddr s.bytes x.1, x.2)

/-- One segment in the second loop (lib.rs:150-162). -/
def liftSegment (d : RvDecoder) (f : ElfFile) (m : List ElfSegment) (refs : List (BitVec 32)) (s : ElfSegment) :
    Except Panic (List LiftedIns) := do
  let l ← rvInstructions d s.vaddr s.bytes
  Lifter.lift ⟨relocatedText f, isInTextSection m, some fun a => decide (a ∈ refs)⟩ l

/-- `ElfProgram` (lib.rs:36-43), without the debug information. -/
structure ElfProgram where
  data : DataMap
  textLabels : List (BitVec 32)
  instructions : List LiftedIns
  entryPoint : BitVec 32

/-- `load_elf_from_buffer` (lib.rs:51-209), after the checks of the header. The segments are in the order of their
addresses already, so that sorting them (lib.rs:165) changes nothing. -/
def loadElf (d : RvDecoder) (f : ElfFile) : Except Panic ElfProgram := do
  let m := addressMap f.loads
  if !f.dynamic && f.relocs.isEmpty then .error .assertion
  else
    let x ← m.foldlM (scanSegment d f m) (fun _ => none, [f.entry])
    let x ← relocateData f m x
    let text ← (m.filter fun s => s.executable).mapM (liftSegment d f m x.2)
    pure ⟨x.1, x.2, text.flatten, f.entry⟩

/-! ## The ISA of OpenVM -/

/-- `BRANCH_OPCODES_BIGINT` (openvm-riscv/src/isa/opcode.rs:92-108): the opcodes of `openvm_bigint_transpiler`. -/
def branchOpcodesBigint : List ℕ := [1056, 1057, 1061, 1062, 1063, 1064]

/-- `BRANCH_OPCODES` (opcode.rs:110-119): `BEQ`, `BNE`, `BLT`, `BLTU`, `BGE`, `BGEU`, `JAL`, `JALR`. -/
def branchOpcodes : List ℕ := [544, 545, 549, 550, 551, 552, 560, 565]

/-- `branch_opcodes_set` (opcode.rs:132-147). -/
def branchOpcodesSet : List ℕ := branchOpcodesBigint ++ branchOpcodes

/-- `ALL_OPCODES_EXCEPT_BIGINT` (opcode.rs:38-91). -/
def allOpcodesExceptBigint : List ℕ :=
  [512, 513, 514, 515, 516, 517, 518, 519, 520, 521, 528, 529, 530, 531, 532, 533, 534, 535, 544, 545, 549, 550, 551,
    552, 560, 561, 565, 576, 592, 593, 594, 595, 596, 597, 598, 599, 608, 609]

/-- `OPCODE_HINT_STOREW` and `OPCODE_HINT_BUFFER` (opcode.rs:87-88). -/
def hintOpcodes : List ℕ := [608, 609]

/-- `instruction_allowlist` (opcode.rs:122-130). -/
def instructionAllowlist : List ℕ := allOpcodesExceptBigint.filter fun op => op ∉ hintOpcodes

/-- An instruction of OpenVM: the opcode and the operand `c`. -/
structure VmInstr (p : ℕ) where
  opcode : ℕ
  c : ZMod p

/-- One instruction of `add_extra_targets` (openvm-riscv/src/isa/mod.rs:160-167). -/
def extraTarget {p : ℕ} (base step : BitVec 32) (x : Option (VmInstr p) × ℕ) : Except Panic (List (BitVec 32)) :=
  match x.1 with
  | none => .error .assertion
  | some i =>
    if i.opcode ∈ branchOpcodesBigint then
      .ok [base + BitVec.ofNat 32 x.2 * step + BitVec.ofNat 32 i.c.val]
    else .ok []

/-- `get_jump_destinations` and `add_extra_targets` (openvm-riscv/src/isa/mod.rs:106-112, 148-170). -/
def jumpDestinations {p : ℕ} (elf : ElfProgram) (base : BitVec 32) (program : List (Option (VmInstr p))) :
    Except Panic (List (BitVec 32)) := do
  let extra ← program.zipIdx.mapM (extraTarget base 4)
  pure (elf.textLabels ++ extra.flatten)

end Verif
