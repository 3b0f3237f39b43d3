import Verif.Model.Elf

/-!
# Specification of the execution of RISC-V code

What an instruction does, for the instructions that the loader changes. All other instructions, conditions of branches
and accesses to memory do what an arbitrary `RvMachine` says.
-/

namespace Verif

/-- The registers, the program counter and the memory. -/
structure RvState (M : Type) where
  pc : BitVec 32
  regs : ℕ → BitVec 32
  mem : M

variable {M : Type}

/-- The value of a register; register 0 is zero. -/
def RvState.get (s : RvState M) (r : ℕ) : BitVec 32 := if r = 0 then 0 else s.regs r

/-- Set a register, except register 0. -/
def RvState.set (s : RvState M) (r : ℕ) (v : BitVec 32) : RvState M :=
  if r = 0 then s else { s with regs := Function.update s.regs r v }

/-- Go to an address. -/
def RvState.goto (s : RvState M) (pc : BitVec 32) : RvState M := { s with pc := pc }

/-- The rest of the machine. `other` is called in a state whose program counter has been advanced. -/
structure RvMachine (M : Type) where
  holds : RvOp → BitVec 32 → BitVec 32 → Bool
  load : RvOp → M → BitVec 32 → BitVec 32
  store : RvOp → M → BitVec 32 → BitVec 32 → M
  other : RvOp → Option ℕ → Option ℕ → Option ℕ → Option (BitVec 32) → RvState M → Option (RvState M)

/-- The opcodes of conditional branches. -/
def RvOp.isBranch (op : RvOp) : Bool := op ∈ [RvOp.beq, .bne, .blt, .bge, .bltu, .bgeu]

/-- An instruction with `size` bytes at the program counter is executed. -/
def RvIns.exec (E : RvMachine M) (i : RvIns) (size : BitVec 32) (s : RvState M) : Option (RvState M) :=
  let next := s.goto (s.pc + size)
  if i.opc = .lui then do
    let rd ← i.rd
    let v ← i.imm
    some (next.set rd v)
  else if i.opc = .auipc then do
    let rd ← i.rd
    let v ← i.imm
    some (next.set rd (s.pc + v))
  else if i.opc = .addi then do
    let rd ← i.rd
    let rs1 ← i.rs1
    let v ← i.imm
    some (next.set rd (s.get rs1 + v))
  else if i.opc = .add then do
    let rd ← i.rd
    let rs1 ← i.rs1
    let rs2 ← i.rs2
    some (next.set rd (s.get rs1 + s.get rs2))
  else if i.opc = .jal then do
    let rd ← i.rd
    let v ← i.imm
    some ((s.goto (s.pc + v)).set rd (s.pc + size))
  else if i.opc = .jalr then do
    let rd ← i.rd
    let rs1 ← i.rs1
    let v ← i.imm
    some ((s.goto ((s.get rs1 + v) &&& ~~~1)).set rd (s.pc + size))
  else if i.opc.isBranch then do
    let rs1 ← i.rs1
    let rs2 ← i.rs2
    let v ← i.imm
    some (if E.holds i.opc (s.get rs1) (s.get rs2) then s.goto (s.pc + v) else next)
  else if i.opc.isLoad then do
    let rd ← i.rd
    let rs1 ← i.rs1
    let v ← i.imm
    some (next.set rd (E.load i.opc s.mem (s.get rs1 + v)))
  else if i.opc.isStore then do
    let rs1 ← i.rs1
    let rs2 ← i.rs2
    let v ← i.imm
    some { next with mem := E.store i.opc s.mem (s.get rs1 + v) (s.get rs2) }
  else E.other i.opc i.rd i.rs1 i.rs2 i.imm next

/-- The operands that the instructions have according to their formats. -/
def RvIns.Formed (i : RvIns) : Prop :=
  match i.opc with
  | .lui | .auipc => (∃ (rd : ℕ) (v : BitVec 32), i.rd = some rd ∧ i.rs1 = none ∧ i.rs2 = none ∧ i.imm = some (v <<< 12)) ∧
    i.extension ≠ .a
  | .jal => (∃ rd v, i.rd = some rd ∧ i.rs1 = none ∧ i.rs2 = none ∧ i.imm = some v) ∧ i.extension ≠ .a
  | .jalr | .addi | .lb | .lh | .lw | .lbu | .lhu =>
    (∃ rd rs1 v, i.rd = some rd ∧ i.rs1 = some rs1 ∧ i.rs2 = none ∧ i.imm = some v) ∧ i.extension ≠ .a
  | .beq | .bne | .blt | .bge | .bltu | .bgeu | .sb | .sh | .sw =>
    (∃ rs1 rs2 v, i.rd = none ∧ i.rs1 = some rs1 ∧ i.rs2 = some rs2 ∧ i.imm = some v) ∧ i.extension ≠ .a
  | .add => (∃ rd rs1 rs2, i.rd = some rd ∧ i.rs1 = some rs1 ∧ i.rs2 = some rs2 ∧ i.imm = none) ∧ i.extension ≠ .a
  | .ecall => (i.rd = none ∧ i.rs1 = none ∧ i.rs2 = none ∧ i.imm = none) ∧ i.extension ≠ .a
  | _ => True

/-- The immediate of a lifted instruction: the address of a label or a value. -/
def LiftedImm.word : LiftedImm → Option (BitVec 32)
  | .none => Option.none
  | .codeLabel a => some a
  | .value v => some v

/-- The system calls and their numbers. -/
def syscallNumbers : List (String × ℕ) :=
  [("input", 1), ("output", 2), ("poseidon_gl", 3), ("affine_256", 4), ("ec_add", 5), ("ec_double", 6),
    ("keccakf", 7), ("mod_256", 8), ("halt", 9), ("poseidon2_gl", 10), ("native_hash", 11),
    ("commit_public", 12), ("invert_gl", 13), ("split_gl_vec", 14), ("merge_gl", 15)]

/-- The number of a system call. -/
def syscallNumber (name : String) : Option ℕ := (syscallNumbers.find? fun x => x.1 = name).map Prod.snd

/-- A lifted instruction at the program counter is executed. Jumps and branches go to their label, `lui` shifts its
immediate, a system call is an `ecall` with the number of the call in register 5. -/
def LiftedIns.exec (E : RvMachine M) (h : LiftedIns) (s : RvState M) : Option (RvState M) :=
  let next := s.goto (s.pc + h.size)
  match h.op with
  | .li | .la => do
    let rd ← h.args.rd
    let v ← h.args.imm.word
    some (next.set rd v)
  | .tail => do
    let label ← h.args.imm.word
    some (s.goto label)
  | .unimp => none
  | .syscall name => do
    let n ← syscallNumber name
    E.other .ecall none none none none (next.set 5 (BitVec.ofNat 32 n))
  | .ins op =>
    if op = .lui then do
      let rd ← h.args.rd
      let v ← h.args.imm.word
      some (next.set rd (v <<< 12))
    else if op = .addi then do
      let rd ← h.args.rd
      let rs1 ← h.args.rs1
      let v ← h.args.imm.word
      some (next.set rd (s.get rs1 + v))
    else if op = .add then do
      let rd ← h.args.rd
      let rs1 ← h.args.rs1
      let rs2 ← h.args.rs2
      some (next.set rd (s.get rs1 + s.get rs2))
    else if op = .jal then do
      let rd ← h.args.rd
      let label ← h.args.imm.word
      some ((s.goto label).set rd (s.pc + h.size))
    else if op = .jalr then do
      let rd ← h.args.rd
      let rs1 ← h.args.rs1
      let v ← h.args.imm.word
      some ((s.goto ((s.get rs1 + v) &&& ~~~1)).set rd (s.pc + h.size))
    else if op.isBranch then do
      let rs1 ← h.args.rs1
      let rs2 ← h.args.rs2
      let label ← h.args.imm.word
      some (if E.holds op (s.get rs1) (s.get rs2) then s.goto label else next)
    else if op.isLoad then do
      let rd ← h.args.rd
      let rs1 ← h.args.rs1
      let v ← h.args.imm.word
      some (next.set rd (E.load op s.mem (s.get rs1 + v)))
    else if op.isStore then do
      let rs1 ← h.args.rs1
      let rs2 ← h.args.rs2
      let v ← h.args.imm.word
      some { next with mem := E.store op s.mem (s.get rs1 + v) (s.get rs2) }
    else E.other op h.args.rd h.args.rs1 h.args.rs2 h.args.imm.word next

/-- The bits of an atomic instruction for the order of accesses have no effect. -/
def RvMachine.IgnoresOrder (E : RvMachine M) (i : RvIns) : Prop :=
  i.extension = .a → ∀ s, E.other i.opc i.rd i.rs1 i.rs2 i.imm s = E.other i.opc i.rd i.rs1 i.rs2 none s

/-- What is assumed about the decoder: 16-bit instructions are those of the extension "C", and the operands are those of
the formats. -/
structure RvDecoder.Correct (d : RvDecoder) : Prop where
  half : ∀ w i, d.decode16 w = .ok i → i.extension = .c
  word : ∀ w i, d.decode32 w = some i → i.extension ≠ .c
  formed32 : ∀ w i, d.decode32 w = some i → i.Formed
  formed16 : ∀ w i j, d.decode16 w = .ok i → to32BitEquivalent i = .ok j → j.Formed

/-- The number that bytes stand for, the least significant one first. -/
def littleEndian (l : List (BitVec 8)) : ℕ := l.foldr (fun b n => b.toNat + 256 * n) 0

/-- The instruction at the beginning of some bytes: if the low bits of the first one are 11, it is decoded from the first four
bytes, and otherwise from the first two. Accesses to control registers and words that cannot be decoded are unimplemented,
and so is a half word that is 0. -/
def Fetches (d : RvDecoder) (t : List (BitVec 8)) (i : UnimpOrInstruction) : Prop :=
  ∃ b, t.head? = some b ∧
    ((b.toNat % 4 = 3 ∧ 4 ≤ t.length ∧
      ((∃ j, d.decode32 (BitVec.ofNat 32 (littleEndian (t.take 4))) = some j ∧ j.opc ≠ .csrrw ∧ i = .instruction j) ∨
        ((d.decode32 (BitVec.ofNat 32 (littleEndian (t.take 4))) = none ∨
          ∃ j, d.decode32 (BitVec.ofNat 32 (littleEndian (t.take 4))) = some j ∧ j.opc = .csrrw) ∧ i = .unimp32))) ∨
    (b.toNat % 4 ≠ 3 ∧ 2 ≤ t.length ∧
      ((∃ j j', d.decode16 (BitVec.ofNat 16 (littleEndian (t.take 2))) = .ok j ∧ to32BitEquivalent j = .ok j' ∧
          i = .instruction j') ∨
        (d.decode16 (BitVec.ofNat 16 (littleEndian (t.take 2))) = .illegal ∧
          BitVec.ofNat 16 (littleEndian (t.take 2)) = 0 ∧ i = .unimp16))))

/-- One step of the machine on the instructions of a segment. -/
def machineStep (E : RvMachine M) (l : List MaybeIns) (s : RvState M) : Option (RvState M) :=
  match l.find? fun x => x.address = s.pc with
  | some ⟨_, .instruction i⟩ => i.exec E (UnimpOrInstruction.instruction i).len s
  | _ => none

/-- Two consecutive instructions that compilers emit: if they load an address of code, they use one register; if they are
a call or a jump, the register is not 0 and the destination is even. -/
def SanePair (c : Lifter) (a : BitVec 32) (i1 i2 : RvIns) : Prop :=
  (∀ rd rs1 hi lo, i2.opc = .addi → i1.rd = some rs1 → i2.rs1 = some rs1 → i2.rd = some rd → i1.imm = some hi →
    i2.imm = some lo → (c.inText (hi + lo) = true ∨ c.inText (hi + a + lo) = true) → i1.opc = .auipc ∨ i1.opc = .lui →
    rd ≠ 3 → rd = rs1) ∧
  (∀ rs1 hi lo, i1.opc = .auipc → i2.opc = .jalr → i1.rd = some rs1 → i2.rs1 = some rs1 → i1.imm = some hi →
    i2.imm = some lo → rs1 ≠ 0 ∧ (hi + a + lo) &&& 1 = 0)

/-- What a compressed instruction does (with 2 bytes). `c.nop`, `c.addi` and so on are described by the operands that
the instruction has in assembly code. -/
inductive CompressedExec (E : RvMachine M) : RvIns → RvState M → Option (RvState M) → Prop
  | lwsp {i : RvIns} {rd : ℕ} {v : BitVec 32} {s : RvState M} (h : i.opc = .cLwsp) (h1 : i.rd = some rd)
      (h2 : i.imm = some v) :
      CompressedExec E i s (some ((s.goto (s.pc + 2)).set rd (E.load .lw s.mem (s.get 2 + v))))
  | swsp {i : RvIns} {rs2 : ℕ} {v : BitVec 32} {s : RvState M} (h : i.opc = .cSwsp) (h1 : i.rs2 = some rs2)
      (h2 : i.imm = some v) :
      CompressedExec E i s
        (some { s.goto (s.pc + 2) with mem := E.store .sw s.mem (s.get 2 + v) (s.get rs2) })
  | lw {i : RvIns} {rd rs1 : ℕ} {v : BitVec 32} {s : RvState M} (h : i.opc = .cLw) (h1 : i.rd = some rd)
      (h2 : i.rs1 = some rs1) (h3 : i.imm = some v) :
      CompressedExec E i s (some ((s.goto (s.pc + 2)).set rd (E.load .lw s.mem (s.get rs1 + v))))
  | sw {i : RvIns} {rs1 rs2 : ℕ} {v : BitVec 32} {s : RvState M} (h : i.opc = .cSw) (h1 : i.rs1 = some rs1)
      (h2 : i.rs2 = some rs2) (h3 : i.imm = some v) :
      CompressedExec E i s
        (some { s.goto (s.pc + 2) with mem := E.store .sw s.mem (s.get rs1 + v) (s.get rs2) })
  | nop {i : RvIns} {v : BitVec 32} {s : RvState M} (h : i.opc = .cNop) (h1 : i.imm = some v) :
      CompressedExec E i s (some (s.goto (s.pc + 2)))
  | addi {i : RvIns} {rd : ℕ} {v : BitVec 32} {s : RvState M} (h : i.opc = .cAddi) (h1 : i.rd = some rd)
      (h2 : i.rs1 = some rd) (h3 : i.imm = some v) :
      CompressedExec E i s (some ((s.goto (s.pc + 2)).set rd (s.get rd + v)))
  | addi16sp {i : RvIns} {v : BitVec 32} {s : RvState M} (h : i.opc = .cAddi16sp) (h1 : i.rd = some 2)
      (h2 : i.rs1 = some 2) (h3 : i.imm = some v) :
      CompressedExec E i s (some ((s.goto (s.pc + 2)).set 2 (s.get 2 + v)))
  | addi4spn {i : RvIns} {rd : ℕ} {v : BitVec 32} {s : RvState M} (h : i.opc = .cAddi4spn) (h1 : i.rd = some rd)
      (h2 : i.imm = some v) :
      CompressedExec E i s (some ((s.goto (s.pc + 2)).set rd (s.get 2 + v)))
  | li {i : RvIns} {rd : ℕ} {v : BitVec 32} {s : RvState M} (h : i.opc = .cLi) (h1 : i.rd = some rd)
      (h2 : i.imm = some v) : CompressedExec E i s (some ((s.goto (s.pc + 2)).set rd v))
  | lui {i : RvIns} {rd : ℕ} {v : BitVec 32} {s : RvState M} (h : i.opc = .cLui) (h1 : i.rd = some rd)
      (h2 : i.imm = some v) : CompressedExec E i s (some ((s.goto (s.pc + 2)).set rd v))
  | jal {i : RvIns} {v : BitVec 32} {s : RvState M} (h : i.opc = .cJal) (h1 : i.imm = some v) :
      CompressedExec E i s (some ((s.goto (s.pc + v)).set 1 (s.pc + 2)))
  | j {i : RvIns} {v : BitVec 32} {s : RvState M} (h : i.opc = .cJ) (h1 : i.imm = some v) :
      CompressedExec E i s (some (s.goto (s.pc + v)))
  | jr {i : RvIns} {rs1 : ℕ} {s : RvState M} (h : i.opc = .cJr) (h1 : i.rs1 = some rs1) :
      CompressedExec E i s (some (s.goto (s.get rs1 &&& ~~~1)))
  | jalr {i : RvIns} {rs1 : ℕ} {s : RvState M} (h : i.opc = .cJalr) (h1 : i.rs1 = some rs1) :
      CompressedExec E i s (some ((s.goto (s.get rs1 &&& ~~~1)).set 1 (s.pc + 2)))
  | beqz {i : RvIns} {rs1 : ℕ} {v : BitVec 32} {s : RvState M} (h : i.opc = .cBeqz) (h1 : i.rs1 = some rs1)
      (h2 : i.imm = some v) :
      CompressedExec E i s (some (if E.holds .beq (s.get rs1) 0 then s.goto (s.pc + v) else s.goto (s.pc + 2)))
  | bnez {i : RvIns} {rs1 : ℕ} {v : BitVec 32} {s : RvState M} (h : i.opc = .cBnez) (h1 : i.rs1 = some rs1)
      (h2 : i.imm = some v) :
      CompressedExec E i s (some (if E.holds .bne (s.get rs1) 0 then s.goto (s.pc + v) else s.goto (s.pc + 2)))
  | mv {i : RvIns} {rd rs2 : ℕ} {s : RvState M} (h : i.opc = .cMv) (h1 : i.rd = some rd) (h2 : i.rs2 = some rs2) :
      CompressedExec E i s (some ((s.goto (s.pc + 2)).set rd (s.get rs2)))
  | add {i : RvIns} {rd rs2 : ℕ} {s : RvState M} (h : i.opc = .cAdd) (h1 : i.rd = some rd) (h2 : i.rs1 = some rd)
      (h3 : i.rs2 = some rs2) :
      CompressedExec E i s (some ((s.goto (s.pc + 2)).set rd (s.get rd + s.get rs2)))
  | alu {i : RvIns} {op : RvOp} {s : RvState M} (h : (i.opc, op) ∈ [(RvOp.cSrli, RvOp.srli), (.cSrai, .srai),
        (.cAndi, .andi), (.cSub, .sub), (.cXor, .xor), (.cOr, .or), (.cAnd, .and), (.cSlli, .slli),
        (.cEbreak, .ebreak)]) :
      CompressedExec E i s (E.other op i.rd i.rs1 i.rs2 i.imm (s.goto (s.pc + 2)))

/-! ## Opcodes of OpenVM -/

/-- A class of opcodes of OpenVM: the first opcode and how many there are. -/
structure VmOpcodeClass where
  offset : ℕ
  count : ℕ

/-- The opcode is in the class. -/
def VmOpcodeClass.has (c : VmOpcodeClass) (op : ℕ) : Prop := c.offset ≤ op ∧ op < c.offset + c.count

/-- `beq`, `bne`. -/
def branchEqualClass : VmOpcodeClass := ⟨0x220, 2⟩
/-- `blt`, `bltu`, `bge`, `bgeu`. -/
def branchLessThanClass : VmOpcodeClass := ⟨0x225, 4⟩
/-- `jal`; the other opcode of the class, `lui`, is not a jump. -/
def jalClass : VmOpcodeClass := ⟨0x230, 1⟩
/-- `jalr`. -/
def jalrClass : VmOpcodeClass := ⟨0x235, 1⟩
/-- `beq`, `bne` on 256 bits. -/
def branchEqual256Class : VmOpcodeClass := ⟨0x420, 2⟩
/-- `blt`, `bltu`, `bge`, `bgeu` on 256 bits. -/
def branchLessThan256Class : VmOpcodeClass := ⟨0x425, 4⟩
/-- The instructions without control flow, and without hints: arithmetic, shifts, comparisons, loads and stores, `lui`, `auipc`,
multiplications, divisions. -/
def straightClasses : List VmOpcodeClass :=
  [⟨0x200, 5⟩, ⟨0x205, 3⟩, ⟨0x208, 2⟩, ⟨0x210, 8⟩, ⟨0x231, 1⟩, ⟨0x240, 1⟩, ⟨0x250, 1⟩, ⟨0x251, 3⟩, ⟨0x254, 4⟩]
/-- The instructions after which another one than the next can follow. -/
def jumpClasses : List VmOpcodeClass := [branchEqualClass, branchLessThanClass, jalClass, jalrClass]
/-- The branches on big integers. -/
def bigintClasses : List VmOpcodeClass := [branchEqual256Class, branchLessThan256Class]

end Verif
