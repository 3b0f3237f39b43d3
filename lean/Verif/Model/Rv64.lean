import Verif.Model.Elf

/-!
# Model of the destinations of jumps of a 64-bit RISC-V program

`riscv-elf/src/rv64.rs`. The information for debugging (`JumpDest`, names of symbols) is left out; a `BTreeSet` is the list
of the addresses inserted. `u64` wraps around.
-/

namespace Verif

/-- A segment of a file (`ProgramHeader`), with its bytes in the file. -/
structure Elf64Segment where
  vaddr : BitVec 64
  memsz : BitVec 64
  executable : Bool
  bytes : List (BitVec 8)

/-- What the parser of ELF files returns, for a little-endian RISC-V file of 64 bits. `symbols` are the values. -/
structure Elf64File where
  entry : BitVec 64
  segments : List Elf64Segment
  symbols : List (BitVec 64)

/-- The instructions of a segment (rv64.rs:125-140): chunks of 4 bytes, each of which must be a 32-bit instruction. -/
def rv64Instructions (decode : BitVec 32 → Option RvIns) : List (BitVec 8) → Except Panic (List RvIns)
  | [] => .ok []
  | b0 :: b1 :: b2 :: b3 :: t =>
    if b0 &&& 3 = 3 then do
      match decode (b3 ++ b2 ++ b1 ++ b0) with
      | some i => do
        let l ← rv64Instructions decode t
        pure (i :: l)
      | none => .error .assertion
    else .error .assertion
  | _ => .error .assertion

/-- What is remembered of the previous instruction (rv64.rs:142-148): `rs1` and `imm`, if it is an `auipc`. -/
def rememberAuipc (i : RvIns) : Option (Option ℕ × Option (BitVec 32)) :=
  if i.opc = .auipc then some (i.rs1, i.imm) else none

/-- The destination of one instruction (rv64.rs:150-258). -/
def jumpTarget64 (addr : BitVec 64) (previous : Option (Option ℕ × Option (BitVec 32))) (i : RvIns) :
    List (BitVec 64) :=
  if i.opc.isJump then
    match i.imm with
    | some v => [addr + v.signExtend 64]
    | none => []
  else if i.opc = .jalr then
    match previous with
    | some (rs1, imm) =>
      if i.rd = rs1 then
        match imm, i.imm with
        | some hi, some lo => [addr + hi.signExtend 64 + lo.signExtend 64]
        | _, _ => []
      else []
    | none => []
  else []

/-- `scan_for_jump_targets` (rv64.rs:119-259), on the instructions from an address on. -/
def jumpTargets64 (addr : BitVec 64) (previous : Option (Option ℕ × Option (BitVec 32))) :
    List RvIns → List (BitVec 64)
  | [] => []
  | i :: t => jumpTarget64 addr previous i ++ jumpTargets64 (addr + 4) (rememberAuipc i) t

/-- A symbol is in an executable segment (rv64.rs:76-83). -/
def symbolInText64 (f : Elf64File) (v : BitVec 64) : Bool :=
  decide (v ≠ 0) && f.segments.any fun s =>
    s.executable && decide (s.vaddr.toNat ≤ v.toNat) && decide (v.toNat < (s.vaddr + s.memsz).toNat)

/-- One segment of the second loop (rv64.rs:95-107). -/
def scanSegment64 (decode : BitVec 32 → Option RvIns) (s : Elf64Segment) : Except Panic (List (BitVec 64)) := do
  let l ← rv64Instructions decode s.bytes
  pure (jumpTargets64 s.vaddr none l)

/-- The lowest executable address (rv64.rs:63-69). -/
def pcBase64 (f : Elf64File) : BitVec 64 :=
  match ((f.segments.filter fun s => s.executable).map fun s => s.vaddr.toNat).min? with
  | some v => BitVec.ofNat 64 v
  | none => 0

/-- `jumpdests` of `compute_jumpdests_from_buffer` (rv64.rs:40-115), after the checks of the header. -/
def computeJumpdests (decode : BitVec 32 → Option RvIns) (f : Elf64File) : Except Panic (List (BitVec 64)) := do
  let targets ← (f.segments.filter fun s => s.executable).mapM (scanSegment64 decode)
  pure (f.entry :: f.symbols.filter (symbolInText64 f) ++ targets.flatten)

end Verif
