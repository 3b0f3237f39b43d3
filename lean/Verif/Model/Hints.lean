import Mathlib.Data.ZMod.Basic
import Verif.Model.K256Field

/-!
# The hints extension

Model of `openvm-riscv/extensions`: the instructions that the guest executes to ask for a hint
(`hints-guest/src/lib.rs`), their translation (`hints-transpiler/src/lib.rs`), the executors that
compute the hint (`hints-circuit/src/executors.rs`, `lib.rs`) and what the guest reads back.

Bytes and words are natural numbers.  The two address spaces of the memory that a hint reads are
functions from addresses to bytes.  `none` is a panic, an error, or an instruction or a
discriminant that nobody handles.
-/

namespace Verif

/-- The part of `GuestMemory` that the executors read (external): the bytes of the registers and
of the memory. -/
structure HintMemory where
  reg : ℕ → ℕ
  mem : ℕ → ℕ

/-- The word at an address, least significant byte first. -/
def leWord (b : ℕ → ℕ) (i : ℕ) : ℕ :=
  b i + b (i + 1) * 2 ^ 8 + b (i + 2) * 2 ^ 16 + b (i + 3) * 2 ^ 24

/-- `u32::to_le_bytes`. -/
def leBytes (w : ℕ) : List ℕ := [w % 2 ^ 8, w / 2 ^ 8 % 2 ^ 8, w / 2 ^ 16 % 2 ^ 8, w / 2 ^ 24 % 2 ^ 8]

/-- `read_rv32_register` (external). -/
def HintMemory.register (m : HintMemory) (a : ℕ) : ℕ := leWord m.reg a

/-- The ten words at an address as a field element: `memory.read` and `copy_nonoverlapping`
(hints-circuit/src/executors.rs:114-126, 161-173). -/
def HintMemory.readElem (m : HintMemory) (i : ℕ) : FieldElement10x26 :=
  ⟨leWord m.mem i, leWord m.mem (i + 4), leWord m.mem (i + 8), leWord m.mem (i + 12),
   leWord m.mem (i + 16), leWord m.mem (i + 20), leWord m.mem (i + 24), leWord m.mem (i + 28),
   leWord m.mem (i + 32), leWord m.mem (i + 36)⟩

/-- The `transmute` of the limbs to bytes (hints-circuit/src/executors.rs:130, 178-181, 192-195). -/
def FieldElement10x26.leBytes (a : FieldElement10x26) : List ℕ :=
  Verif.leBytes a.l0 ++ Verif.leBytes a.l1 ++ Verif.leBytes a.l2 ++ Verif.leBytes a.l3 ++
  Verif.leBytes a.l4 ++ Verif.leBytes a.l5 ++ Verif.leBytes a.l6 ++ Verif.leBytes a.l7 ++
  Verif.leBytes a.l8 ++ Verif.leBytes a.l9

/-- An executor of a hint: from the memory, the operand `a` and `c_upper` to the new hint
stream. -/
abbrev HintExecutor := HintMemory → ℕ → ℕ → Option (List ℕ)

/-- `ReverseBytesSubEx::phantom_execute` (hints-circuit/src/executors.rs:11-37). -/
def reverseBytesSubEx : HintExecutor := fun m a cUpper => do
  FieldElement10x26.check (cUpper = 0)
  let rs1 := m.register a
  some [m.mem rs1, m.mem (rs1 + 1), m.mem (rs1 + 2), m.mem (rs1 + 3)].reverse

/-- The modulus `K256Mod` (hints-circuit/src/executors.rs:50-54). -/
def k256Mod : ℕ := 0xFFFFFFFFFFFFFFFFFFFFFFFFFFFFFFFFFFFFFFFFFFFFFFFFFFFFFFFEFFFFFC2F

/-- `U256::from_be_bytes` (external): the number that 32 bytes stand for, the first one being the
most significant. -/
def fromBeBytes (bytes : List ℕ) : ℕ := bytes.foldl (fun n b => n * 2 ^ 8 + b) 0

/-- `U256::to_be_bytes` (external). -/
def toBeBytes (n : ℕ) : List ℕ := (List.range 32).map fun i => n / 2 ^ (8 * (31 - i)) % 2 ^ 8

/-- `K256InverseFieldSubEx::phantom_execute` (hints-circuit/src/executors.rs:39-90).  The
Montgomery form and its inverse are from `crypto_bigint` (external): the inverse of the residue
class. -/
def k256InverseFieldSubEx : HintExecutor := fun m a cUpper => do
  FieldElement10x26.check (cUpper = 0)
  let rs1 := m.register a
  let n := fromBeBytes ((List.range 32).map fun i => m.mem (rs1 + i))
  let nMod : ZMod k256Mod := (n : ZMod k256Mod)
  let nInv := if nMod.val = 0 then 0 else (nMod⁻¹).val
  some (toBeBytes nInv)

/-- `K256InverseField10x26SubEx::phantom_execute` (hints-circuit/src/executors.rs:95-134). -/
def k256InverseField10x26SubEx : HintExecutor := fun m a cUpper => do
  FieldElement10x26.check (cUpper = 0)
  let rs1 := m.register a
  let elem := m.readElem rs1
  let inv ← (← elem.invert).normalize
  some inv.leBytes

/-- `K256_NON_QUADRATIC_RESIDUE` (hints-circuit/src/executors.rs:136-139,
hints-guest/src/lib.rs:147-149). -/
def k256NonQuadraticResidue : FieldElement10x26 := ⟨3, 0, 0, 0, 0, 0, 0, 0, 0, 0⟩

/-- `K256SqrtField10x26SubEx::phantom_execute` (hints-circuit/src/executors.rs:141-206).  The
`unwrap` in the second case panics if there is no root. -/
def k256SqrtField10x26SubEx : HintExecutor := fun m a cUpper => do
  FieldElement10x26.check (cUpper = 0)
  let rs1 := m.register a
  let elem := m.readElem rs1
  match ← elem.sqrt with
  | some res => some (leBytes 1 ++ res.leBytes)
  | none => do
    let res ← ← (← elem.mul k256NonQuadraticResidue).sqrt
    some (leBytes 0 ++ res.leBytes)

/-- `HintsFunct7` (hints-guest/src/lib.rs:12-19). -/
inductive HintsFunct7 where
  | reverseBytes
  | k256InverseField
  | k256InverseField10x26
  | k256SqrtField10x26
deriving DecidableEq

/-- `HintsFunct7 as u8` (hints-guest/src/lib.rs:12-19). -/
def HintsFunct7.repr : HintsFunct7 → ℕ
  | reverseBytes => 0
  | k256InverseField => 1
  | k256InverseField10x26 => 2
  | k256SqrtField10x26 => 3

/-- `HintsFunct7::from_repr` (hints-guest/src/lib.rs:12, derived by `strum`). -/
def HintsFunct7.fromRepr : ℕ → Option HintsFunct7
  | 0 => some reverseBytes
  | 1 => some k256InverseField
  | 2 => some k256InverseField10x26
  | 3 => some k256SqrtField10x26
  | _ => none

/-- `OPCODE` (hints-guest/src/lib.rs:8-9). -/
def hintsOpcode : ℕ := 0x5b

/-- `HINTS_FUNCT3` (hints-guest/src/lib.rs:10). -/
def hintsFunct3 : ℕ := 0

/-- The instruction word of the guest's `insn_*` functions (hints-guest/src/lib.rs:21-71), as the
macro `custom_insn_r!` (external) encodes it: format R of RISC-V, with the pointer in `rs1` and
`x0` as `rd` and `rs2`. -/
def hintsInsn (f : HintsFunct7) (rs1 : ℕ) : ℕ :=
  hintsOpcode + 0 * 2 ^ 7 + hintsFunct3 * 2 ^ 12 + rs1 * 2 ^ 15 + 0 * 2 ^ 20 + f.repr * 2 ^ 25

/-- `HintsPhantom as u16` (hints-transpiler/src/lib.rs:21-31). -/
def HintsFunct7.phantom : HintsFunct7 → ℕ
  | .reverseBytes => 0x60
  | .k256InverseField => 0x61
  | .k256InverseField10x26 => 0x62
  | .k256SqrtField10x26 => 0x63

/-- A phantom instruction (external): discriminant, the operands `a` and `b`, and `c_upper`. -/
structure HintPhantomInstruction where
  disc : ℕ
  a : ℕ
  b : ℕ
  cUpper : ℕ
deriving DecidableEq

/-- `HintsTranspilerExtension::process_custom` (hints-transpiler/src/lib.rs:33-69).  `RType::new`
(external) takes the fields out of the word. -/
def hintsProcessCustom : List ℕ → Option HintPhantomInstruction
  | [] => none
  | word :: _ =>
    if word % 2 ^ 7 ≠ hintsOpcode then none else
    if word / 2 ^ 12 % 2 ^ 3 ≠ hintsFunct3 then none else do
    let funct7 ← HintsFunct7.fromRepr (word / 2 ^ 25 % 2 ^ 7)
    some ⟨funct7.phantom, 4 * (word / 2 ^ 15 % 2 ^ 5), 0, 0⟩

/-- The executors that `extend_execution` registers (hints-circuit/src/lib.rs:35-61). -/
def hintsExecutors : List (ℕ × HintExecutor) :=
  [(HintsFunct7.reverseBytes.phantom, reverseBytesSubEx),
   (HintsFunct7.k256InverseField.phantom, k256InverseFieldSubEx),
   (HintsFunct7.k256InverseField10x26.phantom, k256InverseField10x26SubEx),
   (HintsFunct7.k256SqrtField10x26.phantom, k256SqrtField10x26SubEx)]

/-- What executing a hint instruction of the guest puts into the hint stream: the word is
translated and the executor with its discriminant is run. -/
def hintStream (m : HintMemory) (f : HintsFunct7) (rs1 : ℕ) : Option (List ℕ) := do
  let insn ← hintsProcessCustom [hintsInsn f rs1]
  let ex ← hintsExecutors.find? fun e => e.1 == insn.disc
  ex.2 m insn.a insn.cUpper

/-- `read_hint_u32` (hints-guest/src/lib.rs:73-81): the next four bytes of the stream. -/
def readHintU32 : List ℕ → Option (ℕ × List ℕ)
  | a :: b :: c :: d :: rest => some (a + b * 2 ^ 8 + c * 2 ^ 16 + d * 2 ^ 24, rest)
  | _ => none

/-- `read_hint_buffer::<[u32; 10], 10>` (hints-guest/src/lib.rs:83-91). -/
def readHintElem (s : List ℕ) : Option (FieldElement10x26 × List ℕ) := do
  let (l0, s) ← readHintU32 s
  let (l1, s) ← readHintU32 s
  let (l2, s) ← readHintU32 s
  let (l3, s) ← readHintU32 s
  let (l4, s) ← readHintU32 s
  let (l5, s) ← readHintU32 s
  let (l6, s) ← readHintU32 s
  let (l7, s) ← readHintU32 s
  let (l8, s) ← readHintU32 s
  let (l9, s) ← readHintU32 s
  some (⟨l0, l1, l2, l3, l4, l5, l6, l7, l8, l9⟩, s)

/-- `read_hint_buffer::<[u8; 32], 8>` (hints-guest/src/lib.rs:83-91): 32 bytes. -/
def readHint32 (s : List ℕ) : Option (List ℕ) := if 32 ≤ s.length then some (s.take 32) else none

/-- `ensure_weakly_normalized_10x26` (hints-guest/src/lib.rs:117-133). -/
def ensureWeaklyNormalized (a : FieldElement10x26) : FieldElement10x26 :=
  ⟨a.l0 % 2 ^ 26, a.l1 % 2 ^ 26, a.l2 % 2 ^ 26, a.l3 % 2 ^ 26, a.l4 % 2 ^ 26, a.l5 % 2 ^ 26,
   a.l6 % 2 ^ 26, a.l7 % 2 ^ 26, a.l8 % 2 ^ 26, a.l9 % 2 ^ 22⟩

/-- `hint_reverse_bytes` in the zkVM (hints-guest/src/lib.rs:94-99).  The register `rs1` holds the
address of the value. -/
def hintReverseBytes (m : HintMemory) (rs1 : ℕ) : Option ℕ := do
  some (← readHintU32 (← hintStream m .reverseBytes rs1)).1

/-- `hint_reverse_bytes` outside of the zkVM (hints-guest/src/lib.rs:100-106). -/
def hintReverseBytesNative (val : ℕ) : ℕ :=
  ((val &&& 0x000000FF) <<< 24) ||| ((val &&& 0x0000FF00) <<< 8) |||
    ((val &&& 0x00FF0000) >>> 8) ||| ((val &&& 0xFF000000) >>> 24)

/-- `hint_k256_inverse_field` (hints-guest/src/lib.rs:109-115). -/
def hintK256InverseField (m : HintMemory) (rs1 : ℕ) : Option (List ℕ) := do
  readHint32 (← hintStream m .k256InverseField rs1)

/-- `hint_k256_inverse_field_10x26` (hints-guest/src/lib.rs:135-145). -/
def hintK256InverseField10x26 (m : HintMemory) (rs1 : ℕ) : Option FieldElement10x26 := do
  some (ensureWeaklyNormalized (← readHintElem (← hintStream m .k256InverseField10x26 rs1)).1)

/-- `hint_k256_sqrt_field_10x26` (hints-guest/src/lib.rs:151-164). -/
def hintK256SqrtField10x26 (m : HintMemory) (rs1 : ℕ) : Option (Bool × FieldElement10x26) := do
  let (hasSqrt, s) ← readHintU32 (← hintStream m .k256SqrtField10x26 rs1)
  let (sqrt, _) ← readHintElem s
  some (hasSqrt != 0, ensureWeaklyNormalized sqrt)

end Verif
