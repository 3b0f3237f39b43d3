import Verif.Model.Compile
import Mathlib.Logic.Relation

/-!
# Specification: precompiles of a program
-/

namespace Verif

variable {I A : Type}

/-- The superblock is a single basic block: the instructions of the program from index `s` on, with their program
counters. There are at least two instructions, a precompile is allowed for each of them, no instruction but the last one
branches, and no instruction but the first one is the destination of a jump. -/
structure StandsAt (isa : IsaInfo I) (prog : VmProgram I) (sb : List (BasicBlock I)) (s : ℕ) (is : List I) : Prop where
  block : sb = [⟨prog.pcBase + s * 4, is⟩]
  code : (prog.slots.drop s).take is.length = is.map some
  several : 2 ≤ is.length
  allowed : ∀ i ∈ is, isa.isAllowed i = true
  branch : ∀ j x, is[j]? = some x → isa.isBranching x = true → j + 1 = is.length
  jump : ∀ j, 0 < j → j < is.length → isa.jumpDest (prog.pcBase + (s + j) * 4) = false

/-- The precompile knows the block it was generated for. -/
def KnowsBlock (info : ApcInfo I A) (built : List (BasicBlock I) → Option A → Prop) : Prop :=
  ∀ b a, built b (some a) → info.block a = b

/-- The program has no missing instructions. -/
def VmProgram.GapFree (prog : VmProgram I) : Prop := ∀ x ∈ prog.slots, x.isSome

/-- The list is ordered by decreasing value, and elements with the same value are in their original order. -/
structure StablySorted {α : Type} (value : α → ℕ) (original sorted : List α) : Prop where
  perm : sorted.Perm original
  decreasing : sorted.Pairwise fun x y => value y ≤ value x
  stable : ∀ v, sorted.filter (fun x => decide (value x = v)) = original.filter fun x => decide (value x = v)

/-- What an execution needs: the program counter of a state, and the effect of an instruction (`none` is an error). -/
structure VmExec (I S : Type) where
  pc : S → ℕ
  exec : I → S → Option S

/-- Instructions that do not branch go on to the next instruction. -/
def VmExec.GoesStraight {S : Type} (m : VmExec I S) (isa : IsaInfo I) : Prop :=
  ∀ i x y, isa.isBranching i = false → m.exec i x = some y → m.pc y = m.pc x + 4

/-- The instruction of the program at a program counter. -/
def VmProgram.Holds (prog : VmProgram I) (pc : ℕ) (i : I) : Prop :=
  ∃ s, pc = prog.pcBase + s * 4 ∧ prog.slots[s]? = some (some i)

/-- A step of execution without precompiles. -/
def PlainStep {S : Type} (m : VmExec I S) (prog : VmProgram I) (x y : S) : Prop :=
  ∃ i, prog.Holds (m.pc x) i ∧ m.exec i x = some y

/-- A step of execution with precompiles: if there is one at the program counter, it executes the instructions it was
generated for one after the other (C54). -/
def ApcStep {S : Type} (m : VmExec I S) (info : ApcInfo I A) (prog : VmProgram I) (table : List (ℕ × A)) (x y : S) :
    Prop :=
  (∃ s opcode a, m.pc x = prog.pcBase + s * 4 ∧ (s, opcode) ∈ prog.apcAt ∧ (opcode, a) ∈ table ∧
    ((info.block a).flatMap (·.instructions)).foldlM (fun s i => m.exec i s) x = some y) ∨
  ((¬ ∃ s opcode, m.pc x = prog.pcBase + s * 4 ∧ (s, opcode) ∈ prog.apcAt) ∧ PlainStep m prog x y)

end Verif
