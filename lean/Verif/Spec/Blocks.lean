import Verif.Model.Blocks
import Mathlib.Order.Bounds.Defs

/-! # Specification of blocks and their occurrences -/

namespace Verif

variable {α : Type}

/-- `needle` occurs in `haystack` at position `i`. -/
def OccursAt (haystack needle : List α) (i : ℕ) : Prop :=
  ∃ before after, haystack = before ++ needle ++ after ∧ before.length = i

/-- Occurrences of `needle` in `haystack` that do not overlap, from left to right. -/
def DisjointOccurrences (haystack needle : List α) (is : List ℕ) : Prop :=
  (∀ i ∈ is, OccursAt haystack needle i) ∧ is.Pairwise fun i j => i + needle.length ≤ j

/-- The number of times `needle` can be used in `haystack`: the largest number of occurrences that do not
overlap. -/
def Uses (haystack needle : List α) (n : ℕ) : Prop :=
  IsGreatest {k | ∃ is, DisjointOccurrences haystack needle is ∧ is.length = k} n

/-- The number of times `needle` can be used in an execution, given as runs with multiplicities. -/
inductive ExecutionUses (needle : List α) : List (List α × ℕ) → ℕ → Prop
  | nil : ExecutionUses needle [] 0
  | cons {run c t n total} : Uses run needle n → ExecutionUses needle t total →
      ExecutionUses needle ((run, c) :: t) (n * c + total)

/-- The number of executed blocks in a list of runs with their multiplicities. -/
def executedBlocks (execution : List (List α × ℕ)) : ℕ :=
  (execution.map fun x => x.1.length * x.2).sum

end Verif

namespace Verif

variable {I : Type}

/-- The instructions of a program with their program counters. -/
def DetectionConfig.located (c : DetectionConfig I) (program : List I) : List (ℕ × I) :=
  program.zipIdx.map fun x => (c.basePc + x.2 * c.pcStep, x.1)

/-- Two consecutive instructions are in the same basic block exactly if the second one is not a jump
destination, the first one does not branch and both are allowed in a precompile. -/
def DetectionConfig.sameBlock (c : DetectionConfig I) (x y : ℕ × I) : Bool :=
  !c.jumpDest y.1 && !c.isBranching x.2 && c.isAllowed x.2 && c.isAllowed y.2

end Verif

namespace Verif

variable {I : Type}

/-- The basic blocks executed between two blocks with a single instruction, as lists of start addresses,
in order of execution. -/
def blockRuns (bs : List (BasicBlock I)) : List (List ℕ) :=
  ((bs.splitOnP fun b => b.instructions.length = 1).map fun s => s.map (·.startPc)).filter
    fun s => s ≠ []

/-- The execution of the instructions with the given indices: it starts at the first instruction or at a
jump destination, goes from each instruction to the next one, except that a branching instruction can go
to a jump destination, and does not stop between two instructions of the same block. -/
structure DetectionConfig.Follows (c : DetectionConfig I) (program : List I) (is : List ℕ) : Prop where
  start : ∀ i ∈ is.head?, i = 0 ∨ c.jumpDest (c.basePc + i * c.pcStep) = true
  valid : ∀ i ∈ is, i < program.length
  step : is.IsChain fun i j => j = i + 1 ∨
    (∃ x ∈ program[i]?, c.isBranching x = true) ∧ c.jumpDest (c.basePc + j * c.pcStep) = true
  stop : ∀ i ∈ is.getLast?, ∀ x ∈ (c.located program)[i]?, ∀ y ∈ (c.located program)[i + 1]?,
    c.sameBlock x y = false

end Verif
