import Mathlib.Data.List.Basic
import Mathlib.Order.Defs.LinearOrder
import Mathlib.Data.List.Lex

/-!
# Model of basic blocks, superblocks and their detection

`autoprecompiles/src/blocks/detection.rs`, `autoprecompiles/src/blocks/mod.rs`, and the counting
functions of `autoprecompiles/src/pgo/cell/selection.rs`.

Simplifications: program counters and counters are natural numbers (no overflow of `u64` and `u32`).
`BTreeMap` is a list of pairs, sorted by the key. Logging is left out.
-/

namespace Verif

/-- Why a computation did not return: a panic, or not enough steps (a loop that does not end runs out of
every number of steps). -/
inductive LoopStop where
  | panic
  | fuel
deriving DecidableEq

/-- `BasicBlock` (blocks/mod.rs:21-25). -/
structure BasicBlock (I : Type) where
  startPc : ℕ
  instructions : List I
deriving DecidableEq

/-- `BasicBlock::pcs` (blocks/mod.rs:29-31). -/
def BasicBlock.pcs {I : Type} (step : ℕ) (b : BasicBlock I) : List ℕ :=
  (List.range b.instructions.length).map fun i => b.startPc + i * step

/-- `BasicBlock::instructions` (blocks/mod.rs:34-39). -/
def BasicBlock.pcInstructions {I : Type} (step : ℕ) (b : BasicBlock I) : List (ℕ × I) :=
  b.instructions.zipIdx.map fun x => (b.startPc + x.2 * step, x.1)

/-! ## Basic blocks -/

section
variable {I : Type}

/-- The parameters of the detection: `is_branching` and `is_allowed` of the adapter, the set of jump
destinations, and `instruction_index_to_pc` (blocks/mod.rs:176-178). -/
structure DetectionConfig (I : Type) where
  isBranching : I → Bool
  isAllowed : I → Bool
  jumpDest : ℕ → Bool
  basePc : ℕ
  pcStep : ℕ

/-- `instruction_index_to_pc` (blocks/mod.rs:176-178). -/
def DetectionConfig.pc (c : DetectionConfig I) (i : ℕ) : ℕ := c.basePc + i * c.pcStep

/-- The loop body (detection.rs:18-60): the finished blocks and the current one. -/
def collectStep (c : DetectionConfig I) (st : List (BasicBlock I) × BasicBlock I) (i : ℕ) (instr : I) :
    List (BasicBlock I) × BasicBlock I :=
  let (blocks, curr) := st
  if !c.isAllowed instr then
    let blocks := if !curr.instructions.isEmpty then blocks ++ [curr] else blocks
    (blocks ++ [⟨c.pc i, [instr]⟩], ⟨c.pc (i + 1), []⟩)
  else
    let (blocks, curr) :=
      if c.jumpDest (c.pc i) then
        (if !curr.instructions.isEmpty then blocks ++ [curr] else blocks, ⟨c.pc i, []⟩)
      else (blocks, curr)
    let curr := { curr with instructions := curr.instructions ++ [instr] }
    if c.isBranching instr then (blocks ++ [curr], ⟨c.pc (i + 1), []⟩) else (blocks, curr)

/-- The loop (detection.rs:18-60). -/
def collectLoop (c : DetectionConfig I) : List I → ℕ → List (BasicBlock I) × BasicBlock I →
    List (BasicBlock I) × BasicBlock I
  | [], _, st => st
  | instr :: t, i, st => collectLoop c t (i + 1) (collectStep c st i instr)

/-- `collect_basic_blocks` (detection.rs:9-74). -/
def collectBasicBlocks (c : DetectionConfig I) (program : List I) : List (BasicBlock I) :=
  let (blocks, curr) := collectLoop c program 0 ([], ⟨c.pc 0, []⟩)
  if !curr.instructions.isEmpty then blocks ++ [curr] else blocks

end

/-! ## Occurrences of a block in a run -/

section
variable {α : Type} [DecidableEq α]

/-- The loop of `find_non_overlapping` (blocks/mod.rs:234-241), for a number of steps. -/
def findLoop (haystack needle : List α) : ℕ → ℕ → List ℕ → Except LoopStop (List ℕ)
  | 0, _, _ => .error .fuel
  | n + 1, pos, indices =>
    if pos + needle.length ≤ haystack.length then
      if (haystack.drop pos).take needle.length = needle then
        findLoop haystack needle n (pos + needle.length) (indices ++ [pos])
      else findLoop haystack needle n (pos + 1) indices
    else .ok indices

/-- `find_non_overlapping` (blocks/mod.rs:231-243). The number of steps is enough for every needle except
the empty one, for which the loop does not end (`C42_terminates`). -/
def findNonOverlapping (haystack needle : List α) : Except LoopStop (List ℕ) :=
  findLoop haystack needle (haystack.length + 1) 0 []

/-- `tuples` (itertools) for pairs. -/
def tuples {β : Type} : List β → List (β × β)
  | a :: b :: t => (a, b) :: tuples t
  | _ => []

/-- `run.0[start..end].to_vec()`. -/
def sliceRun (run : List α) (x : ℕ × ℕ) : Except LoopStop (List α) :=
  if x.1 ≤ x.2 ∧ x.2 ≤ run.length then .ok ((run.take x.2).drop x.1) else .error .panic

/-- `count_and_update_run` (selection.rs:92-108). -/
def countAndUpdateRun (sblock run : List α) : Except LoopStop (ℕ × List (List α)) := do
  let matchIndices ← findNonOverlapping run sblock
  let intervals := matchIndices.flatMap fun i => [i, i + sblock.length]
  let subRuns ← ((tuples ([0] ++ intervals ++ [run.length])).filter fun x => x.1 ≠ x.2).mapM
    (sliceRun run)
  pure (matchIndices.length, subRuns)

/-- `count_and_update_execution` (selection.rs:112-126). -/
def countAndUpdateExecution (sblock : List α) : List (List α × ℕ) →
    Except LoopStop (ℕ × List (List α × ℕ))
  | [] => .ok (0, [])
  | (run, runCount) :: t => do
    let (count, subRuns) ← countAndUpdateRun sblock run
    let (total, rest) ← countAndUpdateExecution sblock t
    pure (count * runCount + total, subRuns.map (fun r => (r, runCount)) ++ rest)

end

/-! ## Superblocks -/

section
variable {K : Type} [LinearOrder K]

/-- `*map.entry(k).or_insert(0) += n` on a `BTreeMap` (std). -/
def btreeAdd (k : K) (n : ℕ) : List (K × ℕ) → List (K × ℕ)
  | [] => [(k, n)]
  | (k', n') :: t =>
    if k < k' then (k, n) :: (k', n') :: t
    else if k = k' then (k', n' + n) :: t
    else (k', n') :: btreeAdd k n t

/-- Insert a key with value zero into a `BTreeMap` (std), replacing the value of an existing key. -/
def btreeInsertZero (k : K) : List (K × ℕ) → List (K × ℕ)
  | [] => [(k, 0)]
  | (k', n') :: t =>
    if k < k' then (k, 0) :: (k', n') :: t
    else if k = k' then (k', 0) :: t
    else (k', n') :: btreeInsertZero k t

/-- The reduction of two maps (blocks/mod.rs:326-332). -/
def btreeMerge (a b : List (K × ℕ)) : List (K × ℕ) :=
  b.foldl (fun a x => btreeAdd x.1 x.2 a) a

end

section
variable {I : Type}

/-- The map `start_pc_to_bb` (blocks/mod.rs:357-360): the last block with the start. -/
def blockAt (blocks : List (BasicBlock I)) (pc : ℕ) : Option (BasicBlock I) :=
  blocks.reverse.find? fun b => b.startPc = pc

/-- End the current run (blocks/mod.rs:271-275 and 283-287). -/
def endRun (runs : List (List ℕ × ℕ)) (current : List ℕ) : List (List ℕ × ℕ) :=
  if !current.isEmpty then btreeAdd current 1 runs else runs

/-- The loop of `detect_execution_bb_runs` (blocks/mod.rs:260-287), for a number of steps. -/
def detectRunsLoop (blocks : List (BasicBlock I)) (execution : List ℕ) :
    ℕ → ℕ → List (List ℕ × ℕ) → List ℕ → Except LoopStop (List (List ℕ × ℕ))
  | 0, _, _, _ => .error .fuel
  | n + 1, pos, runs, current =>
    match execution[pos]? with
    | none => .ok (endRun runs current)
    | some pc =>
      match blockAt blocks pc with
      | none => .error .panic
      | some bb =>
        if bb.instructions.isEmpty then .error .panic
        else if bb.instructions.length = 1 then
          detectRunsLoop blocks execution n (pos + bb.instructions.length) (endRun runs current) []
        else
          detectRunsLoop blocks execution n (pos + bb.instructions.length) runs (current ++ [pc])

/-- `detect_execution_bb_runs` (blocks/mod.rs:248-290). Each step advances, so that the number of steps is
enough. -/
def detectExecutionBbRuns (blocks : List (BasicBlock I)) (execution : List ℕ) :
    Except LoopStop (List (List ℕ × ℕ)) :=
  detectRunsLoop blocks execution (execution.length + 1) 0 [] []

end

/-- `windows` of a slice (std). -/
def windows {α : Type} (len : ℕ) (l : List α) : List (List α) :=
  (List.range (l.length + 1 - len)).map fun i => (l.drop i).take len

/-- The second loop of `count_superblocks_in_run` (blocks/mod.rs:304-306). -/
def countKeys (run : List ℕ) : List (List ℕ × ℕ) → Except LoopStop (List (List ℕ × ℕ))
  | [] => .ok []
  | (sblock, _) :: t => do
    let is ← findNonOverlapping run sblock
    let rest ← countKeys run t
    pure ((sblock, is.length) :: rest)

/-- `count_superblocks_in_run` (blocks/mod.rs:294-308). -/
def countSuperblocksInRun (run : List ℕ) (maxLen : ℕ) : Except LoopStop (List (List ℕ × ℕ)) :=
  let keys := (List.range (min maxLen run.length)).foldl (fun m len =>
    (windows (len + 1) run).foldl (fun m w => btreeInsertZero w m) m) []
  countKeys run keys

/-- The closure of `map` in `count_superblocks_in_execution` (blocks/mod.rs:318-325). -/
def countInRunTimes (maxLen : ℕ) (x : List ℕ × ℕ) : Except LoopStop (List (List ℕ × ℕ)) := do
  let m ← countSuperblocksInRun x.1 maxLen
  pure (m.map fun y => (y.1, y.2 * x.2))

/-- `reduce` of a parallel iterator (rayon): the items are combined in order, with any bracketing, and the
identity may be inserted anywhere. -/
inductive ParReduce {α : Type} (identity : α) (op : α → α → α) : List α → α → Prop
  | identity : ParReduce identity op [] identity
  | item (a : α) : ParReduce identity op [a] a
  | op {l₁ l₂ a b} : ParReduce identity op l₁ a → ParReduce identity op l₂ b →
      ParReduce identity op (l₁ ++ l₂) (op a b)

/-- `count_superblocks_in_execution` (blocks/mod.rs:312-334): the possible results. -/
def CountSuperblocksInExecution (runs : List (List ℕ × ℕ)) (maxLen : ℕ)
    (r : List (List ℕ × ℕ)) : Prop :=
  ∃ maps, runs.mapM (countInRunTimes maxLen) = .ok maps ∧ ParReduce [] btreeMerge maps r

/-- The fields of `PowdrConfig` (lib.rs) used by `detect_superblocks`. -/
structure SuperblockConfig where
  superblockMaxBbCount : ℕ
  apcExecCountCutoff : ℕ
  apcMaxInstructions : ℕ

/-- The last loop of `detect_superblocks` (blocks/mod.rs:379-401): the result is a list of superblocks
with their counts. A missing block is a panic of the index operation (383). -/
def buildSuperblocks {I : Type} (cfg : SuperblockConfig) (blocks : List (BasicBlock I)) :
    List (List ℕ × ℕ) → Except LoopStop (List (List (BasicBlock I) × ℕ))
  | [] => .ok []
  | (pcs, count) :: t =>
    match pcs.mapM (blockAt blocks) with
    | none => .error .panic
    | some block =>
      if block.isEmpty then .error .panic
      else do
        let rest ← buildSuperblocks cfg blocks t
        if count < cfg.apcExecCountCutoff then pure rest
        else if (block.flatMap (·.instructions)).length > cfg.apcMaxInstructions then pure rest
        else pure ((block, count) :: rest)

/-- `detect_superblocks` (blocks/mod.rs:339-422): the possible results, i.e. the blocks with their counts
and the runs with their counts. -/
def DetectSuperblocks {I : Type} (cfg : SuperblockConfig) (execution : List ℕ)
    (blocks : List (BasicBlock I)) (r : List (List (BasicBlock I) × ℕ) × List (List ℕ × ℕ)) : Prop :=
  ∃ found, detectExecutionBbRuns blocks execution = .ok r.2 ∧
    CountSuperblocksInExecution r.2 cfg.superblockMaxBbCount found ∧
    buildSuperblocks cfg blocks found = .ok r.1

end Verif
