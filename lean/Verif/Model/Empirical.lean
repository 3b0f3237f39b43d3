import Verif.Model.Partition

/-!
# Model of `autoprecompiles/src/empirical_constraints.rs`

A `BTreeMap` is a list of pairs with different keys. The order of the keys is not modelled: the code reads
the maps by key, and where it iterates, only the order of the generated constraints depends on it.
Numbers are natural numbers, except for the truncation of a 64 bit program counter to 32 bits.
-/

namespace Verif

section
variable {K V : Type} [DecidableEq K]

/-- `entry(k).and_modify(f).or_insert(v)` of a `BTreeMap` (std). -/
def pcMapUpsert (k : K) (f : V → V) (v : V) : List (K × V) → List (K × V)
  | [] => [(k, v)]
  | (k', w) :: t => if k' = k then (k', f w) :: t else (k', w) :: pcMapUpsert k f v t

/-- `insert` of a `BTreeMap` (std). -/
def pcMapInsert (k : K) (v : V) (m : List (K × V)) : List (K × V) := pcMapUpsert k (fun _ => v) v m

/-- `OccupiedEntry::remove` (std). -/
def pcMapRemove (k : K) (m : List (K × V)) : List (K × V) := m.filter fun x => x.1 ≠ k

/-- `merge_maps` (autoprecompiles/src/empirical_constraints.rs:236-247). -/
def mergeMaps [DecidableEq V] (m : List (K × V)) : List (K × V) → Except LoopStop (List (K × V))
  | [] => .ok m
  | (k, v) :: t =>
    match m.lookup k with
    | none => mergeMaps (pcMapInsert k v m) t
    | some w => if w = v then mergeMaps m t else .error .panic

end

/-- `BlockCell` (autoprecompiles/src/empirical_constraints.rs:249-255): instruction and column index. -/
abbrev BlockCell := ℕ × ℕ

/-- `DebugInfo` (autoprecompiles/src/empirical_constraints.rs:48-55). -/
structure DebugInfo where
  airIdByPc : List (ℕ × ℕ)
  columnNamesByAirId : List (ℕ × List String)

/-- `EmpiricalConstraints` (autoprecompiles/src/empirical_constraints.rs:22-35). -/
structure EmpiricalConstraints where
  columnRangesByPc : List (ℕ × List (ℕ × ℕ))
  equivalenceClassesByBlock : List (ℕ × Partition BlockCell)
  debugInfo : DebugInfo
  pcCounts : List (ℕ × ℕ)

/-- `EmpiricalConstraints::default` (autoprecompiles/src/empirical_constraints.rs:24). -/
def EmpiricalConstraints.default : EmpiricalConstraints := ⟨[], [], ⟨[], []⟩, []⟩

/-- `BlockEmpiricalConstraints` (autoprecompiles/src/empirical_constraints.rs:37-46). -/
structure BlockEmpiricalConstraints where
  pcs : List ℕ
  columnRangesByPc : List (ℕ × List (ℕ × (ℕ × ℕ)))
  equivalenceClasses : Partition BlockCell

/-- The loop over the ranges of one program counter
(autoprecompiles/src/empirical_constraints.rs:66-71). -/
def widenLoop (existing : List (ℕ × ℕ)) (i : ℕ) : List (ℕ × ℕ) → List (ℕ × ℕ)
  | [] => existing
  | (mn, mx) :: t => widenLoop (existing.modify i fun e => (min e.1 mn, max e.2 mx)) (i + 1) t

/-- The loop over the program counters (autoprecompiles/src/empirical_constraints.rs:62-74). -/
def combineRanges (m : List (ℕ × List (ℕ × ℕ))) : List (ℕ × List (ℕ × ℕ)) → List (ℕ × List (ℕ × ℕ))
  | [] => m
  | (pc, ranges) :: t =>
    combineRanges (pcMapUpsert pc (fun existing => widenLoop existing 0 ranges) ranges m) t

/-- The loop over the blocks (autoprecompiles/src/empirical_constraints.rs:77-87): the possible results.
The assertion in the loop always holds, because the key is vacant or was removed. -/
inductive CombineClasses : List (ℕ × Partition BlockCell) → List (ℕ × Partition BlockCell) →
    Except LoopStop (List (ℕ × Partition BlockCell)) → Prop
  | nil {m} : CombineClasses m [] (.ok m)
  | vacant {m k p t r} : m.lookup k = none → CombineClasses (pcMapInsert k p m) t r →
      CombineClasses m ((k, p) :: t) r
  | occupied {m k p t r p₀ q} : m.lookup k = some p₀ → p₀.IntersectedWith p (.ok q) →
      CombineClasses (pcMapInsert k q (pcMapRemove k m)) t r → CombineClasses m ((k, p) :: t) r
  | panic {m k p t e p₀} : m.lookup k = some p₀ → p₀.IntersectedWith p (.error e) →
      CombineClasses m ((k, p) :: t) (.error e)

/-- The loop over the counts (autoprecompiles/src/empirical_constraints.rs:92-94). -/
def combineCounts (m : List (ℕ × ℕ)) : List (ℕ × ℕ) → List (ℕ × ℕ)
  | [] => m
  | (pc, count) :: t => combineCounts (pcMapUpsert pc (fun n => n + count) (0 + count) m) t

/-- `DebugInfo::combine_with` (autoprecompiles/src/empirical_constraints.rs:219-225). -/
def DebugInfo.combineWith (a b : DebugInfo) : Except LoopStop DebugInfo := do
  let airIds ← mergeMaps a.airIdByPc b.airIdByPc
  let names ← mergeMaps a.columnNamesByAirId b.columnNamesByAirId
  pure ⟨airIds, names⟩

/-- `EmpiricalConstraints::combine_with` (autoprecompiles/src/empirical_constraints.rs:60-95): the possible
results. -/
def EmpiricalConstraints.CombineWith (a b : EmpiricalConstraints)
    (r : Except LoopStop EmpiricalConstraints) : Prop :=
  ∃ classes, CombineClasses a.equivalenceClassesByBlock b.equivalenceClassesByBlock classes ∧
    r = (do
      let classes ← classes
      let debugInfo ← a.debugInfo.combineWith b.debugInfo
      pure ⟨combineRanges a.columnRangesByPc b.columnRangesByPc, classes, debugInfo,
        combineCounts a.pcCounts b.pcCounts⟩)

/-- `SuperBlock::pcs` (autoprecompiles/src/blocks/mod.rs:123-125). -/
def superBlockPcs {I : Type} (step : ℕ) (blocks : List (BasicBlock I)) : List ℕ :=
  blocks.flatMap fun b => b.pcs step

/-- `SuperBlock::instruction_indexed_start_pcs` (autoprecompiles/src/blocks/mod.rs:86-96). -/
def indexedStartPcs {I : Type} (idx : ℕ) : List (BasicBlock I) → List (ℕ × ℕ)
  | [] => []
  | b :: t => (idx, b.startPc) :: indexedStartPcs (idx + b.instructions.length) t

/-- The cast of a program counter to 32 bits. -/
def pcU32 (pc : ℕ) : ℕ := pc % 2 ^ 32

/-- The ranges of the program counters of a block
(autoprecompiles/src/empirical_constraints.rs:101-109). -/
def blockRanges (m : List (ℕ × List (ℕ × ℕ))) : List ℕ → List (ℕ × List (ℕ × (ℕ × ℕ))) →
    List (ℕ × List (ℕ × (ℕ × ℕ)))
  | [], acc => acc
  | pc :: t, acc =>
    match m.lookup (pcU32 pc) with
    | none => blockRanges m t acc
    | some ranges =>
      blockRanges m t (pcMapInsert (pcU32 pc) (ranges.zipIdx.map fun x => (x.2, x.1)) acc)

/-- The classes of one basic block (autoprecompiles/src/empirical_constraints.rs:115-118). -/
def EmpiricalConstraints.blockClasses (e : EmpiricalConstraints) (pc : ℕ) : Partition BlockCell :=
  (e.equivalenceClassesByBlock.lookup pc).getD Partition.default

/-- The classes of one basic block with the instruction indices shifted
(autoprecompiles/src/empirical_constraints.rs:114-124): the possible results. -/
def EmpiricalConstraints.ShiftedClasses (e : EmpiricalConstraints) (x : ℕ × ℕ)
    (r : Except LoopStop (Partition BlockCell)) : Prop :=
  (e.blockClasses x.2).MapElements (fun cell => (cell.1 + x.1, cell.2)) r

/-- `reduce` with `combine` (autoprecompiles/src/empirical_constraints.rs:126-129), after the first
element. -/
inductive CombineFold (e : EmpiricalConstraints) : Partition BlockCell → List (ℕ × ℕ) →
    Except LoopStop (Partition BlockCell) → Prop
  | nil {p} : CombineFold e p [] (.ok p)
  | cons {p x t q p' r} : e.ShiftedClasses x (.ok q) → p.Combine q (.ok p') → CombineFold e p' t r →
      CombineFold e p (x :: t) r
  | panicMap {p x t s} : e.ShiftedClasses x (.error s) → CombineFold e p (x :: t) (.error s)
  | panicCombine {p x t q s} : e.ShiftedClasses x (.ok q) → p.Combine q (.error s) →
      CombineFold e p (x :: t) (.error s)

/-- The classes of a superblock (autoprecompiles/src/empirical_constraints.rs:111-129): the possible
results. -/
inductive SuperBlockClasses (e : EmpiricalConstraints) : List (ℕ × ℕ) →
    Except LoopStop (Partition BlockCell) → Prop
  | empty : SuperBlockClasses e [] (.error .panic)
  | cons {x t q r} : e.ShiftedClasses x (.ok q) → CombineFold e q t r → SuperBlockClasses e (x :: t) r
  | panic {x t s} : e.ShiftedClasses x (.error s) → SuperBlockClasses e (x :: t) (.error s)

/-- `EmpiricalConstraints::for_block` (autoprecompiles/src/empirical_constraints.rs:98-136): the possible
results. -/
def EmpiricalConstraints.ForBlock {I : Type} (e : EmpiricalConstraints) (step : ℕ)
    (blocks : List (BasicBlock I)) (r : Except LoopStop BlockEmpiricalConstraints) : Prop :=
  ∃ classes, SuperBlockClasses e (indexedStartPcs 0 blocks) classes ∧
    r = (do
      let classes ← classes
      pure ⟨superBlockPcs step blocks, blockRanges e.columnRangesByPc (superBlockPcs step blocks) [],
        classes⟩)

/-- `EmpiricalConstraints::apply_pc_threshold` (autoprecompiles/src/empirical_constraints.rs:143-164).
The threshold, read from the environment, is a parameter. -/
def EmpiricalConstraints.applyPcThreshold (e : EmpiricalConstraints) (threshold : ℕ) :
    EmpiricalConstraints :=
  { e with
    columnRangesByPc := e.columnRangesByPc.filter fun x => (e.pcCounts.lookup x.1).getD 0 ≥ threshold
    equivalenceClassesByBlock := e.equivalenceClassesByBlock.filter fun x =>
      (e.pcCounts.lookup (pcU32 x.1)).getD 0 ≥ threshold }

/-- The instruction indices with a given program counter
(autoprecompiles/src/empirical_constraints.rs:177-183). -/
def pcInstructionIndices (pcs : List ℕ) (pc : ℕ) : List ℕ :=
  (pcs.zipIdx.filter fun x => x.1 = pc).map Prod.snd

/-- The ranges of one program counter that are kept by `filtered`
(autoprecompiles/src/empirical_constraints.rs:184-194). The column index that the predicate gets is the
position in the map, not the key. -/
def filterRanges (indices : List ℕ) (predicate : BlockCell → Bool) (ranges : List (ℕ × (ℕ × ℕ))) :
    List (ℕ × (ℕ × ℕ)) :=
  ranges.zipIdx.filterMap fun x =>
    if indices.all fun idx => predicate (idx, x.2) then some x.1 else none

/-- `BlockEmpiricalConstraints::filtered` (autoprecompiles/src/empirical_constraints.rs:171-215): the
possible results. -/
def BlockEmpiricalConstraints.Filtered (b : BlockEmpiricalConstraints) (predicate : BlockCell → Bool)
    (r : Except LoopStop BlockEmpiricalConstraints) : Prop :=
  ∃ classes, b.equivalenceClasses.ToClasses classes ∧
    r = (do
      let classes ← classes
      let classes ← Partition.fromIter (classes.map fun c => c.filter predicate)
      pure ⟨b.pcs, b.columnRangesByPc.map fun x =>
        (x.1, filterRanges (pcInstructionIndices b.pcs x.1) predicate x.2), classes⟩)

/-- `EqualityConstraint` with a reference on the left
(autoprecompiles/src/empirical_constraints.rs:362-392), as all generated constraints are; the right side
is a reference or a number. -/
structure EqConstraint (R : Type) where
  left : R
  right : R ⊕ ℕ

section
variable {R : Type}

/-- `get_algebraic_reference` (autoprecompiles/src/empirical_constraints.rs:292-302). -/
def getReference (refs : BlockCell → Option R) (cell : BlockCell) : Except LoopStop R :=
  match refs cell with
  | none => .error .panic
  | some r => .ok r

/-- The constraints for the columns of one instruction
(autoprecompiles/src/empirical_constraints.rs:326-337). -/
def columnConstraints (refs : BlockCell → Option R) (idx : ℕ) : List (ℕ × (ℕ × ℕ)) →
    Except LoopStop (List (EqConstraint R))
  | [] => .ok []
  | (col, (mn, mx)) :: t =>
    if mn = mx then do
      let r ← getReference refs (idx, col)
      let rest ← columnConstraints refs idx t
      pure (⟨r, .inr mn⟩ :: rest)
    else columnConstraints refs idx t

/-- `range_constraints` (autoprecompiles/src/empirical_constraints.rs:317-341). -/
def rangeConstraints (refs : BlockCell → Option R) (ranges : List (ℕ × List (ℕ × (ℕ × ℕ)))) :
    ℕ → List ℕ → Except LoopStop (List (EqConstraint R))
  | _, [] => .ok []
  | idx, pc :: t =>
    match ranges.lookup (pcU32 pc) with
    | none => rangeConstraints refs ranges (idx + 1) t
    | some rs => do
      let here ← columnConstraints refs idx rs
      let rest ← rangeConstraints refs ranges (idx + 1) t
      pure (here ++ rest)

/-- The constraints for the elements of a class after the first
(autoprecompiles/src/empirical_constraints.rs:349-355). -/
def othersConstraints (refs : BlockCell → Option R) (first : R) : List BlockCell →
    Except LoopStop (List (EqConstraint R))
  | [] => .ok []
  | cell :: t => do
    let other ← getReference refs cell
    let rest ← othersConstraints refs first t
    pure (⟨first, .inl other⟩ :: rest)

/-- `equivalence_constraints` (autoprecompiles/src/empirical_constraints.rs:343-359). -/
def equivalenceConstraints (refs : BlockCell → Option R) : List (List BlockCell) →
    Except LoopStop (List (EqConstraint R))
  | [] => .ok []
  | [] :: _ => .error .panic
  | (first :: others) :: t => do
    let r ← getReference refs first
    let here ← othersConstraints refs r others
    let rest ← equivalenceConstraints refs t
    pure (here ++ rest)

/-- `generate_constraints` (autoprecompiles/src/empirical_constraints.rs:305-310): the possible results.
`blockPcs` are the program counters of the block of the generator. -/
def BlockEmpiricalConstraints.Generate (b : BlockEmpiricalConstraints) (refs : BlockCell → Option R)
    (blockPcs : List ℕ) (r : Except LoopStop (List (EqConstraint R))) : Prop :=
  ∃ classes, b.equivalenceClasses.ToClasses classes ∧
    r = (do
      let ranges ← rangeConstraints refs b.columnRangesByPc 0 blockPcs
      let classes ← classes
      let eqs ← equivalenceConstraints refs classes
      pure (ranges ++ eqs))

/-- The map from column ids to cells in `BlockCellAlgebraicReferenceMapper::new`
(autoprecompiles/src/optimistic/algebraic_references.rs:17-25). -/
def idToCell : ℕ → List (List ℕ) → List (ℕ × BlockCell) → List (ℕ × BlockCell)
  | _, [], m => m
  | i, subs :: t, m =>
    idToCell (i + 1) t (subs.zipIdx.foldl (fun m x => pcMapInsert x.1 (i, x.2) m) m)

/-- The second loop of `BlockCellAlgebraicReferenceMapper::new`
(autoprecompiles/src/optimistic/algebraic_references.rs:26-28). -/
def cellToReference (id : R → ℕ) (cells : List (ℕ × BlockCell)) : List R → List (BlockCell × R) →
    Except LoopStop (List (BlockCell × R))
  | [], m => .ok m
  | r :: t, m =>
    match cells.lookup (id r) with
    | none => .error .panic
    | some cell => cellToReference id cells t (pcMapInsert cell r m)

/-- `BlockCellAlgebraicReferenceMapper::new`
(autoprecompiles/src/optimistic/algebraic_references.rs:16-32). `id` is the id of a reference. -/
def newReferenceMapper (id : R → ℕ) (subs : List (List ℕ)) (columns : List R) :
    Except LoopStop (List (BlockCell × R)) :=
  cellToReference id (idToCell 0 subs []) columns []

end

end Verif
