import Verif.Model.Empirical
import Verif.Spec.Partition

/-! # Specification of empirical constraints -/

namespace Verif

/-- The range recorded for a column of the instruction at a program counter. -/
def EmpiricalConstraints.range (e : EmpiricalConstraints) (pc col : ℕ) : Option (ℕ × ℕ) :=
  (e.columnRangesByPc.lookup pc).bind fun l => l[col]?

/-- How often the instruction at a program counter was executed. -/
def EmpiricalConstraints.count (e : EmpiricalConstraints) (pc : ℕ) : ℕ := (e.pcCounts.lookup pc).getD 0

/-- The cells are recorded as equal in every execution of the block. -/
def EmpiricalConstraints.Equates (e : EmpiricalConstraints) (block : ℕ) (x y : BlockCell) : Prop :=
  (e.blockClasses block).Same x y

/-- The recorded block. -/
def EmpiricalConstraints.HasBlock (e : EmpiricalConstraints) (block : ℕ) : Prop :=
  (e.equivalenceClassesByBlock.lookup block).isSome

/-- A map has different keys. -/
def MapKeys {K V : Type} (m : List (K × V)) : Prop := (m.map Prod.fst).Nodup

/-- What every value built by the API satisfies. -/
structure EmpiricalConstraints.WF (e : EmpiricalConstraints) : Prop where
  ranges : MapKeys e.columnRangesByPc
  blocks : MapKeys e.equivalenceClassesByBlock
  airs : MapKeys e.debugInfo.airIdByPc
  names : MapKeys e.debugInfo.columnNamesByAirId
  counts : MapKeys e.pcCounts
  classes : ∀ x ∈ e.equivalenceClassesByBlock, x.2.WF

/-- The maps agree where both are defined. -/
def MapsAgree {K V : Type} [DecidableEq K] (a b : List (K × V)) : Prop :=
  ∀ k v w, a.lookup k = some v → b.lookup k = some w → v = w

/-- The smallest range that contains both. -/
def hull (a b : Option (ℕ × ℕ)) : Option (ℕ × ℕ) :=
  match a, b with
  | none, _ => none
  | some a, none => some a
  | some a, some b => some (min a.1 b.1, max a.2 b.2)

/-- The recorded range of a column of the instruction at a program counter. -/
def BlockEmpiricalConstraints.range (b : BlockEmpiricalConstraints) (pc col : ℕ) : Option (ℕ × ℕ) :=
  (b.columnRangesByPc.lookup pc).bind fun l => l.lookup col

/-- The value of the right side of a constraint. -/
def EqConstraint.Holds {R F : Type} [NatCast F] (σ : R → F) (c : EqConstraint R) : Prop :=
  σ c.left = match c.right with
    | .inl r => σ r
    | .inr n => (n : F)

/-- The cells `(i, c)` of the blocks of a superblock that are recorded as equal, at their instruction
indices in the superblock. -/
def superBlockEquates {I : Type} (e : EmpiricalConstraints) : ℕ → List (BasicBlock I) →
    BlockCell → BlockCell → Prop
  | _, [], _, _ => False
  | off, b :: t, x, y =>
    (∃ x' y', x = (off + x'.1, x'.2) ∧ y = (off + y'.1, y'.2) ∧ x' ≠ y' ∧ e.Equates b.startPc x' y') ∨
      superBlockEquates e (off + b.instructions.length) t x y

/-- The cells of the classes of a block are cells of its instructions. -/
def CellsInBlock {I : Type} (e : EmpiricalConstraints) (b : BasicBlock I) : Prop :=
  ∀ x y, x ≠ y → e.Equates b.startPc x y → x.1 < b.instructions.length

/-- Combining several values into one, in the given order. -/
inductive CombineMany : EmpiricalConstraints → List EmpiricalConstraints →
    Except LoopStop EmpiricalConstraints → Prop
  | nil {a} : CombineMany a [] (.ok a)
  | cons {a b t c r} : a.CombineWith b (.ok c) → CombineMany c t r → CombineMany a (b :: t) r
  | panic {a b t s} : a.CombineWith b (.error s) → CombineMany a (b :: t) (.error s)

/-- All statistics agree on the number of columns of each instruction and on the debug information. -/
structure Consistent (l : List EmpiricalConstraints) : Prop where
  columns : ∀ a ∈ l, ∀ b ∈ l, ∀ pc x y, a.columnRangesByPc.lookup pc = some x →
    b.columnRangesByPc.lookup pc = some y → x.length = y.length
  airs : ∀ a ∈ l, ∀ b ∈ l, MapsAgree a.debugInfo.airIdByPc b.debugInfo.airIdByPc
  names : ∀ a ∈ l, ∀ b ∈ l, MapsAgree a.debugInfo.columnNamesByAirId b.debugInfo.columnNamesByAirId

end Verif
