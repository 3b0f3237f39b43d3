import Verif.Model.Evaluator
import Verif.Model.Empirical

/-!
# Model of the optimistic constraints of a precompile

`autoprecompiles/src/lib.rs:372-413` and
`autoprecompiles/src/optimistic/execution_constraint_generator.rs`. A panic is `.error .panic`.
-/

namespace Verif

/-- The closure in `superblock_pc_constraints` (lib.rs:399-411). `toValue` is `Value::try_from`. -/
def pcConstraint {A V : Type} (toValue : ℕ → Option V) (x : ℕ × ℕ) :
    Except LoopStop (OptConstraint A V) :=
  match toValue x.2 with
  | none => .error .panic
  | some v => .ok ⟨.literal ⟨x.1, .pc⟩, .number v⟩

/-- `superblock_pc_constraints` (lib.rs:393-413). -/
def superblockPcConstraints {A V I : Type} (toValue : ℕ → Option V) (blocks : List (BasicBlock I)) :
    Except LoopStop (List (OptConstraint A V)) :=
  (indexedStartPcs 0 blocks).mapM (pcConstraint toValue)

/-- The optimistic constraints of a precompile (lib.rs:372-375). -/
def apcOptimisticConstraints {A V I : Type} [DecidableEq A] [DecidableEq V] (toValue : ℕ → Option V)
    (blocks : List (BasicBlock I)) : Except LoopStop (OptConstraints A V) := do
  let cs ← superblockPcConstraints toValue blocks
  pure (.fromConstraints cs)

end Verif
