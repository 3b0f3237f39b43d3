import Verif.Model.Optimistic
import Verif.Spec.Evaluator

/-! # Specification of the optimistic constraints of a precompile -/

namespace Verif

section
variable {A V I : Type}

/-- The block at position `j` is entered: at the instruction that comes after all instructions of the
blocks before it, the program counter is the start of the block. -/
def BlocksEntered (toValue : ℕ → Option V) (blocks : List (BasicBlock I)) (states : List (ExecState A V)) :
    Prop :=
  ∀ before b after, blocks = before ++ b :: after →
    ∃ st, states[(before.flatMap fun b => b.instructions).length]? = some st ∧
      toValue b.startPc = some st.pc

/-- In these states, an instruction of a basic block which is not the last one is followed by the next
instruction of the block. -/
def StraightLine (toValue : ℕ → Option V) (step : ℕ) (blocks : List (BasicBlock I))
    (states : List (ExecState A V)) : Prop :=
  ∀ b ∈ blocks, ∀ i, i + 1 < b.instructions.length → ∀ (k : ℕ) (st st' : ExecState A V),
    states[k]? = some st → states[k + 1]? = some st' →
    toValue (b.startPc + i * step) = some st.pc → toValue (b.startPc + (i + 1) * step) = some st'.pc

end

end Verif
