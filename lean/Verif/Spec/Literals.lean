import Verif.Model.Literals
import Verif.Spec.Build
import Verif.Spec.Optimistic

/-!
# Specification of optimistic literals and execution constraints
-/

namespace Verif

open GExpr

section
variable {p : ℕ}

/-- The registers in the state of the machine have the contents of the memory: at every address there is a
content, and its limbs are those of the value of the register. -/
def StateMatches (limb : ℕ → ℕ → ℕ) (st : ExecState (List (ZMod p)) ℕ) (mem : Memory p) : Prop :=
  ∀ space pointer, ∃ data timestamp, mem (space, pointer) = some (data, timestamp) ∧
    ∀ (i : ℕ) (x : ZMod p), data[i]? = some x → limb (st.reg [space, pointer]) i = x.val

/-- A literal of a column is right for the values of the columns: in the states of the run, the value of
the literal is that of the column. -/
def LiteralRight (limb : ℕ → ℕ → ℕ) (states : List (ExecState (List (ZMod p)) ℕ)) (σ : ℕ → ZMod p)
    (x : ℕ × OptLiteral (List (ZMod p))) : Prop :=
  x.2.read limb states = some (σ x.1).val

/-- The accesses to memory can be told apart: each interaction with memory is a get or a set, and any two
gets, and any two sets, are in different address spaces or at different constant pointers. -/
def AccessesApart (memoryBusId : ℕ) (bs : List (SymBus (ZMod p) ℕ)) : Prop :=
  (∀ b ∈ bs, memConversion memoryBusId (symBusToBus b) = .ok .notMemory ∨
    ∃ m, memConversion memoryBusId (symBusToBus b) = .ok (.memory m)) ∧
  bs.Pairwise fun b b' => ∀ m m', memConversion memoryBusId (symBusToBus b) = .ok (.memory m) →
    memConversion memoryBusId (symBusToBus b') = .ok (.memory m') → m.op = m'.op →
    m.space ≠ m'.space ∨ ∃ x y, m.pointer.tryToKnown = some x ∧ m'.pointer.tryToKnown = some y ∧ x ≠ y

end

end Verif
