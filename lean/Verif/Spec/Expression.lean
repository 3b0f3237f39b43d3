import Verif.Model.Machine
import Verif.Spec.ConstraintSystem
import Mathlib.Algebra.Field.Basic

/-!
# Specification: the meaning of symbolic expressions and machines
-/

namespace Verif

section
variable {F R : Type} [CommRing F]

/-- The value of a symbolic expression under an assignment of the columns. -/
def AlgExpr.value (σ : R → F) : AlgExpr F R → F
  | reference r => σ r
  | number n => n
  | binary l .add r => value σ l + value σ r
  | binary l .sub r => value σ l - value σ r
  | binary l .mul r => value σ l * value σ r
  | minus e => - value σ e

/-- The message sent by a bus interaction: the bus, the multiplicity and the tuple. -/
def SymBus.message (σ : R → F) (b : SymBus F R) : ℕ × F × List F :=
  (b.id, b.mult.value σ, b.args.map (AlgExpr.value σ))

/-- The row satisfies all polynomial constraints of the machine. -/
def SymMachine.Holds (m : SymMachine F R) (σ : R → F) : Prop :=
  ∀ e ∈ m.constraints, e.value σ = 0

/-- The messages sent by the row, in order. -/
def SymMachine.messages (m : SymMachine F R) (σ : R → F) : List (ℕ × F × List F) :=
  m.bus.map (SymBus.message σ)

end

/-- The value of a derived column. -/
def SymMethod.value {F R : Type} [Field F] [DecidableEq F] (σ : R → F) : SymMethod F R → F
  | constant c => c
  | quotientOrZero e1 e2 => if e2.value σ = 0 then 0 else e1.value σ / e2.value σ

/-- The bus argument accepts all messages of the row. -/
def SymMachine.Accepted {p : ℕ} {V : Type} (bus : Bus p) (m : SymMachine (ZMod p) V)
    (σ : V → ZMod p) : Prop :=
  ∀ x ∈ m.messages σ, bus ⟨(x.1 : ZMod p), x.2.1, x.2.2⟩

end Verif
