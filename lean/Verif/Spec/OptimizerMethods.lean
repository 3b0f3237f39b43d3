import Verif.Spec.Optimizer

/-!
# Specification: variables of computation methods
-/

namespace Verif

variable {p : ℕ} {V : Type} [LinearOrder V]

/-- The variable occurs in the computation method: computing it needs the value of the variable. -/
def ComputationMethod.Mentions (v : V) : ComputationMethod p (GExpr p V) → Prop
  | .constant _ => False
  | .quotientOrZero e1 e2 => e1.Occurs v ∨ e2.Occurs v

end Verif
