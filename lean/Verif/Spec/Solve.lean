import Verif.Model.Solve
import Verif.Spec.Eval

/-!
# Specification: what an effect claims about an assignment
-/

namespace Verif

variable {p : ℕ} {V : Type}

/-- The statement an effect makes about the values of the variables. -/
def Effect.Holds (σ : V → ZMod p) : Effect p V → Prop
  | .assignment v value => σ v = value
  | .rangeConstraint v rc => rc.allowsValue (σ v) = true
  | .assertion lhs rhs expectedEqual => (lhs = rhs) ↔ expectedEqual = true
  | .conditionalAssignment v value condition inRange outOfRange =>
    (condition.allowsValue value = true → σ v = inRange) ∧
      (¬ condition.allowsValue value = true → σ v = outOfRange)

/-- The values of the variables of `e` are allowed by their range constraints. -/
def InRange (rc : V → RangeConstraint p) (σ : V → ZMod p) (e : GExpr p V) : Prop :=
  ∀ v, GExpr.Occurs v e → (rc v).allowsValue (σ v) = true

end Verif
