import Verif.Model.ConstraintOptimizer
import Verif.Spec.Memory
import Verif.Spec.Reachability
import Verif.Spec.Inliner

/-!
# Specification: what the optimizer has to keep

Besides its solutions, the observable effect of a system are the messages it sends on the stateful
buses.
-/

namespace Verif

variable {p : ℕ} {V : Type}

/-- The messages that are sent on stateful buses, with multiplicity different from zero. -/
def ConstraintSystem.messages (isStateful : ZMod p → Bool) (s : ConstraintSystem p V)
    (σ : V → ZMod p) : List (BusInteraction (ZMod p)) :=
  (s.bus.map (BusInteraction.evalAt σ)).filter fun m =>
    isStateful m.busId && decide (m.multiplicity ≠ 0)

/-- Whatever the values of the other variables are, the interaction is admissible for some value of
`x`. -/
def FreeThrough [DecidableEq V] (bus : Bus p) (b : BusInteraction (GExpr p V)) (x : V) : Prop :=
  ∀ τ : V → ZMod p, ∃ k, bus (b.evalAt (Function.update τ x k))

end Verif
