import Verif.Spec.ConstraintSystem

/-!
# Specification: handlers that accept some bus interactions
-/

namespace Verif

open GExpr

variable {p : ℕ} {V : Type}

/-- The range constraints could have been computed for the bus interaction: there is one for each field,
and a field that is a constant has this value. -/
def BusInteraction.Matches (b : BusInteraction (GExpr p V)) (r : BusInteraction (RangeConstraint p)) :
    Prop :=
  List.Forall₂ (fun e x => ∀ k, e = const k → x = RangeConstraint.fromValue k) b.fields r.fields

/-- The handler does not panic, whatever range constraints it gets for the bus interaction. -/
def Handler.Accepts (h : Handler p) (b : BusInteraction (GExpr p V)) : Prop :=
  ∀ r, b.Matches r → ∃ r', h r = .ok r'

end Verif
