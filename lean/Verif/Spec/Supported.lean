import Verif.Spec.Eval
import Verif.Spec.Range
import Verif.Model.RangeConstraint

/-!
# Specification vocabulary: the values a single constraint leaves for a variable
-/

namespace Verif

open Spec

variable {p : ℕ} {V : Type}

/-- The constraint `e = 0` can be satisfied with the value `x` for the variable `v` and values for all other variables
that are in their intervals. -/
def Supported (rc : V → RangeConstraint p) (e : GExpr p V) (v : V) (x : ZMod p) : Prop :=
  ∃ σ : V → ZMod p, σ v = x ∧ GExpr.eval σ e = 0 ∧ ∀ w, w ≠ v → Between (rc w).min (rc w).max (σ w)

end Verif
