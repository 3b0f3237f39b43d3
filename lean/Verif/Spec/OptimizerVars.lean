import Verif.Spec.Optimizer

/-!
# Specification: variables in the optimizer
-/

namespace Verif

variable {p : ℕ} {V : Type} [LinearOrder V]

/-- The interactions made for range constraints only mention variables of the expressions they are
made for. -/
def RangeHandler.KeepsVars (rh : RangeHandler p V) : Prop :=
  ∀ rcs made, rh.make rcs = .ok (some made) → ∀ b ∈ made, ∀ e ∈ b.fields, ∀ v, e.Occurs v →
    ∃ x ∈ rcs, x.1.Occurs v

end Verif
