import Verif.Spec.ConstraintSystem

/-! # Specification of exhaustive search -/

namespace Verif

open GExpr

variable {p : ℕ} {V : Type}

/-- `σ` gives the searched variables `vs` values in their ranges, such that all algebraic constraints
and bus interactions hold that mention some variable, but only searched ones. -/
structure SearchConsistent (s : ConstraintSystem p V) (bus : Bus p) (rc : V → RangeConstraint p)
    (vs : List V) (σ : V → ZMod p) : Prop where
  ranges : ∀ v ∈ vs, (rc v).allowsValue (σ v) = true
  algebraic : ∀ e ∈ s.algebraic, (∃ v, Occurs v e) → (∀ v, Occurs v e → v ∈ vs) → eval σ e = 0
  bus : ∀ b ∈ s.bus, (∃ e ∈ b.fields, ∃ v, Occurs v e) →
    (∀ e ∈ b.fields, ∀ v, Occurs v e → v ∈ vs) → bus (b.evalAt σ)

/-- The handler reports a violation for every forbidden interaction with known fields. -/
def Handler.Rejects (bus : Bus p) (h : Handler p) : Prop :=
  ∀ b : BusInteraction (ZMod p), ¬ bus b → ∀ r,
    handleChecked h (b.map RangeConstraint.fromValue) ≠ .ok (.ok r)

end Verif
