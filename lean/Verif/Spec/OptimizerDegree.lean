import Verif.Spec.Optimizer

/-!
# Specification: degrees in the optimizer
-/

namespace Verif

variable {p : ℕ} {V : Type} [LinearOrder V]

/-- The constraints have degree at most `n` and all fields of bus interactions, including bus
identifiers and multiplicities, at most `k`. -/
structure ConstraintSystem.Degrees (s : ConstraintSystem p V) (n k : ℕ) : Prop where
  algebraic : ∀ e ∈ s.algebraic, e.degree ≤ n
  bus : ∀ b ∈ s.bus, ∀ e ∈ b.fields, e.degree ≤ k

/-- The interactions made for range constraints have no higher degree than the expressions they are
made for. -/
def RangeHandler.KeepsDegree (rh : RangeHandler p V) : Prop :=
  ∀ rcs made, rh.make rcs = .ok (some made) → ∀ k, (∀ x ∈ rcs, x.1.degree ≤ k) →
    ∀ b ∈ made, ∀ e ∈ b.fields, e.degree ≤ k

end Verif
