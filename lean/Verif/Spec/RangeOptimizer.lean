import Verif.Model.RangeOptimizer
import Verif.Spec.Solver
import Verif.Spec.OpenVm

/-!
# Specification: handlers of range constraints
-/

namespace Verif

open RangeConstraint GExpr

variable {p : ℕ} {V : Type} [LinearOrder V]

/-- The contract of `RangeConstraintHandler` for the bus interactions `bs`, as its documentation
states it: an interaction that is reported to be a pure range constraint is admissible exactly if
the listed expressions are in the listed ranges, and interactions made for requested ranges are
admissible exactly if the requests are met. All ranges are of the form `[0, max]` with `max < w`,
where `w` is at most half the size of the field. -/
structure RangeHandler.Exact (bus : Bus p) (rh : RangeHandler p V) (w : ℕ)
    (bs : List (BusInteraction (GExpr p V))) : Prop where
  half : 2 * w ≤ p
  shape : ∀ b ∈ bs, b.multiplicity = const 1 → ∀ rcs, rh.pure b = .ok (some rcs) →
    ∀ x ∈ rcs, x.1 ∈ b.payload ∧ x.2.min = 0 ∧ x.2.max.val < w
  pureExact : ∀ b ∈ bs, b.multiplicity = const 1 → ∀ rcs, rh.pure b = .ok (some rcs) →
    ∀ σ, bus (b.evalAt σ) ↔ ∀ x ∈ rcs, x.2.allowsValue (eval σ x.1) = true
  makeExact : ∀ rcs, (∀ x ∈ rcs, x.2.min = 0 ∧ x.2.max.val < w) →
    ∀ made, rh.make rcs = .ok (some made) →
    ∀ σ, (∀ b ∈ made, bus (b.evalAt σ)) ↔ ∀ x ∈ rcs, x.2.allowsValue (eval σ x.1) = true

/-- The constant bit counts in the interactions with the variable range checker are at most 25. -/
def SmallBitCounts (m : BusMap) (bs : List (BusInteraction (GExpr p V))) : Prop :=
  ∀ b ∈ bs, ∀ id x n, b.busId = const id → b.payload = [x, const n] →
    (id.val, BusType.other .variableRangeChecker) ∈ m → n.val ≤ 25

end Verif
