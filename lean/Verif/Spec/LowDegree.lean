import Verif.Model.LowDegree
import Verif.Spec.ConstraintOptimizer
import Verif.Spec.RangeOptimizer

/-!
# Specification: handlers that decide lookups
-/

namespace Verif

open RangeConstraint GExpr

variable {p : ℕ} {V : Type} [LinearOrder V] [Fact p.Prime]

/-- The values of the field that are possible as far as the solver knows. -/
def Solver.FieldAllows (solver : Solver p V) (e : GExpr p V) (v : ZMod p) : Prop :=
  match e.tryToNumber with
  | some k => v = k
  | none => (solver.rangeConstraintForExpression e).allowsValue v = true

/-- What is known about the interaction if all fields of the payload but the one with index `out`
have the given values. -/
def seenWith (solver : Solver p V) (b : BusInteraction (GExpr p V)) (out : ℕ)
    (values : List (ZMod p)) : BusInteraction (RangeConstraint p) where
  busId := rangeConstraint solver.get b.busId
  multiplicity := rangeConstraint solver.get b.multiplicity
  payload := (b.payload.zip values).zipIdx.map fun x =>
    if x.2 = out then rangeConstraint solver.get x.1.1 else fromValue x.1.2

/-- The handler decides the lookup: if all fields but one, which is not constant, have values that
are possible as far as the solver knows, and the handler does not reject them and computes the value
of the remaining one, then the lookup is admissible with these values. -/
def Handler.Decides (bus : Bus p) (h : Handler p) (solver : Solver p V)
    (b : BusInteraction (GExpr p V)) : Prop :=
  ∀ (σ : V → ZMod p) (out : ℕ) (values : List (ZMod p)), values.length = b.payload.length →
    (∀ e, b.payload[out]? = some e → e.tryToNumber = none) →
    (∀ (i : ℕ) e v, i ≠ out → b.payload[i]? = some e → values[i]? = some v →
      solver.FieldAllows e v) →
    ∀ r' rc v, handleChecked h (seenWith solver b out values) = .ok (.ok r') →
      r'.payload[out]? = some rc → rc.tryToSingleValue = some v → values[out]? = some v →
      bus ⟨eval σ b.busId, eval σ b.multiplicity, values⟩

/-- Interactions made for requested ranges with less than `2^16` elements are admissible exactly if
the requests are met. They are lookups. -/
structure RangeHandler.MakesExactly (bus : Bus p) (isStateful : ZMod p → Bool)
    (rh : RangeHandler p V) : Prop where
  exact : ∀ rcs made, (∀ x ∈ rcs, x.2.width < 2 ^ 16) → rh.make rcs = .ok (some made) →
    ∀ σ, (∀ b ∈ made, bus (b.evalAt σ)) ↔ ∀ x ∈ rcs, x.2.allowsValue (eval σ x.1) = true
  stateless : ∀ rcs made, rh.make rcs = .ok (some made) → ∀ b ∈ made,
    ∃ id, b.busId = const id ∧ isStateful id = false
  wf : ∀ rcs made, (∀ x ∈ rcs, WF x.1) → rh.make rcs = .ok (some made) → ∀ b ∈ made, b.WF

/-- What has to be known about lookups so that the handler of OpenVM decides them: it is known that
the operands of bitwise operations are bytes, and the multiplicity is constant unless no field has a
known value without being constant. -/
structure OpenVmKnown (m : BusMap) (solver : Solver p V) (b : BusInteraction (GExpr p V)) : Prop where
  bytes : ∀ id x y z op, b.busId = const id → (id.val, BusType.other .bitwiseLookup) ∈ m →
    b.payload = [x, y, z, op] → ∀ e, e = x ∨ e = y → ∀ v,
      solver.FieldAllows e v ∨ (rangeConstraint solver.get e).allowsValue v = true → v.val < 256
  multiplicity : (∃ k, b.multiplicity = const k) ∨ ∀ e ∈ b.payload, e.tryToNumber = none →
    (rangeConstraint solver.get e).tryToSingleValue = none

/-- `is_stateful` of OpenVM as a function; unknown buses, for which it panics, count as stateful. -/
def openVmStateful (m : BusMap) (id : ZMod p) : Bool :=
  match isStateful m id with
  | .ok b => b
  | .error _ => true

end Verif
