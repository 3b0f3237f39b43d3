import Verif.Model.ConstraintSystem
import Verif.Spec.Solve

/-!
# Specification: solutions of a constraint system

The meaning of the buses is a parameter: `Bus p` says which concrete bus interactions
(bus id, multiplicity, payload) are admissible. An interaction with multiplicity zero is
usually admissible whatever its payload; that is up to the predicate.
-/

namespace Verif

variable {p : ℕ} {V : Type}

/-- Which concrete bus interactions are admissible. -/
abbrev Bus (p : ℕ) := BusInteraction (ZMod p) → Prop

/-- The concrete bus interaction sent under an assignment. -/
def BusInteraction.evalAt (σ : V → ZMod p) (b : BusInteraction (GExpr p V)) :
    BusInteraction (ZMod p) :=
  ⟨b.busId.eval σ, b.multiplicity.eval σ, b.payload.map (GExpr.eval σ)⟩

/-- All fields of the concrete interaction are allowed by the respective range constraint (in
particular there are equally many). -/
def BusInteraction.Within (b : BusInteraction (ZMod p)) (r : BusInteraction (RangeConstraint p)) :
    Prop :=
  r.busId.allowsValue b.busId = true ∧ r.multiplicity.allowsValue b.multiplicity = true ∧
    List.Forall₂ (fun (x : ZMod p) (r : RangeConstraint p) => r.allowsValue x = true)
      b.payload r.payload

/-- The contract of a bus interaction handler: an admissible interaction within the range
constraints passed to the handler is within those it returns, and the handler keeps the number of
fields. -/
def Handler.Sound (bus : Bus p) (h : Handler p) : Prop :=
  ∀ r r', h r = .ok r' → r'.payload.length = r.payload.length ∧
    ∀ b : BusInteraction (ZMod p), bus b → b.Within r → b.Within r'

/-- The handler never panics. -/
def Handler.Total (h : Handler p) : Prop := ∀ r, ∃ r', h r = .ok r'

/-- The values of all variables that occur in the bus interaction are allowed. -/
def BusInRange (rc : V → RangeConstraint p) (σ : V → ZMod p) (b : BusInteraction (GExpr p V)) :
    Prop := ∀ e ∈ b.fields, InRange rc σ e

/-- `σ` satisfies the constraint system, relative to the meaning of the buses. -/
structure ConstraintSystem.Satisfied (bus : Bus p) (s : ConstraintSystem p V) (σ : V → ZMod p) :
    Prop where
  algebraic : ∀ e ∈ s.algebraic, e.eval σ = 0
  bus : ∀ b ∈ s.bus, bus (b.evalAt σ)

/-- The value of a derived variable (constraint_system.rs:131-137). -/
def ComputationMethod.value {p : ℕ} [Fact p.Prime] {V : Type} (σ : V → ZMod p) :
    ComputationMethod p (GExpr p V) → ZMod p
  | constant c => c
  | quotientOrZero e1 e2 => if e2.eval σ = 0 then 0 else e1.eval σ / e2.eval σ

/-- All expressions of the bus interaction are well-formed. -/
def BusInteraction.WF [LinearOrder V] (b : BusInteraction (GExpr p V)) : Prop :=
  ∀ e ∈ b.fields, GExpr.WF e

/-- All expressions of the constraint system are well-formed. -/
def ConstraintSystem.WF [LinearOrder V] (s : ConstraintSystem p V) : Prop :=
  (∀ e ∈ s.algebraic, GExpr.WF e) ∧ ∀ b ∈ s.bus, b.WF

/-- The expressions of the computation method are well-formed. -/
def ComputationMethod.WF [LinearOrder V] : ComputationMethod p (GExpr p V) → Prop
  | constant _ => True
  | quotientOrZero e1 e2 => GExpr.WF e1 ∧ GExpr.WF e2

/-- The column has the value of its computation method. -/
def DerivedVariable.Computed [Fact p.Prime] (σ : V → ZMod p) (d : DerivedVariable p V) : Prop :=
  σ d.column = d.method.value σ

/-- All derived variables have the values of their computation methods. -/
def ConstraintSystem.Computed [Fact p.Prime] (s : ConstraintSystem p V) (σ : V → ZMod p) : Prop :=
  ∀ d ∈ s.derived, d.Computed σ

/-- The expressions of all computation methods are well-formed. -/
def ConstraintSystem.DerivedWF [LinearOrder V] (s : ConstraintSystem p V) : Prop :=
  ∀ d ∈ s.derived, d.method.WF

end Verif
