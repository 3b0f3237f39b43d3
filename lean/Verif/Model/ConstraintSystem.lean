import Verif.Model.Solve

/-!
# Constraint systems and bus interactions

Model of `constraint-solver/src/constraint_system.rs` and
`constraint-solver/src/bus_interaction_handler.rs`.
-/

namespace Verif

/-- `BusInteraction` (constraint_system.rs:193-204). -/
structure BusInteraction (α : Type) where
  busId : α
  multiplicity : α
  payload : List α
deriving DecidableEq

namespace BusInteraction

variable {α β : Type}

/-- `fields` (constraint_system.rs:207-213). -/
def fields (b : BusInteraction α) : List α := b.busId :: b.multiplicity :: b.payload

/-- `BusInteraction::from_iter(self.fields().map(f))` (constraint_system.rs:236-248). -/
def map (f : α → β) (b : BusInteraction α) : BusInteraction β :=
  ⟨f b.busId, f b.multiplicity, b.payload.map f⟩

end BusInteraction

/-- `ViolatesBusRules` (bus_interaction_handler.rs:7-8). -/
inductive ViolatesBusRules where
  | mk
deriving DecidableEq

/-- `BusInteractionHandler::handle_bus_interaction` (bus_interaction_handler.rs:23-26):
implementations of the trait are arbitrary functions, which might panic. -/
abbrev Handler (p : ℕ) :=
  BusInteraction (RangeConstraint p) → Except Panic (BusInteraction (RangeConstraint p))

variable {p : ℕ} {V : Type}

/-- `zip_eq` (crate `itertools`) panics if the lengths differ. -/
def zipEq {α β : Type} (a : List α) (b : List β) : Except Panic (List (α × β)) :=
  if a.length = b.length then .ok (a.zip b) else .error .assertion

/-- `handle_bus_interaction_checked` (bus_interaction_handler.rs:30-48). The code zips lazily, so
for lists of different lengths it may return an error before it would panic; here
it always panics. -/
def handleChecked (h : Handler p) (b : BusInteraction (RangeConstraint p)) :
    Except Panic (Except ViolatesBusRules (BusInteraction (RangeConstraint p))) := do
  let new ← h b
  let pairs ← zipEq b.fields new.fields
  if pairs.any fun (previousRc, newRc) => previousRc.isDisjoint newRc then pure (.error .mk)
  else pure (.ok new)

/-- `DefaultBusInteractionHandler` (bus_interaction_handler.rs:57-64). -/
def defaultHandler : Handler p := fun b => .ok b

namespace GExpr

variable [LinearOrder V] (rc : V → RangeConstraint p)

/-- `to_range_constraints` (constraint_system.rs:253-261). -/
def toRangeConstraints (b : BusInteraction (GExpr p V)) : BusInteraction (RangeConstraint p) :=
  b.map (rangeConstraint rc)

/-- The inner `filter_map` of `BusInteraction::solve` for one variable
(constraint_system.rs:284-297). -/
def solveFieldVar (expr : GExpr p V) (r : RangeConstraint p) (v : V) :
    Except Panic (Option (Effect p V)) :=
  match coefficientOf expr v with
  | none => .error .assertion
  | some k =>
    match trySolveFor expr v with
    | .error x => .error x
    | .ok none => .ok none
    | .ok (some s) =>
      let r' := (r.multiple k⁻¹).combineSum (rangeConstraint rc s)
      .ok (if r'.isUnconstrained then none else some (.rangeConstraint v r'))

/-- The loop over the variables of one field (constraint_system.rs:284-297). -/
def solveFieldVars (expr : GExpr p V) (r : RangeConstraint p) :
    List V → Except Panic (List (Effect p V))
  | [] => .ok []
  | v :: vs => do
    let e ← solveFieldVar rc expr r v
    let es ← solveFieldVars expr r vs
    pure (e.toList ++ es)

/-- The loop over the fields (constraint_system.rs:279-299). -/
def solveFields : List (GExpr p V × RangeConstraint p) → Except Panic (List (Effect p V))
  | [] => .ok []
  | (expr, r) :: t =>
    if expr.isAffine then do
      let es ← solveFieldVars rc expr r expr.vars
      let fs ← solveFields t
      pure (es ++ fs)
    else solveFields t

/-- `BusInteraction::solve` (constraint_system.rs:271-300). -/
def solveBus (h : Handler p) (b : BusInteraction (GExpr p V)) :
    Except Panic (Except ViolatesBusRules (List (Effect p V))) := do
  match ← handleChecked h (toRangeConstraints rc b) with
  | .error e => pure (.error e)
  | .ok new =>
    let pairs ← zipEq b.fields new.fields
    let effects ← solveFields rc pairs
    pure (.ok effects)

/-- `BusInteraction::referenced_unknown_variables` (constraint_system.rs:303-311). -/
def busVars (b : BusInteraction (GExpr p V)) : List V := b.fields.flatMap vars

end GExpr

/-- `ComputationMethod` (constraint_system.rs:131-137). -/
inductive ComputationMethod (p : ℕ) (E : Type) where
  | constant (c : ZMod p)
  | quotientOrZero (e1 e2 : E)

/-- `DerivedVariable` (constraint_system.rs:82-86). -/
structure DerivedVariable (p : ℕ) (V : Type) where
  column : V
  method : ComputationMethod p (GExpr p V)

/-- `ConstraintSystem` (constraint_system.rs:20-32). An algebraic constraint is represented by its
expression (algebraic_constraint/mod.rs:14-18). -/
structure ConstraintSystem (p : ℕ) (V : Type) where
  algebraic : List (GExpr p V)
  bus : List (BusInteraction (GExpr p V))
  derived : List (DerivedVariable p V) := []

/-- `ConstraintSystem::referenced_unknown_variables` (constraint_system.rs:61-70). -/
def ConstraintSystem.vars [LinearOrder V] (s : ConstraintSystem p V) : List V :=
  s.algebraic.flatMap GExpr.vars ++ s.bus.flatMap GExpr.busVars

/-- `ConstraintSystem::extend` (constraint_system.rs:74-79). -/
def ConstraintSystem.extend (s t : ConstraintSystem p V) : ConstraintSystem p V :=
  ⟨s.algebraic ++ t.algebraic, s.bus ++ t.bus, s.derived ++ t.derived⟩

end Verif
