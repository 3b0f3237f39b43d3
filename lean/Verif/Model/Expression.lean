import Verif.Model.ConstraintSystem

/-!
# Model of symbolic expressions, symbolic machines and their conversion

`expression/src/lib.rs`, `autoprecompiles/src/expression_conversion.rs`,
`autoprecompiles/src/symbolic_machine.rs`.

Simplification: a column reference is represented by its id, because comparisons are based on the id
only (autoprecompiles/src/expression.rs:26-48) and the name is "just for informational purposes".
-/

namespace Verif

/-- `AlgebraicBinaryOperator` (expression/src/lib.rs:49-56). -/
inductive AlgOp where
  | add
  | sub
  | mul
deriving DecidableEq

/-- `AlgebraicExpression` (expression/src/lib.rs:26-35). The only unary operator is minus
(lib.rs:69-72). -/
inductive AlgExpr (T R : Type) where
  | reference (r : R)
  | number (n : T)
  | binary (left : AlgExpr T R) (op : AlgOp) (right : AlgExpr T R)
  | minus (e : AlgExpr T R)
deriving DecidableEq

namespace AlgExpr

variable {T R : Type}

/-- `degree` (expression/src/lib.rs:111-123). -/
def degree : AlgExpr T R → ℕ
  | reference _ => 1
  | number _ => 0
  | binary l .mul r => degree l + degree r
  | binary l .add r => max (degree l) (degree r)
  | binary l .sub r => max (degree l) (degree r)
  | minus e => degree e

/-- The references visited by `all_children` (expression/src/visitors.rs), in pre-order
(powdr.rs:42-58 before sorting and deduplication). -/
def refs : AlgExpr T R → List R
  | reference r => [r]
  | number _ => []
  | binary l _ r => refs l ++ refs r
  | minus e => refs e

/-- `to_expression` (expression/src/lib.rs:180-206). -/
def toExpression {E : Type} (add sub mul : E → E → E) (neg : E → E) (num : T → E) (var : R → E) :
    AlgExpr T R → E
  | reference r => var r
  | number n => num n
  | binary l op r =>
    let left := toExpression add sub mul neg num var l
    let right := toExpression add sub mul neg num var r
    match op with
    | .add => add left right
    | .sub => sub left right
    | .mul => mul left right
  | minus e => neg (toExpression add sub mul neg num var e)

/-- `convert_expression` (symbolic_machine_generator.rs:87-114). -/
def convert {U : Type} (f : T → U) : AlgExpr T R → AlgExpr U R
  | number n => number (f n)
  | reference r => reference r
  | binary l op r => binary (convert f l) op (convert f r)
  | minus e => minus (convert f e)

/-- A visitor that changes all references in place (`pre_visit_expressions_mut` with a closure that
changes the id of a reference, powdr.rs:109-119). -/
def mapRefs {R' : Type} (f : R → R') : AlgExpr T R → AlgExpr T R'
  | number n => number n
  | reference r => reference (f r)
  | binary l op r => binary (mapRefs f l) op (mapRefs f r)
  | minus e => minus (mapRefs f e)

/-- `extract_negation_if_possible` (expression_conversion.rs:91-101). -/
def extractNegation : AlgExpr T R → AlgExpr T R × Bool
  | minus e => (e, true)
  | e => (e, false)

/-- `SymbolicConstraint::from` (symbolic_machine.rs:47-58). -/
def toConstraint : AlgExpr T R → AlgExpr T R
  | minus e => e
  | e => e

end AlgExpr

variable {p : ℕ} {V : Type}

/-- `algebraic_to_grouped_expression` (expression_conversion.rs:10-20). -/
def algebraicToGrouped [LinearOrder V] (e : AlgExpr (ZMod p) V) : GExpr p V :=
  e.toExpression GExpr.add GExpr.sub GExpr.mul GExpr.neg GExpr.const GExpr.var

/-- The product with the signs moved to the outside (expression_conversion.rs:36-46). -/
def productItem (l r : AlgExpr (ZMod p) V) : AlgExpr (ZMod p) V :=
  let (l, lNeg) := l.extractNegation
  let (r, rNeg) := r.extractNegation
  if lNeg = rNeg then .binary l .mul r else .minus (.binary l .mul r)

/-- A linear item (expression_conversion.rs:47-55). -/
def linearItem (v : V) (c : ZMod p) : AlgExpr (ZMod p) V :=
  if c = 1 then .reference v
  else if -c = 1 then .minus (.reference v)
  else if isInLowerHalf c then .binary (.number c) .mul (.reference v)
  else .minus (.binary (.number (-c)) .mul (.reference v))

/-- `field_element_to_algebraic_expression` (expression_conversion.rs:81-87). -/
def numberItem (c : ZMod p) : AlgExpr (ZMod p) V :=
  if isInLowerHalf c then .number c else .minus (.number (-c))

/-- `reduce(|acc, item| acc + item)` (expression_conversion.rs:71-72). -/
def sumItems : List (AlgExpr (ZMod p) V) → Option (AlgExpr (ZMod p) V)
  | [] => none
  | e :: t => some (t.foldl (fun acc item => .binary acc .add item) e)

/-- The sum of the items, ordered by sign (expression_conversion.rs:61-78). -/
def combineItems (items : List (AlgExpr (ZMod p) V)) : AlgExpr (ZMod p) V :=
  let items := items.map AlgExpr.extractNegation
  let positive := sumItems ((items.filter fun x => !x.2).map Prod.fst)
  let negated := sumItems ((items.filter fun x => x.2).map Prod.fst)
  match positive, negated with
  | some p, some n => .binary p .sub n
  | some p, none => p
  | none, some n => .minus n
  | none, none => .number 0

mutual
/-- `grouped_expression_to_algebraic` (expression_conversion.rs:25-79). -/
def groupedToAlgebraic : GExpr p V → AlgExpr (ZMod p) V
  | .mk q l c => combineItems (quadraticItems q ++ l.map (fun x => linearItem x.1 x.2) ++
      if c = 0 then [] else [numberItem c])
/-- The items of the quadratic part (expression_conversion.rs:36-46). -/
def quadraticItems : List (GExpr p V × GExpr p V) → List (AlgExpr (ZMod p) V)
  | [] => []
  | (a, b) :: t => productItem (groupedToAlgebraic a) (groupedToAlgebraic b) :: quadraticItems t
end

/-! ## Symbolic machines -/

/-- `SymbolicBusInteraction` (symbolic_machine.rs:71-75). -/
structure SymBus (T R : Type) where
  id : ℕ
  mult : AlgExpr T R
  args : List (AlgExpr T R)
deriving DecidableEq

/-- `ComputationMethod` over symbolic expressions (symbolic_machine.rs:126-127). -/
inductive SymMethod (T R : Type) where
  | constant (c : T)
  | quotientOrZero (e1 e2 : AlgExpr T R)
deriving DecidableEq

/-- `SymbolicMachine` (symbolic_machine.rs:116-124). -/
structure SymMachine (T R : Type) where
  constraints : List (AlgExpr T R)
  bus : List (SymBus T R)
  derived : List (R × SymMethod T R)
deriving DecidableEq

namespace SymMachine

variable {T R : Type}

/-- `Children::children` (symbolic_machine.rs:202-209, 61-63, 99-101): the expressions of the
constraints and of the bus interactions. The derived columns are not included. -/
def exprs (m : SymMachine T R) : List (AlgExpr T R) :=
  m.constraints ++ m.bus.flatMap fun b => b.mult :: b.args

/-- All references in the machine (powdr.rs:42-58 before sorting and deduplication). -/
def refs (m : SymMachine T R) : List R := m.exprs.flatMap AlgExpr.refs

/-- `degree` (symbolic_machine.rs:196-198). -/
def degree (m : SymMachine T R) : ℕ := (m.exprs.map AlgExpr.degree).foldl max 0

/-- `concatenate` (symbolic_machine.rs:134-139). -/
def concatenate (m n : SymMachine T R) : SymMachine T R :=
  ⟨m.constraints ++ n.constraints, m.bus ++ n.bus, m.derived ++ n.derived⟩

/-- `convert_machine_field_type` (symbolic_machine_generator.rs:29-85). -/
def convert {U : Type} (f : T → U) (m : SymMachine T R) : SymMachine U R where
  constraints := m.constraints.map (AlgExpr.convert f)
  bus := m.bus.map fun b => ⟨b.id, b.mult.convert f, b.args.map (AlgExpr.convert f)⟩
  derived := m.derived.map fun x => (x.1, match x.2 with
    | .constant c => .constant (f c)
    | .quotientOrZero e1 e2 => .quotientOrZero (e1.convert f) (e2.convert f))

end SymMachine

/-- `symbolic_bus_interaction_to_bus_interaction` (symbolic_machine.rs:297-309). -/
def symBusToBus [LinearOrder V] (b : SymBus (ZMod p) V) : BusInteraction (GExpr p V) where
  busId := GExpr.const (b.id : ZMod p)
  multiplicity := algebraicToGrouped b.mult
  payload := b.args.map algebraicToGrouped

/-- `symbolic_machine_to_constraint_system` (symbolic_machine.rs:225-260). -/
def machineToSystem [LinearOrder V] (m : SymMachine (ZMod p) V) : ConstraintSystem p V where
  algebraic := m.constraints.map algebraicToGrouped
  bus := m.bus.map symBusToBus
  derived := m.derived.map fun x => ⟨x.1, match x.2 with
    | .constant c => .constant c
    | .quotientOrZero e1 e2 => .quotientOrZero (algebraicToGrouped e1) (algebraicToGrouped e2)⟩

/-- `bus_interaction_to_symbolic_bus_interaction` (symbolic_machine.rs:311-332). The id is the
canonical integer; it panics if this is not a constant or does not fit 64 bits. -/
def busToSymBus (b : BusInteraction (GExpr p V)) : Except Panic (SymBus (ZMod p) V) :=
  match b.busId.tryToNumber with
  | none => .error .assertion
  | some id =>
    if id.val < 2 ^ 64 then
      .ok ⟨id.val, groupedToAlgebraic b.multiplicity, b.payload.map groupedToAlgebraic⟩
    else .error .assertion

/-- `constraint_system_to_symbolic_machine` (symbolic_machine.rs:262-295). -/
def systemToMachine (s : ConstraintSystem p V) : Except Panic (SymMachine (ZMod p) V) := do
  let bus ← s.bus.mapM busToSymBus
  pure {
    constraints := s.algebraic.map fun e => (groupedToAlgebraic e).toConstraint
    bus
    derived := s.derived.map fun d => (d.column, match d.method with
      | .constant c => .constant c
      | .quotientOrZero e1 e2 =>
        .quotientOrZero (groupedToAlgebraic e1) (groupedToAlgebraic e2)) }

end Verif
