import Verif.Model.Solve
import Mathlib.Data.ZMod.Basic
import Mathlib.Algebra.Field.ZMod

/-!
# Values known at run time

Model of `constraint-solver/src/symbolic_expression.rs` and of the defaults in
`constraint-solver/src/runtime_constant.rs`.
-/

namespace Verif

variable {p : ℕ} [Fact p.Prime] {S S' : Type}

/-- `BinaryOperator` (symbolic_expression.rs:34-40). -/
inductive SymOp where
  | add
  | sub
  | mul
  | div
deriving DecidableEq

/-- `SymbolicExpression` (symbolic_expression.rs:23-31). There is only one unary operator (symbolic_expression.rs:43-45). -/
inductive SymExpr (p : ℕ) (S : Type) where
  | concrete (n : ZMod p)
  | symbol (s : S) (rc : RangeConstraint p)
  | binary (l : SymExpr p S) (op : SymOp) (r : SymExpr p S) (rc : RangeConstraint p)
  | unaryNeg (e : SymExpr p S) (rc : RangeConstraint p)
deriving DecidableEq

namespace SymExpr

/-- `all_children` (symbolic_expression.rs:52-66). -/
def allChildren : SymExpr p S → List (SymExpr p S)
  | .concrete n => [.concrete n]
  | .symbol s rc => [.symbol s rc]
  | .binary l op r rc => .binary l op r rc :: (l.allChildren ++ r.allChildren)
  | .unaryNeg e rc => .unaryNeg e rc :: e.allChildren

/-- `from_symbol` (symbolic_expression.rs:70-76). -/
def fromSymbol (s : S) (rc : RangeConstraint p) : SymExpr p S :=
  match rc.tryToSingleValue with
  | some v => .concrete v
  | none => .symbol s rc

/-- `try_to_number` (symbolic_expression.rs:438-445). -/
def tryToNumber : SymExpr p S → Option (ZMod p)
  | .concrete n => some n
  | _ => none

/-- `range_constraint` (symbolic_expression.rs:447-454). -/
def range : SymExpr p S → RangeConstraint p
  | .concrete n => RangeConstraint.fromValue n
  | .symbol _ rc => rc
  | .binary _ _ _ rc => rc
  | .unaryNeg _ rc => rc

/-- `is_known_zero` (runtime_constant.rs:51-53). -/
def isKnownZero (e : SymExpr p S) : Bool := e.tryToNumber = some 0

/-- `is_known_one` (runtime_constant.rs:56-58). -/
def isKnownOne (e : SymExpr p S) : Bool := e.tryToNumber = some 1

/-- `is_known_minus_one` (runtime_constant.rs:61-64). -/
def isKnownMinusOne (e : SymExpr p S) : Bool := e.tryToNumber = some (-1)

/-- `is_known_nonzero` (runtime_constant.rs:69-73). -/
def isKnownNonzero (e : SymExpr p S) : Bool := !e.range.allowsValue 0

variable [DecidableEq S]

/-- `Add` (symbolic_expression.rs:245-269). -/
def plus (a b : SymExpr p S) : SymExpr p S :=
  if a.isKnownZero then b
  else if b.isKnownZero then a
  else match a, b with
    | .concrete x, .concrete y => .concrete (x + y)
    | .unaryNeg e rc, b =>
      if e = b then .concrete 0
      else match b with
        | .unaryNeg e' rc' =>
          if e' = .unaryNeg e rc then .concrete 0
          else .binary (.unaryNeg e rc) .add (.unaryNeg e' rc') (rc.combineSum rc')
        | b => .binary (.unaryNeg e rc) .add b (rc.combineSum b.range)
    | a, .unaryNeg e rc =>
      if e = a then .concrete 0 else .binary a .add (.unaryNeg e rc) (a.range.combineSum rc)
    | a, b => .binary a .add b (a.range.combineSum b.range)

/-- Whether an expression is a number (`matches!` in symbolic_expression.rs:338, 348). -/
def isConcrete : SymExpr p S → Bool
  | .concrete _ => true
  | _ => false

/-- `Neg` (symbolic_expression.rs:321-364). -/
def negate : SymExpr p S → SymExpr p S
  | .concrete n => .concrete (-n)
  | .unaryNeg e _ => e
  | .binary l .add r _ => l.negate.plus r.negate
  | .binary l .sub r rc => .binary r .sub l (rc.multiple (-1))
  | .binary l .mul r rc =>
    if l.isConcrete then .binary l.negate .mul r (rc.multiple (-1))
    else if r.isConcrete then .binary l .mul r.negate (rc.multiple (-1))
    else .unaryNeg (.binary l .mul r rc) (rc.multiple (-1))
  | .binary l .div r rc => .unaryNeg (.binary l .div r rc) (rc.multiple (-1))
  | .symbol s rc => .unaryNeg (.symbol s rc) (rc.multiple (-1))

/-- `Sub` (symbolic_expression.rs:288-308). -/
def minus (a b : SymExpr p S) : SymExpr p S :=
  if a.isKnownZero then b.negate
  else if b.isKnownZero then a
  else match a.tryToNumber, b.tryToNumber with
    | some x, some y => .concrete (x - y)
    | _, _ => if a = b then .concrete 0 else .binary a .sub b (a.range.combineSum b.range.neg)

/-- `Mul` (symbolic_expression.rs:377-399). -/
def times (a b : SymExpr p S) : SymExpr p S :=
  match a.tryToNumber, b.tryToNumber with
  | some x, some y => .concrete (x * y)
  | _, _ =>
    if a.isKnownZero || b.isKnownZero then .concrete 0
    else if a.isKnownOne then b
    else if b.isKnownOne then a
    else if a.isKnownMinusOne then b.negate
    else if b.isKnownMinusOne then a.negate
    else .binary a .mul b (a.range.combineProduct b.range)

/-- `field_div` (symbolic_expression.rs:458-477). -/
def fieldDiv (a b : SymExpr p S) : Except Panic (SymExpr p S) :=
  match a.tryToNumber, b.tryToNumber with
  | some x, some y => if y = 0 then .error .assertion else .ok (.concrete (x / y))
  | _, _ =>
    if a.isKnownZero then .ok (.concrete 0)
    else if b.isKnownOne then .ok a
    else if b.isKnownMinusOne then .ok a.negate
    else .ok (.binary a .div b RangeConstraint.unconstrained)

/-- `field_inverse` (symbolic_expression.rs:480-499). -/
def fieldInverse : SymExpr p S → Except Panic (SymExpr p S)
  | .concrete n => if n = 0 then .error .assertion else .ok (.concrete (1 / n))
  | .binary x .div y _ => .ok (.binary y .div x RangeConstraint.unconstrained)
  | e => .ok (.binary (.concrete 1) .div e RangeConstraint.unconstrained)

/-- The operation after a substitution (symbolic_expression.rs:95-100). -/
def applyOp (op : SymOp) (l r : SymExpr p S) : Except Panic (SymExpr p S) :=
  match op with
  | .add => .ok (l.plus r)
  | .sub => .ok (l.minus r)
  | .mul => .ok (l.times r)
  | .div => l.fieldDiv r

/-- `compute_substitution` (symbolic_expression.rs:81-109). -/
def computeSubstitution (x : S) (sub : SymExpr p S) : SymExpr p S → Except Panic (Option (SymExpr p S))
  | .concrete _ => .ok none
  | .symbol s _ => .ok (if s = x then some sub else none)
  | .binary l op r _ => do
    let l' ← computeSubstitution x sub l
    let r' ← computeSubstitution x sub r
    match l', r' with
    | none, none => .ok none
    | some l', none => (applyOp op l' r).map some
    | none, some r' => (applyOp op l r').map some
    | some l', some r' => (applyOp op l' r').map some
  | .unaryNeg e _ => do
    let e' ← computeSubstitution x sub e
    .ok (e'.map negate)

/-- `substitute` (symbolic_expression.rs:112-116, 507-509). -/
def substitute (x : S) (sub e : SymExpr p S) : Except Panic (SymExpr p S) := do
  let e' ← computeSubstitution x sub e
  .ok (e'.getD e)

omit [DecidableEq S]

/-- `try_transform_var_type` (symbolic_expression.rs:169-194). -/
def tryTransform (f : S → Option S') : SymExpr p S → Option (SymExpr p S')
  | .concrete n => some (.concrete n)
  | .symbol s rc => (f s).map fun s' => fromSymbol s' rc
  | .binary l op r rc => do
    let l' ← l.tryTransform f
    let r' ← r.tryTransform f
    some (.binary l' op r' rc)
  | .unaryNeg e rc => (e.tryTransform f).map fun e' => .unaryNeg e' rc

/-- `try_to_expression` (symbolic_expression.rs:124-161). The outer `Option` is the panic of a division by the number 0. -/
def tryToExpression {E : Type} [Add E] [Sub E] [Mul E] [Neg E] (number : ZMod p → E) (var : S → E)
    (toNumber : E → Option (ZMod p)) : SymExpr p S → Except Panic (Option E)
  | .concrete n => .ok (some (number n))
  | .symbol s _ => .ok (some (var s))
  | .binary l op r _ => do
    match ← l.tryToExpression number var toNumber with
    | none => .ok none
    | some l' =>
      match ← r.tryToExpression number var toNumber with
      | none => .ok none
      | some r' =>
        match op with
        | .add => .ok (some (l' + r'))
        | .sub => .ok (some (l' - r'))
        | .mul => .ok (some (l' * r'))
        | .div =>
          match toNumber r' with
          | none => .ok none
          | some n => if n = 0 then .error .assertion else .ok (some (l' * number (1 / n)))
  | .unaryNeg e _ => do
    match ← e.tryToExpression number var toNumber with
    | none => .ok none
    | some e' => .ok (some (-e'))

end SymExpr

end Verif
