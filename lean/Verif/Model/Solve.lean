import Verif.Model.GroupedExpression

/-!
# Solving a single algebraic constraint

Model of `constraint-solver/src/algebraic_constraint/solve.rs` and
`constraint-solver/src/effect.rs`, with field elements as constants. Panics of the code are the
explicit outcome `Except.error Panic.assertion`.
-/

namespace Verif

/-- A Rust panic (failed assertion, `unwrap` on `None`, ...). -/
inductive Panic where
  | assertion
deriving DecidableEq

/-- `Effect` (effect.rs:5-18), with `Assertion` (22-28) and `Condition` (54-57) inlined. -/
inductive Effect (p : ℕ) (V : Type) where
  | assignment (v : V) (value : ZMod p)
  | rangeConstraint (v : V) (rc : RangeConstraint p)
  | assertion (lhs rhs : ZMod p) (expectedEqual : Bool)
  | conditionalAssignment (v : V) (value : ZMod p) (condition : RangeConstraint p)
      (inRange outOfRange : ZMod p)
deriving DecidableEq

/-- `ProcessResult` (solve.rs:15-19). -/
structure ProcessResult (p : ℕ) (V : Type) where
  effects : List (Effect p V)
  complete : Bool
deriving DecidableEq

/-- Equality of results (only used to evaluate examples). -/
instance instDecEqExcept {α β : Type} [DecidableEq α] [DecidableEq β] : DecidableEq (Except α β)
  | .ok a, .ok b => decidable_of_iff (a = b) (by simp)
  | .error a, .error b => decidable_of_iff (a = b) (by simp)
  | .ok _, .error _ => isFalse (by simp)
  | .error _, .ok _ => isFalse (by simp)

/-- `Error` (solve.rs:36-42), without the message. -/
inductive SolveError where
  | conflictingRangeConstraints
  | constraintUnsatisfiable
deriving DecidableEq

namespace GExpr

variable {p : ℕ} {V : Type}

/-- `ProcessResult::empty` (solve.rs:22-27). -/
def ProcessResult.empty : ProcessResult p V := ⟨[], false⟩

section
variable [LinearOrder V]

/-- `try_solve_for` (solve.rs:91-105). -/
def trySolveFor (e : GExpr p V) (x : V) : Except Panic (Option (GExpr p V)) :=
  match coefficientOf e x with
  | none => .ok none
  | some k =>
    if k = 0 then .error .assertion
    else
      let subtracted := e - scale k (var x)
      if x ∈ subtracted.vars then .ok none
      else .ok (some (scale (-k⁻¹) subtracted))

/-- The `find_map` of `try_solve_for_expr` (solve.rs:129-142): the first variable of `expr` that
occurs in the constraint determines the factor. The `unwrap` cannot fail because `expr` is
affine. -/
def normalizationFactor (e expr : GExpr p V) : ZMod p :=
  (expr.vars.findSome? fun v =>
    match coefficientOf e v with
    | none => none
    | some k => if k ≠ 0 then (coefficientOf expr v).map fun d => d * k⁻¹ else none).getD 1

/-- `try_solve_for_expr` (solve.rs:112-159). -/
def trySolveForExpr (e expr : GExpr p V) : Except Panic (Option (GExpr p V)) :=
  if expr.isQuadratic then .error .assertion
  else if e.isQuadratic then .ok none
  else
    let result := expr - scale (normalizationFactor e expr) e
    if expr.vars.all fun v => v ∉ result.vars then .ok (some result) else .ok none

variable (rc : V → RangeConstraint p)

/-- `assignment_if_satisfies_range_constraints` (solve.rs:377-387). -/
def assignmentIfSatisfies (v : V) (value : ZMod p) : Except SolveError (Effect p V) :=
  if (rc v).isDisjoint (.fromValue value) then .error .conflictingRangeConstraints
  else .ok (.assignment v value)

/-- `transfer_constraints` (solve.rs:210-226), the loop over the linear components. -/
def transferLoop (e : GExpr p V) : List (V × ZMod p) → Except Panic (List (Effect p V))
  | [] => .ok []
  | (v, _) :: t =>
    match trySolveFor e v, transferLoop e t with
    | .error x, _ => .error x
    | _, .error x => .error x
    | .ok none, .ok effects => .ok effects
    | .ok (some s), .ok effects =>
      if (rangeConstraint rc s).isUnconstrained then .ok effects
      else .ok (.rangeConstraint v (rangeConstraint rc s) :: effects)

/-- `transfer_constraints` (solve.rs:210-226). -/
def transferConstraints (e : GExpr p V) : Except Panic (List (Effect p V)) :=
  if e.isQuadratic then .error .assertion else transferLoop rc e e.linear

/-- `solve_affine` (solve.rs:161-205). For field constants, a coefficient that is not known to be
zero is known to be non-zero, so the branches 180-195 are unreachable and omitted. -/
def solveAffine (e : GExpr p V) : Except Panic (Except SolveError (ProcessResult p V)) :=
  match e.linear with
  | [(v, k)] =>
    if k = 0 then .error .assertion
    else .ok ((assignmentIfSatisfies rc v (e.constant * (-k)⁻¹)).map fun eff => ⟨[eff], true⟩)
  | _ => (transferConstraints rc e).map fun effects => .ok ⟨effects, false⟩

/-- `combine_to_conditional_assignment` (solve.rs:266-313). -/
def combineToConditionalAssignment (left right : ProcessResult p V) : Option (ProcessResult p V) :=
  match left.effects, right.effects with
  | [.assignment v a], [.assignment w b] =>
    if v ≠ w then none
    else
      let diff := a + -b
      if !((rc v).combineSum (.fromValue diff)).isDisjoint (rc v) then none
      else some ⟨[.conditionalAssignment v a (rc v) a b], left.complete && right.complete⟩
  | _, _ => none

/-- `effect_to_range_constraint` (solve.rs:316-324). -/
def effectToRangeConstraint : Effect p V → Option (V × RangeConstraint p)
  | .rangeConstraint v r => some (v, r)
  | .assignment v value => some (v, .fromValue value)
  | _ => none

/-- Adding one entry to `into_grouping_map().reduce(conjunction)` (solve.rs:333-338). -/
def groupInsert (v : V) (r : RangeConstraint p) :
    List (V × RangeConstraint p) → List (V × RangeConstraint p)
  | [] => [(v, r)]
  | (w, s) :: t => if v = w then (w, s.conjunction r) :: t else (w, s) :: groupInsert v r t

/-- The map of range constraints of one branch (solve.rs:333-344). The code collects into a
`HashMap`; the model keeps the order of first insertion. -/
def groupConstraints (effects : List (Effect p V)) : List (V × RangeConstraint p) :=
  (effects.filterMap effectToRangeConstraint).foldl (fun m e => groupInsert e.1 e.2 m) []

/-- `HashMap::get`. -/
def getConstraint (v : V) : List (V × RangeConstraint p) → Option (RangeConstraint p)
  | [] => none
  | (w, s) :: t => if v = w then some s else getConstraint v t

/-- The effects and completeness flags of solve.rs:346-359. -/
def combinedConstraints (left right : List (V × RangeConstraint p)) :
    List (V × RangeConstraint p × Bool) :=
  left.filterMap fun e =>
    (getConstraint e.1 right).map fun r2 =>
      let r := e.2.disjunction r2
      (e.1, r, e.2.tryToSingleValue.isSome && r2.tryToSingleValue.isSome && decide (r.width ≤ 2))

/-- `combine_range_constraints` (solve.rs:329-375). -/
def combineRangeConstraints (left right : ProcessResult p V) : ProcessResult p V :=
  let effects := combinedConstraints (groupConstraints left.effects) (groupConstraints right.effects)
  { effects := effects.map fun e => .rangeConstraint e.1 e.2.1
    complete := left.effects.length = 1 && right.effects.length = 1 && effects.length = 1 &&
      effects.all fun e => e.2.2 }

/-- The last part of `solve_quadratic` (solve.rs:237-261). -/
def combineSolutions (l r : Except SolveError (ProcessResult p V)) :
    Except SolveError (ProcessResult p V) :=
  match l, r with
  | .error _, o => o
  | o, .error _ => o
  | .ok left, .ok right =>
    .ok ((combineToConditionalAssignment rc left right).getD (combineRangeConstraints left right))

/-- Rejecting at the start of `solve` (solve.rs:61-66). -/
def unsatisfiable (e : GExpr p V) : Bool := !(rangeConstraint rc e).allowsValue 0

/-- `solve` (solve.rs:55-80) and `solve_quadratic` (228-261), which calls `solve` recursively on
the two factors if the expression is a single product. -/
def solve : GExpr p V → Except Panic (Except SolveError (ProcessResult p V))
  | mk [] [] c =>
    if unsatisfiable rc (mk [] [] c) then .ok (.error .constraintUnsatisfiable)
    else if c ≠ 0 then .error .assertion
    else .ok (.ok ⟨[], true⟩)
  | mk [] (e :: l) c =>
    if unsatisfiable rc (mk [] (e :: l) c) then .ok (.error .constraintUnsatisfiable)
    else solveAffine rc (mk [] (e :: l) c)
  | mk [(a, b)] [] c =>
    if unsatisfiable rc (mk [(a, b)] [] c) then .ok (.error .constraintUnsatisfiable)
    else if c ≠ 0 then .ok (.ok ProcessResult.empty)
    else
      match solve a, solve b with
      | .error x, _ => .error x
      | _, .error x => .error x
      | .ok l, .ok r => .ok (combineSolutions rc l r)
  | mk (ab :: q) l c =>
    if unsatisfiable rc (mk (ab :: q) l c) then .ok (.error .constraintUnsatisfiable)
    else .ok (.ok ProcessResult.empty)

end

end GExpr

end Verif
