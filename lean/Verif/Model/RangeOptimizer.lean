import Verif.Model.OpenVm
import Verif.Model.Solver
import Verif.Model.Inliner

/-!
# Model of the range constraint optimizer

`autoprecompiles/src/range_constraint_optimizer.rs`.

Simplifications: the map from expressions to range constraints is computed per expression, by the
conjunction of all range constraints collected for it, in the order of collection.
-/

namespace Verif

open RangeConstraint GExpr

variable {p : ℕ} {V : Type} [LinearOrder V]

/-- `RangeConstraintHandler` (range_constraint_optimizer.rs:21-50); the inner `none` of `make` is the
error. -/
structure RangeHandler (p : ℕ) (V : Type) where
  pure : BusInteraction (GExpr p V) → Except Panic (Option (RangeConstraints p V))
  make : RangeConstraints p V → Except Panic (Option (List (BusInteraction (GExpr p V))))

/-- The handler of OpenVM (openvm-bus-interaction-handler lib.rs:135-271). -/
def openVmRangeHandler (m : BusMap) : RangeHandler p V where
  pure := pureRangeConstraints m
  make := batchMakeRangeConstraints m

/-- `retain` (range_constraint_optimizer.rs:68-88): what is kept, and what is collected. -/
def collectPure (rh : RangeHandler p V) : List (BusInteraction (GExpr p V)) →
    Except Panic (List (BusInteraction (GExpr p V)) × RangeConstraints p V)
  | [] => .ok ([], [])
  | b :: t => do
    if b.multiplicity ≠ const 1 then
      let r ← collectPure rh t
      Pure.pure (b :: r.1, r.2)
    else
      match ← rh.pure b with
      | some rcs =>
        let r ← collectPure rh t
        Pure.pure (r.1, rcs ++ r.2)
      | none =>
        let r ← collectPure rh t
        Pure.pure (b :: r.1, r.2)

/-- The map entry for the expression (range_constraint_optimizer.rs:78-83). -/
def mergedRange (rcs : RangeConstraints p V) (e : GExpr p V) : RangeConstraint p :=
  ((rcs.filter fun x => x.1 = e).map Prod.snd).foldl conjunction unconstrained

/-- `unique` and the lookup in the map (range_constraint_optimizer.rs:94-100). -/
def mergeRanges (rcs : RangeConstraints p V) : RangeConstraints p V :=
  ((rcs.map Prod.fst).reverse.dedup).reverse.map fun e => (e, mergedRange rcs e)

/-- `new_solver` and `solve().unwrap()` (range_constraint_optimizer.rs:92-93). -/
def solvedSolver [Fact p.Prime] (h : Handler p) (ch : Choices p V) (cs : ConstraintSystem p V) :
    Except Stop (Solver p V) := do
  let s ← newSolver cs
  match SolverOp.run h s (.solve ch) with
  | .ok r => Pure.pure r.2
  | .error (.error _) => .error .panic
  | .error x => .error x

/-- Is the range constraint not implied (range_constraint_optimizer.rs:101-104)? -/
def rangeNeeded (s : Solver p V) (x : GExpr p V × RangeConstraint p) : Bool :=
  s.rangeConstraintForExpression x.1 ≠ (s.rangeConstraintForExpression x.1).conjunction x.2

/-- `assert_bool` (algebraic_constraint/mod.rs:57-59). -/
def assertBool (e : GExpr p V) : GExpr p V := mul e (sub e (const 1))

/-- Becomes a polynomial constraint (range_constraint_optimizer.rs:112-115). -/
def asBit (bound : DegreeBound) (x : GExpr p V × RangeConstraint p) : Bool :=
  x.2 = fromMask 1 && (assertBool x.1).degree ≤ bound.identities

/-- `optimize_range_constraints` (range_constraint_optimizer.rs:58-138). -/
def optimizeRangeConstraints [Fact p.Prime] (h : Handler p) (rh : RangeHandler p V)
    (ch : Choices p V) (bound : DegreeBound) (s : ConstraintSystem p V) :
    Except Stop (ConstraintSystem p V) := do
  let (kept, rcs) ← liftPanic (collectPure rh s.bus)
  let s := { s with bus := kept }
  let solver ← solvedSolver h ch s
  let needed := (mergeRanges rcs).filter (rangeNeeded solver)
  let bits := needed.filter (asBit bound)
  let others := needed.filter fun x => !asBit bound x
  match ← liftPanic (rh.make others) with
  | none => .error .panic
  | some made =>
    if made.all fun b => b.multiplicity.tryToNumber = some 1 then
      Pure.pure { s with
        bus := s.bus ++ made
        algebraic := s.algebraic ++ bits.map fun x => assertBool x.1 }
    else .error .panic

end Verif
