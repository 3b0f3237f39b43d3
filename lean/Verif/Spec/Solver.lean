import Verif.Model.Solver
import Verif.Spec.Solve
import Verif.Spec.ConstraintSystem

/-! Specification vocabulary for the solver: histories of calls and what the caller asserts
with them. -/

namespace Verif

open GExpr

variable {p : ℕ} {V : Type}

/-- The solution `σ` satisfies what the call asserts. Only the calls that add constraints assert
something. -/
def SolverOp.Holds (bus : Bus p) (σ : V → ZMod p) : SolverOp p V → Prop
  | .addAlgebraic es => ∀ e ∈ es, eval σ e = 0
  | .addBus bs => ∀ b ∈ bs, bus (b.evalAt σ)
  | .addRange v r => r.allowsValue (σ v) = true
  | .retain _ => True
  | .solve _ => True
  | .knownDifferent _ _ => True

/-- The expressions handed to the call were built through the API. -/
def SolverOp.WF [LinearOrder V] : SolverOp p V → Prop
  | .addAlgebraic es => ∀ e ∈ es, GExpr.WF e
  | .addBus bs => ∀ b ∈ bs, b.WF
  | .addRange _ _ => True
  | .retain _ => True
  | .solve _ => True
  | .knownDifferent a b => GExpr.WF a ∧ GExpr.WF b

/-- The answer to a call is true of the solution `σ`. -/
def SolverOp.Answer (σ : V → ZMod p) : SolverOp p V → SolverOut p V → Prop
  | .solve _, .assignments l => ∀ x ∈ l, σ x.1 = eval σ x.2
  | .knownDifferent a b, .different r => r = true → eval σ a ≠ eval σ b
  | .addAlgebraic _, .unit => True
  | .addBus _, .unit => True
  | .addRange _ _, .unit => True
  | .retain _, .unit => True
  | _, _ => False

/-- A history of calls on a solver. -/
def runOps [Fact p.Prime] [LinearOrder V] (h : Handler p) :
    List (SolverOp p V) → Solver p V → Except Stop (List (SolverOut p V) × Solver p V)
  | [], s => .ok ([], s)
  | op :: ops, s => do
    let r ← op.run h s
    let rs ← runOps h ops r.2
    pure (r.1 :: rs.1, rs.2)

/-- The rule that `retain_variables` asserts (base.rs:196): assignments found by `add_range_constraint` must be
fetched by `solve` before. The flag says whether there may be assignments not fetched. -/
def RetainSafe : Bool → List (SolverOp p V) → Prop
  | _, [] => True
  | _, .addRange _ _ :: t => RetainSafe true t
  | _, .solve _ :: t => RetainSafe false t
  | pending, .retain _ :: t => pending = false ∧ RetainSafe pending t
  | pending, _ :: t => RetainSafe pending t

end Verif
