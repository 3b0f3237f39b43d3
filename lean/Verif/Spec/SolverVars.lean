import Verif.Spec.Solver

/-! Specification vocabulary: the variables a caller has told the solver about. -/

namespace Verif

open GExpr

variable {p : ℕ} {V : Type} [LinearOrder V]

/-- The variable occurs in what the call adds to the solver. -/
def SolverOp.AddsVar (v : V) : SolverOp p V → Prop
  | .addAlgebraic es => ∃ e ∈ es, v ∈ vars e
  | .addBus bs => ∃ b ∈ bs, ∃ e ∈ b.fields, v ∈ vars e
  | .addRange u _ => v = u
  | .retain _ => False
  | .solve _ => False
  | .knownDifferent _ _ => False

/-- The variable occurs in what the calls add to the solver. -/
def Told (ops : List (SolverOp p V)) (v : V) : Prop := ∃ op ∈ ops, op.AddsVar v

/-- The assignment of `x` is simple: a number, or a different variable with the property. -/
def SimpleAssignment (A : V → Prop) (x : V) (e : GExpr p V) : Prop :=
  (∃ k, e = const k) ∨ ∃ u, A u ∧ u ≠ x ∧ e = var u

end Verif
