import Verif.Spec.Solver

/-!
# Specification vocabulary: what the solver has to settle
-/

namespace Verif

open GExpr

variable {p : ℕ} {V : Type} [LinearOrder V]

/-- The substitutions, one after the other. -/
def applyAll (l : List (V × GExpr p V)) (e : GExpr p V) : GExpr p V :=
  l.foldl (fun e a => GExpr.subst a.1 a.2 e) e

/-- No variable is determined and no two variables are equated by the expression being zero: it is zero, or it has at
least two variables and is not a multiple of their difference. -/
def Leftover (e : GExpr p V) : Prop :=
  e = const 0 ∨ ((∃ x ∈ e.vars, ∃ y ∈ e.vars, x ≠ y) ∧
    ¬ ∃ (a : ZMod p) (x y : V), a ≠ 0 ∧ x ≠ y ∧ ∀ σ : V → ZMod p, eval σ e = a * (σ x - σ y))

/-- The call adds constraints or bus interactions. -/
def SolverOp.Adds : SolverOp p V → Prop
  | .addAlgebraic _ => True
  | .addBus _ => True
  | _ => False

/-- All that calls of `add_range_constraint` determined was fetched by a later `solve`. -/
def fetched (ops : List (SolverOp p V)) : Bool :=
  ops.foldl (fun b op => match op with
    | .addRange _ _ => false
    | .solve _ => true
    | _ => b) true

/-- What is learned says nothing new: it is a range constraint that is already known. -/
def NoNews (rc : V → RangeConstraint p) : Effect p V → Prop
  | .rangeConstraint v r => (rc v).conjunction r = rc v
  | _ => False

end Verif
