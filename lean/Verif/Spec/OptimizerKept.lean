import Verif.Spec.Optimizer
import Verif.Spec.Inliner

/-!
# Specification: recorded columns
-/

namespace Verif

variable {p : ℕ} {V : Type} [LinearOrder V] [Fact p.Prime]

/-- The columns for which the system records a computation method. -/
def ConstraintSystem.recorded (s : ConstraintSystem p V) : List V := s.derived.map (·.column)

/-- In some round of the loop the column is recorded at the beginning of the round, but no longer
occurs in the system after the simplifications of the round, before the rules are run. Then its
computation method is removed. -/
def OptimizeLoop.Unused {c : OptimizerConfig p V}
    {ok : RuleInput p V → ConstraintSystem p V → ConstraintSystem p V → Prop}
    {s s' : ConstraintSystem p V} {solver solver' : Solver p V} (v : V) :
    OptimizeLoop c ok s solver s' solver' → Prop
  | .one r => v ∈ s.recorded ∧ ¬ r.s6.Mentions v
  | .more r rest => (v ∈ s.recorded ∧ ¬ r.s6.Mentions v) ∨ rest.Unused v

end Verif
