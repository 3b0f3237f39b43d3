import Verif.Spec.Solver

/-! Specification vocabulary for the termination of the solver. -/

namespace Verif

variable {p : ℕ} {V : Type}

/-- The handler returns as many fields as it is given. -/
def Handler.KeepsLength (h : Handler p) : Prop :=
  ∀ r r', h r = .ok r' → r'.payload.length = r.payload.length

/-- The same call, with the same iteration orders of hash maps, and at least as many iterations
allowed in `solve`. -/
def SolverOp.MoreFuel : SolverOp p V → SolverOp p V → Prop
  | .solve ch, op => ∃ n, ch.fuel ≤ n ∧ op = .solve { ch with fuel := n }
  | op, op' => op' = op

end Verif
