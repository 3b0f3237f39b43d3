import Verif.Model.Linearizer
import Verif.Spec.Eval

/-! # Specification: linearizing a sequence of constraints -/

namespace Verif

variable {p : ℕ} {V : Type} [LinearOrder V]

/-- Linearize the constraints one after the other; returns what replaces them and the state of the
linearizer. -/
def linearizeAll (fresh : ℕ → V) : List (GExpr p V) → LinState p V → List (GExpr p V) × LinState p V
  | [], st => ([], st)
  | e :: t, st =>
    let r := linearizeExpression fresh e st
    let s := linearizeAll fresh t r.2
    (r.1 :: s.1, s.2)

/-- The linearizer at the start. -/
def LinState.initial : LinState p V := ⟨[], 0, []⟩

end Verif
