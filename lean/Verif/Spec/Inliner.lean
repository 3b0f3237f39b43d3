import Verif.Spec.Indexed
import Verif.Model.Inliner

/-! # Specification: variables of a system, degree bounds -/

namespace Verif

variable {p : ℕ} {V : Type}

/-- The variable occurs in one of the constraints or bus interactions. -/
def ConstraintSystem.Mentions (s : ConstraintSystem p V) (v : V) : Prop :=
  (∃ e ∈ s.algebraic, e.Occurs v) ∨ ∃ b ∈ s.bus, ∃ e ∈ b.fields, e.Occurs v

/-- Every constraint of `s` is within the degree bound or is already a constraint of `s0`. -/
def WithinBoundOrOld (bound : DegreeBound) (s0 s : ConstraintSystem p V) : Prop :=
  (∀ e ∈ s.algebraic, e.degree ≤ bound.identities ∨ e ∈ s0.algebraic) ∧
  ∀ b ∈ s.bus, (∀ e ∈ b.fields, e.degree ≤ bound.busInteractions) ∨ b ∈ s0.bus

end Verif
