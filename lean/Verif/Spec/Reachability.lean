import Verif.Spec.Inliner
import Verif.Model.Indexed

/-! # Specification: reachability through shared constraints -/

namespace Verif

variable {p : ℕ} {V : Type}

/-- A constraint of the system (algebraic or bus interaction). -/
def ConstraintRef.In (s : ConstraintSystem p V) : ConstraintRef p V → Prop
  | .alg e => e ∈ s.algebraic
  | .bus b => b ∈ s.bus

/-- The constraint holds. -/
def ConstraintRef.Holds (bus : Bus p) (σ : V → ZMod p) : ConstraintRef p V → Prop
  | .alg e => e.eval σ = 0
  | .bus b => bus (b.evalAt σ)

/-- The variable occurs in the constraint. -/
def ConstraintRef.Mentions (v : V) : ConstraintRef p V → Prop
  | .alg e => e.Occurs v
  | .bus b => ∃ e ∈ b.fields, e.Occurs v

/-- The least set that contains the start variables and, with a variable that is not blocked, all
variables that share a constraint with it. -/
inductive Reachable (s : ConstraintSystem p V) (start blocked : V → Prop) : V → Prop
  | start (v : V) (h : start v) : Reachable s start blocked v
  | step (u v : V) (c : ConstraintRef p V) (hu : Reachable s start blocked u) (hb : ¬ blocked u)
      (hc : c.In s) (hcu : c.Mentions u) (hcv : c.Mentions v) : Reachable s start blocked v

end Verif
