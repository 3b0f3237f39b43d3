import Verif.Model.ExecBus
import Verif.Spec.Expression

/-!
# Specification of the execution bus optimisation

The interactions of a block machine with the execution bus are, in order: receive the initial state,
send the next state, receive it again in the next instruction, and so on.
-/

namespace Verif

variable {F R : Type}

/-- The interactions of a machine with one bus, in order. -/
def SymMachine.onBus (m : SymMachine F R) (id : ℕ) : List (SymBus F R) :=
  m.bus.filter fun b => b.id = id

/-- The interactions of a machine with the other buses, in order. -/
def SymMachine.offBus (m : SymMachine F R) (id : ℕ) : List (SymBus F R) :=
  m.bus.filter fun b => b.id ≠ id

/-- `s` is a send of a state and `r` the receive following it: the interactions number `2k+1` and
`2k+2`, where the first receive has number zero. -/
def SymMachine.Consecutive (m : SymMachine F R) (id : ℕ) (s r : SymBus F R) : Prop :=
  ∃ k, (m.onBus id)[2 * k + 1]? = some s ∧ (m.onBus id)[2 * k + 2]? = some r

/-- The row receives each state it has sent before (except for the last one). -/
def SymMachine.Chained [CommRing F] (m : SymMachine F R) (id : ℕ) (σ : R → F) : Prop :=
  ∀ s r, m.Consecutive id s r → r.args.map (AlgExpr.value σ) = s.args.map (AlgExpr.value σ)

/-- The total multiplicity with which a tuple is sent on a bus. -/
def messageBalance [CommRing F] [DecidableEq F] (l : List (ℕ × F × List F)) (id : ℕ)
    (payload : List F) : F :=
  ((l.filter fun x => x.1 = id ∧ x.2.2 = payload).map fun x => x.2.1).sum

end Verif
