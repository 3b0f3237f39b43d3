import Verif.Model.OptimizerSteps
import Verif.Spec.Optimizer
import Verif.Spec.OptimizerDegree

/-!
# Specification: the optimizer without panics
-/

namespace Verif

open GExpr

variable {p : ℕ} {V : Type} [LinearOrder V]

/-- The field and the handlers cause no panic: the characteristic is odd and fits into 64 bits, the
handlers accept every bus interaction, and requested range checks have multiplicity one. -/
structure OptimizerConfig.PanicFree (c : OptimizerConfig p V) : Prop where
  odd : 2 < p
  small : p ≤ 2 ^ 64
  handler : c.handler.Total
  pure : ∀ b, ∃ r, c.rangeHandler.pure b = .ok r
  make : ∀ rcs, ∃ r, c.rangeHandler.make rcs = .ok r
  once : ∀ rcs made, c.rangeHandler.make rcs = .ok (some made) → ∀ b ∈ made, b.multiplicity = const 1

/-- The ids of all buses are constants, and interactions with the memory bus consist of a constant
address space, a pointer, data of the size of the address space and a timestamp. -/
def RegularBus (memoryBusId : Option ℕ) (size : ZMod p → ℕ) (b : BusInteraction (GExpr p V)) : Prop :=
  ∃ i, b.busId = const i ∧ ∀ id, memoryBusId = some id → i = (id : ZMod p) →
    ∃ space pointer data timestamp,
      b.payload = const space :: pointer :: (data ++ [timestamp]) ∧ data.length = size space

variable [Fact p.Prime]

/-- The inputs and the output of a bus interaction are consistent with more than one of the functions that
the low-degree optimizer tries. -/
def AmbiguousFunction (h : Handler p) (solver : Solver p V) (b : BusInteraction (GExpr p V)) : Prop :=
  ∃ f ∈ functionCandidates solver b, ∃ hyps values l,
    lowDegreeHypotheses (p := p) (V := V) f.inputs.length = .ok hyps ∧ inputValues f.inputs = .ok values ∧
    testHypotheses h (toRangeConstraints solver.get b) f.output.index (cartesian values) hyps =
      .ok (some l) ∧ 2 ≤ l.length

/-- The panics that remain: more than one function fits in the low-degree optimizer, or the handler cannot
make range checks for ranges that it found itself. -/
def OptState.MayPanic (c : OptimizerConfig p V) : OptState p V → Prop
  | .remembered s solver => ∃ b ∈ s.bus, (∃ id, b.busId = const id ∧ c.isStateful id = false) ∧
      AmbiguousFunction c.handler solver b
  | .finalRuled s => ∃ kept rcs wanted, collectPure c.rangeHandler s.bus = .ok (kept, rcs) ∧
      (∀ x ∈ wanted, x ∈ mergeRanges rcs) ∧ c.rangeHandler.make wanted = .ok none
  | _ => False

end Verif
