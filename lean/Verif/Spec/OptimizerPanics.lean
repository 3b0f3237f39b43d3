import Verif.Spec.HandlerAccepts
import Verif.Spec.OptimizerSteps
import Verif.Spec.OpenVm

/-!
# Specification: the optimizer with handlers that panic on malformed bus interactions
-/

namespace Verif

open GExpr

variable {p : ℕ} {V : Type} [LinearOrder V]

/-- The field and the handlers cause no panic on bus interactions of the form `Q`: the characteristic is
odd and fits into 64 bits, the handlers accept these bus interactions and return such, requested range
checks have multiplicity one. The form does not get lost if fields are changed, except for constant
ones. -/
structure OptimizerConfig.PanicFreeOn (c : OptimizerConfig p V) (Q : BusInteraction (GExpr p V) → Prop) :
    Prop where
  odd : 2 < p
  small : p ≤ 2 ^ 64
  closed : ∀ b (f : GExpr p V → GExpr p V), (∀ a, f (const a) = const a) → Q b → Q (b.map f)
  handler : ∀ b, Q b → c.handler.Accepts b
  pure : ∀ b, Q b → ∃ r, c.rangeHandler.pure b = .ok r
  make : ∀ rcs, ∃ r, c.rangeHandler.make rcs = .ok r
  made : ∀ rcs made, c.rangeHandler.make rcs = .ok (some made) → ∀ b ∈ made, Q b
  once : ∀ rcs made, c.rangeHandler.make rcs = .ok (some made) → ∀ b ∈ made, b.multiplicity = const 1

/-- The current constraint system. -/
def OptState.system : OptState p V → ConstraintSystem p V
  | .start s => s
  | .round s _ => s
  | .solved s _ => s
  | .freed s _ => s
  | .connected s _ => s
  | .searched s _ => s
  | .simplified s _ => s
  | .ruled st _ => st.system
  | .told s _ => s
  | .remembered s _ => s
  | .looped s _ => s
  | .inlined s _ => s
  | .final s _ => s
  | .finalRuled s => s
  | .ranged s => s
  | .done s => s

/-- The fields that a bus of OpenVM expects: an address space, a pointer, data and a timestamp for memory,
two operands, a result and an operation, which is the constant zero or one, for bitwise lookups, and two
fields for the range checkers. -/
def BusType.HasFields : BusType → List (GExpr p V) → Prop
  | .executionBridge, _ => True
  | .pcLookup, _ => True
  | .memory, l => 4 ≤ l.length
  | .other .bitwiseLookup, l => ∃ x y z op, l = [x, y, z, const op] ∧ (op = 0 ∨ op = 1)
  | .other .variableRangeChecker, l => l.length = 2
  | .other (.tupleRangeChecker _ _), l => l.length = 2

/-- The id is the constant id of a known bus, and the fields are those that the bus expects. -/
def OpenVmShape (m : BusMap) (b : BusInteraction (GExpr p V)) : Prop :=
  ∃ i t, b.busId = const i ∧ (i.val, t) ∈ m ∧ t.HasFields b.payload

/-- All buses for range checks are there, and the tuple range checkers check a byte and a power of two. -/
structure BusMap.Complete (m : BusMap) : Prop where
  range : ∃ id, (id, BusType.other .variableRangeChecker) ∈ m
  bitwise : ∃ id, (id, BusType.other .bitwiseLookup) ∈ m
  tuple : ∃ id s0 s1, (id, BusType.other (.tupleRangeChecker s0 s1)) ∈ m
  sizes : ∀ id s0 s1, (id, BusType.other (.tupleRangeChecker s0 s1)) ∈ m →
    s0 = 2 ^ 8 ∧ ∃ k ≤ 25, s1 = 2 ^ k

end Verif
