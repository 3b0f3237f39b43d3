import Verif.Model.Optimizer
import Verif.Spec.LowDegree

/-!
# Specification: what the optimizer has to keep
-/

namespace Verif

open GExpr

variable {p : ℕ} {V : Type} [LinearOrder V]

/-- The assignment solves the system, and its memory operations form a chronological sequence from
one memory to another. -/
structure ConstraintSystem.Execution (bus : Bus p) (memoryBusId : Option ℕ)
    (s : ConstraintSystem p V) (σ : V → ZMod p) (m m' : Memory p) : Prop where
  sat : s.Satisfied bus σ
  memory : ∀ id, memoryBusId = some id → s.UsesMemory id σ m m'

/-- The stateful buses other than memory. -/
def OptimizerConfig.otherStateful (c : OptimizerConfig p V) (id : ZMod p) : Bool :=
  c.isStateful id && decide (∀ m, c.memoryBusId = some m → id ≠ (m : ZMod p))

/-- As `bus`, but without assumptions about the messages on the memory bus. -/
def OptimizerConfig.exceptMemory (c : OptimizerConfig p V) (bus : Bus p) : Bus p := fun b =>
  (∀ id : ℕ, c.memoryBusId = some id → b.busId ≠ (id : ZMod p)) → bus b

/-- What is assumed of the buses and of the handlers. -/
structure OptimizerConfig.Correct [Fact p.Prime] (c : OptimizerConfig p V) (bus : Bus p) : Prop where
  handler : c.handler.Sound bus
  makes : c.rangeHandler.MakesExactly bus c.isStateful
  lookups : ∀ b rcs, c.rangeHandler.pure b = .ok (some rcs) →
    ∃ id, b.busId = const id ∧ c.isStateful id = false
  zero : ∀ b : BusInteraction (ZMod p), b.multiplicity = 0 → bus b
  memory : ∀ id : ℕ, c.memoryBusId = some id → c.isStateful id = true
  integers : 2 * (p - 1) < 2 ^ c.intBits

/-- Every solution after a batch of replacements comes from one before it that sends the same
messages. -/
def ReplacementsSound (bus : Bus p)
    (ok : RuleInput p V → ConstraintSystem p V → ConstraintSystem p V → Prop) : Prop :=
  ∀ inp a b, ok inp a b → ∀ σ, b.Satisfied bus σ → ∃ τ, a.Satisfied bus τ ∧
    a.bus.map (BusInteraction.evalAt τ) = b.bus.map (BusInteraction.evalAt σ)

/-- The columns are new: they are different, they do not occur in the system, and each is computed
from columns of the system and earlier new columns. -/
structure NewColumns (s : ConstraintSystem p V) (news : List (DerivedVariable p V)) : Prop where
  different : news.Pairwise fun d d' => d'.column ≠ d.column ∧ d'.column ∉ d.method.vars
  own : ∀ d ∈ news, d.column ∉ d.method.vars
  unused : ∀ d ∈ news, ¬ s.Mentions d.column
  notDerived : ∀ d ∈ news, ∀ d' ∈ s.derived, d'.column ≠ d.column ∧ d.column ∉ d'.method.vars

/-- The two systems have the same balance on all buses in `f`. -/
def SameBalance (f : ZMod p → Bool) (s : ConstraintSystem p V) (σ : V → ZMod p)
    (s' : ConstraintSystem p V) (σ' : V → ZMod p) : Prop :=
  ∀ busId, f busId = true → ∀ message,
    busBalance σ s.bus busId message = busBalance σ' s'.bus busId message

variable [Fact p.Prime]

/-- The assumptions that are made without a check when parts of the system are removed: dropped
lookups are admissible for some value of the variable through which they are dropped (C48), what is
disconnected can be satisfied (C49), and the handler decides the lookups (C52). -/
structure ConstraintRound.Safe (bus : Bus p) {c : OptimizerConfig p V}
    {ok : RuleInput p V → ConstraintSystem p V → ConstraintSystem p V → Prop}
    {s s' : ConstraintSystem p V} {solver solver' : Solver p V}
    (r : ConstraintRound c ok s solver s' solver') : Prop where
  free : ∀ b ∈ (removeTrivial r.s1).bus, b ∉ r.s3.bus → ∀ x, (∃ e ∈ b.fields, e.Occurs x) →
    (∃ g, b.payload.filter (fun f => f.tryToNumber.isNone) = [g]) →
    (∀ e ∈ b.payload, e.degreeOf x ≤ 1) → ¬ r.s3.Mentions x → FreeThrough bus b x
  disconnected : ∃ τ : V → ZMod p, ∀ x : ConstraintRef p V, x.In r.s3 → ¬ x.In r.s4 → x.Holds bus τ
  decides : ∀ b ∈ r.s9.bus, ∀ id, b.busId = const id → c.isStateful id = false →
    c.handler.Decides bus r.solver9 b

/-- All rounds are safe. -/
def OptimizeLoop.Safe (bus : Bus p) {c : OptimizerConfig p V}
    {ok : RuleInput p V → ConstraintSystem p V → ConstraintSystem p V → Prop}
    {s s' : ConstraintSystem p V} {solver solver' : Solver p V} :
    OptimizeLoop c ok s solver s' solver' → Prop
  | .one r => r.Safe bus
  | .more r rest => r.Safe bus ∧ rest.Safe bus

/-- The same for the whole run. -/
structure OptimizeRun.Safe (bus : Bus p) {c : OptimizerConfig p V}
    {ok : RuleInput p V → ConstraintSystem p V → ConstraintSystem p V → Prop}
    {s s' : ConstraintSystem p V}
    (r : OptimizeRun c ok s s') : Prop where
  loop : r.loop.Safe bus
  disconnected : ∃ τ : V → ZMod p, ∀ x : ConstraintRef p V, x.In r.ix2.sys → ¬ x.In r.s3 →
    x.Holds bus τ

end Verif
