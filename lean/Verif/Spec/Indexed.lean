import Verif.Model.Indexed
import Verif.Spec.ConstraintSystem

/-!
# Specification: index, queue and histories
-/

namespace Verif

variable {p : ℕ} {V : Type}

/-- The variable occurs in the item of the system. -/
def OccursIn (s : ConstraintSystem p V) (v : V) : Item → Prop
  | .alg i => ∃ e, s.algebraic[i]? = some e ∧ e.Occurs v
  | .bus i => ∃ b, s.bus[i]? = some b ∧ ∃ e ∈ b.fields, e.Occurs v
  | .derived i => ∃ d, s.derived[i]? = some d ∧ match d.method with
    | .constant _ => False
    | .quotientOrZero e1 e2 => e1.Occurs v ∨ e2.Occurs v

/-- The item exists. -/
def InBounds (s : ConstraintSystem p V) : Item → Prop
  | .alg i => i < s.algebraic.length
  | .bus i => i < s.bus.length
  | .derived i => i < s.derived.length

/-- Apply a function to every expression of the system. -/
def ConstraintSystem.mapExpr (f : GExpr p V → GExpr p V) (s : ConstraintSystem p V) :
    ConstraintSystem p V :=
  ⟨s.algebraic.map f, s.bus.map fun b => b.map f,
    s.derived.map fun d => { d with method := d.method.mapExpr f }⟩

/-- An operation that modifies an indexed system. -/
inductive IndexedOp (p : ℕ) (V : Type) where
  | extend (t : ConstraintSystem p V)
  | retainAlgebraic (f : ℕ → GExpr p V → Bool)
  | retainBus (f : ℕ → BusInteraction (GExpr p V) → Bool)
  | retainDerived (f : ℕ → DerivedVariable p V → Bool)
  | substKnown (x : V) (k : ZMod p)
  | subst (x : V) (r : GExpr p V)

/-- Its effect. -/
def IndexedOp.run [LinearOrder V] (s : Indexed p V) : IndexedOp p V → Indexed p V
  | extend t => s.extend t
  | retainAlgebraic f => s.retainAlgebraic f
  | retainBus f => s.retainBus f
  | retainDerived f => s.retainDerived f
  | substKnown x k => s.substKnown x k
  | subst x r => s.subst x r

/-- The state after a history of operations, starting with indexing a system. -/
def indexedHistory [LinearOrder V] (s : ConstraintSystem p V) (ops : List (IndexedOp p V)) :
    Indexed p V := ops.foldl IndexedOp.run (Indexed.ofSystem s)

/-- `QueueRun popped s`: the system with queue `s` is the result of some history of operations,
in which exactly the constraints `popped` (latest first) were returned by `pop_front`. -/
inductive QueueRun [LinearOrder V] : List (ConstraintRef p V) → Queued p V → Prop
  | empty : QueueRun [] Queued.empty
  | ofSystem (t : ConstraintSystem p V) (s' : Queued p V) :
      Queued.ofSystem t = .ok s' → QueueRun [] s'
  | pop (l : List (ConstraintRef p V)) (s s' : Queued p V) (c : ConstraintRef p V) : QueueRun l s →
      s.popFront = .ok (some c, s') → QueueRun (c :: l) s'
  | variableUpdated (l : List (ConstraintRef p V)) (s s' : Queued p V) (v : V) : QueueRun l s →
      s.variableUpdated v = .ok s' → QueueRun l s'
  | subst (l : List (ConstraintRef p V)) (s s' : Queued p V) (x : V) (r : GExpr p V) :
      QueueRun l s → s.subst x r = .ok s' → QueueRun l s'
  | addAlgebraic (l : List (ConstraintRef p V)) (s s' : Queued p V) (cs : List (GExpr p V)) :
      QueueRun l s → s.addAlgebraic cs = .ok s' → QueueRun l s'
  | addBus (l : List (ConstraintRef p V)) (s s' : Queued p V)
      (bs : List (BusInteraction (GExpr p V))) :
      QueueRun l s → s.addBus bs = .ok s' → QueueRun l s'
  | retainAlgebraic (l : List (ConstraintRef p V)) (s s' : Queued p V)
      (f : ℕ → GExpr p V → Bool) :
      QueueRun l s → s.retainAlgebraic f = .ok s' → QueueRun l s'
  | retainBus (l : List (ConstraintRef p V)) (s s' : Queued p V)
      (f : ℕ → BusInteraction (GExpr p V) → Bool) :
      QueueRun l s → s.retainBus f = .ok s' → QueueRun l s'

end Verif
