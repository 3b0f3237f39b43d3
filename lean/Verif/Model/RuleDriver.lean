import Verif.Model.Rules
import Verif.Model.ItemDB
import Mathlib.Data.List.Dedup

/-!
# Model of the rule driver (constraint-solver/src/rule_based_optimizer/driver.rs)

Simplifications:
* The indexed constraint system is a plain one; C23 relates the two (lookups are complete,
  substitution and `retain` act on all constraints).
* The transformation of variables and expressions into identifiers and back (driver.rs:48-54,
  77-78, 255-290, 454-514) is left out: C56 shows that identifiers and items correspond one to one. The
  new variables of a round and their computation methods are a list, see `driverRound`.
* `HashMap`s are association lists, `HashSet`s lists.
-/

namespace Verif

open RangeConstraint GExpr

variable {p : ℕ} {V : Type} [LinearOrder V]

/-- `ReplacementAction` (driver.rs:294-299). -/
structure ReplacementAction (p : ℕ) (V : Type) where
  replace : List (GExpr p V)
  replaceBy : List (GExpr p V)

/-- `iter().map(|e| e.degree()).max().unwrap_or(0)` (driver.rs:326-337). -/
def maxDegree (es : List (GExpr p V)) : ℕ := (es.map degree).foldl Nat.max 0

/-- `is_replacement_within_degree_bound` (driver.rs:322-345). -/
def ReplacementAction.withinDegreeBound (r : ReplacementAction p V) : Option DegreeBound → Bool
  | none => ¬ maxDegree r.replaceBy > maxDegree r.replace
  | some bound => maxDegree r.replaceBy ≤ bound.identities

/-- `valid_replacements` (driver.rs:367-386). `unique` keeps the first and `dedup` the last copy;
the order of the left hand sides is irrelevant in what follows. -/
def validReplacements (rs : List (ReplacementAction p V)) (bound : Option DegreeBound) :
    List (ReplacementAction p V) :=
  (rs.filter fun r => r.withinDegreeBound bound).map fun r => ⟨r.replace.dedup, r.replaceBy⟩

/-- The expressions of the replacement that occur in the system, without repetition
(`replacement_found[index]`, driver.rs:388-408). -/
def replacementFound (cs : List (GExpr p V)) (r : ReplacementAction p V) : List (GExpr p V) :=
  (cs.filter fun c => c ∈ r.replace).dedup

/-- The loop over the replacements (driver.rs:410-438): `constraints_to_remove` and
`replacement_constraints`. -/
def batchLoop (cs : List (GExpr p V)) : List (ReplacementAction p V) →
    List (GExpr p V) × List (GExpr p V) → List (GExpr p V) × List (GExpr p V)
  | [], acc => acc
  | r :: rs, (remove, add) =>
    if (replacementFound cs r).length ≠ r.replace.length then batchLoop cs rs (remove, add)
    else if r.replace.any fun e => e ∈ remove then batchLoop cs rs (remove, add)
    else batchLoop cs rs (remove ++ r.replace, add ++ r.replaceBy)

/-- `batch_replace_algebraic_constraints` (driver.rs:355-450). -/
def batchReplace (s : ConstraintSystem p V) (rs : List (ReplacementAction p V))
    (bound : Option DegreeBound) : Bool × ConstraintSystem p V :=
  let (remove, add) := batchLoop s.algebraic (validReplacements rs bound) ([], [])
  if remove.isEmpty then (false, s)
  else (true, ⟨(s.algebraic.filter fun c => c ∉ remove) ++ add, s.bus, s.derived⟩)

/-- `Action` (types.rs:42-49) without `ReplaceAlgebraicConstraintBy`, which is collected for the
batch (driver.rs:201-216). -/
inductive RuleAction (p : ℕ) (V : Type) where
  | updateRange (v : V) (rc : RangeConstraint p)
  | substituteByConstant (v : V) (value : ZMod p)
  | substituteByVariable (v w : V)

/-- The action is requested by the rule system (rules.rs:690-702). -/
def RuleAction.Requested (inp : RuleInput p V) : RuleAction p V → Prop
  | .updateRange v rc => Derives inp (.updateRangeConstraintOnVar v rc)
  | .substituteByConstant v k => Derives inp (.assignment v k)
  | .substituteByVariable v w => Derives inp (.substituteByVariable v w)

/-- The replacement is requested by the rule system (rules.rs:690-716, types.rs:42-60). -/
inductive ReplacementAction.Requested (inp : RuleInput p V) : ReplacementAction p V → Prop
  | one {e e' : GExpr p V} (h : Derives inp (.replaceBy e e')) : Requested inp ⟨[e], [e']⟩
  | many {es es' : List (GExpr p V)} (h : Derives inp (.replaceManyBy es es')) :
      Requested inp ⟨es, es'⟩

/-- The variables of the driver (driver.rs:47-66). -/
structure DriverState (p : ℕ) (V : Type) where
  system : ConstraintSystem p V
  /-- `range_constraints_on_vars` -/
  ranges : List (V × RangeConstraint p)
  assignments : List (V × GExpr p V)

/-- Apply a function to all expressions of a system (`IndexedConstraintSystem::substitute_by_*`). -/
def ConstraintSystem.mapExprs (f : GExpr p V → GExpr p V) (s : ConstraintSystem p V) :
    ConstraintSystem p V :=
  ⟨s.algebraic.map f, s.bus.map fun b => b.map f, s.derived.map fun d =>
    ⟨d.column, d.method.mapExpr f⟩⟩

/-- The initial state (driver.rs:47-66); `rc` is the provider `range_constraints`. -/
def driverStart (rc : V → RangeConstraint p) (s : ConstraintSystem p V) : DriverState p V :=
  ⟨s, (s.vars.dedup.map fun v => (v, rc v)).filter fun x => !x.2.isUnconstrained, []⟩

/-- One action (driver.rs:166-217). -/
def applyAction (st : DriverState p V) : RuleAction p V → DriverState p V
  | .updateRange v rc =>
    let existing := (mapGet v st.ranges).getD unconstrained
    let new := existing.conjunction rc
    if new ≠ existing then
      match new.tryToSingleValue with
      | some val => { st with system := st.system.mapExprs (substKnown v val)
                              assignments := st.assignments ++ [(v, const val)] }
      | none => { st with ranges := mapInsert v new st.ranges }
    else st
  | .substituteByConstant v val =>
    { st with system := st.system.mapExprs (substKnown v val)
              assignments := st.assignments ++ [(v, const val)] }
  | .substituteByVariable v w =>
    { st with system := st.system.mapExprs (subst v (var w))
              assignments := st.assignments ++ [(v, var w)] }

/-- `into_grouping_map().reduce(conjunction)` (driver.rs:129-131). -/
def groupRanges : List (GExpr p V × RangeConstraint p) → List (GExpr p V × RangeConstraint p)
  | [] => []
  | (e, rc) :: t =>
    let rest := groupRanges t
    match mapGet e rest with
    | some rc' => mapInsert e (rc.conjunction rc') rest
    | none => (e, rc) :: rest

/-- The range constraints on the fields of the bus interactions (driver.rs:113-132). -/
def busRanges (rc : V → RangeConstraint p) (h : Handler p) :
    List (BusInteraction (GExpr p V)) → Except Panic (List (GExpr p V × RangeConstraint p))
  | [] => .ok []
  | b :: bs => do
    let updated ← h (toRangeConstraints rc b)
    let rest ← busRanges rc h bs
    pure ((b.fields.zip updated.fields).filter (fun x => !x.2.isUnconstrained) ++ rest)

/-- The variables that occur exactly once (driver.rs:80-92). -/
def singleOccurrence (s : ConstraintSystem p V) : List V :=
  s.vars.dedup.filter fun v => s.vars.count v = 1

/-- The input of the rule system in one round (driver.rs:75-145). -/
def driverInput (rc : V → RangeConstraint p) (h : Handler p) (lt : GExpr p V → GExpr p V → Prop)
    (fresh : V → ComputationMethod p (GExpr p V) → Prop) (intBits : ℕ) (st : DriverState p V) :
    Except Panic (RuleInput p V) := do
  let ranges ← busRanges rc h st.system.bus
  pure { constraints := st.system.algebraic
         exprRanges := groupRanges ranges
         varRanges := st.ranges
         single := singleOccurrence st.system
         lt, fresh, intBits }

/-- `system.extend` with derived variables (driver.rs:277-283). -/
def ConstraintSystem.addDerived (s : ConstraintSystem p V) (new : List (DerivedVariable p V)) :
    ConstraintSystem p V := { s with derived := s.derived ++ new }

/-- The system before the batch of replacements: all actions are applied and the new variables are
recorded with their computation methods (driver.rs:166-232, 255-290). -/
def beforeBatch (st : DriverState p V) (actions : List (RuleAction p V))
    (new : List (DerivedVariable p V)) : ConstraintSystem p V :=
  (actions.foldl applyAction st).system.addDerived new

/-- One round of the main loop (driver.rs:68-246). -/
def driverRound (st : DriverState p V) (actions : List (RuleAction p V))
    (new : List (DerivedVariable p V)) (rs : List (ReplacementAction p V))
    (bound : Option DegreeBound) : DriverState p V :=
  { actions.foldl applyAction st with
    system := (batchReplace (beforeBatch st actions new) rs bound).2 }

/-- Whether an action sets `progress` (driver.rs:168-204). -/
def actionProgress (st : DriverState p V) : RuleAction p V → Bool
  | .updateRange v rc =>
    let existing := (mapGet v st.ranges).getD unconstrained
    decide (existing.conjunction rc ≠ existing)
  | .substituteByConstant _ _ => true
  | .substituteByVariable _ _ => true

/-- The variable `progress` after all actions (driver.rs:153-221). -/
def actionsProgress (st : DriverState p V) : List (RuleAction p V) → Bool
  | [] => false
  | a :: as => actionProgress st a || actionsProgress (applyAction st a) as

/-- The variable `progress` at the end of a round (driver.rs:153-240); the loop is left if it is not
set (242-244). -/
def roundProgress (st : DriverState p V) (actions : List (RuleAction p V))
    (new : List (DerivedVariable p V)) (rs : List (ReplacementAction p V))
    (bound : Option DegreeBound) : Bool :=
  actionsProgress st actions || (batchReplace (beforeBatch st actions new) rs bound).1

/-- The final clean-up (driver.rs:247). -/
def DriverState.finish (st : DriverState p V) : DriverState p V :=
  { st with system := { st.system with algebraic := st.system.algebraic.filter fun e => !e.isZero } }

end Verif
