import Verif.Model.Memory
import Verif.Model.Reachability
import Verif.Model.ExhaustiveSearch

/-!
# Passes of the constraint optimizer

Model of `autoprecompiles/src/constraint_optimizer.rs` except `optimize_constraints` itself.

Simplifications: logging, statistics and export are left out. Passes that only use the contents of an
`IndexedConstraintSystem` take the `ConstraintSystem` (C23 relates the operations of the two).
`IsBusStateful` is a function of the bus id.
-/

namespace Verif

open GExpr

variable {p : ℕ} {V : Type}

section
variable [LinearOrder V]

/-! ## Trivial simplifications -/

/-- `remove_trivial_constraints` (constraint_optimizer.rs:610-617; `is_redundant`:
algebraic_constraint/mod.rs:63-65). -/
def removeTrivial (s : ConstraintSystem p V) : ConstraintSystem p V :=
  { s with
    algebraic := s.algebraic.filter fun e => !e.isZero
    bus := s.bus.filter fun b => !b.multiplicity.isZero }

/-- The closure of `remove_equal_bus_interactions` over the list (constraint_optimizer.rs:624-632);
the first argument is `seen`. -/
def retainUnseen (isStateful : ZMod p → Bool) :
    List (BusInteraction (GExpr p V)) → List (BusInteraction (GExpr p V)) →
    List (BusInteraction (GExpr p V))
  | _, [] => []
  | seen, b :: t =>
    match b.busId.tryToNumber with
    | none => b :: retainUnseen isStateful seen t
    | some id =>
      if isStateful id then b :: retainUnseen isStateful seen t
      else if b ∈ seen then retainUnseen isStateful seen t
      else b :: retainUnseen isStateful (b :: seen) t

/-- `remove_equal_bus_interactions` (constraint_optimizer.rs:619-634). -/
def removeEqualBus (isStateful : ZMod p → Bool) (s : ConstraintSystem p V) :
    ConstraintSystem p V :=
  { s with bus := retainUnseen isStateful [] s.bus }

/-- `reduce(|acc, factor| acc * factor).unwrap()` (constraint_optimizer.rs:714-717). -/
def productOf : List (GExpr p V) → Except Panic (GExpr p V)
  | [] => .error .assertion
  | f :: t => .ok (t.foldl mul f)

/-- The closure of `remove_duplicate_factors` over the list (constraint_optimizer.rs:707-723): the
constraints to keep and those to add. -/
def duplicateFactorsLoop : List (GExpr p V) →
    Except Panic (List (GExpr p V) × List (GExpr p V))
  | [] => .ok ([], [])
  | e :: t => do
    let factors := toFactors e
    if factors = [] then .error .assertion
    else
      let unique := factors.eraseDups
      if unique.length < factors.length then do
        let product ← productOf unique
        let (keep, add) ← duplicateFactorsLoop t
        pure (keep, product :: add)
      else do
        let (keep, add) ← duplicateFactorsLoop t
        pure (e :: keep, add)

/-- `remove_duplicate_factors` (constraint_optimizer.rs:702-725). -/
def removeDuplicateFactors (s : ConstraintSystem p V) : Except Panic (ConstraintSystem p V) := do
  let (keep, add) ← duplicateFactorsLoop s.algebraic
  pure { s with algebraic := keep ++ add }

/-- The constraints made redundant by the constraint with index `i`
(constraint_optimizer.rs:671-689). The set `constraints_by_factor[f]` (650-664) is the set of indices
whose list of factors contains `f`. -/
def redundantBecauseOf (fs : List (List (GExpr p V))) (i : ℕ) (factors : List (GExpr p V)) :
    Except Panic (List ℕ) :=
  let multiples := fs.zipIdx.filter fun x => factors.all fun f => f ∈ x.1
  if multiples.any fun x => x.1.length < factors.length then .error .assertion
  else .ok ((multiples.filter fun x => x.1.length > factors.length || x.2 > i).map Prod.snd)

/-- The loop of `remove_redundant_constraints` (constraint_optimizer.rs:669-690). -/
def redundantIndices (fs : List (List (GExpr p V))) :
    List (List (GExpr p V) × ℕ) → Except Panic (List ℕ)
  | [] => .ok []
  | (factors, i) :: t => do
    let r ← redundantBecauseOf fs i factors
    let rest ← redundantIndices fs t
    pure (r ++ rest)

/-- `remove_redundant_constraints` (constraint_optimizer.rs:644-699). -/
def removeRedundant (s : ConstraintSystem p V) : Except Panic (ConstraintSystem p V) := do
  let s ← removeDuplicateFactors s
  let fs := s.algebraic.map toFactors
  if fs.any fun f => f.isEmpty then .error .assertion
  else do
    let redundant ← redundantIndices fs fs.zipIdx
    pure { s with algebraic := (s.algebraic.zipIdx.filter fun x => x.2 ∉ redundant).map Prod.fst }

/-- `remove_unreferenced_derived_variables` (constraint_optimizer.rs:727-740). -/
def removeUnreferencedDerived (s : ConstraintSystem p V) : ConstraintSystem p V :=
  { s with derived := s.derived.filter fun d => d.column ∈ s.vars }

/-- `trivial_simplifications` (constraint_optimizer.rs:190-215). -/
def trivialSimplifications (isStateful : ZMod p → Bool) (s : ConstraintSystem p V) :
    Except Panic (ConstraintSystem p V) := do
  let s := removeTrivial s
  let s := removeEqualBus isStateful s
  let s ← removeRedundant s
  pure (removeUnreferencedDerived s)

/-! ## Free variables -/

/-- `can_always_be_satisfied_via_free_variable` (constraint_optimizer.rs:376-395);
`try_as_single_product`: grouped_expression.rs:182-189. -/
def canAlwaysBeSatisfied (x : V) : GExpr p V → Except Panic Bool
  | mk [(l, r)] [] c => do
    match ← trySolveFor (mk [(l, r)] [] c) x with
    | some _ => pure true
    | none =>
      if c = 0 then do
        if ← canAlwaysBeSatisfied x l then pure true
        else canAlwaysBeSatisfied x r
      else pure false
  | e => do
    match ← trySolveFor e x with
    | some _ => pure true
    | none => pure false

/-- `bus_id.try_to_number().unwrap()` (constraint_optimizer.rs:327). -/
def knownBusId (b : BusInteraction (GExpr p V)) : Except Panic (ZMod p) :=
  match b.busId.tryToNumber with
  | none => .error .assertion
  | some id => .ok id

/-- The closure of the filter (constraint_optimizer.rs:320-352). -/
def removableVia (isStateful : ZMod p → Bool) (x : V) : ConstraintRef p V → Except Panic Bool
  | .alg e => canAlwaysBeSatisfied x e
  | .bus b => do
    let id ← knownBusId b
    pure (!isStateful id && decide ((b.payload.filter fun f => f.tryToNumber.isNone).length = 1) &&
      b.payload.all fun f => decide (f.degreeOf x ≤ 1))

/-- `variables_to_delete` (constraint_optimizer.rs:309-354), for the list of variables. -/
def freeVariables (isStateful : ZMod p → Bool) (ix : Indexed p V) :
    List V → Except Panic (List V)
  | [] => .ok []
  | x :: t => do
    let refs ← ix.constraintsReferencing [x]
    let rest ← freeVariables isStateful ix t
    match refs with
    | [c] => do
      if ← removableVia isStateful x c then pure (x :: rest) else pure rest
    | _ => pure rest

/-- The second half of `remove_free_variables` (constraint_optimizer.rs:358-370). -/
def retainBusKeeping (isStateful : ZMod p → Bool) (keep : List V) :
    List (BusInteraction (GExpr p V)) → Except Panic (List (BusInteraction (GExpr p V)))
  | [] => .ok []
  | b :: t => do
    let id ← knownBusId b
    let rest ← retainBusKeeping isStateful keep t
    pure (if isStateful id || (busVars b).all fun v => v ∈ keep then b :: rest else rest)

variable [Fact p.Prime]

/-- `remove_free_variables` (constraint_optimizer.rs:294-372). -/
def removeFree (h : Handler p) (isStateful : ZMod p → Bool) (ix : Indexed p V) (solver : Solver p V) :
    Except Stop (ConstraintSystem p V × Solver p V) := do
  let all := ix.sys.vars.eraseDups
  let delete ← liftPanic (freeVariables isStateful ix all)
  let keep := all.filter fun v => v ∉ delete
  let r ← SolverOp.run h solver (.retain keep)
  let bus ← liftPanic (retainBusKeeping isStateful keep ix.sys.bus)
  pure ({ ix.sys with
    algebraic := ix.sys.algebraic.filter fun e => e.vars.all fun v => v ∈ keep
    bus }, r.2)

/-! ## Disconnected columns -/

/-- `variables_in_stateful_bus_interactions` (constraint_optimizer.rs:439-451). -/
def statefulVariables (isStateful : ZMod p → Bool) :
    List (BusInteraction (GExpr p V)) → Except Panic (List V)
  | [] => .ok []
  | b :: t => do
    let id ← knownBusId b
    let rest ← statefulVariables isStateful t
    pure (if isStateful id then busVars b ++ rest else rest)

/-- The retain of `remove_disconnected_columns` (constraint_optimizer.rs:425-433). -/
def retainBusTouching (isStateful : ZMod p → Bool) (keep : List V) :
    List (BusInteraction (GExpr p V)) → Except Panic (List (BusInteraction (GExpr p V)))
  | [] => .ok []
  | b :: t => do
    let id ← knownBusId b
    let rest ← retainBusTouching isStateful keep t
    pure (if isStateful id || (busVars b).any fun v => v ∈ keep then b :: rest else rest)

/-- `remove_disconnected_columns` (constraint_optimizer.rs:405-436). `fuel` bounds the rounds of the
search, which is known to terminate (C24). -/
def removeDisconnected (h : Handler p) (isStateful : ZMod p → Bool) (ord : SetOrder V) (fuel : ℕ)
    (ix : Indexed p V) (solver : Solver p V) : Except Stop (ConstraintSystem p V × Solver p V) := do
  let initial ← liftPanic (statefulVariables isStateful ix.sys.bus)
  match ← liftPanic (reachable ord fuel initial ix) with
  | none => .error .fuel
  | some keep => do
    let r ← SolverOp.run h solver (.retain keep)
    let bus ← liftPanic (retainBusTouching isStateful keep ix.sys.bus)
    pure ({ ix.sys with
      algebraic := ix.sys.algebraic.filter fun e => e.vars.any fun v => v ∈ keep
      bus }, r.2)

/-! ## Simplification by exhaustive search -/

/-- `SimplifiedExpression` (constraint_optimizer.rs:453-460): the expression it belongs to,
`is_algebraic_constraint` and `simplified`, where `some none` is `Some(Err(()))`. -/
structure Simplified (p : ℕ) (V : Type) where
  expr : GExpr p V
  isAlgebraic : Bool
  simplified : Option (Option (GExpr p V))

/-- `SimplifiedExpression::update` (constraint_optimizer.rs:467-475). -/
def Simplified.update (new : GExpr p V) (x : Simplified p V) : Simplified p V :=
  match x.simplified with
  | none => { x with simplified := some (some new) }
  | some (some existing) => if existing ≠ new then { x with simplified := some none } else x
  | some none => x

/-- One step of the fold (constraint_optimizer.rs:508-518). -/
def insertSimplified (e : GExpr p V) (isAlg : Bool) : List (Simplified p V) → List (Simplified p V)
  | [] => [⟨e, isAlg, none⟩]
  | x :: t =>
    if x.expr = e then { x with isAlgebraic := x.isAlgebraic || isAlg } :: t
    else x :: insertSimplified e isAlg t

/-- The expressions of a constraint (constraint_optimizer.rs:498-507). -/
def ConstraintRef.exprs : ConstraintRef p V → List (GExpr p V × Bool)
  | .alg e => [(e, true)]
  | .bus b => b.fields.map fun f => (f, false)

/-- The map of expressions (constraint_optimizer.rs:495-518). It is keyed by the expressions; the
order of the keys does not matter here. -/
def simplifiedInit (refs : List (ConstraintRef p V)) : List (Simplified p V) :=
  (refs.flatMap ConstraintRef.exprs).foldl (fun acc x => insertSimplified x.1 x.2 acc) []

/-- One assignment (constraint_optimizer.rs:523-557). -/
def simplifyUnder (xs : List (Simplified p V)) (assignment : List (V × ZMod p)) :
    List (Simplified p V) :=
  let conflict := xs.any fun x => x.isAlgebraic &&
    match (substKnownMulti assignment x.expr).tryToNumber with
    | some n => decide (n ≠ 0)
    | none => false
  if conflict then xs
  else (xs.map fun x => x.update (substKnownMulti assignment x.expr)).filter fun x =>
    x.isAlgebraic || decide (x.simplified ≠ some none)

/-- The substitutions found for one set of variables (constraint_optimizer.rs:492-566). -/
def substitutionsFor (ix : Indexed p V) (rc : V → RangeConstraint p) (vs : List V) :
    Except Panic (List (GExpr p V × GExpr p V)) := do
  let refs ← ix.constraintsReferencing vs
  let assignments ← allPossibleAssignments rc vs
  let xs := assignments.foldl simplifyUnder (simplifiedInit refs)
  pure (xs.filterMap fun x => match x.simplified with
    | some (some s) => if s ≠ x.expr then some (x.expr, s) else none
    | _ => none)

/-- The substitutions for all candidates (constraint_optimizer.rs:491-567); later entries for the
same expression override earlier ones. -/
def allSubstitutions (ix : Indexed p V) (rc : V → RangeConstraint p) :
    List (List V) → List (GExpr p V × GExpr p V) → Except Panic (List (GExpr p V × GExpr p V))
  | [], acc => .ok acc
  | vs :: t, acc => do
    let l ← substitutionsFor ix rc vs
    allSubstitutions ix rc t (l.foldl (fun acc x => mapInsert x.1 x.2 acc) acc)

/-- The replacement of an algebraic constraint and the equality to add
(constraint_optimizer.rs:587-598). -/
def replaceConstraint (subs : List (GExpr p V × GExpr p V)) (e : GExpr p V) :
    GExpr p V × List (GExpr p V) :=
  match mapGet e subs with
  | some s => if s.isZero then (e, []) else (s, [sub e s])
  | none => (e, [])

/-- The replacement of a field and the equality to add (constraint_optimizer.rs:599-607). -/
def replaceField (subs : List (GExpr p V × GExpr p V)) (e : GExpr p V) :
    GExpr p V × List (GExpr p V) :=
  match mapGet e subs with
  | some s => (s, [sub e s])
  | none => (e, [])

/-- `simplify_constraints_using_exhaustive_search` (constraint_optimizer.rs:484-608). The added
equalities form a set, here in the order of the constraints. -/
def simplifyExhaustive (ix : Indexed p V) (rc : V → RangeConstraint p) :
    Except Panic (ConstraintSystem p V) := do
  let subs ← allSubstitutions ix rc (bruteForceCandidates ix.sys rc) []
  if subs = [] then pure ix.sys
  else
    let algebraic := ix.sys.algebraic.map (replaceConstraint subs)
    let fields := ix.sys.bus.flatMap fun b => b.fields.map (replaceField subs)
    pure { ix.sys with
      algebraic := algebraic.map Prod.fst ++
        ((algebraic ++ fields).flatMap Prod.snd).eraseDups
      bus := ix.sys.bus.map fun b => b.map fun f => (replaceField subs f).1 }

/-! ## Results of the solver -/

/-- `try_replace_by_number` (constraint_optimizer.rs:272-285). -/
def tryReplaceByNumber (solver : Solver p V) (e : GExpr p V) : Option (GExpr p V) :=
  match e.tryToNumber with
  | some _ => none
  | none => (solver.rangeConstraintForExpression e).tryToSingleValue.map const

/-- A field and the equality to add (constraint_optimizer.rs:247-256). -/
def numberField (solver : Solver p V) (e : GExpr p V) : GExpr p V × List (GExpr p V) :=
  match tryReplaceByNumber solver e with
  | some n => (n, [sub n e])
  | none => (e, [])

/-- `solver_based_optimization` (constraint_optimizer.rs:217-268): the system, the assignments
(registered in the export options) and the solver. -/
def solverBased (h : Handler p) (ch : Choices p V) (ix : Indexed p V) (solver : Solver p V) :
    Except Stop (ConstraintSystem p V × List (V × GExpr p V) × Solver p V) := do
  match ← SolverOp.run h solver (.solve ch) with
  | (.assignments l, solver) =>
    if l.any fun x => !x.2.isAffine then .error .panic
    else
      let s := (ix.applySubsts l).sys
      let fields := s.bus.flatMap fun b => b.fields.map (numberField solver)
      pure ({ s with
        bus := s.bus.map fun b => b.map fun f => (numberField solver f).1
        algebraic := s.algebraic ++ fields.flatMap Prod.snd }, l, solver)
  | _ => .error .panic

/-- A field and the equality to add (constraint_optimizer.rs:175-185). -/
def constantField (solver : Solver p V) (e : GExpr p V) : GExpr p V × List (GExpr p V) :=
  if e.isAffine && decide (e.linear.length ≤ 1) then (e, [])
  else match solver.equivalentConstant e with
    | some v => (const v, [sub e (const v)])
    | none => (e, [])

/-- `substitute_bus_interaction_fields` (constraint_optimizer.rs:165-188). -/
def substituteBusFields (solver : Solver p V) (s : ConstraintSystem p V) : ConstraintSystem p V :=
  let fields := s.bus.flatMap fun b => b.fields.map (constantField solver)
  { s with
    bus := s.bus.map fun b => b.map fun f => (constantField solver f).1
    algebraic := s.algebraic ++ fields.flatMap Prod.snd }

end

end Verif
