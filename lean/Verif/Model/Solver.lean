import Verif.Model.Splitter
import Verif.Model.BooleanExtractor
import Verif.Model.Linearizer
import Verif.Model.ExhaustiveSearch
import Mathlib.Data.Sum.Order

/-!
# The solver

Model of `constraint-solver/src/solver.rs`, `constraint-solver/src/solver/base.rs` and
`constraint-solver/src/solver/var_transformation.rs`.

Rust's mutable state is passed explicitly. Loops without an obvious bound have fuel; running out of
fuel is the separate outcome `Stop.fuel`. When a function returns `Err`, the model drops the state.
-/

namespace Verif

open GExpr

/-- `Variable` (var_transformation.rs:15-23). -/
inductive SVar (V : Type) where
  | original (v : V)
  | boolean (n : ℕ)
  | linearized (n : ℕ)

namespace SVar

variable {V : Type}

/-- The derived `Ord` (var_transformation.rs:15): by variant, then by content. -/
def toLex : SVar V → V ⊕ₗ (ℕ ⊕ₗ ℕ)
  | original v => Sum.inlₗ v
  | boolean n => Sum.inrₗ (Sum.inlₗ n)
  | linearized n => Sum.inrₗ (Sum.inrₗ n)

theorem toLex_injective : Function.Injective (toLex : SVar V → V ⊕ₗ (ℕ ⊕ₗ ℕ)) := by
  intro a b h
  cases a <;> cases b <;> simp [toLex] at h <;> simp [h]

instance [LinearOrder V] : LinearOrder (SVar V) := LinearOrder.lift' toLex toLex_injective

/-- `try_to_original` (var_transformation.rs:40-45). -/
def tryToOriginal : SVar V → Option V
  | original v => some v
  | _ => none

end SVar

/-- `Error` (solver.rs:104-112). -/
inductive SolverError where
  | algebraic (e : SolveError)
  | bus
  | exhaustiveSearch
deriving DecidableEq

/-- Why a computation of the solver did not return normally. -/
inductive Stop where
  | panic
  | fuel
  | error (e : SolverError)
deriving DecidableEq

/-- A panic of a called function is a panic. -/
def liftPanic {α : Type} : Except Panic α → Except Stop α
  | .ok a => .ok a
  | .error _ => .error .panic

variable {p : ℕ} {V : Type}

/-- `BaseSolver` (base.rs:35-55) with `VarDispenserImpl` (base.rs:69-72); the variables are those of
`new_solver` (solver.rs:46). The bus interaction handler is a parameter of the functions. Hash maps
are functions (`rcs`, with the default for missing entries, base.rs:612-614) or association lists. -/
structure Solver (p : ℕ) (V : Type) where
  cs : Queued p (SVar V)
  rcs : SVar V → RangeConstraint p
  toReturn : List (SVar V × GExpr p (SVar V))
  cache : List (GExpr p (SVar V) × List (GExpr p (SVar V)))
  nextBool : ℕ
  nextLin : ℕ
  boolSubs : BooleanSubs p (SVar V)
  linSubs : LinearSubs p (SVar V)

/-- A rearrangement of lists, for the unspecified iteration order of hash maps. -/
abbrev Rearrange (α : Type) := { f : List α → List α // ∀ l, (f l).Perm l }

/-- What the model leaves open in a call of `solve`: the bound on the number of iterations and the
iteration orders of hash maps (the order of effects may differ in each step). -/
structure Choices (p : ℕ) (V : Type) where
  fuel : ℕ
  effects : ℕ → Rearrange (Effect p (SVar V))
  linear : Rearrange (GExpr p (SVar V) × GExpr p (SVar V))
  boolean : Rearrange (GExpr p (SVar V) × Option (SVar V))

/-- `equivalent_expressions_cache.get` (base.rs:450). -/
def cacheGet [LinearOrder V] (e : GExpr p V) :
    List (GExpr p V × List (GExpr p V)) → Option (List (GExpr p V))
  | [] => none
  | (k, v) :: t => if k = e then some v else cacheGet e t

/-- Stable insertion by length (`sort_by_key`, base.rs:391). -/
def insertByLength {α : Type} (l : List α) : List (List α) → List (List α)
  | [] => [l]
  | m :: t => if l.length ≤ m.length then l :: m :: t else m :: insertByLength l t

namespace Solver

/-- `new` (base.rs:94-105). -/
def new : Solver p V :=
  ⟨Queued.empty, fun _ => .unconstrained, [], [], 0, 0, [], []⟩

variable [LinearOrder V]

/-- `RangeConstraints::update` (base.rs:620-629), `none` if nothing changes. -/
def updateRc (x : SVar V) (r : RangeConstraint p) (s : Solver p V) : Option (Solver p V) :=
  let new := (s.rcs x).conjunction r
  if new ≠ s.rcs x then some { s with rcs := Function.update s.rcs x new } else none

/-- `variable_updated` on the constraint system (base.rs:502). -/
def variableUpdated (x : SVar V) (s : Solver p V) : Except Stop (Solver p V) := do
  let cs ← liftPanic (s.cs.variableUpdated x)
  pure { s with cs := cs }

/-- `add_range_constraint` (base.rs:189-192) in the calls with `from_mask(1)` for a new variable
(base.rs:278, 532), with `apply_range_constraint_update` (base.rs:490-508) inlined. The branch in
which the combined range constraint is a single value is a panic here, which cuts the
recursion through `apply_assignment`; it is not reachable because the variable is new
(part of `C21_no_panic`). -/
def constrainBoolean (z : SVar V) (s : Solver p V) : Except Stop (Solver p V) :=
  match updateRc z (.fromMask 1) { s with cache := [] } with
  | none => .ok { s with cache := [] }
  | some s' =>
    if (s'.rcs z).tryToSingleValue.isSome then .error .panic else variableUpdated z s'

/-- The loop of base.rs:531-533. -/
def constrainBooleans : List (SVar V) → Solver p V → Except Stop (Solver p V)
  | [], s => .ok s
  | z :: t, s => do
    let s ← constrainBoolean z s
    constrainBooleans t s

/-- The call of the extractor with the dispenser (base.rs:273-275, 524-526). -/
def extractBoolean (e : GExpr p (SVar V)) (s : Solver p V) :
    Option (BooleanExtraction p (SVar V)) × Solver p V :=
  match Verif.tryExtractBoolean s.boolSubs e (.boolean s.nextBool) with
  | none => (none, s)
  | some (x, subs) => (some x,
      { s with
        boolSubs := subs
        nextBool := if x.newVar.isSome then s.nextBool + 1 else s.nextBool })

/-- `try_extract_boolean` (base.rs:269-281). -/
def tryExtractBoolean (e : GExpr p (SVar V)) (s : Solver p V) :
    Except Stop (Option (GExpr p (SVar V)) × Solver p V) := do
  let s' ← constrainBooleans ((extractBoolean e s).1.bind (·.newVar)).toList (extractBoolean e s).2
  pure ((extractBoolean e s).1.map (·.constraint), s')

/-- The first `flat_map` of `add_algebraic_constraints` (base.rs:156-162). -/
def extractAll : List (GExpr p (SVar V)) → Solver p V →
    Except Stop (List (GExpr p (SVar V)) × Solver p V)
  | [], s => .ok ([], s)
  | e :: t, s => do
    let r ← tryExtractBoolean e s
    let rs ← extractAll t r.2
    pure (r.1.toList ++ e :: rs.1, rs.2)

/-- `linearize_constraint` (base.rs:287-301). -/
def linearizeConstraint (e : GExpr p (SVar V)) (s : Solver p V) :
    List (GExpr p (SVar V)) × Solver p V :=
  if e.isAffine then ([e], s)
  else
    let r := linearizeExpression SVar.linearized e ⟨s.linSubs, s.nextLin, [e]⟩
    (r.2.constraints ++ [r.1], { s with linSubs := r.2.subs, nextLin := r.2.next })

/-- The second `flat_map` of `add_algebraic_constraints` (base.rs:164-165). -/
def linearizeConstraints : List (GExpr p (SVar V)) → Solver p V →
    List (GExpr p (SVar V)) × Solver p V
  | [], s => ([], s)
  | e :: t, s =>
    let r := linearizeConstraint e s
    let rs := linearizeConstraints t r.2
    (r.1 ++ rs.1, rs.2)

/-- `add_algebraic_constraints` (base.rs:147-169). -/
def addAlgebraic (es : List (GExpr p (SVar V))) (s : Solver p V) : Except Stop (Solver p V) := do
  let r ← extractAll (es.filter fun e => !e.isZero) { s with cache := [] }
  let l := linearizeConstraints r.1 r.2
  let cs ← liftPanic (l.2.cs.addAlgebraic (l.1.filter fun e => !e.isZero))
  pure { l.2 with cs := cs }

/-- The `map` over the fields in `linearize_bus_interaction` (base.rs:313-321). -/
def linearizeFields : List (GExpr p (SVar V)) → LinState p (SVar V) →
    List (GExpr p (SVar V)) × LinState p (SVar V)
  | [], st => ([], st)
  | e :: t, st =>
    let r := substituteByVar SVar.linearized e st
    let rs := linearizeFields t r.2
    (r.1 :: rs.1, rs.2)

/-- `linearize_bus_interaction` (base.rs:308-323). -/
def linearizeBus (b : BusInteraction (GExpr p (SVar V))) (st : LinState p (SVar V)) :
    BusInteraction (GExpr p (SVar V)) × LinState p (SVar V) :=
  let i := substituteByVar SVar.linearized b.busId st
  let m := substituteByVar SVar.linearized b.multiplicity i.2
  let l := linearizeFields b.payload m.2
  (⟨i.1, m.1, l.1⟩, l.2)

/-- The `map` in `add_bus_interactions` (base.rs:177-182). -/
def linearizeBuses : List (BusInteraction (GExpr p (SVar V))) → LinState p (SVar V) →
    List (BusInteraction (GExpr p (SVar V))) × LinState p (SVar V)
  | [], st => ([], st)
  | b :: t, st =>
    let r := linearizeBus b st
    let rs := linearizeBuses t r.2
    (r.1 :: rs.1, rs.2)

/-- `add_bus_interactions` (base.rs:171-187). -/
def addBus (bs : List (BusInteraction (GExpr p (SVar V)))) (s : Solver p V) :
    Except Stop (Solver p V) := do
  let r := linearizeBuses bs ⟨s.linSubs, s.nextLin, []⟩
  let s' ← addAlgebraic r.2.constraints
    { s with cache := [], linSubs := r.2.subs, nextLin := r.2.next }
  let cs ← liftPanic (s'.cs.addBus r.1)
  pure { s' with cs := cs }

/-- The algebraic constraints among the references (base.rs:460-463, 519-522). -/
def algebraicRefs (refs : List (ConstraintRef p (SVar V))) : List (GExpr p (SVar V)) :=
  refs.filterMap fun c => match c with
    | .alg e => some e
    | .bus _ => none

/-- The `flat_map` of `apply_assignment` (base.rs:523-530): new constraints and new variables. -/
def extractRefs : List (GExpr p (SVar V)) → Solver p V →
    List (GExpr p (SVar V)) × List (SVar V) × Solver p V
  | [], s => ([], [], s)
  | e :: t, s =>
    let x := extractBoolean e s
    let rs := extractRefs t x.2
    ((x.1.map (·.constraint)).toList ++ rs.1, (x.1.bind (·.newVar)).toList ++ rs.2.1, rs.2.2)

/-- `apply_assignment` (base.rs:510-540). -/
def applyAssignment (x : SVar V) (r : GExpr p (SVar V)) (s : Solver p V) :
    Except Stop (Solver p V) := do
  let cs ← liftPanic (s.cs.subst x r)
  let refs ← liftPanic (cs.ix.constraintsReferencing [x])
  let n := extractRefs (algebraicRefs refs) { s with cs := cs }
  let s ← constrainBooleans n.2.1 n.2.2
  let s ← addAlgebraic n.1 s
  pure { s with toReturn := s.toReturn ++ [(x, r)] }

/-- `apply_range_constraint_update` (base.rs:490-508); the boolean result is `true` if something
changed. -/
def applyRc (x : SVar V) (r : RangeConstraint p) (s : Solver p V) :
    Except Stop (Bool × Solver p V) :=
  match updateRc x r s with
  | none => .ok (false, s)
  | some s' =>
    match (s'.rcs x).tryToSingleValue with
    | some value => do
      let s'' ← applyAssignment x (const value) s'
      pure (true, s'')
    | none => do
      let s'' ← variableUpdated x s'
      pure (true, s'')

/-- `add_range_constraint` (base.rs:189-192). -/
def addRange (x : SVar V) (r : RangeConstraint p) (s : Solver p V) : Except Stop (Solver p V) := do
  let r ← applyRc x r { s with cache := [] }
  pure r.2

/-- `apply_effect` (base.rs:475-488). -/
def applyEffect (s : Solver p V) : Effect p (SVar V) → Except Stop (Bool × Solver p V)
  | .assignment v value => do
    let s ← applyAssignment v (const value) s
    pure (true, s)
  | .rangeConstraint v r => applyRc v r s
  | .assertion _ _ _ => .error .panic
  | .conditionalAssignment _ _ _ _ _ => .error .panic

/-- The loop over the effects (base.rs:374-376). -/
def applyEffects : List (Effect p (SVar V)) → Solver p V → Except Stop (Bool × Solver p V)
  | [], s => .ok (false, s)
  | e :: t, s => do
    let r ← applyEffect s e
    let rs ← applyEffects t r.2
    pure (r.1 || rs.1, rs.2)

/-- `try_to_simple_equivalence` (base.rs:579-600). A stored coefficient is not zero. -/
def trySimpleEquivalence (e : GExpr p (SVar V)) : Option (SVar V × GExpr p (SVar V)) :=
  if !e.isAffine then none
  else if e.constant ≠ 0 then none
  else match e.linear with
    | [(v1, c1), (v2, c2)] => if -c2 * c1⁻¹ = 1 then some (v2, var v1) else none
    | _ => none

/-- `contains_algebraic_constraint` (base.rs:561-571). -/
def containsAlgebraic (e : GExpr p (SVar V)) (s : Solver p V) : Except Stop Bool := do
  let refs ← liftPanic (s.cs.ix.constraintsReferencing e.vars)
  pure ((algebraicRefs refs).any fun c => c = e)

/-- The `filter` in `add_algebraic_constraints_if_new` (base.rs:548-551). -/
def filterNew (s : Solver p V) : List (GExpr p (SVar V)) → Except Stop (List (GExpr p (SVar V)))
  | [] => .ok []
  | e :: t => do
    let c ← containsAlgebraic e s
    let r ← filterNew s t
    pure (if c then r else e :: r)

/-- `add_algebraic_constraints_if_new` (base.rs:544-558). -/
def addAlgebraicIfNew (es : List (GExpr p (SVar V))) (s : Solver p V) :
    Except Stop (Bool × Solver p V) := do
  let new ← filterNew s es
  if new.isEmpty then pure (false, s)
  else do
    let s ← addAlgebraic new s
    pure (true, s)

/-- The body of the loop of `solve_in_isolation` (base.rs:355-376) for an algebraic constraint. -/
def processAlgebraic (order : Rearrange (Effect p (SVar V))) (e : GExpr p (SVar V))
    (s : Solver p V) : Except Stop (Bool × Solver p V) :=
  match trySimpleEquivalence e with
  | some (v, r) => do
    let s ← applyAssignment v r s
    pure (false, s)
  | none => do
    match ← liftPanic (GExpr.solve s.rcs e) with
    | .error err => .error (.error (.algebraic err))
    | .ok result => do
      let split ← liftPanic (Splitter.trySplit s.rcs e)
      let n ← match split with
        | some parts => addAlgebraicIfNew parts s
        | none => pure (false, s)
      let r ← applyEffects (order.1 result.effects) n.2
      pure (n.1 || r.1, r.2)

/-- The body of the loop of `solve_in_isolation` (base.rs:370-376) for a bus interaction. -/
def processBus (h : Handler p) (order : Rearrange (Effect p (SVar V)))
    (b : BusInteraction (GExpr p (SVar V))) (s : Solver p V) : Except Stop (Bool × Solver p V) := do
  match ← liftPanic (solveBus s.rcs h b) with
  | .error _ => .error (.error .bus)
  | .ok effects => applyEffects (order.1 effects) s

/-- The body of the loop of `solve_in_isolation` (base.rs:355-376). -/
def process (h : Handler p) (order : Rearrange (Effect p (SVar V))) (c : ConstraintRef p (SVar V))
    (s : Solver p V) : Except Stop (Bool × Solver p V) :=
  match c with
  | .alg e => processAlgebraic order e s
  | .bus b => processBus h order b s

/-- `solve_in_isolation` (base.rs:352-379). -/
def solveInIsolation (h : Handler p) (order : ℕ → Rearrange (Effect p (SVar V))) :
    ℕ → Bool → Solver p V → Except Stop (Bool × Solver p V)
  | 0, _, _ => .error .fuel
  | fuel + 1, progress, s => do
    let item ← liftPanic s.cs.popFront
    match item.1 with
    | none => pure (progress, { s with cs := item.2 })
    | some c => do
      let r ← process h (order fuel) c { s with cs := item.2 }
      solveInIsolation h order fuel (progress || r.1) r.2

/-- The loop of base.rs:429-431. -/
def applyRcs : List (SVar V × RangeConstraint p) → Solver p V → Except Stop (Bool × Solver p V)
  | [], s => .ok (false, s)
  | x :: t, s => do
    let r ← applyRc x.1 x.2 s
    let rs ← applyRcs t r.2
    pure (r.1 || rs.1, rs.2)

/-- The loop of `exhaustive_search` (base.rs:401-436); `bad` is `unsuccessful_variable_sets`. -/
def searchSets (h : Handler p) : List (List (SVar V)) → List (List (SVar V)) → Bool → Solver p V →
    Except Stop (Bool × Solver p V)
  | [], _, progress, s => .ok (progress, s)
  | vs :: t, bad, progress, s =>
    let vs := vs.filter fun v => (s.rcs v).tryToSingleValue.isNone
    if vs ∈ bad then searchSets h t bad progress s
    else do
      match ← liftPanic (exhaustiveSearchOn s.cs.ix vs s.rcs h) with
      | .error _ => .error (.error .exhaustiveSearch)
      | .ok m =>
        if m.isEmpty then searchSets h t (vs :: bad) progress s
        else do
          let r ← applyRcs m s
          searchSets h t bad (progress || r.1) r.2

/-- `exhaustive_search` (base.rs:385-438). -/
def exhaustiveSearch (h : Handler p) (s : Solver p V) : Except Stop (Bool × Solver p V) :=
  searchSets h ((bruteForceCandidates s.cs.ix.sys s.rcs).foldr insertByLength []) [] false s

/-- `loop_until_no_progress` (base.rs:332-349), at most `n` iterations. -/
def loopUntilNoProgress (h : Handler p) (ch : Choices p V) : ℕ → Solver p V →
    Except Stop (Solver p V)
  | 0, _ => .error .fuel
  | n + 1, s => do
    let r ← solveInIsolation h ch.effects ch.fuel false s
    let r ← if r.1 then pure r else exhaustiveSearch h r.2
    if r.1 then loopUntilNoProgress h ch n r.2 else pure r.2

/-- `solve` (base.rs:132-145). -/
def solve (h : Handler p) (ch : Choices p V) (s : Solver p V) :
    Except Stop (List (SVar V × GExpr p (SVar V)) × Solver p V) := do
  let s ← loopUntilNoProgress h ch ch.fuel { s with cache := [] }
  pure (s.toReturn,
    { s with
      toReturn := []
      linSubs := LinearSubs.applyAssignments ch.linear.1 s.linSubs s.toReturn
      boolSubs := BooleanSubs.applyAssignments ch.boolean.1 s.boolSubs s.toReturn })

/-- Is the variable kept by `retain_variables` (base.rs:201-202)? -/
def keeps (keep : List (SVar V)) (s : Solver p V) : SVar V → Bool
  | .linearized n => n < s.nextLin || .linearized n ∈ keep
  | v => v ∈ keep

/-- `retain_variables` (base.rs:194-222). -/
def retain (keep : List (SVar V)) (s : Solver p V) : Except Stop (Solver p V) :=
  if !s.toReturn.isEmpty then .error .panic
  else do
    let cs ← liftPanic (s.cs.retainAlgebraic fun _ e => e.vars.any (s.keeps keep))
    let cs ← liftPanic (cs.retainBus fun _ b => (busVars b).any (s.keeps keep))
    pure { s with
      cache := []
      cs := cs
      rcs := fun v => if v ∈ cs.ix.sys.vars then s.rcs v else .unconstrained }

/-- `range_constraint_for_expression` (base.rs:224-233). -/
def rangeConstraintFor (e : GExpr p (SVar V)) (s : Solver p V) : RangeConstraint p :=
  (internalizedVersions s.linSubs e).foldl (fun acc e => acc.conjunction (rangeConstraint s.rcs e))
    .unconstrained

/-- `try_to_equivalent_constant` (base.rs:235-240). -/
def tryToEquivalentConstant (e : GExpr p (SVar V)) (s : Solver p V) : Option (ZMod p) :=
  (internalizedVersions s.linSubs e).findSome? tryToNumber

/-- The `flat_map` with `try_solve_for_expr` (base.rs:464). -/
def solveForExpr (e : GExpr p (SVar V)) : List (GExpr p (SVar V)) →
    Except Stop (List (GExpr p (SVar V)))
  | [] => .ok []
  | c :: t => do
    let r ← liftPanic (trySolveForExpr c e)
    let rs ← solveForExpr e t
    pure (r.toList ++ rs)

/-- `equivalent_expressions` (base.rs:442-473). -/
def equivalentExpressions (e : GExpr p (SVar V)) (s : Solver p V) :
    Except Stop (List (GExpr p (SVar V)) × Solver p V) :=
  if e.isQuadratic then .ok ([e], s)
  else match cacheGet e s.cache with
    | some r => .ok (r, s)
    | none => do
      let refs ← liftPanic (s.cs.ix.constraintsReferencing e.vars)
      let r ← solveForExpr e (algebraicRefs refs)
      let r := if r.isEmpty then [e] else r
      pure (r, { s with cache := (e, r) :: s.cache })

/-- The `any` over the product of the equivalent expressions (base.rs:252-258). -/
def anyDifferent (rc : SVar V → RangeConstraint p) :
    List (GExpr p (SVar V) × GExpr p (SVar V)) → Except Stop Bool
  | [] => .ok false
  | (a, b) :: t => do
    let values ← liftPanic (possibleConcreteValues rc (a - b) 20)
    if (values.map fun l => l.all fun x => x ≠ 0) = some true then pure true
    else anyDifferent rc t

/-- `are_expressions_known_to_be_different` (base.rs:242-259). -/
def knownDifferent (a b : GExpr p (SVar V)) (s : Solver p V) :
    Except Stop (Bool × Solver p V) :=
  match a.tryToKnown, b.tryToKnown with
  | some x, some y => .ok (x ≠ y, s)
  | _, _ => do
    let ra ← equivalentExpressions a s
    let rb ← equivalentExpressions b ra.2
    let r ← anyDifferent rb.2.rcs (ra.1.product rb.1)
    pure (r, rb.2)

end Solver

/-! ## The public interface (`VarTransformation`) -/

section
variable [LinearOrder V]

/-- `transform_expr` (var_transformation.rs:174-178); the `unwrap` in `transform_var_type`
(runtime_constant.rs:88-91) cannot fail, as no variable is rejected. -/
def transformExpr (e : GExpr p V) : GExpr p (SVar V) :=
  (transformVars (fun v => some (SVar.original v)) e).getD (const 0)

/-- The `filter_map` of `solve` (var_transformation.rs:107-112). -/
def originalAssignments : List (SVar V × GExpr p (SVar V)) → Except Stop (List (V × GExpr p V))
  | [] => .ok []
  | (x, e) :: t =>
    if e.isAffine then do
      let r ← originalAssignments t
      pure ((x.tryToOriginal.bind fun v =>
        (transformVars SVar.tryToOriginal e).map fun e' => (v, e')).toList ++ r)
    else .error .panic

/-- A call of the `Solver` trait (solver.rs:54-99) that modifies the solver. -/
inductive SolverOp (p : ℕ) (V : Type) where
  | addAlgebraic (es : List (GExpr p V))
  | addBus (bs : List (BusInteraction (GExpr p V)))
  | addRange (v : V) (r : RangeConstraint p)
  | retain (keep : List V)
  | solve (ch : Choices p V)
  | knownDifferent (a b : GExpr p V)

/-- What a call returns. -/
inductive SolverOut (p : ℕ) (V : Type) where
  | unit
  | assignments (l : List (V × GExpr p V))
  | different (b : Bool)

/-- The calls (var_transformation.rs:103-172). -/
def SolverOp.run (h : Handler p) (s : Solver p V) : SolverOp p V →
    Except Stop (SolverOut p V × Solver p V)
  | .addAlgebraic es => do
    let s ← s.addAlgebraic (es.map transformExpr)
    pure (.unit, s)
  | .addBus bs => do
    let s ← s.addBus (bs.map fun b => b.map transformExpr)
    pure (.unit, s)
  | .addRange v r => do
    let s ← s.addRange (.original v) r
    pure (.unit, s)
  | .retain keep => do
    let s ← s.retain (keep.map .original)
    pure (.unit, s)
  | .solve ch => do
    let r ← s.solve h ch
    let l ← originalAssignments r.1
    pure (.assignments l, r.2)
  | .knownDifferent a b => do
    let r ← s.knownDifferent (transformExpr a) (transformExpr b)
    pure (.different r.1, r.2)

/-- `get` (var_transformation.rs:84-86, base.rs:113-115). -/
def Solver.get (s : Solver p V) (v : V) : RangeConstraint p := s.rcs (.original v)

/-- `range_constraint_for_expression` (var_transformation.rs:150-156). -/
def Solver.rangeConstraintForExpression (s : Solver p V) (e : GExpr p V) : RangeConstraint p :=
  s.rangeConstraintFor (transformExpr e)

/-- `try_to_equivalent_constant` (var_transformation.rs:158-161). -/
def Solver.equivalentConstant (s : Solver p V) (e : GExpr p V) : Option (ZMod p) :=
  s.tryToEquivalentConstant (transformExpr e)

/-- `new_solver` (solver.rs:38-52). -/
def newSolver (cs : ConstraintSystem p V) : Except Stop (Solver p V) := do
  let s ← Solver.new.addAlgebraic (cs.algebraic.map transformExpr)
  s.addBus (cs.bus.map fun b => b.map transformExpr)

/-- `solve_system` (solver.rs:26-35). -/
def solveSystem (h : Handler p) (ch : Choices p V) (cs : ConstraintSystem p V) :
    Except Stop (List (V × GExpr p V)) := do
  let s ← newSolver cs
  let r ← s.solve h ch
  originalAssignments r.1

end

end Verif
