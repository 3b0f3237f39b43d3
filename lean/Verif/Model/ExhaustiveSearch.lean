import Verif.Model.Indexed
import Mathlib.Data.Finset.Sort

/-!
# Exhaustive search

Model of `constraint-solver/src/solver/exhaustive_search.rs` and `constraint-solver/src/utils.rs`.
Iterators, which the code evaluates lazily, are evaluated eagerly.
-/

namespace Verif

open GExpr

variable {p : ℕ} {V : Type}

/-- The `try_fold` of `has_few_possible_assignments` (utils.rs:17-21): the product of the sizes, `none`
if a size or a partial product does not fit 64 bits. -/
def countAssignments (rc : V → RangeConstraint p) : List V → ℕ → Option ℕ
  | [], acc => some acc
  | v :: t, acc =>
    if (rc v).width < 2 ^ 64 ∧ acc * (rc v).width < 2 ^ 64 then
      countAssignments rc t (acc * (rc v).width)
    else none

/-- `has_few_possible_assignments` (utils.rs:12-22). -/
def hasFewPossibleAssignments (rc : V → RangeConstraint p) (vs : List V) (threshold : ℕ) :
    Bool :=
  match countAssignments rc vs 1 with
  | some count => count ≤ threshold
  | none => false

/-- All combinations of a value of each list, the last varies fastest
(`multi_cartesian_product`, crate `itertools`). -/
def cartesian {α : Type} : List (List α) → List (List α)
  | [] => [[]]
  | l :: t => l.flatMap fun x => (cartesian t).map fun r => x :: r

/-- The allowed values of each variable (utils.rs:34-42); `none` is the panic in
`allowed_values`. -/
def allowedValuesOf (rc : V → RangeConstraint p) : List V → Except Panic (List (List (V × ZMod p)))
  | [] => .ok []
  | v :: t =>
    match (rc v).allowedValues with
    | none => .error .assertion
    | some values => do
      let r ← allowedValuesOf rc t
      pure ((values.map fun x => (v, x)) :: r)

section
variable [LinearOrder V]

/-- `collect::<BTreeMap>` of a list of assignments: sorted, later entries win (utils.rs:44). -/
def collectAssignment (l : List (V × ZMod p)) : List (V × ZMod p) :=
  l.foldl (fun m e => insertEntry e.1 e.2 m) []

/-- `get_all_possible_assignments` (utils.rs:30-45). -/
def allPossibleAssignments (rc : V → RangeConstraint p) (vs : List V) :
    Except Panic (List (List (V × ZMod p))) := do
  let values ← allowedValuesOf rc vs
  pure ((cartesian values).map collectAssignment)

/-- Substitute all variables of the assignment, one after the other. -/
def substAssignment (assignment : List (V × ZMod p)) (e : GExpr p V) : GExpr p V :=
  assignment.foldl (fun e x => substKnown x.1 x.2 e) e

/-- The values for all assignments (utils.rs:62-70); the `unwrap` is a panic. -/
def concreteValues (e : GExpr p V) : List (List (V × ZMod p)) → Except Panic (List (ZMod p))
  | [] => .ok []
  | a :: t =>
    match (substAssignment a e).tryToKnown with
    | none => .error .assertion
    | some x => do
      let r ← concreteValues e t
      pure (x :: r)

/-- `possible_concrete_values` (utils.rs:49-74). -/
def possibleConcreteValues (rc : V → RangeConstraint p) (e : GExpr p V) (maxElements : ℕ) :
    Except Panic (Option (List (ZMod p))) :=
  if hasFewPossibleAssignments rc e.vars maxElements then do
    let a ← allPossibleAssignments rc e.vars
    let l ← concreteValues e a
    pure (some l)
  else .ok none

/-- `MAX_SEARCH_WIDTH` (exhaustive_search.rs:21). -/
def maxSearchWidth : ℕ := 2 ^ 10

/-- `MAX_VAR_RANGE_WIDTH` (exhaustive_search.rs:23). -/
def maxVarRangeWidth : ℕ := 5

/-- Insertion into a map of range constraints (exhaustive_search.rs:204-217): the conjunction with an
existing entry, `none` if they contradict. The map is sorted by variable. -/
def insertRc (v : V) (r : RangeConstraint p) :
    List (V × RangeConstraint p) → Option (List (V × RangeConstraint p))
  | [] => some [(v, r)]
  | (w, s) :: t =>
    if v = w then if s.isDisjoint r then none else some ((w, s.conjunction r) :: t)
    else if v < w then some ((v, r) :: (w, s) :: t)
    else (insertRc v r t).map fun t' => (w, s) :: t'

/-- The `try_fold` of exhaustive_search.rs:204-218. -/
def insertRcs (l : List (V × RangeConstraint p)) (m : List (V × RangeConstraint p)) :
    Option (List (V × RangeConstraint p)) :=
  match l with
  | [] => some m
  | x :: t => (insertRc x.1 x.2 m).bind (insertRcs t)

/-- Effects of one constraint under the assignment (exhaustive_search.rs:159-184), `none` if it is
contradictory. -/
def solveUnder (rc : V → RangeConstraint p) (h : Handler p) (assignment : List (V × ZMod p)) :
    ConstraintRef p V → Except Panic (Option (List (Effect p V)))
  | .alg e => do
    match ← solve rc (substAssignment assignment e) with
    | .ok r => pure (some r.effects)
    | .error _ => pure none
  | .bus b => do
    match ← solveBus rc h (b.map (substAssignment assignment)) with
    | .ok effects => pure (some effects)
    | .error _ => pure none

/-- Effects of all constraints (exhaustive_search.rs:157-186). -/
def solveAllUnder (rc : V → RangeConstraint p) (h : Handler p) (assignment : List (V × ZMod p)) :
    List (ConstraintRef p V) → Except Panic (Option (List (Effect p V)))
  | [] => .ok (some [])
  | c :: t => do
    match ← solveUnder rc h assignment c with
    | none => pure none
    | some e =>
      match ← solveAllUnder rc h assignment t with
      | none => pure none
      | some es => pure (some (e ++ es))

/-- `derive_new_range_constraints` (exhaustive_search.rs:151-219), `none` is
`ContradictingConstraintError`. -/
def deriveNewRangeConstraints (s : Indexed p V) (assignment : List (V × ZMod p))
    (rc : V → RangeConstraint p) (h : Handler p) :
    Except Panic (Option (List (V × RangeConstraint p))) := do
  let refs ← s.constraintsReferencing (assignment.map (·.1))
  match ← solveAllUnder rc h assignment refs with
  | none => pure none
  | some effects =>
    pure (insertRcs (effects.filterMap effectToRangeConstraint ++
      assignment.map fun x => (x.1, RangeConstraint.fromValue x.2)) [])

/-- The results for the assignments that are not contradictory (exhaustive_search.rs:37-48). -/
def deriveAll (s : Indexed p V) (rc : V → RangeConstraint p) (h : Handler p) :
    List (List (V × ZMod p)) → Except Panic (List (List (V × RangeConstraint p)))
  | [] => .ok []
  | a :: t => do
    let r ← deriveNewRangeConstraints s a rc h
    let rs ← deriveAll s rc h t
    pure (r.toList ++ rs)

/-- One step of the disjunction (exhaustive_search.rs:54-66), `none` is the early exit. -/
def disjunctionStep (rc : V → RangeConstraint p) (acc new : List (V × RangeConstraint p)) :
    Option (List (V × RangeConstraint p)) :=
  let acc := (acc.map fun x => (x.1, x.2.disjunction ((getConstraint x.1 new).getD .unconstrained)))
  let acc := acc.filter fun x => rc x.1 ≠ x.2
  if acc.isEmpty then none else some acc

/-- The `try_fold` (exhaustive_search.rs:54-71). -/
def disjunctionFold (rc : V → RangeConstraint p) :
    List (List (V × RangeConstraint p)) → List (V × RangeConstraint p) →
    List (V × RangeConstraint p)
  | [], acc => acc
  | new :: t, acc =>
    match disjunctionStep rc acc new with
    | none => []
    | some acc => disjunctionFold rc t acc

/-- `exhaustive_search_on_variable_set` (exhaustive_search.rs:31-72); the inner error is
`ExhaustiveSearchError`. -/
def exhaustiveSearchOn (s : Indexed p V) (vs : List V) (rc : V → RangeConstraint p)
    (h : Handler p) : Except Panic (Except Unit (List (V × RangeConstraint p))) := do
  let assignments ← allPossibleAssignments rc vs
  match ← deriveAll s rc h assignments with
  | [] => pure (.error ())
  | first :: rest => pure (.ok (disjunctionFold rc rest first))

/-- `is_candidate_for_exhaustive_search` with `has_small_max_range_constraint_size`
(exhaustive_search.rs:120-140). -/
def isCandidate (rc : V → RangeConstraint p) (vs : List V) : Bool :=
  hasFewPossibleAssignments rc vs maxSearchWidth &&
    vs.all fun v => (rc v).width ≤ maxVarRangeWidth

/-- `BTreeSet::insert` (sorted list). -/
def btreeSetInsert (v : V) : List V → List V
  | [] => [v]
  | w :: t => if v < w then v :: w :: t else if v = w then w :: t else w :: btreeSetInsert v t

/-- Collecting into a `BTreeSet` (exhaustive_search.rs:91-96, 104-110). -/
def btreeSet (l : List V) : List V := l.foldr btreeSetInsert []

/-- The variables of an expression as a `BTreeSet`. -/
def varSet (e : GExpr p V) : List V := btreeSet e.vars

/-- Stable insertion by size (`sorted_by`, exhaustive_search.rs:109). -/
def insertBySize (rc : V → RangeConstraint p) (v : V) : List V → List V
  | [] => [v]
  | w :: t => if (rc v).width ≤ (rc w).width then v :: w :: t else w :: insertBySize rc v t

/-- The candidate for one set of variables (exhaustive_search.rs:98-115). -/
def candidateFor (rc : V → RangeConstraint p) (vs : List V) : Option (List V) :=
  if isCandidate rc vs then some vs
  else
    let rest := btreeSet ((vs.foldr (insertBySize rc) []).take (vs.length - 1))
    if isCandidate rc rest then some rest else none

/-- `get_brute_force_candidates` (exhaustive_search.rs:77-118). -/
def bruteForceCandidates (s : ConstraintSystem p V) (rc : V → RangeConstraint p) : List (List V) :=
  ((((s.algebraic ++ s.bus.flatMap fun b => b.fields).map varSet).eraseDups.filterMap
    (candidateFor rc)).filter fun l => !l.isEmpty).eraseDups

end

end Verif
