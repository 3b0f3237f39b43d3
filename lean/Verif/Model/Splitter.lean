import Verif.Model.ConstraintSystem

/-!
# Splitting affine constraints

Model of `constraint-solver/src/solver/constraint_splitter.rs`.
-/

namespace Verif.Splitter

open Verif.GExpr

/-- `Component` (constraint_splitter.rs:272-276): the expression `coeff * expr`. -/
structure Component (p : ℕ) (V : Type) where
  coeff : ZMod p
  expr : GExpr p V

variable {p : ℕ} {V : Type}

namespace Component

/-- `normalize` (constraint_splitter.rs:294-304). -/
def normalize (c : Component p V) : Component p V :=
  if isInLowerHalf c.coeff then c else ⟨-c.coeff, neg c.expr⟩

/-- `Zero::zero` (constraint_splitter.rs:338-343). -/
def zero : Component p V := ⟨0, GExpr.zero⟩

/-- `is_zero` (constraint_splitter.rs:345-347). -/
def isZero (c : Component p V) : Bool := c.coeff = 0 || c.expr.isZero

/-- `Div` (constraint_splitter.rs:319-329). -/
def div (c : Component p V) (k : ZMod p) : Except Panic (Component p V) :=
  if k = 0 then .error .assertion else .ok ⟨c.coeff * k⁻¹, c.expr⟩

/-- `From<Component> for GroupedExpression` (constraint_splitter.rs:331-335). -/
def toExpr (c : Component p V) : GExpr p V := scale c.coeff c.expr

end Component

section
variable [LinearOrder V]

/-- Adding a component to the grouping map by coefficient (constraint_splitter.rs:142-147, `Add`
307-317). The list is kept sorted by the coefficient, which is what the final `sorted_by_key`
(150) establishes; keys of the map are distinct. -/
def insertComponent (c : Component p V) : List (Component p V) → List (Component p V)
  | [] => [c]
  | d :: t =>
    if c.coeff = d.coeff then ⟨d.coeff, d.expr + c.expr⟩ :: t
    else if c.coeff.val < d.coeff.val then c :: d :: t
    else d :: insertComponent c t

/-- `group_components_by_coefficients` (constraint_splitter.rs:139-151). -/
def groupComponents (cs : List (Component p V)) : List (Component p V) :=
  ((cs.map Component.normalize).foldl (fun m c => insertComponent c m) []).filter
    fun c => !c.isZero

/-- The two candidates of constraint_splitter.rs:238-242 (`exactly_one`). -/
def uniqueCandidate (r : RangeConstraint p) (rhs coefficient : ZMod p) : Option (ZMod p) :=
  match [rhs, rhs + coefficient].filter fun c => r.allowsValue c with
  | [c] => some c
  | _ => none

/-- `find_solution` (constraint_splitter.rs:158-243). The recursion of the code is bounded by
`fuel`, running out of it is a panic (infinite recursion). `try_into_u64().unwrap()` panics for
values of 64 bits or more. -/
def findSolution (rc : V → RangeConstraint p) : (fuel : ℕ) → (expr : GExpr p V) →
    (coefficient : ZMod p) → (rest : GExpr p V) → (constant : ZMod p) →
    Except Panic (Option (ZMod p))
  | 0, _, _, _, _ => .error .assertion
  | fuel + 1, expr, coefficient, rest, constant =>
    let exprRc := rangeConstraint rc expr
    let restRc := rangeConstraint rc rest
    let unconstrainedWidth := (RangeConstraint.unconstrained : RangeConstraint p).width
    if exprRc.width = unconstrainedWidth ∨ restRc.width = unconstrainedWidth then .ok none
    else if exprRc.min ≠ 0 then
      (findSolution rc fuel (expr - const exprRc.min) coefficient rest
        (constant + exprRc.min)).map fun o => o.map fun s => s + exprRc.min
    else if restRc.min ≠ 0 then
      findSolution rc fuel expr coefficient (rest - const restRc.min)
        (constant + coefficient * restRc.min)
    else if exprRc.max.val + coefficient.val * restRc.max.val ≥ p then .ok none
    else if exprRc.max.val ≥ coefficient.val + coefficient.val then .ok none
    else if (-constant).val ≥ 2 ^ 64 ∨ coefficient.val ≥ 2 ^ 64 then .error .assertion
    else .ok (uniqueCandidate exprRc (((-constant).val % coefficient.val : ℕ) : ZMod p) coefficient)

/-- The coefficient that is smallest as a number (constraint_splitter.rs:98). -/
def smallestCoeff : List (Component p V) → ZMod p
  | [] => 0
  | [c] => c.coeff
  | c :: t => if c.coeff.val ≤ (smallestCoeff t).val then c.coeff else smallestCoeff t

/-- The other components, divided by the coefficient of the candidate and normalized
(constraint_splitter.rs:73-81). -/
def restComponents (k : ZMod p) : List (Component p V) → Except Panic (List (Component p V))
  | [] => .ok []
  | c :: t =>
    if c.isZero then restComponents k t
    else do
      let d ← c.div k
      let ds ← restComponents k t
      pure (d.normalize :: ds)

/-- The expression passed as `rest` to `find_solution` (constraint_splitter.rs:106-108). -/
def restExpr (k : ZMod p) : List (Component p V) → Except Panic (List (GExpr p V))
  | [] => .ok []
  | c :: t => do
    let d ← c.div k
    let ds ← restExpr k t
    pure (d.toExpr :: ds)

/-- The loop of `try_split_constraint` (constraint_splitter.rs:70-123). `done` are the components
before `index`, `todo` those from `index` on. `fuel` is the bound on the recursion depth of
`find_solution`. -/
def splitLoop (rc : V → RangeConstraint p) (fuel : ℕ) : (done todo : List (Component p V)) →
    (constant : ZMod p) → (parts : List (GExpr p V)) →
    Except Panic (List (Component p V) × ZMod p × List (GExpr p V))
  | done, [], constant, parts => .ok (done, constant, parts)
  | done, cand :: todo, constant, parts => do
    let rest ← restComponents cand.coeff (done ++ todo)
    if rest.isEmpty then pure (done ++ cand :: todo, constant, parts)
    else if smallestCoeff rest = 0 ∨ !isInLowerHalf (smallestCoeff rest) then .error .assertion
    else do
      let restEs ← restExpr (smallestCoeff rest) rest
      if cand.coeff = 0 then .error .assertion
      else
        match ← findSolution rc fuel cand.expr (smallestCoeff rest) (sum restEs)
            (constant * cand.coeff⁻¹) with
        | some s =>
          splitLoop rc fuel (done ++ [Component.zero]) todo (constant + s * cand.coeff)
            (parts ++ [cand.expr - const s])
        | none => splitLoop rc fuel (done ++ [cand]) todo constant parts

/-- `recombine_components` (constraint_splitter.rs:248-269). -/
def recombine (cs : List (Component p V)) (constant : ZMod p) : GExpr p V :=
  match cs.filter fun c => !c.isZero with
  | [c] => c.expr + const (constant * c.coeff⁻¹)
  | remaining => sum (remaining.map Component.toExpr) + const constant

/-- `try_split_constraint` (constraint_splitter.rs:33-132), with a bound on the recursion depth of
`find_solution`, see `trySplit`. -/
def trySplitFuel (rc : V → RangeConstraint p) (fuel : ℕ) (e : GExpr p V) :
    Except Panic (Option (List (GExpr p V))) :=
  if e.isQuadratic then .ok none
  else if e.linear.any fun x => (rc x.1).isUnconstrained then .ok none
  else
    let components := groupComponents (e.linear.map fun x => ⟨x.2, var x.1⟩)
    if components.length < 2 then .ok none
    else do
      let r ← splitLoop rc fuel [] components e.constant []
      pure (if r.2.2.isEmpty then none else some (r.2.2 ++ [recombine r.1 r.2.1]))

/-- `try_split_constraint` (constraint_splitter.rs:33-132). `find_solution` calls itself at most
twice (proved in `findSolution_total`: no panic). -/
def trySplit (rc : V → RangeConstraint p) (e : GExpr p V) :
    Except Panic (Option (List (GExpr p V))) := trySplitFuel rc 3 e

end

end Verif.Splitter
