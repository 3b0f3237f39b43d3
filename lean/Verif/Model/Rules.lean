import Verif.Model.Inliner

/-!
# Model of the rule system (constraint-solver/src/rule_based_optimizer/rules.rs, environment.rs)

The Datalog program is modelled as an inductively defined set of facts: `Derives inp f` says that
the fact `f` has a derivation of any depth from the input facts, with one constructor per rule. The
crepe runtime computes the least fixed point; which facts it contains does not depend on the
evaluation order.

Simplifications:
* An expression is represented by itself instead of its identifier in the expression database; C56
  shows that identifiers and items correspond one to one. The order of identifiers (used in rules to
  consider only one of two symmetric cases) is an arbitrary relation `lt`.
* `Var` identifiers are variables of the linearly ordered type `V`; the driver assigns them in the
  order of the variables (driver.rs:48-54).
* `env.new_var` with a computation method (environment.rs:110-116) returns any variable for which
  `fresh` holds with that method.
* Arrays padded with `None` (types.rs:35-40, rules.rs:710-716) are lists.
* Field division `a / b` is written `a * b⁻¹`; all divisors are coefficients of variables and thus
  nonzero in the expressions the library builds (C09).
* The counter `n` of type `u32` (rules.rs:438) is a natural number.
-/

namespace Verif

open RangeConstraint GExpr

variable {p : ℕ} {V : Type} [LinearOrder V]

/-- The facts of the rule system, one constructor per relation (rules.rs:48-708). -/
inductive RFact (p : ℕ) (V : Type) where
  /-- `AlgebraicConstraint` (rules.rs:61) -/
  | algebraicConstraint (e : GExpr p V)
  /-- `Expression` (67) -/
  | expression (e : GExpr p V)
  /-- `EqualZero` (84) -/
  | equalZero (e : GExpr p V)
  /-- `ContainsVariable` (90) -/
  | containsVariable (e : GExpr p V) (v : V)
  /-- `Product` (96) -/
  | product (e l r : GExpr p V)
  /-- `AffineExpression` (106) -/
  | affineExpression (e : GExpr p V) (coeff : ZMod p) (v : V) (offset : ZMod p)
  /-- `LinearExpression` (112) -/
  | linearExpression (e : GExpr p V) (v : V) (coeff : ZMod p)
  /-- `Constant` (116) -/
  | constant (e : GExpr p V) (value : ZMod p)
  /-- `ExpressionSumHeadTail` (124) -/
  | sumHeadTail (e head tail : GExpr p V)
  /-- `SimpleSum` (134) -/
  | simpleSum (e : GExpr p V) (f c : ZMod p)
  /-- `IsAffine` (142) -/
  | isAffine (e : GExpr p V)
  /-- `HasSummand` (151) -/
  | hasSummand (e summand : GExpr p V)
  /-- `DifferBySummand` (162) -/
  | differBySummand (e1 e2 s : GExpr p V)
  /-- `AffinelyRelated` (176) -/
  | affinelyRelated (e1 : GExpr p V) (f : ZMod p) (e2 : GExpr p V) (c : ZMod p)
  /-- `HasProductSummand` (194) -/
  | hasProductSummand (e l r : GExpr p V)
  /-- `ProductConstraint` (201) -/
  | productConstraint (e l r : GExpr p V)
  /-- `BooleanAndSubsetOfVars` (208) -/
  | booleanAndSubsetOfVars (e1 e2 : GExpr p V)
  /-- `AffineAndAllVarsBoolean` (227) -/
  | affineAndAllVarsBoolean (e : GExpr p V)
  /-- `RangeConstraintOnExpression` (242) -/
  | rangeConstraintOnExpression (e : GExpr p V) (rc : RangeConstraint p)
  /-- `RangeConstraintOnVar` (59) -/
  | rangeConstraintOnVar (v : V) (rc : RangeConstraint p)
  /-- `UpdateRangeConstraintOnVar` (269) -/
  | updateRangeConstraintOnVar (v : V) (rc : RangeConstraint p)
  /-- `BooleanVar` (287) -/
  | booleanVar (v : V)
  /-- `BooleanExpressionConstraint` (291) -/
  | booleanExpressionConstraint (constr e : GExpr p V)
  /-- `SingleOccurrenceVariable` (324) -/
  | singleOccurrenceVariable (v : V)
  /-- `SingleOccurrenceVariableInExpr` (330) -/
  | singleOccurrenceVariableInExpr (e : GExpr p V) (v : V)
  /-- `LargestSingleOccurrenceVariablePairInExpr` (339) -/
  | largestPair (e : GExpr p V) (v1 v2 : V)
  /-- `FreeVariableCombinationCandidate` (356) -/
  | freeVariableCandidate (e : GExpr p V) (coeff1 : ZMod p) (v1 : V) (x1 : GExpr p V)
      (coeff2 : ZMod p) (v2 : V) (x2 : GExpr p V)
  /-- `ReplaceAlgebraicConstraintBy` (73) -/
  | replaceBy (e replacement : GExpr p V)
  /-- `PlusMinusResult` (414) -/
  | plusMinusResult (e e1 : GExpr p V) (v2 : V)
  /-- `DiffMarkerConstraint` (424) -/
  | diffMarkerConstraint (e : GExpr p V) (diffMarker : V) (e2 : GExpr p V) (cmpResult diffVal : V)
  /-- `NegatedDiffMarkerConstraint` (438) -/
  | negatedDiffMarkerConstraint (e : GExpr p V) (diffMarker : V) (l : GExpr p V) (v result : V)
      (n : ℕ)
  /-- `NegatedDiffMarkerConstraintFinal` (457) -/
  | negatedDiffMarkerConstraintFinal (e : GExpr p V) (diffMarker : V) (l : GExpr p V) (result : V)
      (n : ℕ)
  /-- `NegatedDiffMarkerConstraintFinalNegated` (465) -/
  | negatedDiffMarkerConstraintFinalNegated (e : GExpr p V) (diffMarker v result : V) (n : ℕ)
  /-- `EqualZeroCheck` (477) -/
  | equalZeroCheck (constrs : List (GExpr p V)) (result : V) (vars : List V)
  /-- `ReplaceAlgebraicConstraintsBy` (78) -/
  | replaceManyBy (toReplace replaceBy : List (GExpr p V))
  /-- `Solvable` (559) -/
  | solvable (e : GExpr p V) (v : V) (value : ZMod p)
  /-- `Assignment` (564) -/
  | assignment (v : V) (value : ZMod p)
  /-- `EntailsZeroHeadAndTail` (578) -/
  | entailsZeroHeadAndTail (head tail : GExpr p V)
  /-- `ExactlyOneSet` (595) -/
  | exactlyOneSet (e : GExpr p V)
  /-- `AffineSumCountCoeffs` (610) -/
  | affineSumCountCoeffs (e : GExpr p V) (v : Option V) (f : ZMod p)
  /-- `Equivalence` (639) -/
  | equivalence (v1 v2 : V)
  /-- `QuadraticEquivalenceCandidate` (646) -/
  | quadraticEquivalenceCandidate (e expr : GExpr p V) (offset : ZMod p)
  /-- `QuadraticEquivalenceCandidatePair` (664) -/
  | quadraticEquivalenceCandidatePair (expr1 expr2 : GExpr p V) (offset : ZMod p) (v1 v2 : V)
  /-- `QuadraticEquivalence` (681) -/
  | quadraticEquivalence (v1 v2 : V)
  /-- `ActionRule(Action::SubstituteVariableByVariable)` (690-700); the other actions (692-702) and
  `ReplaceConstraintsActionRule` (704-707) only wrap `updateRangeConstraintOnVar`, `assignment`,
  `replaceBy` and `replaceManyBy`. -/
  | substituteByVariable (v1 v2 : V)

/-- The input facts and the environment of the rule system (rules.rs:48-59, environment.rs:26-34).
-/
structure RuleInput (p : ℕ) (V : Type) where
  /-- `InitialAlgebraicConstraint` (rules.rs:53) -/
  constraints : List (GExpr p V)
  /-- `InitialRangeConstraintOnExpression` (rules.rs:56) -/
  exprRanges : List (GExpr p V × RangeConstraint p)
  /-- `RangeConstraintOnVar` (rules.rs:59) -/
  varRanges : List (V × RangeConstraint p)
  /-- `single_occurrence_variables` (environment.rs:32, 118-120) -/
  single : List V
  /-- The order of the expression identifiers. -/
  lt : GExpr p V → GExpr p V → Prop
  /-- The variables that `new_var` might return, with the requested computation method
  (environment.rs:110-116, new_var_generator.rs:29-48). -/
  fresh : V → ComputationMethod p (GExpr p V) → Prop
  /-- The number of bits of `T::Integer`. -/
  intBits : ℕ

/-- `Environment::try_to_affine` (environment.rs:142-150). -/
def tryToAffine (e : GExpr p V) : Option (ZMod p × V × ZMod p) :=
  if ¬ e.isAffine then none
  else match e.linear with
    | [(v, coeff)] => some (coeff, v, e.constant)
    | _ => none

/-- `Environment::affine_var_count` (environment.rs:134-138). -/
def affineVarCount (e : GExpr p V) : Option ℕ :=
  if e.isAffine then some e.linear.length else none

/-- The result of `merge_join_by` for one key (itertools). -/
inductive EitherOrBoth (α : Type) where
  | left (a : α)
  | right (b : α)
  | both (a b : α)

/-- `a.merge_join_by(b, |x, y| x.cmp(y))` (itertools) as used in environment.rs:200-202. -/
def mergeJoin : List (V × ZMod p) → List (V × ZMod p) → List (EitherOrBoth (V × ZMod p))
  | [], b => b.map .right
  | a, [] => a.map .left
  | x :: a, y :: b =>
    if x.1 = y.1 then .both x y :: mergeJoin a b
    else if x.1 < y.1 then .left x :: mergeJoin a (y :: b)
    else .right y :: mergeJoin (x :: a) b
termination_by a b => a.length + b.length

/-- Neither of the two `matches!` (environment.rs:203). -/
def EitherOrBoth.isBoth {α : Type} : EitherOrBoth α → Bool
  | .both _ _ => true
  | _ => false

/-- `Environment::differ_in_exactly_one_variable` (environment.rs:188-229). -/
def differInExactlyOneVariable (a b : GExpr p V) : Option (V × V × ZMod p) :=
  if ¬ a.isAffine ∨ ¬ b.isAffine ∨ a.linear.length ≠ b.linear.length ∨ a.linear.length < 2 then none
  else
    let candidate : Option (V × V × ZMod p) :=
      match (mergeJoin a.linear b.linear).filter fun x => !x.isBoth with
      | [.left (lv, lc), .right (rv, rc)] => some (lv, rv, lc * rc⁻¹)
      | [.right (rv, rc), .left (lv, lc)] => some (lv, rv, lc * rc⁻¹)
      | _ => none
    match candidate with
    | none => none
    | some (leftVar, rightVar, factor) =>
      if a.constant ≠ b.constant * factor then none
      else if ((a.linear.filter fun e => e.1 ≠ leftVar).map fun e => e.2) ≠
          ((b.linear.filter fun e => e.1 ≠ rightVar).map fun e => e.2 * factor) then none
      else some (leftVar, rightVar, factor)

/-- The summands of `into_summands` (grouped_expression.rs:275-288) as expressions
(`GroupedExpression::from`, 66-83), dropping the quadratic ones in which `v1` or `v2` occurs
(rules.rs:395-403). -/
def remainingSummands (e : GExpr p V) (v1 v2 : V) : List (GExpr p V) :=
  ((e.quadratic.filter fun lr => !((lr.1.vars ++ lr.2.vars).any fun v => v = v1 ∨ v = v2)).map
      fun lr => ofQuadratic lr.1 lr.2) ++
    (e.linear.map fun vc => ofLinear vc.1 vc.2) ++
    (if e.constant ≠ 0 then [const e.constant] else [])

/-- `square_if_needed` (rules.rs:377-384). -/
def squareIfNeeded (e : GExpr p V) (rc : RangeConstraint p) : GExpr p V × RangeConstraint p :=
  if rc.min = 0 then (e, rc) else (mul e e, rc.square)

/-- The factor and the remaining sum of the combination of two free variables; `none` if the range
constraints do not permit it (rules.rs:375-404). -/
def freeVariableParts (e : GExpr p V) (coeff1 : ZMod p) (v1 : V) (x1 : GExpr p V)
    (rc1 : RangeConstraint p) (coeff2 : ZMod p) (v2 : V) (x2 : GExpr p V)
    (rc2 : RangeConstraint p) : Option (GExpr p V × GExpr p V) :=
  let s1 := squareIfNeeded x1 rc1
  let s2 := squareIfNeeded x2 rc2
  if s1.2.min ≠ 0 ∨ s2.2.min ≠ 0 then none
  else
    let sumRc := (s1.2.multiple coeff1).combineSum (s2.2.multiple coeff2)
    if ¬ (sumRc.min = 0 ∧ sumRc.max.val < (-1 : ZMod p).val) then none
    else some (add (scale coeff1 s1.1) (scale coeff2 s2.1), sum (remainingSummands e v1 v2))

/-- The replacement `r + combined_var * factor` (rules.rs:405-407). -/
def freeVariableReplacement (combined : V) (factor r : GExpr p V) : GExpr p V :=
  add r (mul (var combined) factor)

/-- The two constraints that replace the equal-zero check (rules.rs:525-537). -/
def equalZeroReplacement (result inv : V) (vars : List V) : List (GExpr p V) :=
  let sumOfVars : GExpr p V := sum (vars.map var)
  [mul (var result) sumOfVars,
    sub (add (var result) (mul (var inv) sumOfVars)) one]

/-- `T::Integer` addition in release mode: wraps around at the width of the type
(goldilocks.rs:495-517, plonky3_macros.rs:326-348: derived from `u64` addition; macros.rs:178-190:
`add_with_carry` on a fixed number of limbs). -/
def intAdd (bits a b : ℕ) : ℕ := (a + b) % 2 ^ bits

variable (inp : RuleInput p V)

/-- The rules (rules.rs:48-708), in the order of the file. -/
inductive Derives : RFact p V → Prop
  /-- rules.rs:62 -/
  | initial {e} (h : e ∈ inp.constraints) : Derives (.algebraicConstraint e)
  /-- rules.rs:59 -/
  | varRange {v rc} (h : (v, rc) ∈ inp.varRanges) : Derives (.rangeConstraintOnVar v rc)
  /-- rules.rs:68 -/
  | exprConstraint {e} (h : Derives (.algebraicConstraint e)) : Derives (.expression e)
  /-- rules.rs:69 -/
  | exprRange {e rc} (h : (e, rc) ∈ inp.exprRanges) : Derives (.expression e)
  /-- rules.rs:85 -/
  | zeroConstraint {e} (h : Derives (.algebraicConstraint e)) : Derives (.equalZero e)
  /-- rules.rs:91-94 -/
  | contains {e v} (h : Derives (.expression e)) (hv : v ∈ e.vars) : Derives (.containsVariable e v)
  /-- rules.rs:97-100 -/
  | product {e l r} (h : Derives (.expression e)) (hp : e.tryAsSingleProduct = some (l, r)) :
      Derives (.product e l r)
  /-- rules.rs:101 -/
  | productSymm {e l r} (h : Derives (.product e l r)) : Derives (.product e r l)
  /-- rules.rs:102 -/
  | exprLeft {e l r} (h : Derives (.product e l r)) : Derives (.expression l)
  /-- rules.rs:103 -/
  | exprRight {e l r} (h : Derives (.product e l r)) : Derives (.expression r)
  /-- rules.rs:107-110 -/
  | affine {e c v o} (h : Derives (.expression e)) (ha : tryToAffine e = some (c, v, o)) :
      Derives (.affineExpression e c v o)
  /-- rules.rs:113-114 -/
  | linear {e c v} (h : Derives (.affineExpression e c v 0)) : Derives (.linearExpression e v c)
  /-- rules.rs:117-120 -/
  | constant {e k} (h : Derives (.expression e)) (hk : e.tryToNumber = some k) :
      Derives (.constant e k)
  /-- rules.rs:125-128 -/
  | headTail {e hd tl} (h : Derives (.expression e)) (hs : e.trySplitHeadTail = some (hd, tl)) :
      Derives (.sumHeadTail e hd tl)
  /-- rules.rs:129 -/
  | exprHead {e hd tl} (h : Derives (.sumHeadTail e hd tl)) : Derives (.expression hd)
  /-- rules.rs:130 -/
  | exprTail {e hd tl} (h : Derives (.sumHeadTail e hd tl)) : Derives (.expression tl)
  /-- rules.rs:135-138 -/
  | simpleSumCons {e hd tl f c v} (h : Derives (.sumHeadTail e hd tl))
      (ht : Derives (.simpleSum tl f c)) (hh : Derives (.linearExpression hd v f)) :
      Derives (.simpleSum e f c)
  /-- rules.rs:139 -/
  | simpleSumAffine {e f v c} (h : Derives (.affineExpression e f v c)) : Derives (.simpleSum e f c)
  /-- rules.rs:143-144 -/
  | isAffineConstant {e k} (h : Derives (.constant e k)) : Derives (.isAffine e)
  /-- rules.rs:145-148 -/
  | isAffineCons {e hd tl v f} (h : Derives (.sumHeadTail e hd tl))
      (hh : Derives (.linearExpression hd v f)) (ht : Derives (.isAffine tl)) :
      Derives (.isAffine e)
  /-- rules.rs:152 -/
  | hasSummandHead {e s tl} (h : Derives (.sumHeadTail e s tl)) : Derives (.hasSummand e s)
  /-- rules.rs:153-155 -/
  | hasSummandTail {e hd tl s} (h : Derives (.sumHeadTail e hd tl))
      (ht : Derives (.hasSummand tl s)) : Derives (.hasSummand e s)
  /-- rules.rs:163-164 -/
  | differHead {e1 e2 s} (h : Derives (.sumHeadTail e1 s e2)) : Derives (.differBySummand e1 e2 s)
  /-- rules.rs:165-168 -/
  | differTail {e1 e2 s hd tl1 tl2} (ht : Derives (.differBySummand tl1 tl2 s))
      (h1 : Derives (.sumHeadTail e1 hd tl1)) (h2 : Derives (.sumHeadTail e2 hd tl2)) :
      Derives (.differBySummand e1 e2 s)
  /-- rules.rs:177-183 -/
  | affinelyRelated {e1 e2 f1 f2 v o1 o2} (h1 : Derives (.affineExpression e1 f1 v o1))
      (h2 : Derives (.affineExpression e2 f2 v o2)) :
      Derives (.affinelyRelated e1 (f1 * f2⁻¹) e2 (o1 - o2 * (f1 * f2⁻¹)))
  /-- rules.rs:185-191 -/
  | affinelyRelatedCons {e1 e2 f o tl1 tl2 hd1 hd2 v f1}
      (ht : Derives (.affinelyRelated tl1 f tl2 o))
      (h1 : Derives (.sumHeadTail e1 hd1 tl1)) (l1 : Derives (.linearExpression hd1 v f1))
      (h2 : Derives (.sumHeadTail e2 hd2 tl2)) (l2 : Derives (.linearExpression hd2 v (f1 * f⁻¹))) :
      Derives (.affinelyRelated e1 f e2 o)
  /-- rules.rs:195-197 -/
  | hasProductSummand {e s l r} (h : Derives (.hasSummand e s)) (hp : Derives (.product s l r)) :
      Derives (.hasProductSummand e l r)
  /-- rules.rs:198 -/
  | hasProductSummandSymm {e l r} (h : Derives (.hasProductSummand e l r)) :
      Derives (.hasProductSummand e r l)
  /-- rules.rs:202-204 -/
  | productConstraint {e l r} (h : Derives (.algebraicConstraint e))
      (hp : Derives (.product e l r)) : Derives (.productConstraint e l r)
  /-- rules.rs:209-213 -/
  | subsetBase {e1 e2 c v o} (h1 : Derives (.affineExpression e1 c v o))
      (h2 : Derives (.containsVariable e2 v)) (b1 : Derives (.affineAndAllVarsBoolean e1))
      (b2 : Derives (.affineAndAllVarsBoolean e2)) : Derives (.booleanAndSubsetOfVars e1 e2)
  /-- rules.rs:214-220 -/
  | subsetBoth {e1 e2 tl1 tl2 hd1 hd2 v c1 c2} (ht : Derives (.booleanAndSubsetOfVars tl1 tl2))
      (h1 : Derives (.sumHeadTail e1 hd1 tl1)) (l1 : Derives (.linearExpression hd1 v c1))
      (hb : Derives (.booleanVar v))
      (h2 : Derives (.sumHeadTail e2 hd2 tl2)) (l2 : Derives (.linearExpression hd2 v c2)) :
      Derives (.booleanAndSubsetOfVars e1 e2)
  /-- rules.rs:221-224 -/
  | subsetRight {e1 e2 tl2 hd2} (ht : Derives (.booleanAndSubsetOfVars e1 tl2))
      (h2 : Derives (.sumHeadTail e2 hd2 tl2)) (hb : Derives (.affineAndAllVarsBoolean e2)) :
      Derives (.booleanAndSubsetOfVars e1 e2)
  /-- rules.rs:228-230 -/
  | allBooleanBase {e c v o} (h : Derives (.affineExpression e c v o))
      (hb : Derives (.booleanVar v)) : Derives (.affineAndAllVarsBoolean e)
  /-- rules.rs:231-234 -/
  | allBooleanCons {e hd tl} (h : Derives (.sumHeadTail e hd tl))
      (hh : Derives (.affineAndAllVarsBoolean hd)) (ht : Derives (.affineAndAllVarsBoolean tl)) :
      Derives (.affineAndAllVarsBoolean e)
  /-- rules.rs:243-244 -/
  | rangeInitial {e rc} (h : (e, rc) ∈ inp.exprRanges) :
      Derives (.rangeConstraintOnExpression e rc)
  /-- rules.rs:245-248 -/
  | rangeSquare {e l r rc} (h : Derives (.product e l r)) (hlr : l = r)
      (hl : Derives (.rangeConstraintOnExpression l rc)) :
      Derives (.rangeConstraintOnExpression e rc.square)
  /-- rules.rs:249-253 -/
  | rangeProduct {e l r rcl rcr} (h : Derives (.product e l r)) (hlr : inp.lt l r)
      (hl : Derives (.rangeConstraintOnExpression l rcl))
      (hr : Derives (.rangeConstraintOnExpression r rcr)) :
      Derives (.rangeConstraintOnExpression e (rcl.combineProduct rcr))
  /-- rules.rs:254-256 -/
  | rangeLinear {e v c rc} (h : Derives (.linearExpression e v c))
      (hv : Derives (.rangeConstraintOnVar v rc)) :
      Derives (.rangeConstraintOnExpression e (rc.multiple c))
  /-- rules.rs:257-260 -/
  | rangeSum {e hd tl rch rct} (h : Derives (.sumHeadTail e hd tl))
      (hh : Derives (.rangeConstraintOnExpression hd rch))
      (ht : Derives (.rangeConstraintOnExpression tl rct)) :
      Derives (.rangeConstraintOnExpression e (rch.combineSum rct))
  /-- rules.rs:261-262 -/
  | rangeConstant {e k} (h : Derives (.constant e k)) :
      Derives (.rangeConstraintOnExpression e (fromValue k))
  /-- rules.rs:273-276 -/
  | updateAffine {e rc c v o} (h : Derives (.rangeConstraintOnExpression e rc))
      (ha : Derives (.affineExpression e c v o)) (hc : c ≠ 0) :
      Derives (.updateRangeConstraintOnVar v ((rc.combineSum (fromValue (-o))).multiple (1 * c⁻¹)))
  /-- rules.rs:280-284 -/
  | updateProduct {e l r v c1 c2} (h : Derives (.productConstraint e l r)) (hlr : inp.lt l r)
      (hl : Derives (.solvable l v c1)) (hr : Derives (.solvable r v c2)) :
      Derives (.updateRangeConstraintOnVar v ((fromValue c1).disjunction (fromValue c2)))
  /-- rules.rs:288 -/
  | booleanVar {v} (h : Derives (.rangeConstraintOnVar v (fromMask 1))) : Derives (.booleanVar v)
  /-- rules.rs:292-298 -/
  | booleanExpr {e l r f c} (h : Derives (.productConstraint e l r))
      (ha : Derives (.affinelyRelated l f r c)) (hc : c = -f) :
      Derives (.booleanExpressionConstraint e r)
  /-- rules.rs:325-327 -/
  | single {v} (h : v ∈ inp.single) : Derives (.singleOccurrenceVariable v)
  /-- rules.rs:331-334 -/
  | singleIn {e v} (h : Derives (.singleOccurrenceVariable v))
      (hc : Derives (.containsVariable e v)) (ha : Derives (.algebraicConstraint e)) :
      Derives (.singleOccurrenceVariableInExpr e v)
  /-- rules.rs:340-350 -/
  | largestPair {e v1 v2} (h1 : Derives (.singleOccurrenceVariableInExpr e v1))
      (h2 : Derives (.singleOccurrenceVariableInExpr e v2)) (hlt : v1 < v2)
      (hmax : ∀ v3 ∈ inp.single, v3 ∈ e.vars → v3 = v1 ∨ v3 = v2 ∨ v3 < v1) :
      Derives (.largestPair e v1 v2)
  /-- rules.rs:357-367 -/
  | freeVariableCandidate {e v1 v2 x1 x2 e1 e2 c1 c2} (h : Derives (.largestPair e v1 v2))
      (ha : Derives (.algebraicConstraint e)) (h1 : Derives (.hasProductSummand e x1 e1))
      (l1 : Derives (.linearExpression e1 v1 c1)) (h2 : Derives (.hasProductSummand e x2 e2))
      (hx2 : x2 ≠ e1) (hx1 : x1 ≠ e2) (l2 : Derives (.linearExpression e2 v2 c2)) :
      Derives (.freeVariableCandidate e c1 v1 x1 c2 v2 x2)
  /-- rules.rs:369-408 -/
  | replaceFreeVariables {e v1 v2 x1 x2 c1 c2 rc1 rc2 factor r w}
      (h : Derives (.freeVariableCandidate e c1 v1 x1 c2 v2 x2))
      (h1 : Derives (.rangeConstraintOnExpression x1 rc1))
      (h2 : Derives (.rangeConstraintOnExpression x2 rc2))
      (hr : freeVariableParts e c1 v1 x1 rc1 c2 v2 x2 rc2 = some (factor, r))
      (hw : inp.fresh w (.quotientOrZero (neg r) factor)) :
      Derives (.replaceBy e (freeVariableReplacement w factor r))
  /-- rules.rs:415-419 -/
  | plusMinus {e e1 r c v o} (h : Derives (.product e e1 r))
      (ha : Derives (.affineExpression r c v o)) (hc : c = 2) (ho : o = -1) :
      Derives (.plusMinusResult e e1 v)
  /-- rules.rs:425-431 -/
  | diffMarker {e l r dm k r1 r2 e2 cmp dv k'} (h : Derives (.productConstraint e l r))
      (hl : Derives (.linearExpression l dm k)) (hr : Derives (.sumHeadTail r r1 r2))
      (h1 : Derives (.plusMinusResult r1 e2 cmp)) (h2 : Derives (.linearExpression r2 dv k')) :
      Derives (.diffMarkerConstraint e dm e2 cmp dv)
  /-- rules.rs:439-443 -/
  | negatedBase {e dm l r r2 v res} (h : Derives (.productConstraint e l r))
      (hl : Derives (.affineExpression l (-1) dm 1)) (hr : Derives (.plusMinusResult r r2 res))
      (hv : Derives (.linearExpression r2 v (-1))) :
      Derives (.negatedDiffMarkerConstraint e dm l v res 0)
  /-- rules.rs:444-450 -/
  | negatedStep {e dm l r r2 v res n e' dm' l' v' d} (h : Derives (.productConstraint e l r))
      (hp : Derives (.negatedDiffMarkerConstraint e' dm' l' v' res n))
      (hd : Derives (.differBySummand l l' d)) (hl : Derives (.linearExpression d dm (-1)))
      (hr : Derives (.plusMinusResult r r2 res)) (hv : Derives (.linearExpression r2 v (-1))) :
      Derives (.negatedDiffMarkerConstraint e dm l v res (n + 1))
  /-- rules.rs:458-463 -/
  | negatedFinal {e dm l r res n e' dm' l' v' d} (h : Derives (.productConstraint e l r))
      (hp : Derives (.negatedDiffMarkerConstraint e' dm' l' v' res n))
      (hd : Derives (.differBySummand l l' d)) (hl : Derives (.linearExpression d dm (-1)))
      (hr : Derives (.linearExpression r res 1)) :
      Derives (.negatedDiffMarkerConstraintFinal e dm l res (n + 1))
  /-- rules.rs:466-472 -/
  | negatedFinalNegated {e dm l r r2 v res n e' dm' l' v' d}
      (h : Derives (.productConstraint e l r))
      (hp : Derives (.negatedDiffMarkerConstraint e' dm' l' v' res n))
      (hd : Derives (.differBySummand l l' d)) (hl : Derives (.linearExpression d dm (-1)))
      (hr : Derives (.plusMinusResult r r2 res))
      (hv : Derives (.affineExpression r2 (-1) v 1)) :
      Derives (.negatedDiffMarkerConstraintFinalNegated e dm v res (n + 1))
  /-- rules.rs:478-520 -/
  | equalZeroCheck {c0 c1 c2 c3 c4 c5 c6 c7 c8 c9 : GExpr p V} {m0 m1 m2 m3 a0 a1 a2 a3 res dv : V}
      {l0 l1 l2 oneMinusSum e0 e1 e2 e3 sum : GExpr p V} {k0 o0 : ZMod p}
      {r0 r1 r2 r3 : RangeConstraint p}
      (h0 : Derives (.negatedDiffMarkerConstraint c0 m3 l0 a3 res 0))
      (h1 : Derives (.negatedDiffMarkerConstraint c1 m2 l1 a2 res 1))
      (h2 : Derives (.negatedDiffMarkerConstraint c2 m1 l2 a1 res 2))
      (h3 : Derives (.negatedDiffMarkerConstraintFinal c3 m0 oneMinusSum res 3))
      (h4 : Derives (.negatedDiffMarkerConstraintFinalNegated c4 m0 a0 res 3))
      (h5 : Derives (.diffMarkerConstraint c5 m0 e0 res dv))
      (h5' : Derives (.affineExpression e0 k0 a0 o0)) (hk0 : k0 = 1) (ho0 : o0 = -1)
      (h6 : Derives (.diffMarkerConstraint c6 m1 e1 res dv))
      (h6' : Derives (.linearExpression e1 a1 1))
      (h7 : Derives (.diffMarkerConstraint c7 m2 e2 res dv))
      (h7' : Derives (.linearExpression e2 a2 1))
      (h8 : Derives (.diffMarkerConstraint c8 m3 e3 res dv))
      (h8' : Derives (.linearExpression e3 a3 1))
      (hres : Derives (.booleanVar res)) (hm0 : Derives (.booleanVar m0))
      (hm1 : Derives (.booleanVar m1)) (hm2 : Derives (.booleanVar m2))
      (hm3 : Derives (.booleanVar m3))
      (ha0 : Derives (.rangeConstraintOnVar a0 r0)) (ha1 : Derives (.rangeConstraintOnVar a1 r1))
      (ha2 : Derives (.rangeConstraintOnVar a2 r2)) (ha3 : Derives (.rangeConstraintOnVar a3 r3))
      (hr0 : r0.min = 0) (hr1 : r1.min = 0) (hr2 : r2.min = 0) (hr3 : r3.min = 0)
      (hsum : (((r0.combineSum r1).combineSum r2).combineSum r3).max.val < (-1 : ZMod p).val)
      (h9 : Derives (.booleanExpressionConstraint c9 sum))
      (h9' : Derives (.affinelyRelated sum (-1) oneMinusSum 1)) :
      Derives (.equalZeroCheck [c0, c1, c2, c3, c4, c5, c6, c7, c8, c9] res [a0, a1, a2, a3])
  /-- rules.rs:522-537 -/
  | replaceEqualZero {constrs res vars inv} (h : Derives (.equalZeroCheck constrs res vars))
      (hw : inp.fresh inv (.quotientOrZero one (sum (vars.map var)))) :
      Derives (.replaceManyBy constrs (equalZeroReplacement res inv vars))
  /-- rules.rs:544-553 -/
  | replaceProducts {e1 e2 x a b ra rb} (h1 : Derives (.productConstraint e1 x a))
      (h2 : Derives (.productConstraint e2 x b)) (hlt : inp.lt e1 e2)
      (ha : Derives (.rangeConstraintOnExpression a ra))
      (hb : Derives (.rangeConstraintOnExpression b rb)) (ha0 : ra.min = 0) (hb0 : rb.min = 0)
      (hsum : ¬ (ra.combineSum rb).isUnconstrained) :
      Derives (.replaceManyBy [e1, e2] [mul x (add a b)])
  /-- rules.rs:560-561 -/
  | solvable {e v c o} (h : Derives (.affineExpression e c v o)) :
      Derives (.solvable e v (-o * c⁻¹))
  /-- rules.rs:565-567 -/
  | assignment {e v k} (h : Derives (.equalZero e)) (hs : Derives (.solvable e v k)) :
      Derives (.assignment v k)
  /-- rules.rs:579-586 -/
  | entailsZero {e hd tl rch rct} (h : Derives (.equalZero e))
      (hs : Derives (.sumHeadTail e hd tl))
      (hh : Derives (.rangeConstraintOnExpression hd rch))
      (ht : Derives (.rangeConstraintOnExpression tl rct)) (hh0 : rch.min = 0) (ht0 : rct.min = 0)
      (hsum : intAdd inp.intBits rch.max.val rct.max.val < (-1 : ZMod p).val) :
      Derives (.entailsZeroHeadAndTail hd tl)
  /-- rules.rs:588 -/
  | zeroHead {hd tl} (h : Derives (.entailsZeroHeadAndTail hd tl)) : Derives (.equalZero hd)
  /-- rules.rs:589 -/
  | zeroTail {hd tl} (h : Derives (.entailsZeroHeadAndTail hd tl)) : Derives (.equalZero tl)
  /-- rules.rs:596-600 -/
  | exactlyOneSet {e f c} (h : Derives (.algebraicConstraint e)) (hs : Derives (.simpleSum e f c))
      (hb : Derives (.affineAndAllVarsBoolean e)) (hfc : f + c = 0) :
      Derives (.exactlyOneSet e)
  /-- rules.rs:611 -/
  | countConstant {e c} (h : Derives (.constant e c)) : Derives (.affineSumCountCoeffs e none (-c))
  /-- rules.rs:612-615 -/
  | countFound {e hd tl v f} (ht : Derives (.affineSumCountCoeffs tl none f))
      (h : Derives (.sumHeadTail e hd tl)) (hh : Derives (.linearExpression hd v f)) :
      Derives (.affineSumCountCoeffs e (some v) f)
  /-- rules.rs:616-620 -/
  | countOther {e hd tl o v f c} (ht : Derives (.affineSumCountCoeffs tl o f))
      (h : Derives (.sumHeadTail e hd tl)) (hh : Derives (.linearExpression hd v c)) (hc : c ≠ f) :
      Derives (.affineSumCountCoeffs e o f)
  /-- rules.rs:622-634 -/
  | assignOneHot {e1 e2 o f s v c} (h1 : Derives (.exactlyOneSet e1))
      (a1 : Derives (.algebraicConstraint e1)) (hb : Derives (.booleanAndSubsetOfVars e2 e1))
      (a2 : Derives (.algebraicConstraint e2)) (hc : Derives (.affineSumCountCoeffs e2 o f))
      (hs : Derives (.hasSummand e2 s)) (hl : Derives (.linearExpression s v c)) :
      Derives (.assignment v (if some v = o then 1 else 0))
  /-- rules.rs:647-652 -/
  | quadraticCandidate {e l r f o} (h : Derives (.productConstraint e l r))
      (ha : Derives (.affinelyRelated l f r o)) (hi : Derives (.isAffine l))
      (hn : (affineVarCount l).getD 0 > 1) :
      Derives (.quadraticEquivalenceCandidate e r (o * f⁻¹))
  /-- rules.rs:665-672; the last condition includes the `unwrap`. -/
  | quadraticPair {e1 e2 c1 c2 o1 o2 v1 v2 factor coeff}
      (h1 : Derives (.quadraticEquivalenceCandidate c1 e1 o1))
      (h2 : Derives (.quadraticEquivalenceCandidate c2 e2 o2)) (hlt : inp.lt e1 e2)
      (hd : differInExactlyOneVariable e1 e2 = some (v1, v2, factor)) (ho : o1 = o2 * factor)
      (hc : e1.coefficientOf v1 = some coeff) :
      Derives (.quadraticEquivalenceCandidatePair e1 e2 (o1 * coeff⁻¹) v1 v2)
  /-- rules.rs:682-686 -/
  | quadraticEquivalence {e1 e2 o v1 v2 rc}
      (h : Derives (.quadraticEquivalenceCandidatePair e1 e2 o v1 v2))
      (h1 : Derives (.rangeConstraintOnVar v1 rc)) (h2 : Derives (.rangeConstraintOnVar v2 rc))
      (hd : rc.isDisjoint (rc.combineSum (fromValue o)) = true) :
      Derives (.quadraticEquivalence v1 v2)
  /-- rules.rs:688 -/
  | equivalence {v1 v2} (h : Derives (.quadraticEquivalence v1 v2)) : Derives (.equivalence v1 v2)
  /-- rules.rs:697-698 -/
  | substituteLeft {v1 v2} (h : Derives (.equivalence v1 v2)) (hv : v1 > v2) :
      Derives (.substituteByVariable v1 v2)
  /-- rules.rs:699-700 -/
  | substituteRight {v1 v2} (h : Derives (.equivalence v1 v2)) (hv : v2 > v1) :
      Derives (.substituteByVariable v2 v1)

/-- The rules call `new_var` with this computation method (rules.rs:397-404, 526-532,
environment.rs:110-116). -/
inductive MethodRequested (inp : RuleInput p V) : ComputationMethod p (GExpr p V) → Prop
  | freeVariables {e v1 v2 x1 x2 c1 c2 rc1 rc2 factor r}
      (h : Derives inp (.freeVariableCandidate e c1 v1 x1 c2 v2 x2))
      (h1 : Derives inp (.rangeConstraintOnExpression x1 rc1))
      (h2 : Derives inp (.rangeConstraintOnExpression x2 rc2))
      (hr : freeVariableParts e c1 v1 x1 rc1 c2 v2 x2 rc2 = some (factor, r)) :
      MethodRequested inp (.quotientOrZero (neg r) factor)
  | equalZero {constrs res vars} (h : Derives inp (.equalZeroCheck constrs res vars)) :
      MethodRequested inp (.quotientOrZero one (sum (vars.map var)))

end Verif
