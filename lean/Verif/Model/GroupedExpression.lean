import Verif.Model.RangeConstraint
import Mathlib.Order.Defs.LinearOrder

/-!
# Grouped expressions

Model of `constraint-solver/src/grouped_expression.rs` with the runtime
constant type `T` instantiated by the field itself (`T: FieldElement`), which
is the instantiation all of `autoprecompiles` uses. `BTreeMap<V, T>` is a list
of key/value pairs that the operations below keep sorted by key;
`Vec<(Self, Self)>` is a list of pairs.
-/

namespace Verif

/-! ## `BTreeMap` with coefficients -/

namespace Linear

variable {p : ℕ} {V : Type}

/-- `BTreeMap::get` (std). -/
def lookup [DecidableEq V] (x : V) : List (V × ZMod p) → Option (ZMod p)
  | [] => none
  | (w, d) :: t => if x = w then some d else lookup x t

/-- `BTreeMap::remove` (std), dropping the returned value. -/
def erase [DecidableEq V] (x : V) (l : List (V × ZMod p)) : List (V × ZMod p) :=
  l.filter fun e => e.1 ≠ x

/-- `entry(var).and_modify(|f| *f += coeff).or_insert_with(|| coeff)` on a
`BTreeMap` (grouped_expression.rs:606-609). -/
def addEntry [LinearOrder V] (x : V) (c : ZMod p) : List (V × ZMod p) → List (V × ZMod p)
  | [] => [(x, c)]
  | (w, d) :: t =>
    if x = w then (w, d + c) :: t
    else if x < w then (x, c) :: (w, d) :: t
    else (w, d) :: addEntry x c t

/-- If the variable is a key, remove it and return the remaining map and the new constant
`constant + coeff * substitution` (grouped_expression.rs:373-376, 415-421). -/
def moveToConstant [DecidableEq V] (x : V) (s : ZMod p) (l : List (V × ZMod p)) (c : ZMod p) :
    Option (List (V × ZMod p) × ZMod p) :=
  (lookup x l).map fun coeff => (erase x l, c + coeff * s)

end Linear

/-- `GroupedExpression` (grouped_expression.rs:37-47). -/
inductive GExpr (p : ℕ) (V : Type) where
  | mk (quadratic : List (GExpr p V × GExpr p V)) (linear : List (V × ZMod p))
    (constant : ZMod p)

namespace GExpr

variable {p : ℕ} {V : Type}

/-- Field access. -/
def quadratic : GExpr p V → List (GExpr p V × GExpr p V)
  | mk q _ _ => q
/-- Field access. -/
def linear : GExpr p V → List (V × ZMod p)
  | mk _ l _ => l
/-- Field access, `constant_offset` (grouped_expression.rs:265-267). -/
def constant : GExpr p V → ZMod p
  | mk _ _ c => c

/- Derived `PartialEq`/`Eq` (grouped_expression.rs:36). -/
mutual
/-- Derived `PartialEq`/`Eq` (grouped_expression.rs:36). -/
def decEq [DecidableEq V] : (a b : GExpr p V) → Decidable (a = b)
  | mk q l c, mk q' l' c' =>
    match decEqQ q q' with
    | isTrue hq =>
      if hl : l = l' then
        if hc : c = c' then isTrue (by subst hq hl hc; rfl)
        else isFalse (by intro h; injection h; contradiction)
      else isFalse (by intro h; injection h; contradiction)
    | isFalse hq => isFalse (by intro h; injection h; contradiction)
/-- Equality of the lists of quadratic terms. -/
def decEqQ [DecidableEq V] : (a b : List (GExpr p V × GExpr p V)) → Decidable (a = b)
  | [], [] => isTrue rfl
  | [], _ :: _ => isFalse (by simp)
  | _ :: _, [] => isFalse (by simp)
  | (a, b) :: t, (a', b') :: t' =>
    match decEq a a' with
    | isTrue ha =>
      match decEq b b' with
      | isTrue hb =>
        match decEqQ t t' with
        | isTrue ht => isTrue (by subst ha hb ht; rfl)
        | isFalse ht => isFalse (by intro h; injection h; contradiction)
      | isFalse hb => isFalse (by intro h; injection h with h _; injection h; contradiction)
    | isFalse ha => isFalse (by intro h; injection h with h _; injection h; contradiction)
end

instance [DecidableEq V] : DecidableEq (GExpr p V) := decEq

/-- `from_runtime_constant` / `from_number` (grouped_expression.rs:87-93, 131-137). -/
def const (c : ZMod p) : GExpr p V := mk [] [] c

/-- `Zero::zero` (grouped_expression.rs:97-103). -/
def zero : GExpr p V := mk [] [] 0

/-- `One::one` (grouped_expression.rs:111-117). -/
def one : GExpr p V := mk [] [] 1

/-- `from_unknown_variable` (grouped_expression.rs:139-145). -/
def var (v : V) : GExpr p V := mk [] [(v, 1)] 0

/-- `GroupedExpressionComponent::Linear(v, c).into()` (grouped_expression.rs:72-76). -/
def ofLinear (v : V) (c : ZMod p) : GExpr p V := mk [] [(v, c)] 0

/-- `GroupedExpressionComponent::Quadratic(l, r).into()` (grouped_expression.rs:67-71). -/
def ofQuadratic (l r : GExpr p V) : GExpr p V := mk [(l, r)] [] 0

/-- `try_to_known` (grouped_expression.rs:148-154); for field constants this is also
`try_to_number` (162-164, runtime_constant.rs: `try_to_number` of a field element is `Some`). -/
def tryToKnown : GExpr p V → Option (ZMod p)
  | mk [] [] c => some c
  | _ => none

/-- `try_to_number` (grouped_expression.rs:162-164). -/
abbrev tryToNumber (e : GExpr p V) : Option (ZMod p) := e.tryToKnown

/-- `is_zero` (grouped_expression.rs:105-107). -/
def isZero (e : GExpr p V) : Bool :=
  match e.tryToKnown with
  | some k => k = 0
  | none => false

/-- `is_one` (grouped_expression.rs:119-121). -/
def isOne (e : GExpr p V) : Bool :=
  match e.tryToKnown with
  | some k => k = 1
  | none => false

/-- `is_quadratic` (grouped_expression.rs:181-183). -/
def isQuadratic (e : GExpr p V) : Bool := !e.quadratic.isEmpty

/-- `is_affine` (grouped_expression.rs:157-159). -/
def isAffine (e : GExpr p V) : Bool := !e.isQuadratic

/-- `try_to_simple_unknown` (grouped_expression.rs:167-178). -/
def tryToSimpleUnknown (e : GExpr p V) : Option V :=
  if e.isQuadratic ∨ e.constant ≠ 0 then none
  else match e.linear with
    | [(v, c)] => if c = 1 then some v else none
    | _ => none

/-- `try_as_single_product` (grouped_expression.rs:186-195). -/
def tryAsSingleProduct (e : GExpr p V) : Option (GExpr p V × GExpr p V) :=
  if e.linear.isEmpty ∧ e.constant = 0 then
    match e.quadratic with
    | [lr] => some lr
    | _ => none
  else none

mutual
/-- `negate` (grouped_expression.rs:710-718). -/
def neg : GExpr p V → GExpr p V
  | mk q l c => mk (negQ q) (l.map fun (v, k) => (v, -k)) (-c)
/-- The loop over the quadratic terms in `negate` (711-713). -/
def negQ : List (GExpr p V × GExpr p V) → List (GExpr p V × GExpr p V)
  | [] => []
  | (a, b) :: t => (neg a, b) :: negQ t
end

mutual
/-- `MulAssign<&T>` (grouped_expression.rs:757-769). -/
def scale (k : ZMod p) : GExpr p V → GExpr p V
  | mk q l c =>
    if k = 0 then zero
    else mk (scaleQ k q) (l.map fun (v, d) => (v, d * k)) (c * k)
/-- The loop over the quadratic terms (761-763). -/
def scaleQ (k : ZMod p) : List (GExpr p V × GExpr p V) → List (GExpr p V × GExpr p V)
  | [] => []
  | (a, b) :: t => (scale k a, b) :: scaleQ k t
end

/-- `quadratic_terms_add_to_zero` (grouped_expression.rs:681-691). -/
def quadraticTermsAddToZero [DecidableEq V] (first second : GExpr p V × GExpr p V) : Bool :=
  let n1 := (neg second.1, second.2)
  let n2 := (second.1, neg second.2)
  (first = n1 || first = n2) || ((first.2, first.1) = n1 || (first.2, first.1) = n2)

/-- `MAX_SUM_SIZE_FOR_QUADRATIC_ANALYSIS` (grouped_expression.rs:21). -/
def maxSumSize : ℕ := 20

/-- Remove the first element of `l` that satisfies `f` (`find_position` + `remove`);
`none` if there is none. -/
def removeFirst {α : Type} (f : α → Bool) : List α → Option (List α)
  | [] => none
  | a :: t => if f a then some t else (removeFirst f t).map (a :: ·)

/-- The `filter` loop of `combine_removing_zeros` (grouped_expression.rs:627-643):
`second` is mutated while `first` is filtered. -/
def combineLoop [DecidableEq V] :
    (first second : List (GExpr p V × GExpr p V)) → List (GExpr p V × GExpr p V)
  | [], second => second
  | f :: first, second =>
    match removeFirst (quadraticTermsAddToZero f) second with
    | some second' => combineLoop first second'
    | none => f :: combineLoop first second

/-- `combine_removing_zeros` (grouped_expression.rs:618-645). -/
def combineRemovingZeros [DecidableEq V] (first second : List (GExpr p V × GExpr p V)) :
    List (GExpr p V × GExpr p V) :=
  if first.length + second.length > maxSumSize then first ++ second
  else combineLoop first second

/-- The double loop of `remove_quadratic_terms_adding_to_zero`
(grouped_expression.rs:657-676). The set of indices to remove is represented by
removing the elements directly: index `i` is paired with the first later index
that is not yet removed and cancels it. `fuel` is the number of terms. -/
def removePairs [DecidableEq V] :
    (fuel : ℕ) → List (GExpr p V × GExpr p V) → List (GExpr p V × GExpr p V)
  | 0, terms => terms
  | _ + 1, [] => []
  | n + 1, f :: rest =>
    match removeFirst (quadraticTermsAddToZero f) rest with
    | some rest' => removePairs n rest'
    | none => f :: removePairs n rest

/-- `remove_quadratic_terms_adding_to_zero` (grouped_expression.rs:648-677). -/
def removeQuadraticTermsAddingToZero [DecidableEq V] (terms : List (GExpr p V × GExpr p V)) :
    List (GExpr p V × GExpr p V) :=
  if terms.length > maxSumSize then terms else removePairs terms.length terms

section Ordered
variable [LinearOrder V]

/-- `AddAssign` (grouped_expression.rs:603-613), also `Add` (583-598). -/
def add (a b : GExpr p V) : GExpr p V :=
  mk (combineRemovingZeros a.quadratic b.quadratic)
    ((b.linear.foldl (fun l e => Linear.addEntry e.1 e.2 l) a.linear).filter fun e => e.2 ≠ 0)
    (a.constant + b.constant)

/-- `Sub` (grouped_expression.rs:693-707). -/
def sub (a b : GExpr p V) : GExpr p V := add a (neg b)

/-- `Mul` (grouped_expression.rs:784-796). -/
def mul (a b : GExpr p V) : GExpr p V :=
  match b.tryToKnown with
  | some k => scale k a
  | none =>
    match a.tryToKnown with
    | some k => scale k b
    | none => mk [(a, b)] [] 0

instance : Add (GExpr p V) := ⟨add⟩
instance : Sub (GExpr p V) := ⟨sub⟩
instance : Neg (GExpr p V) := ⟨neg⟩
instance : Mul (GExpr p V) := ⟨mul⟩

/-- `Sum` (grouped_expression.rs:773-778). -/
def sum (l : List (GExpr p V)) : GExpr p V := l.foldl add zero

end Ordered

mutual
/-- `referenced_unknown_variables` (grouped_expression.rs:515-521). -/
def vars : GExpr p V → List V
  | mk q l _ => varsQ q ++ l.map (·.1)
/-- The quadratic part of `referenced_unknown_variables` (516-519). -/
def varsQ : List (GExpr p V × GExpr p V) → List V
  | [] => []
  | (a, b) :: t => vars a ++ vars b ++ varsQ t
end

mutual
/-- `degree` (grouped_expression.rs:294-301). -/
def degree : GExpr p V → ℕ
  | mk q l _ => Nat.max (degreeQ q) (if l.isEmpty then 0 else 1)
/-- Maximum over the quadratic terms, zero if there are none (295-297). -/
def degreeQ : List (GExpr p V × GExpr p V) → ℕ
  | [] => 0
  | (a, b) :: t => Nat.max (degree a + degree b) (degreeQ t)
end

mutual
/-- `degree_of_variable` (grouped_expression.rs:305-313). -/
def degreeOf [DecidableEq V] (x : V) : GExpr p V → ℕ
  | mk q l _ => Nat.max (degreeOfQ x q) (if (Linear.lookup x l).isSome then 1 else 0)
/-- Maximum over the quadratic terms, zero if there are none (307-309). -/
def degreeOfQ [DecidableEq V] (x : V) : List (GExpr p V × GExpr p V) → ℕ
  | [] => 0
  | (a, b) :: t => Nat.max (degreeOf x a + degreeOf x b) (degreeOfQ x t)
end

/-- `coefficient_of_variable_in_affine_part` (grouped_expression.rs:321-323). -/
def coefficientOf [DecidableEq V] (e : GExpr p V) (x : V) : Option (ZMod p) :=
  Linear.lookup x e.linear

/-- `try_extract_affine_var` (grouped_expression.rs:330-343). -/
def tryExtractAffineVar [DecidableEq V] (e : GExpr p V) (x : V) :
    Option (ZMod p × GExpr p V) :=
  if (e.vars.filter (· = x)).length ≠ 1 then none
  else (Linear.lookup x e.linear).map fun coeff =>
    (coeff, mk e.quadratic (Linear.erase x e.linear) e.constant)

/-- `try_split_head_tail` (grouped_expression.rs:237-249). -/
def trySplitHeadTail [LinearOrder V] (e : GExpr p V) : Option (GExpr p V × GExpr p V) :=
  match e with
  | mk ((hl, hr) :: q) l c => some (mul hl hr, mk q l c)
  | mk [] ((hv, hc) :: l) c => some (ofLinear hv hc, mk [] l c)
  | mk [] [] _ => none

/-- `to_factors` (grouped_expression.rs:201-233). The recursive calls on a single
quadratic term (207-209) are the first case. For field constants, "known nonzero" and
"not known zero" coincide (runtime_constant.rs:73-77), so the inner test of line 219 is
omitted; `T::one().field_div(d)` is written `d⁻¹`. -/
def toFactors [LinearOrder V] : GExpr p V → List (GExpr p V)
  | mk [(a, b)] [] c =>
    if c = 0 then toFactors a ++ toFactors b
    else [scale c⁻¹ (mk [(a, b)] [] c)]
  | mk [] [] c => if c = 0 then [zero] else []
  | mk [] [(v, d)] c => if c = 0 then [var v] else [scale c⁻¹ (mk [] [(v, d)] c)]
  | mk q l c =>
    let divideBy : ZMod p :=
      if c ≠ 0 then c
      else match l with
        | (_, d) :: _ => d
        | [] => 1
    [scale divideBy⁻¹ (mk q l c)]

/-- Range constraint of a quadratic term given those of its factors
(grouped_expression.rs:352-359). -/
def rangeConstraintTerm [DecidableEq V] (a b : GExpr p V) (ra rb : RangeConstraint p) :
    RangeConstraint p :=
  if a = b then ra.square else ra.combineProduct rb

mutual
/-- `range_constraint` (grouped_expression.rs:346-368): `reduce` over the list of the
range constraints of all summands, which is never empty because of the constant. -/
def rangeConstraint [DecidableEq V] (rc : V → RangeConstraint p) : GExpr p V → RangeConstraint p
  | mk q l c =>
    match rangeConstraintQ rc q ++
        (l.map fun (v, k) => (rc v).combineProduct (RangeConstraint.fromValue k)) ++
        [RangeConstraint.fromValue c] with
    | [] => RangeConstraint.fromValue 0
    | r :: rs => rs.foldl RangeConstraint.combineSum r
/-- The range constraints of the quadratic terms (350-359). -/
def rangeConstraintQ [DecidableEq V] (rc : V → RangeConstraint p) :
    List (GExpr p V × GExpr p V) → List (RangeConstraint p)
  | [] => []
  | (a, b) :: t =>
    rangeConstraintTerm a b (rangeConstraint rc a) (rangeConstraint rc b) ::
      rangeConstraintQ rc t
end

section Subst
variable [LinearOrder V]

mutual
/-- `substitute_simple` (grouped_expression.rs:372-407). -/
def substSimple (x : V) (s : ZMod p) : GExpr p V → GExpr p V
  | mk q l c =>
    let lc := (Linear.moveToConstant x s l c).getD (l, c)
    let r := substSimpleQ x s q lc.2 zero
    let e := mk r.1 lc.1 r.2.1
    if r.2.2.isZero then e else add e r.2.2
/-- The `retain_mut` loop (379-401); the accumulators are `self.constant` and `to_add`. -/
def substSimpleQ (x : V) (s : ZMod p) :
    List (GExpr p V × GExpr p V) → ZMod p → GExpr p V →
    List (GExpr p V × GExpr p V) × ZMod p × GExpr p V
  | [], c, toAdd => ([], c, toAdd)
  | (a, b) :: t, c, toAdd =>
    let a' := substSimple x s a
    let b' := substSimple x s b
    match a'.tryToKnown, b'.tryToKnown with
    | some l, some r => substSimpleQ x s t (c + l * r) toAdd
    | some l, none => substSimpleQ x s t c (if l ≠ 0 then add toAdd (scale l b') else toAdd)
    | none, some r => substSimpleQ x s t c (if r ≠ 0 then add toAdd (scale r a') else toAdd)
    | none, none =>
      let rest := substSimpleQ x s t c toAdd
      ((a', b') :: rest.1, rest.2)
end

/-- The `match` of `substitute_by_known` / `substitute_by_unknown` on one substituted
quadratic term (grouped_expression.rs:436-450, 490-504): `none` if the term is kept,
otherwise what is added to `to_add`. -/
def collapseTerm (a b : GExpr p V) : Option (GExpr p V) :=
  match a.tryToKnown, b.tryToKnown with
  | some l, some r => some (const (l * r))
  | some l, none => some (scale l b)
  | none, some r => some (scale r a)
  | none, none => none

mutual
/-- `substitute_by_known` (grouped_expression.rs:412-457), constants being field elements
(so `constant.substitute` and `coeff.substitute` do nothing). -/
def substKnown (x : V) (s : ZMod p) : GExpr p V → GExpr p V
  | mk q l c =>
    let lc := (Linear.moveToConstant x s l c).getD (l.filter fun e => e.2 ≠ 0, c)
    let r := substKnownQ x s q zero
    let e := mk (removeQuadraticTermsAddingToZero r.1) lc.1 lc.2
    if r.2.tryToKnown = some 0 then e else add e r.2
/-- The `retain_mut` loop (433-451), with accumulator `to_add`. -/
def substKnownQ (x : V) (s : ZMod p) :
    List (GExpr p V × GExpr p V) → GExpr p V → List (GExpr p V × GExpr p V) × GExpr p V
  | [], toAdd => ([], toAdd)
  | (a, b) :: t, toAdd =>
    let a' := substKnown x s a
    let b' := substKnown x s b
    match collapseTerm a' b' with
    | some e => substKnownQ x s t (add toAdd e)
    | none =>
      let rest := substKnownQ x s t toAdd
      ((a', b') :: rest.1, rest.2)
end

/-- `substitute_by_known_multi` (grouped_expression.rs:460-465). -/
def substKnownMulti (assignments : List (V × ZMod p)) (e : GExpr p V) : GExpr p V :=
  assignments.foldl (fun e a => substKnown a.1 a.2 e) e

mutual
/-- `substitute_by_unknown` (grouped_expression.rs:471-510). -/
def subst (x : V) (s : GExpr p V) : GExpr p V → GExpr p V
  | mk q l c =>
    if x ∉ vars (mk q l c) then mk q l c
    else
      let toAdd : GExpr p V := l.foldl (fun acc e => if e.1 = x then add acc (scale e.2 s) else acc)
        zero
      let r := substQ x s q toAdd
      add (mk (removeQuadraticTermsAddingToZero r.1) (l.filter fun e => e.1 ≠ x) c) r.2
/-- The `filter_map` loop (485-506), with accumulator `to_add`. -/
def substQ (x : V) (s : GExpr p V) :
    List (GExpr p V × GExpr p V) → GExpr p V → List (GExpr p V × GExpr p V) × GExpr p V
  | [], toAdd => ([], toAdd)
  | (a, b) :: t, toAdd =>
    let a' := subst x s a
    let b' := subst x s b
    match collapseTerm a' b' with
    | some e => substQ x s t (add toAdd e)
    | none =>
      let rest := substQ x s t toAdd
      ((a', b') :: rest.1, rest.2)
end

end Subst

/-- Inserting into a `BTreeMap` (std); used by `collect::<BTreeMap>` in
`try_transform_var_type`. A later entry overwrites an earlier one with the same key. -/
def insertEntry [LinearOrder V] (x : V) (c : ZMod p) : List (V × ZMod p) → List (V × ZMod p)
  | [] => [(x, c)]
  | (w, d) :: t =>
    if x = w then (x, c) :: t
    else if x < w then (x, c) :: (w, d) :: t
    else (w, d) :: insertEntry x c t

mutual
/-- `try_transform_var_type` (grouped_expression.rs:529-554). -/
def transformVars {W : Type} [LinearOrder W] (f : V → Option W) : GExpr p V → Option (GExpr p W)
  | mk q l c => do
    let q' ← transformVarsQ f q
    let l' ← l.mapM fun (v, k) => (f v).map fun w => (w, k)
    pure (mk q' (l'.foldl (fun m e => insertEntry e.1 e.2 m) []) c)
/-- The quadratic part of `try_transform_var_type` (534-543). -/
def transformVarsQ {W : Type} [LinearOrder W] (f : V → Option W) :
    List (GExpr p V × GExpr p V) → Option (List (GExpr p W × GExpr p W))
  | [] => some []
  | (a, b) :: t => do
    let a' ← transformVars f a
    let b' ← transformVars f b
    let t' ← transformVarsQ f t
    pure ((a', b') :: t')
end

end GExpr

end Verif
