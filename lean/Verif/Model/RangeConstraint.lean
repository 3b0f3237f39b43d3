import Verif.Model.Field

/-!
# Range constraints

Model of `constraint-solver/src/range_constraint.rs`. The mask is the natural
number stored in `T::Integer`; every arithmetic step the code performs on
`T::Integer` itself is guarded so that it stays below the modulus, hence no
wrap-around of the machine integer is lost by using `ℕ`.
-/

namespace Verif

variable {p : ℕ}

/-- `RangeConstraint` (range_constraint.rs:38-48). -/
structure RangeConstraint (p : ℕ) where
  mask : ℕ
  min : ZMod p
  max : ZMod p
deriving DecidableEq

/-- `range_width` (range_constraint.rs:337-343). -/
def rangeWidth (min max : ZMod p) : ℕ :=
  if max + 1 = min then p else (max - min + 1).val

/-- `mask_from_bits` (range_constraint.rs:346-355). The assertion
`bits <= NUM_BITS` is checked by the only caller with an unbounded argument,
see `fromMaxBit`. -/
def maskFromBits (bits : ℕ) : ℕ := 2 ^ bits - 1

namespace RangeConstraint

/-- `from_mask` (range_constraint.rs:58-66). -/
def fromMask (mask : ℕ) : RangeConstraint p :=
  { mask, min := 0, max := ((Nat.min mask (-1 : ZMod p).val : ℕ) : ZMod p) }

/-- `from_max_bit` (range_constraint.rs:52-54); `none` is the panic of the
assertion in `mask_from_bits` (line 352), `width` is `T::Integer::NUM_BITS`. -/
def fromMaxBit (width : ℕ) (maxBit : ℕ) : Option (RangeConstraint p) :=
  if maxBit + 1 ≤ width then some (fromMask (maskFromBits (maxBit + 1))) else none

/-- `from_value` (range_constraint.rs:69-75). -/
def fromValue (value : ZMod p) : RangeConstraint p :=
  { mask := value.val, min := value, max := value }

/-- The mask of `unconstrained()` (range_constraint.rs:93-95 through 83-85). -/
def unconstrainedMask (p : ℕ) : ℕ := maskFromBits (numBits (-1 : ZMod p).val)

/-- `from_range` (range_constraint.rs:83-90). -/
def fromRange (min max : ZMod p) : RangeConstraint p :=
  { mask := if fle min max then maskFromBits (numBits max.val) else unconstrainedMask p
    min, max }

/-- `unconstrained` (range_constraint.rs:93-95). -/
def unconstrained : RangeConstraint p := fromRange 0 (-1)

/-- `range_width` (range_constraint.rs:122-124). -/
def width (r : RangeConstraint p) : ℕ := rangeWidth r.min r.max

/-- `is_unconstrained` (range_constraint.rs:99-102). -/
def isUnconstrained (r : RangeConstraint p) : Bool :=
  let un : RangeConstraint p := unconstrained
  r.width = un.width && (r.mask &&& un.mask) = un.mask

/-- `allows_value` (range_constraint.rs:131-139). -/
def allowsValue (r : RangeConstraint p) (v : ZMod p) : Bool :=
  let inRange : Bool :=
    if fle r.min r.max then fle r.min v && fle v r.max
    else fle r.min v || fle v r.max
  let inMask : Bool := v.val &&& r.mask = v.val
  inRange && inMask

/-- `combine_sum` (range_constraint.rs:144-169). -/
def combineSum (a b : RangeConstraint p) : RangeConstraint p :=
  let mask := if a.mask + b.mask ≥ p then (unconstrained : RangeConstraint p).mask
    else (a.mask + b.mask) ||| a.mask ||| b.mask
  let (min, max) :=
    if a.width + b.width ≤ (unconstrained : RangeConstraint p).width
    then (a.min + b.min, a.max + b.max)
    else ((unconstrained : RangeConstraint p).min, (unconstrained : RangeConstraint p).max)
  let mask := if fle min max then mask &&& (fromRange min max).mask else mask
  { min, max, mask }

/-- `range_multiple` (range_constraint.rs:361-371). -/
def rangeMultiple (min max factor : ZMod p) : ZMod p × ZMod p :=
  if rangeWidth min max * factor.val ≤ p then (min * factor, max * factor) else (1, 0)

/-- `multiple` (range_constraint.rs:280-295). -/
def multiple (r : RangeConstraint p) (factor : ZMod p) : RangeConstraint p :=
  let mask : Option ℕ := (log2Exact factor.val).bind fun exponent =>
    if r.mask <<< exponent < p then some (r.mask <<< exponent) else none
  let (min, max) :=
    if isInLowerHalf factor then rangeMultiple r.min r.max factor
    else rangeMultiple (-r.max) (-r.min) (-factor)
  { min, max, mask := mask.getD (fromRange min max).mask }

/-- `try_to_single_value` (range_constraint.rs:298-304). -/
def tryToSingleValue (r : RangeConstraint p) : Option (ZMod p) :=
  if r.min = r.max ∧ r.min.val &&& r.mask = r.min.val then some r.min else none

/-- `combine_product` (range_constraint.rs:174-188). -/
def combineProduct (a b : RangeConstraint p) : RangeConstraint p :=
  match b.tryToSingleValue with
  | some v => a.multiple v
  | none =>
    match a.tryToSingleValue with
    | some v => b.multiple v
    | none =>
      if fle a.min a.max ∧ fle b.min b.max ∧ a.max.val * b.max.val < p
      then fromRange (a.min * b.min) (a.max * b.max)
      else unconstrained

/-- `square` (range_constraint.rs:192-205). -/
def square (r : RangeConstraint p) : RangeConstraint p :=
  let maxAbs := fmax (-r.min) r.max
  if ¬ fle r.min r.max ∧ maxAbs.val * maxAbs.val < p
  then fromRange 0 (maxAbs * maxAbs)
  else r.combineProduct r

/-- `interval_intersection` (range_constraint.rs:379-408). The `find_map` over
the two candidate shifts is unrolled. -/
def intervalIntersection (a b : ZMod p × ZMod p) : Option (ZMod p × ZMod p) :=
  let attempt (shift : ZMod p) : Option (ZMod p × (ZMod p × ZMod p) × (ZMod p × ZMod p)) :=
    let aS := (a.1 + -shift, a.2 + -shift)
    let bS := (b.1 + -shift, b.2 + -shift)
    if fle aS.1 aS.2 ∧ fle bS.1 bS.2 then some (shift, aS, bS) else none
  match (attempt a.1).or (attempt b.1) with
  | some (shift, aS, bS) =>
    let i := (fmax aS.1 bS.1, fmin aS.2 bS.2)
    if fle i.1 i.2 then some (i.1 + shift, i.2 + shift) else none
  | none =>
    if rangeWidth a.1 a.2 ≤ rangeWidth b.1 b.2 then some a else some b

/-- `conjunction` (range_constraint.rs:213-244). -/
def conjunction (a b : RangeConstraint p) : RangeConstraint p :=
  let mask := a.mask &&& b.mask
  let (min, max) := (intervalIntersection (a.min, a.max) (b.min, b.max)).getD (0, 0)
  let (min, max) :=
    if mask < p then
      if fle min max then (fmin (mask : ZMod p) min, fmin (mask : ZMod p) max)
      else if min.val > mask then (0, fmin (mask : ZMod p) max)
      else (min, max)
    else (min, max)
  let mask := if fle min max then mask &&& (fromRange min max).mask else mask
  { min, max, mask }

/-- `disjunction` (range_constraint.rs:252-275). -/
def disjunction (a b : RangeConstraint p) : RangeConstraint p :=
  let mask := a.mask ||| b.mask
  if fle a.min a.max then
    if fle b.min b.max then { min := fmin a.min b.min, max := fmax a.max b.max, mask }
    else fromMask mask
  else
    if fle b.min b.max then fromMask mask
    else
      let min := fmin a.min b.min
      let max := fmax a.max b.max
      if fle min max then fromMask mask else { min, max, mask }

/-- `is_disjoint` (range_constraint.rs:308-318). -/
def isDisjoint (a b : RangeConstraint p) : Bool :=
  let zeroAllowed := a.allowsValue 0 && b.allowsValue 0
  let masksDisjoint := !zeroAllowed && (a.mask &&& b.mask) = 0
  let intervalsDisjoint := (intervalIntersection (a.min, a.max) (b.min, b.max)).isNone
  masksDisjoint || intervalsDisjoint

/-- `allowed_values` (range_constraint.rs:323-327); `none` is the panic of
`try_into_u32().unwrap()`. -/
def allowedValues (r : RangeConstraint p) : Option (List (ZMod p)) :=
  if r.width < 2 ^ 32 then
    some (((List.range r.width).map fun (offset : ℕ) => r.min + (offset : ZMod p)).filter
      fun value => r.allowsValue value)
  else none

/-- `Neg for RangeConstraint` (range_constraint.rs:414-421). -/
def neg (r : RangeConstraint p) : RangeConstraint p := fromRange (-r.max) (-r.min)

end RangeConstraint

end Verif
