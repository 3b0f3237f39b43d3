import Verif.Model.ConstraintSystem
import Verif.Model.ItemDB
import Mathlib.Data.List.Dedup

/-!
# Model of the OpenVM bus interaction handler

`openvm-bus-interaction-handler/src/{lib,bus_map,bitwise_lookup,variable_range_checker,
tuple_range_checker,memory}.rs`, `autoprecompiles/src/bus_map.rs` and the utilities of
`autoprecompiles/src/range_constraint_optimizer.rs`.

Simplifications:
* `BTreeMap<u64, BusType>` is an association list in the order of the identifiers.
* Machine integers wrap around (release mode) in `1u64 << n`; the subtraction `sizes[i] - 1` panics
  for zero.
-/

namespace Verif

open RangeConstraint GExpr

variable {p : ℕ} {V : Type} [LinearOrder V]

/-- `OpenVmBusType` (openvm bus_map.rs:16-21). -/
inductive OpenVmBusType where
  | variableRangeChecker
  | tupleRangeChecker (size0 size1 : ℕ)
  | bitwiseLookup
deriving DecidableEq

/-- `BusType` (autoprecompiles bus_map.rs:4-16). -/
inductive BusType where
  | executionBridge
  | memory
  | pcLookup
  | other (t : OpenVmBusType)
deriving DecidableEq

/-- `BusMap` (autoprecompiles bus_map.rs:30-33). -/
abbrev BusMap := List (ℕ × BusType)

namespace BusMap

/-- `bus_type` (autoprecompiles bus_map.rs:51-55). -/
def busType (m : BusMap) (id : ℕ) : Except Panic BusType :=
  match mapGet id m with
  | some t => .ok t
  | none => .error .assertion

/-- `get_bus_id` (autoprecompiles bus_map.rs:63-67) with the `unwrap` of the callers. -/
def getBusId : BusMap → BusType → Except Panic ℕ
  | [], _ => .error .assertion
  | (id, t') :: m, t => if t' = t then .ok id else getBusId m t

/-- `tuple_range_checker_sizes` (lib.rs:58-70). -/
def tupleSizes : BusMap → Except Panic (ℕ × ℕ)
  | [] => .error .assertion
  | (_, .other (.tupleRangeChecker a b)) :: _ => .ok (a, b)
  | _ :: m => tupleSizes m

/-- `default_openvm_bus_map` (openvm bus_map.rs:37-58). -/
def default : BusMap :=
  [(0, .executionBridge), (1, .memory), (2, .pcLookup), (3, .other .variableRangeChecker),
    (6, .other .bitwiseLookup), (7, .other (.tupleRangeChecker (2 ^ 8) (8 * 2 ^ 8)))]

end BusMap

/-- `to_integer().try_into_u64().unwrap()`, also `to_degree`. -/
def toU64 (v : ZMod p) : Except Panic ℕ := if v.val < 2 ^ 64 then .ok v.val else .error .assertion

/-- `to_integer().try_into_u32().unwrap()`. -/
def toU32 (v : ZMod p) : Except Panic ℕ := if v.val < 2 ^ 32 then .ok v.val else .error .assertion

/-- `byte_constraint` (lib.rs:120-122). -/
def byteConstraint : RangeConstraint p := fromMask 0xff

/-- `handle_bitwise_lookup` (bitwise_lookup.rs:9-62). -/
def handleBitwiseLookup : List (RangeConstraint p) → Except Panic (List (RangeConstraint p))
  | [x, y, _, op] =>
    match op.tryToSingleValue with
    | none => .ok [byteConstraint, byteConstraint, byteConstraint, fromMask 1]
    | some v => do
      let n ← toU64 v
      if n = 0 then
        pure [byteConstraint, byteConstraint, fromValue 0, fromValue 0]
      else if n = 1 then
        match x.tryToSingleValue, y.tryToSingleValue with
        | some x, some y => do
          let a ← toU64 x
          let b ← toU64 y
          pure [fromValue x, fromValue y, fromValue ((a ^^^ b : ℕ) : ZMod p), fromValue 1]
        | _, _ =>
          pure [byteConstraint, byteConstraint,
            (fromMask (x.mask ||| y.mask)).conjunction byteConstraint, fromValue 1]
      else .error .assertion
  | _ => .error .assertion

/-- `MAX_BITS` (variable_range_checker.rs:9). -/
def maxBits : ℕ := 25

/-- `(1u64 << bits) - 1`. -/
def u64Mask (bits : ℕ) : ℕ := 2 ^ (bits % 64) - 1

/-- `handle_variable_range_checker` (variable_range_checker.rs:13-34). -/
def handleVariableRangeChecker :
    List (RangeConstraint p) → Except Panic (List (RangeConstraint p))
  | [_, bits] =>
    let default : List (RangeConstraint p) :=
      [fromMask (u64Mask maxBits), fromRange 0 (maxBits : ZMod p)]
    match bits.tryToSingleValue with
    | none => .ok default
    | some v => do
      let n ← toU64 v
      if n ≤ maxBits then pure [fromMask (u64Mask n), bits] else pure default
  | _ => .error .assertion

/-- `tuple_range_checker_ranges` (tuple_range_checker.rs:19-26). -/
def tupleRanges (size0 size1 : ℕ) : Except Panic (RangeConstraint p × RangeConstraint p) :=
  if size0 = 0 ∨ size1 = 0 then .error .assertion
  else .ok (fromRange 0 ((size0 - 1 : ℕ) : ZMod p), fromRange 0 ((size1 - 1 : ℕ) : ZMod p))

/-- `TupleRangeCheckerHandler::handle_bus_interaction` (tuple_range_checker.rs:28-40). -/
def handleTupleRangeChecker (size0 size1 : ℕ) :
    List (RangeConstraint p) → Except Panic (List (RangeConstraint p))
  | [_, _] => do
    let (x, y) ← tupleRanges size0 size1
    pure [x, y]
  | _ => .error .assertion

/-- `handle_memory` (memory.rs:11-53), with `RV32_REGISTER_AS = 1` and `RV32_MEMORY_AS = 2`. -/
def handleMemory (multiplicity : ZMod p) :
    List (RangeConstraint p) → Except Panic (List (RangeConstraint p))
  | addressSpace :: pointer :: rest =>
    match rest.getLast? with
    | none => .error .assertion
    | some timestamp =>
      let data := rest.dropLast
      if data.isEmpty then .error .assertion
      else if multiplicity ≠ -1 then .ok (addressSpace :: pointer :: rest)
      else
        match addressSpace.tryToSingleValue with
        | none => .ok (addressSpace :: pointer :: rest)
        | some v => do
          let space ← toU32 v
          if space = 1 ∨ space = 2 then
            let data := if space = 1 ∧ pointer.tryToSingleValue = some 0
              then data.map fun _ => fromValue 0
              else data.map fun _ => byteConstraint
            pure ([addressSpace, pointer] ++ data ++ [timestamp])
          else pure (addressSpace :: pointer :: rest)
  | _ => .error .assertion

/-- The new range constraints of the payload, by type of the bus (lib.rs:88-108). -/
def BusType.handle (multiplicity : ZMod p) (payload : List (RangeConstraint p)) :
    BusType → Except Panic (List (RangeConstraint p))
  | .executionBridge => .ok payload
  | .pcLookup => .ok payload
  | .memory => handleMemory multiplicity payload
  | .other .bitwiseLookup => handleBitwiseLookup payload
  | .other .variableRangeChecker => handleVariableRangeChecker payload
  | .other (.tupleRangeChecker s0 s1) => handleTupleRangeChecker s0 s1 payload

/-- `OpenVmBusInteractionHandler::handle_bus_interaction` (lib.rs:73-113). -/
def openVmHandler (m : BusMap) : Handler p := fun b =>
  match b.busId.tryToSingleValue, b.multiplicity.tryToSingleValue with
  | some busId, some multiplicity =>
    if multiplicity = 0 then .ok b
    else do
      let id ← toU64 busId
      let t ← m.busType id
      let payload ← t.handle multiplicity b.payload
      pure { b with payload }
  | _, _ => .ok b

/-- `is_stateful` (lib.rs:120-132). -/
def isStateful (m : BusMap) (busId : ZMod p) : Except Panic Bool := do
  let id ← toU64 busId
  let t ← m.busType id
  pure (match t with
    | .executionBridge => true
    | .memory => true
    | _ => false)

/-! ### Pure range constraints -/

/-- `RangeConstraints` (range_constraint_optimizer.rs:15). -/
abbrev RangeConstraints (p : ℕ) (V : Type) := List (GExpr p V × RangeConstraint p)

/-- `bitwise_lookup_pure_range_constraints` (bitwise_lookup.rs:64-103). -/
def bitwisePure : List (GExpr p V) → Except Panic (Option (RangeConstraints p V))
  | [x, y, z, op] =>
    if op.tryToNumber = some 0 then
      .ok (some [(x, fromMask 0xff), (y, fromMask 0xff), (z, fromValue 0)])
    else if x = y then
      .ok (some [(x, fromMask 0xff), (z, fromValue 0), (op, fromMask 1)])
    else .ok none
  | _ => .error .assertion

/-- `variable_range_checker_pure_range_constraints` (variable_range_checker.rs:36-51). -/
def variableRangeCheckerPure : List (GExpr p V) → Except Panic (Option (RangeConstraints p V))
  | [x, bits] =>
    match bits.tryToNumber with
    | none => .ok none
    | some v => do
      let n ← toU64 v
      pure (some [(x, fromMask (u64Mask n))])
  | _ => .error .assertion

/-- `TupleRangeCheckerHandler::pure_range_constraints` (tuple_range_checker.rs:42-53). -/
def tupleRangeCheckerPure (size0 size1 : ℕ) :
    List (GExpr p V) → Except Panic (Option (RangeConstraints p V))
  | [x, y] => do
    let (xRc, yRc) ← tupleRanges size0 size1
    pure (some [(x, xRc), (y, yRc)])
  | _ => .error .assertion

/-- `pure_range_constraints` (lib.rs:135-160). -/
def pureRangeConstraints (m : BusMap) (b : BusInteraction (GExpr p V)) :
    Except Panic (Option (RangeConstraints p V)) :=
  match b.busId.tryToNumber with
  | none => .error .assertion
  | some busId => do
    let id ← toU64 busId
    let t ← m.busType id
    match t with
    | .executionBridge | .memory | .pcLookup => pure none
    | .other .bitwiseLookup => bitwisePure b.payload
    | .other .variableRangeChecker => variableRangeCheckerPure b.payload
    | .other (.tupleRangeChecker s0 s1) => tupleRangeCheckerPure s0 s1 b.payload

/-! ### Making range constraints -/

/-- `range_constraint_to_num_bits` (range_constraint_optimizer.rs:153-160). -/
def rangeConstraintToNumBits (rc : RangeConstraint p) : Option ℕ :=
  (List.range 30).find? fun bits => rc = fromMask (2 ^ bits - 1)

/-- The expressions collected by `filter_byte_constraints` (range_constraint_optimizer.rs:163-175):
`unique` keeps the first of equal expressions. -/
def byteExpressions (rcs : RangeConstraints p V) : List (GExpr p V) :=
  (((rcs.filter fun x => rangeConstraintToNumBits x.2 = some 8).map Prod.fst).reverse.dedup).reverse

/-- What `filter_byte_constraints` retains (range_constraint_optimizer.rs:167-173). -/
def nonByteConstraints (rcs : RangeConstraints p V) : RangeConstraints p V :=
  rcs.filter fun x => rangeConstraintToNumBits x.2 ≠ some 8

/-- `chunks(2)` and the padding by zero (lib.rs:208-240). -/
def byteChecks (busId : ℕ) : List (GExpr p V) → List (BusInteraction (GExpr p V))
  | [] => []
  | [x] => [⟨const (busId : ZMod p), const 1, [x, const 0, const 0, const 0]⟩]
  | x :: y :: t => ⟨const (busId : ZMod p), const 1, [x, y, const 0, const 0]⟩ :: byteChecks busId t

/-- `tuple_range_checker_constraints` (lib.rs:188-206). -/
def tupleChecks (busId : ℕ) (xs : List (GExpr p V × GExpr p V)) :
    List (BusInteraction (GExpr p V)) :=
  xs.map fun (x, y) => ⟨const (busId : ZMod p), const 1, [x, y]⟩

/-- `other_constraints` (lib.rs:241-264); `none` is the error. -/
def otherChecks (busId : ℕ) : RangeConstraints p V → Option (List (BusInteraction (GExpr p V)))
  | [] => some []
  | (e, rc) :: t => do
    let bits ← rangeConstraintToNumBits rc
    let rest ← otherChecks busId t
    pure (⟨const (busId : ZMod p), const 1, [e, const (bits : ZMod p)]⟩ :: rest)

/-- The bus identifier is only looked up if it is needed. -/
def busIdIfNeeded {α : Type} (m : BusMap) (t : BusType) (l : List α) : Except Panic ℕ :=
  if l.isEmpty then .ok 0 else m.getBusId t

/-- `batch_make_range_constraints` (lib.rs:162-271); the inner `none` is the error
`MakeRangeConstraintsError`. The code stops at the first range constraint that is not possible; here
a missing bus in the map panics even if there is an error before that. -/
def batchMakeRangeConstraints (m : BusMap) (rcs : RangeConstraints p V) :
    Except Panic (Option (List (BusInteraction (GExpr p V)))) := do
  let bytes := byteExpressions rcs
  let rcs := nonByteConstraints rcs
  let (s0, s1) ← m.tupleSizes
  let (r0, r1) ← tupleRanges (p := p) s0 s1
  if r0 ≠ fromMask 0xff then .error .assertion
  else do
    let second := rcs.filter fun x => x.2 = r1
    let rest := rcs.filter fun x => x.2 ≠ r1
    let rest := rest ++ second.drop bytes.length
    let second := second.take bytes.length
    let tuples := (bytes.take second.length).zip (second.map Prod.fst)
    let bytes := bytes.drop second.length
    let tupleId ← busIdIfNeeded m (.other (.tupleRangeChecker s0 s1)) tuples
    let byteId ← busIdIfNeeded m (.other .bitwiseLookup) bytes
    let otherId ← busIdIfNeeded m (.other .variableRangeChecker) rest
    pure (do
      let others ← otherChecks otherId rest
      pure (tupleChecks tupleId tuples ++ byteChecks byteId bytes ++ others))

end Verif
