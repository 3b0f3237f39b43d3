import Verif.Model.Expression
import Verif.Model.Numerals

/-!
# Model of saved expressions and machines

`expression/src/lib.rs`, `autoprecompiles/src/expression.rs`, `autoprecompiles/src/symbolic_machine.rs`,
`constraint-solver/src/constraint_system.rs`, `constraint-solver/src/grouped_expression.rs`.

`serde` and `serde_json` are not modelled: a saved value is a tree, and writing a tree and reading it gives the same
tree. Structures are read from objects, not from sequences, except the operations of expressions, which are written
and read as sequences.
-/

namespace Verif

/-- The data model of `serde_json`, without floating point numbers, negative numbers, booleans and null. -/
inductive Json where
  | num (n : ℕ)
  | str (s : List Char)
  | arr (l : List Json)
  | obj (l : List (List Char × Json))

/-- Reading fails, or panics. -/
inductive SavedError where
  | invalid
  | panic
deriving DecidableEq

/-- `AlgebraicReference` (autoprecompiles/src/expression.rs:13-20). -/
structure SavedRef where
  name : List Char
  id : ℕ
deriving DecidableEq

/-! ## Writing -/

/-- `Serialize for AlgebraicReference` (autoprecompiles/src/expression.rs:51-58). -/
def saveRef (r : SavedRef) : Json := .str (r.name ++ '@' :: Nat.toDigits 10 r.id)

/-- The names of the operators (expression/src/lib.rs:49-56). -/
def opName : AlgOp → List Char
  | .add => ['+']
  | .sub => ['-']
  | .mul => ['*']

/-- `Serialize for AlgebraicExpression` (expression/src/lib.rs:26-35), `serialize_unary_operation` (207-217) and
`serialize_binary_operation` (219-229). -/
def saveExpr {T R : Type} (num : T → Json) (ref : R → Json) : AlgExpr T R → Json
  | .reference r => ref r
  | .number n => num n
  | .binary l op r => .arr [saveExpr num ref l, .str (opName op), saveExpr num ref r]
  | .minus e => .arr [.str ['-'], saveExpr num ref e]

/-- `Serialize for SymbolicBusInteraction` (symbolic_machine.rs:70-75, derived). -/
def saveBus {T R : Type} (num : T → Json) (ref : R → Json) (b : SymBus T R) : Json :=
  .obj [("id".toList, .num b.id), ("mult".toList, saveExpr num ref b.mult),
    ("args".toList, .arr (b.args.map (saveExpr num ref)))]

/-- `Serialize for ComputationMethod` (constraint_system.rs:130-137, derived). -/
def saveMethod {T R : Type} (num : T → Json) (ref : R → Json) : SymMethod T R → Json
  | .constant c => .obj [("Constant".toList, num c)]
  | .quotientOrZero e1 e2 => .obj [("QuotientOrZero".toList, .arr [saveExpr num ref e1, saveExpr num ref e2])]

/-- `Serialize for DerivedVariable` (constraint_system.rs:97-108). -/
def saveDerived {T R : Type} (num : T → Json) (ref : R → Json) (d : R × SymMethod T R) : Json :=
  .arr [ref d.1, saveMethod num ref d.2]

/-- `Serialize for SymbolicMachine` (symbolic_machine.rs:115-124, derived) and for `SymbolicConstraint` (35-39,
transparent). -/
def saveMachine {T R : Type} (num : T → Json) (ref : R → Json) (m : SymMachine T R) : Json :=
  .obj [("constraints".toList, .arr (m.constraints.map (saveExpr num ref))),
    ("bus_interactions".toList, .arr (m.bus.map (saveBus num ref))),
    ("derived_columns".toList, .arr (m.derived.map (saveDerived num ref)))]

/-! ## Grouped expressions -/

/-- `Serialize for SumSerializer` (grouped_expression.rs:887-896), for the items before the last one, in reverse
order, and the last one. -/
def saveSum : List Json → Json → Json
  | [], last => last
  | x :: t, last => .arr [saveSum t x, .str ['+'], last]

/-- `Serialize for GroupedExpression` (grouped_expression.rs:866-871), with `split_last` (889). -/
def saveItems (l : List Json) (zero : Json) : Json :=
  match l.reverse with
  | [] => zero
  | last :: before => saveSum before last

/-- `Serialize for GroupedExpressionComponent` (grouped_expression.rs:898-914), the linear case. -/
def saveLinear {p : ℕ} {V : Type} (num : ZMod p → Json) (ref : V → Json) (x : V × ZMod p) : Json :=
  if x.2 = 1 then ref x.1 else .arr [num x.2, .str ['*'], ref x.1]

/- `Serialize for GroupedExpression` (grouped_expression.rs:862-873) with `into_summands` (275-288). -/
mutual
/-- `Serialize for GroupedExpression` (grouped_expression.rs:862-873) with `into_summands` (275-288). -/
def saveGrouped {p : ℕ} {V : Type} (num : ZMod p → Json) (ref : V → Json) : GExpr p V → Json
  | .mk q l c => saveItems (saveQuadratic num ref q ++ l.map (saveLinear num ref) ++ (if c = 0 then [] else [num c]))
      (num 0)
/-- `Serialize for GroupedExpressionComponent` (grouped_expression.rs:898-914), the quadratic case. -/
def saveQuadratic {p : ℕ} {V : Type} (num : ZMod p → Json) (ref : V → Json) :
    List (GExpr p V × GExpr p V) → List Json
  | [] => []
  | (a, b) :: t => .arr [saveGrouped num ref a, .str ['*'], saveGrouped num ref b] :: saveQuadratic num ref t
end

/-- `Serialize for BusInteraction` (constraint_system.rs:191-204, derived). -/
def saveGroupedBus {p : ℕ} {V : Type} (num : ZMod p → Json) (ref : V → Json) (b : BusInteraction (GExpr p V)) : Json :=
  .obj [("id".toList, saveGrouped num ref b.busId), ("mult".toList, saveGrouped num ref b.multiplicity),
    ("args".toList, .arr (b.payload.map (saveGrouped num ref)))]

/-- `Serialize for ComputationMethod` (constraint_system.rs:130-137, derived). -/
def saveGroupedMethod {p : ℕ} {V : Type} (num : ZMod p → Json) (ref : V → Json) :
    ComputationMethod p (GExpr p V) → Json
  | .constant c => .obj [("Constant".toList, num c)]
  | .quotientOrZero e1 e2 =>
    .obj [("QuotientOrZero".toList, .arr [saveGrouped num ref e1, saveGrouped num ref e2])]

/-- `Serialize for DerivedVariable` (constraint_system.rs:97-108). -/
def saveGroupedDerived {p : ℕ} {V : Type} (num : ZMod p → Json) (ref : V → Json) (d : DerivedVariable p V) : Json :=
  .arr [ref d.column, saveGroupedMethod num ref d.method]

/-- `Serialize for ConstraintSystem` (constraint_system.rs:18-32, derived) and for `AlgebraicConstraint`
(algebraic_constraint/mod.rs:14-18, transparent). -/
def saveSystem {p : ℕ} {V : Type} (num : ZMod p → Json) (ref : V → Json) (s : ConstraintSystem p V) : Json :=
  .obj [("constraints".toList, .arr (s.algebraic.map (saveGrouped num ref))),
    ("bus_interactions".toList, .arr (s.bus.map (saveGroupedBus num ref))),
    ("derived_columns".toList, .arr (s.derived.map (saveGroupedDerived num ref)))]

/-! ## Reading -/

/-- `Deserialize for AlgebraicReference` (autoprecompiles/src/expression.rs:60-80). -/
def readRef : Json → Except SavedError SavedRef
  | .str s =>
    match splitLast '@' s with
    | none => .error .invalid
    | some (name, rest) =>
      match fromStrRadix (2 ^ 64) 10 rest with
      | none => .error .invalid
      | some id => .ok ⟨name, id⟩
  | _ => .error .invalid

/-- `Deserialize for AlgebraicBinaryOperator` (expression/src/lib.rs:46-56, derived). -/
def readOp : Json → Except SavedError AlgOp
  | .str s =>
    if s = ['+'] then .ok .add else if s = ['-'] then .ok .sub else if s = ['*'] then .ok .mul else .error .invalid
  | _ => .error .invalid

/-- `Deserialize for AlgebraicUnaryOperator` (expression/src/lib.rs:66-72, derived). -/
def readMinus : Json → Except SavedError Unit
  | .str s => if s = ['-'] then .ok () else .error .invalid
  | _ => .error .invalid

/-- `Deserialize` of the newtype of a 31-bit field with characteristic `p` (number/src/plonky3_macros.rs:41): from a
32-bit number, with a check that panics (plonky3_macros.rs:145-149). -/
def readNumber31 (p : ℕ) : Json → Except SavedError ℕ
  | .num n => if n < 2 ^ 32 then (if n < p then .ok n else .error .panic) else .error .invalid
  | _ => .error .invalid

/-- `Deserialize for GoldilocksField` (number/src/goldilocks.rs:24-40, derived): any 64-bit number. -/
def readNumber64 : Json → Except SavedError ℕ
  | .num n => if n < 2 ^ 64 then .ok n else .error .invalid
  | _ => .error .invalid

/-- `Deserialize for AlgebraicExpression` (expression/src/lib.rs:23-35, derived). The variants are tried in order; a
string can only be a reference, a number only a number, and a sequence of three or two only a binary or unary operation. -/
def readExpr {T R : Type} (num : Json → Except SavedError T) (ref : Json → Except SavedError R) :
    Json → Except SavedError (AlgExpr T R)
  | .str s => (ref (.str s)).map .reference
  | .num n => (num (.num n)).map .number
  | .arr [a, op, b] => do
    let left ← readExpr num ref a
    let op ← readOp op
    let right ← readExpr num ref b
    pure (.binary left op right)
  | .arr [op, a] => do
    readMinus op
    let e ← readExpr num ref a
    pure (.minus e)
  | _ => .error .invalid

/-- `Deserialize` of a sequence (serde). -/
def readList {α : Type} (item : Json → Except SavedError α) : Json → Except SavedError (List α)
  | .arr l => l.mapM item
  | _ => .error .invalid

/-- A field of a structure: missing and duplicate fields are errors, other fields are ignored (serde). -/
def readField {α : Type} (name : List Char) (item : Json → Except SavedError α) (l : List (List Char × Json)) :
    Except SavedError α :=
  match l.filter fun x => x.1 = name with
  | [x] => item x.2
  | _ => .error .invalid

/-- `Deserialize for u64` (serde). -/
def readU64 : Json → Except SavedError ℕ
  | .num n => if n < 2 ^ 64 then .ok n else .error .invalid
  | _ => .error .invalid

/-- `Deserialize for SymbolicBusInteraction` (symbolic_machine.rs:70-75, derived). -/
def readBus {T R : Type} (num : Json → Except SavedError T) (ref : Json → Except SavedError R) :
    Json → Except SavedError (SymBus T R)
  | .obj l => do
    let id ← readField "id".toList readU64 l
    let mult ← readField "mult".toList (readExpr num ref) l
    let args ← readField "args".toList (readList (readExpr num ref)) l
    pure ⟨id, mult, args⟩
  | _ => .error .invalid

/-- `Deserialize for ComputationMethod` (constraint_system.rs:130-137, derived): an object with one key. -/
def readMethod {T R : Type} (num : Json → Except SavedError T) (ref : Json → Except SavedError R) :
    Json → Except SavedError (SymMethod T R)
  | .obj [(tag, c)] =>
    if tag = "Constant".toList then (num c).map .constant
    else if tag = "QuotientOrZero".toList then
      match c with
      | .arr [a, b] => do
        let e1 ← readExpr num ref a
        let e2 ← readExpr num ref b
        pure (.quotientOrZero e1 e2)
      | _ => .error .invalid
    else .error .invalid
  | _ => .error .invalid

/-- `Deserialize for DerivedVariable` (constraint_system.rs:110-128). -/
def readDerived {T R : Type} (num : Json → Except SavedError T) (ref : Json → Except SavedError R) :
    Json → Except SavedError (R × SymMethod T R)
  | .arr [r, m] => do
    let column ← ref r
    let method ← readMethod num ref m
    pure (column, method)
  | _ => .error .invalid

/-- `Deserialize for SymbolicMachine` (symbolic_machine.rs:115-124, derived). -/
def readMachine {T R : Type} (num : Json → Except SavedError T) (ref : Json → Except SavedError R) :
    Json → Except SavedError (SymMachine T R)
  | .obj l => do
    let constraints ← readField "constraints".toList (readList (readExpr num ref)) l
    let bus ← readField "bus_interactions".toList (readList (readBus num ref)) l
    let derived ← readField "derived_columns".toList (readList (readDerived num ref)) l
    pure ⟨constraints, bus, derived⟩
  | _ => .error .invalid

end Verif
