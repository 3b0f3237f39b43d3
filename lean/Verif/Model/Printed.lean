import Verif.Model.Saved
import Verif.Model.FieldText
import Verif.Model.SymbolicValue

/-!
# Model of the printed form of expressions and machines

`expression/src/display.rs`, `constraint-solver/src/grouped_expression.rs`, `constraint-solver/src/symbolic_expression.rs`,
`autoprecompiles/src/symbolic_machine.rs`. Text is a list of characters.
-/

namespace Verif

/-! ## Algebraic expressions -/

/-- `Precedence for AlgebraicBinaryOperator` (display.rs:21-28). -/
def AlgOp.precedence : AlgOp → ℕ
  | .mul => 3
  | .add => 4
  | .sub => 4

/-- `Precedence for AlgebraicExpression` (display.rs:30-38) and `for AlgebraicUnaryOperator` (13-19). -/
def AlgExpr.precedence {T R : Type} : AlgExpr T R → Option ℕ
  | .minus _ => some 1
  | .binary _ op _ => some op.precedence
  | .number _ => none
  | .reference _ => none

/-- `Display for AlgebraicBinaryOperator` (display.rs:91-99). -/
def AlgOp.text : AlgOp → Char
  | .add => '+'
  | .sub => '-'
  | .mul => '*'

/-- `format!("({})")` under a condition (display.rs:53-62, 72-79). -/
def parenthesesIf (c : Bool) (s : List Char) : List Char := if c then '(' :: s ++ [')'] else s

/-- `Display for AlgebraicExpression` (expression/src/lib.rs:24), `AlgebraicBinaryOperation` (display.rs:40-66) and
`AlgebraicUnaryOperation` (display.rs:68-81). -/
def printExpr {T R : Type} (num : T → List Char) (ref : R → List Char) : AlgExpr T R → List Char
  | .reference r => ref r
  | .number n => num n
  | .binary l op r =>
    parenthesesIf (l.precedence.any fun q => q > op.precedence) (printExpr num ref l) ++ ' ' :: op.text :: ' ' ::
      parenthesesIf (r.precedence.any fun q => q ≥ op.precedence) (printExpr num ref r)
  | .minus e => '-' :: parenthesesIf (e.precedence.any fun q => 1 < q) (printExpr num ref e)

/-! ## Values known at run time -/

/-- `Display for BinaryOperator` (symbolic_expression.rs:217-226). -/
def SymOp.text : SymOp → Char
  | .add => '+'
  | .sub => '-'
  | .mul => '*'
  | .div => '/'

/-- `Display` of a number (macros; `Model/FieldText`). -/
def printNumber {p : ℕ} (n : ZMod p) : List Char := FieldKind.display n.val

/-- `Display for SymbolicExpression` (symbolic_expression.rs:198-215). -/
def printSymbolic {p : ℕ} {S : Type} (sym : S → List Char) : SymExpr p S → List Char
  | .concrete n => if isInLowerHalf n then printNumber n else '-' :: printNumber (-n)
  | .symbol s _ => sym s
  | .binary l op r _ => '(' :: printSymbolic sym l ++ ' ' :: op.text :: ' ' :: printSymbolic sym r ++ [')']
  | .unaryNeg e _ => '-' :: printSymbolic sym e

/-! ## Grouped expressions -/

/-- `symbolic_expression_to_signed_string` (grouped_expression.rs:848-859), for a number. -/
def signedNumber {p : ℕ} (k : ZMod p) : Bool × List Char :=
  if isInLowerHalf k then (false, printNumber k) else (true, printNumber (-k))

/-- A linear item (grouped_expression.rs:822-829). -/
def signedLinear {p : ℕ} {V : Type} (name : V → List Char) (x : V × ZMod p) : Bool × List Char :=
  if x.2 = 1 then (false, name x.1)
  else if x.2 = -1 then (true, name x.1)
  else ((signedNumber x.2).1, (signedNumber x.2).2 ++ ' ' :: '*' :: ' ' :: name x.1)

/-- The closure of `reduce` (grouped_expression.rs:835-844). -/
def combineSigned (x y : Bool × List Char) : Bool × List Char :=
  (x.1, x.2 ++ ' ' :: (if x.1 = y.1 then '+' else '-') :: ' ' :: y.2)

/-- `reduce(..).unwrap_or(..)` (grouped_expression.rs:835-845). -/
def reduceSigned : List (Bool × List Char) → Bool × List Char
  | [] => (false, ['0'])
  | x :: t => t.foldl combineSigned x

/- `to_signed_string` (grouped_expression.rs:811-846). -/
mutual
/-- `to_signed_string` (grouped_expression.rs:811-846). -/
def signedText {p : ℕ} {V : Type} (name : V → List Char) : GExpr p V → Bool × List Char
  | .mk q l c => reduceSigned (signedQuadratic name q ++ l.map (signedLinear name) ++
      (if c = 0 then [] else [signedNumber c]))
/-- The quadratic items (grouped_expression.rs:812-818). -/
def signedQuadratic {p : ℕ} {V : Type} (name : V → List Char) : List (GExpr p V × GExpr p V) → List (Bool × List Char)
  | [] => []
  | (a, b) :: t =>
    (xor (signedText name a).1 (signedText name b).1,
      '(' :: (signedText name a).2 ++ ')' :: ' ' :: '*' :: ' ' :: '(' :: (signedText name b).2 ++ [')']) ::
      signedQuadratic name t
end

/-- `Display for GroupedExpression` (grouped_expression.rs:799-808). -/
def printGrouped {p : ℕ} {V : Type} (name : V → List Char) (e : GExpr p V) : List Char :=
  if (signedText name e).1 then '-' :: '(' :: (signedText name e).2 ++ [')'] else (signedText name e).2

/-! ## Machines -/

/-- `join` (itertools). -/
def joinText (sep : List Char) : List (List Char) → List Char
  | [] => []
  | [x] => x
  | x :: y :: t => x ++ sep ++ joinText sep (y :: t)

/-- The number of a column or a machine (`Display for u64`). -/
def printNat (n : ℕ) : List Char := Nat.toDigits 10 n

/-- An expression of a machine; `Display for AlgebraicReference` (autoprecompiles/src/expression.rs:22-26). -/
def printColumns {p : ℕ} (e : AlgExpr (ZMod p) SavedRef) : List Char := printExpr printNumber SavedRef.name e

/-- `Display for SymbolicBusInteraction` (symbolic_machine.rs:77-87). -/
def printBus {p : ℕ} (b : SymBus (ZMod p) SavedRef) : List Char :=
  "(id=".toList ++ printNat b.id ++ ", mult=".toList ++ printColumns b.mult ++ ", args=[".toList ++
    joinText ", ".toList (b.args.map printColumns) ++ "])".toList

/-- `"{constraint} = 0"` (symbolic_machine.rs:148, 188), with `Display for SymbolicConstraint` (41-45). -/
def printConstraint {p : ℕ} (e : AlgExpr (ZMod p) SavedRef) : List Char := printColumns e ++ " = 0".toList

/-- `Display for SymbolicMachine` (symbolic_machine.rs:142-152). -/
def printMachine {p : ℕ} (m : SymMachine (ZMod p) SavedRef) : List Char :=
  (m.bus.flatMap fun b => printBus b ++ ['\n']) ++ m.constraints.flatMap fun e => printConstraint e ++ ['\n']

/-- An insertion to the `BTreeMap` of `unique_references` (powdr.rs:54-55): a later reference replaces an earlier one
with the same id. -/
def insertColumn (r : SavedRef) : List SavedRef → List SavedRef
  | [] => [r]
  | r' :: t => if r.id < r'.id then r :: r' :: t else if r.id = r'.id then r :: t else r' :: insertColumn r t

/-- `main_columns().sorted()` (symbolic_machine.rs:130-132, 156; `unique_references`: powdr.rs:45-57). -/
def columnList {p : ℕ} (m : SymMachine (ZMod p) SavedRef) : List SavedRef :=
  m.refs.foldl (fun l r => insertColumn r l) []

/-- `into_group_map` and `sorted_by_key` (symbolic_machine.rs:162-170): the ids in ascending order. -/
def insertId (i : ℕ) : List ℕ → List ℕ
  | [] => [i]
  | j :: t => if i < j then i :: j :: t else if i = j then j :: t else j :: insertId i t

/-- The ids of the buses in ascending order (symbolic_machine.rs:162-170). -/
def busIds {p : ℕ} (m : SymMachine (ZMod p) SavedRef) : List ℕ := m.bus.foldl (fun l b => insertId b.id l) []

/-- A bus interaction in `render` (symbolic_machine.rs:175-179). -/
def renderInteraction {p : ℕ} (b : SymBus (ZMod p) SavedRef) : List Char :=
  "mult=".toList ++ printColumns b.mult ++ ", args=[".toList ++ joinText ", ".toList (b.args.map printColumns) ++
    "]\n".toList

/-- The part of `render` for a bus (symbolic_machine.rs:171-181). The type of a bus without one is a panic
(bus_map.rs:51-55). -/
def renderBus {p : ℕ} (busType : ℕ → Option (List Char)) (m : SymMachine (ZMod p) SavedRef) (i : ℕ) :
    Except Panic (List Char) :=
  match busType i with
  | none => .error .assertion
  | some ty => .ok ("\n// Bus ".toList ++ printNat i ++ " (".toList ++ ty ++ "):\n".toList ++
      (m.bus.filter fun b => b.id = i).flatMap renderInteraction)

/-- `char::is_whitespace` (std). -/
def isWhiteSpace (c : Char) : Bool :=
  (9 ≤ c.toNat && c.toNat ≤ 13) || c.toNat == 32 || c.toNat == 0x85 || c.toNat == 0xa0 || c.toNat == 0x1680 ||
    (0x2000 ≤ c.toNat && c.toNat ≤ 0x200a) || c.toNat == 0x2028 || c.toNat == 0x2029 || c.toNat == 0x202f ||
    c.toNat == 0x205f || c.toNat == 0x3000

/-- `str::trim` (std). -/
def trimText (s : List Char) : List Char := ((s.dropWhile isWhiteSpace).reverse.dropWhile isWhiteSpace).reverse

/-- The beginning of the text (symbolic_machine.rs:156-161). -/
def renderColumns {p : ℕ} (m : SymMachine (ZMod p) SavedRef) : List Char :=
  "Symbolic machine using ".toList ++ printNat (columnList m).length ++ " unique main columns:\n  ".toList ++
    joinText "\n  ".toList ((columnList m).map SavedRef.name) ++ ['\n']

/-- The end of the text (symbolic_machine.rs:183-189). -/
def renderConstraints {p : ℕ} (m : SymMachine (ZMod p) SavedRef) : List Char :=
  (if m.constraints.isEmpty then [] else "\n// Algebraic constraints:\n".toList) ++
    m.constraints.flatMap fun e => printConstraint e ++ ['\n']

/-- `SymbolicMachine::render` (symbolic_machine.rs:155-192). -/
def renderMachine {p : ℕ} (busType : ℕ → Option (List Char)) (m : SymMachine (ZMod p) SavedRef) :
    Except Panic (List Char) := do
  let buses ← (busIds m).mapM (renderBus busType m)
  pure (trimText (renderColumns m ++ buses.flatten ++ renderConstraints m))

end Verif
