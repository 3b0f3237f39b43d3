import Verif.Model.TraceGen
import Mathlib.Data.ZMod.Basic

/-!
# Model of the AIR of a precompile and of the lookups its rows request

`openvm/src/powdr_extension/chip.rs` (`PowdrAir`), the evaluators of `autoprecompiles/src/expression.rs`,
`openvm/src/powdr_extension/trace_generator/cpu/periphery.rs` (`apply`) and its use in
`openvm/src/powdr_extension/trace_generator/cpu/mod.rs`.

Simplifications:
* The AIR is evaluated on a row of numbers instead of the variables of a builder.
* The lookup chips of OpenVM are not part of the code. A chip is the list of the table entries that have been
  requested; a request of an entry that is not in the table panics.
* Whether debug assertions are on does not matter: `debug_assert_eq!(res, x_xor_y)` (periphery.rs:204) is left
  out.
-/

namespace Verif

section
variable {F : Type} [Field F]

/-- `eval_expr` (autoprecompiles/src/expression.rs:123-125) with `to_expression` (expression/src/lib.rs:180-206), for the
value of each variable. -/
def evalExpr (var : ℕ → Except Panic F) : AlgExpr F ℕ → Except Panic F
  | .reference r => var r
  | .number n => .ok n
  | .binary l .add r => do
    let a ← evalExpr var l
    let b ← evalExpr var r
    pure (a + b)
  | .binary l .sub r => do
    let a ← evalExpr var l
    let b ← evalExpr var r
    pure (a - b)
  | .binary l .mul r => do
    let a ← evalExpr var l
    let b ← evalExpr var r
    pure (a * b)
  | .minus e => do
    let a ← evalExpr var e
    pure (-a)

/-- `WitnessEvaluator::eval_var` (autoprecompiles/src/expression.rs:249-251). Of several pairs with the same key, the map has the
last. -/
def witnessVar (witness : List (ℕ × F)) (id : ℕ) : Except Panic F :=
  match witness.reverse.lookup id with
  | none => .error .assertion
  | some v => .ok v

/-- `eval_bus_interaction` (autoprecompiles/src/expression.rs:126-140). -/
def evalBusInteraction (var : ℕ → Except Panic F) (b : SymBus F ℕ) : Except Panic (ℕ × F × List F) := do
  let mult ← evalExpr var b.mult
  let args ← b.args.mapM (evalExpr var)
  pure (b.id, mult, args)

/-- `PowdrAir::eval` (chip.rs:98-131) with `PowdrAir::new` (chip.rs:75-80): the constraints and the interactions on
a row. The number of the bus is converted `as u16`. -/
def airEval (m : SymMachine F ℕ) (row : List F) : Except Panic (List F × List (ℕ × F × List F)) :=
  let columns := m.mainColumns
  if columns.length ≠ row.length then .error .assertion
  else do
    let witness := columns.zip row
    let constraints ← m.constraints.mapM (evalExpr (witnessVar witness))
    let interactions ← m.bus.mapM (evalBusInteraction (witnessVar witness))
    pure (constraints, interactions.map fun x => (x.1 % 2 ^ 16, x.2))

end

/-- `PeripheryBusIds` (openvm/src/lib.rs:272-276). -/
structure PeripheryBusIds where
  rangeChecker : ℕ
  bitwiseLookup : Option ℕ
  tupleRangeChecker : Option ℕ

/-- `SharedPeripheryChipsCpu` (cpu/periphery.rs:36-42): the requested entries of each table, and the sizes of the
tables. -/
structure PeripheryChips where
  bitwise : Option (List (List ℕ))
  range : List (List ℕ)
  tuple : Option (List (List ℕ))
  rangeMaxBits : ℕ
  tupleSizes : ℕ × ℕ
deriving DecidableEq

/-- `request_range` of the bitwise lookup chip. -/
def PeripheryChips.requestRange (c : PeripheryChips) (x y : ℕ) : Except Panic PeripheryChips :=
  match c.bitwise with
  | none => .error .assertion
  | some l =>
    if x < 256 ∧ y < 256 then .ok { c with bitwise := some (l ++ [[x, y, 0, 0]]) } else .error .assertion

/-- `request_xor` of the bitwise lookup chip. -/
def PeripheryChips.requestXor (c : PeripheryChips) (x y : ℕ) : Except Panic PeripheryChips :=
  match c.bitwise with
  | none => .error .assertion
  | some l =>
    if x < 256 ∧ y < 256 then .ok { c with bitwise := some (l ++ [[x, y, x ^^^ y, 1]]) }
    else .error .assertion

/-- `add_count` of the variable range checker. -/
def PeripheryChips.addRange (c : PeripheryChips) (value bits : ℕ) : Except Panic PeripheryChips :=
  if bits ≤ c.rangeMaxBits ∧ value < 2 ^ bits then .ok { c with range := c.range ++ [[value, bits]] }
  else .error .assertion

/-- `add_count` of the tuple range checker. -/
def PeripheryChips.addTuple (c : PeripheryChips) (args : List ℕ) : Except Panic PeripheryChips :=
  match c.tuple with
  | none => .error .assertion
  | some l =>
    match args with
    | [x, y] =>
      if x < c.tupleSizes.1 ∧ y < c.tupleSizes.2 then .ok { c with tuple := some (l ++ [[x, y]]) }
      else .error .assertion
    | _ => .error .assertion

/-- `for _ in 0..n`. -/
def repeatM {α : Type} (f : α → Except Panic α) : ℕ → α → Except Panic α
  | 0, a => .ok a
  | n + 1, a => do
    let a ← f a
    repeatM f n a

/-- The requests of the bitwise lookup (cpu/periphery.rs:187-211). -/
def PeripheryChips.applyBitwise (c : PeripheryChips) (mult : ℕ) (args : List ℕ) :
    Except Panic PeripheryChips :=
  match args with
  | x :: y :: _ :: selector :: _ =>
    repeatM (fun c => if selector = 0 then c.requestRange x y
      else if selector = 1 then c.requestXor x y
      else .error .assertion) mult c
  | _ => .error .assertion

/-- The requests of the range checker (cpu/periphery.rs:212-219). -/
def PeripheryChips.applyRange (c : PeripheryChips) (mult : ℕ) (args : List ℕ) :
    Except Panic PeripheryChips :=
  match args with
  | value :: bits :: _ => repeatM (fun c => c.addRange value bits) mult c
  | _ => .error .assertion

/-- `SharedPeripheryChipsCpu::apply` (cpu/periphery.rs:179-238). -/
def PeripheryChips.apply (ids : PeripheryBusIds) (c : PeripheryChips) (bus mult : ℕ) (args : List ℕ) :
    Except Panic PeripheryChips :=
  if some bus = ids.bitwiseLookup then c.applyBitwise mult args
  else if bus = ids.rangeChecker then c.applyRange mult args
  else if some bus = ids.tupleRangeChecker then repeatM (fun c => c.addTuple args) mult c
  else if bus ≤ 2 then .ok c
  else .error .assertion

/-- The replay of one message (cpu/mod.rs:212-223). -/
def replayMessage {p : ℕ} (ids : PeripheryBusIds) (c : PeripheryChips) (x : ℕ × ZMod p × List (ZMod p)) :
    Except Panic PeripheryChips :=
  c.apply ids (x.1 % 2 ^ 16) x.2.1.val (x.2.2.map ZMod.val)

/-- The replay of the messages of all rows (cpu/mod.rs:204-224). -/
def replayMessages {p : ℕ} (ids : PeripheryBusIds) (c : PeripheryChips)
    (rows : List (List (ℕ × ZMod p × List (ZMod p)))) : Except Panic PeripheryChips :=
  rows.flatten.foldlM (replayMessage ids) c

end Verif
