import Verif.Model.Expression

/-!
# Model of guards, column ids and block machines

`autoprecompiles/src/lib.rs` (column allocator, guards), `autoprecompiles/src/powdr.rs`,
`autoprecompiles/src/symbolic_machine_generator.rs`.

Simplifications: column ids are natural numbers without overflow. The names of the columns are left
out (`globalize_reference_names`).
-/

namespace Verif

/-! ## Guards -/

section
variable {p : ℕ}

/-- `make_refs_zero` (powdr.rs:11-18). -/
def makeRefsZero {R : Type} : AlgExpr (ZMod p) R → AlgExpr (ZMod p) R
  | .reference _ => .number 0
  | .number n => .number n
  | .binary l op r => .binary (makeRefsZero l) op (makeRefsZero r)
  | .minus e => .minus (makeRefsZero e)

/-- `make_bool` (powdr.rs:20-23). -/
def makeBool {R : Type} (e : AlgExpr (ZMod p) R) : AlgExpr (ZMod p) R :=
  .binary e .mul (.binary e .sub (.number 1))

/-- `satisfies_zero_witness` (lib.rs:415-420). -/
def satisfiesZeroWitness (e : AlgExpr (ZMod p) ℕ) : Except Panic Bool :=
  match (algebraicToGrouped (makeRefsZero e)).tryToNumber with
  | none => .error .assertion
  | some n => .ok (n = 0)

/-- `add_guards_constraint` (lib.rs:427-453). -/
def addGuardsConstraint (isValid : AlgExpr (ZMod p) ℕ) :
    AlgExpr (ZMod p) ℕ → Except Panic (AlgExpr (ZMod p) ℕ)
  | .binary l op r => do
    if ← satisfiesZeroWitness (.binary l op r) then return .binary l op r
    let left ← addGuardsConstraint isValid l
    let right ← match op with
      | .add => addGuardsConstraint isValid r
      | .sub => addGuardsConstraint isValid r
      | .mul => pure r
    return .binary left op right
  | .minus e => do
    if ← satisfiesZeroWitness (.minus e) then return .minus e
    return .minus (← addGuardsConstraint isValid e)
  | .number n => do
    if ← satisfiesZeroWitness (.number n) then return .number n
    return .binary (.number n) .mul isValid
  | .reference r => do
    if ← satisfiesZeroWitness (.reference r : AlgExpr (ZMod p) ℕ) then return .reference r
    return .reference r

/-- `canonicalize` (lib.rs:465-467). -/
def canonicalize (e : AlgExpr (ZMod p) ℕ) : AlgExpr (ZMod p) ℕ :=
  groupedToAlgebraic (algebraicToGrouped e)

/-- The bus interaction after the loop and the new constraint, if any (lib.rs:495-508). -/
def guardBus (isValid : AlgExpr (ZMod p) ℕ) (b : SymBus (ZMod p) ℕ) :
    Except Panic (SymBus (ZMod p) ℕ × List (AlgExpr (ZMod p) ℕ)) := do
  if !(← satisfiesZeroWitness b.mult) then
    return ({ b with mult := canonicalize (.binary isValid .mul b.mult) }, [])
  else
    return (b, [(canonicalize (.binary (.binary (.number 1) .sub isValid) .mul b.mult)).toConstraint])

end

/-! ## Column ids -/

/-- `ColumnAllocator` (lib.rs:257-262). -/
structure ColumnAllocator where
  subs : List (List ℕ)
  nextPolyId : ℕ
deriving DecidableEq

namespace ColumnAllocator

/-- `from_max_poly_id_of_machine` (lib.rs:265-270). -/
def fromMaxPolyId {T : Type} (m : SymMachine T ℕ) : ColumnAllocator :=
  ⟨[], m.refs.foldl max 0 + 1⟩

/-- `issue_next_poly_id` (lib.rs:272-276). -/
def issueNextPolyId (a : ColumnAllocator) : ℕ × ColumnAllocator :=
  (a.nextPolyId, { a with nextPolyId := a.nextPolyId + 1 })

/-- `is_known_id` (lib.rs:279-281). -/
def isKnownId (a : ColumnAllocator) (id : ℕ) : Bool := id < a.nextPolyId

end ColumnAllocator

/-- The substitutions of `Apc::new` (lib.rs:218-253): for each instruction the pairs
`(original_poly_index, apc_poly_id)`. -/
def apcSubs {T : Type} (m : SymMachine T ℕ) (a : ColumnAllocator) : List (List (ℕ × ℕ)) :=
  a.subs.map fun subs => (subs.zipIdx.filter fun x => x.1 ∈ m.refs).map fun x => (x.2, x.1)

/-- `add_guards` (lib.rs:470-524). -/
def addGuards {p : ℕ} (m : SymMachine (ZMod p) ℕ) (a : ColumnAllocator) :
    Except Panic (SymMachine (ZMod p) ℕ × ColumnAllocator) := do
  let preDegree := m.degree
  let (id, a) := a.issueNextPolyId
  let isValid := AlgExpr.reference id
  let constraints ← m.constraints.mapM fun c => do
    let e ← addGuardsConstraint isValid c
    pure (canonicalize e).toConstraint
  let guarded ← m.bus.mapM (guardBus isValid)
  let m' : SymMachine (ZMod p) ℕ := {
    constraints := constraints ++ guarded.flatMap Prod.snd
    bus := guarded.map Prod.fst
    derived := m.derived ++ [(id, .constant 1)] }
  if preDegree ≠ 0 ∧ m'.bus ≠ [] ∧ preDegree ≠ m'.degree then .error .assertion
  else pure ({ m' with constraints := m'.constraints ++ [(makeBool isValid).toConstraint] }, a)

/-! ## Block machines -/

/-- Apply a function to all references of the expressions visited in a machine
(`pre_visit_expressions_mut` on a machine, symbolic_machine.rs:211-222). -/
def SymMachine.mapRefs {T : Type} (f : ℕ → ℕ) (m : SymMachine T ℕ) : SymMachine T ℕ where
  constraints := m.constraints.map (AlgExpr.mapRefs f)
  bus := m.bus.map fun b => ⟨b.id, b.mult.mapRefs f, b.args.map (AlgExpr.mapRefs f)⟩
  derived := m.derived

/-- `globalize_references` (powdr.rs:66-85): the next id, the substitutions and the machine. -/
def globalizeReferences {T : Type} (m : SymMachine T ℕ) (next : ℕ) :
    Except Panic (ℕ × List ℕ × SymMachine T ℕ) :=
  let ids := m.refs.dedup
  let size := ids.length
  match ids with
  | [] => .error .assertion
  | i :: t =>
    if t.foldl max i ≠ size - 1 then .error .assertion
    else .ok (next + size, List.range' next size, m.mapRefs (· + next))

/-- What the generator uses of an instruction: its machine and its row of the pc lookup
(symbolic_machine_generator.rs:143-157). -/
structure InstrAir (T : Type) where
  machine : SymMachine T ℕ
  pcLookupRow : List T

section
variable {p : ℕ}

/-- `exec_receive` (symbolic_machine_generator.rs:207-220). -/
def execReceive (m : SymMachine (ZMod p) ℕ) (execBus : ℕ) : Except Panic (SymBus (ZMod p) ℕ) :=
  match m.bus.filter fun b => b.id = execBus with
  | [r, _] => .ok r
  | _ => .error .assertion

/-- One iteration of the loop (symbolic_machine_generator.rs:143-196). -/
def instructionMachine (execBus pcBus : ℕ) {U : Type} (f : U → ZMod p) (next : ℕ) (i : InstrAir U) :
    Except Panic (ℕ × List ℕ × SymMachine (ZMod p) ℕ) := do
  let row := i.pcLookupRow.map f
  let (next, subs, m) ← globalizeReferences (i.machine.convert f) next
  match m.bus.filter fun b => b.id = pcBus with
  | [pcLookup] => do
    let r ← execReceive m execBus
    if pcLookup.args.length ≠ row.length then .error .assertion
    else pure (next, subs, { m with
      constraints := m.constraints ++ [(AlgExpr.binary r.mult .add (.number 1)).toConstraint] ++
        (pcLookup.args.zip row).map fun x => (AlgExpr.binary x.1 .sub (.number x.2)).toConstraint })
  | _ => .error .assertion

/-- The loop (symbolic_machine_generator.rs:139-197). -/
def instructionMachines (execBus pcBus : ℕ) {U : Type} (f : U → ZMod p) :
    ℕ → List (InstrAir U) → Except Panic (ℕ × List (List ℕ) × List (SymMachine (ZMod p) ℕ))
  | next, [] => .ok (next, [], [])
  | next, i :: t => do
    let (next, subs, m) ← instructionMachine execBus pcBus f next i
    let (next, allSubs, ms) ← instructionMachines execBus pcBus f next t
    pure (next, subs :: allSubs, m :: ms)

/-- `statements_to_symbolic_machine` (symbolic_machine_generator.rs:118-205). -/
def blockMachine (execBus pcBus : ℕ) {U : Type} (f : U → ZMod p) (is : List (InstrAir U)) :
    Except Panic (SymMachine (ZMod p) ℕ × ColumnAllocator) := do
  let (next, subs, ms) ← instructionMachines execBus pcBus f 0 is
  match ms with
  | [] => .error .assertion
  | m :: t => pure (t.foldl SymMachine.concatenate m, ⟨subs, next⟩)

end

end Verif
