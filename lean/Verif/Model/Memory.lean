import Verif.Model.Solver
import Verif.Model.ItemDB

/-!
# Model of the memory optimizer

`autoprecompiles/src/memory_optimizer.rs` with the memory bus interactions of OpenVM
(`openvm-bus-interaction-handler/src/memory_bus_interaction.rs`).

Simplifications: the hash map `memory_contents` is an association list, and `retain` visits its
entries in the order of the list.
-/

namespace Verif

open GExpr

variable {p : ℕ} {V : Type}

/-- `MemoryOp` (memory_optimizer.rs:51-56). -/
inductive MemoryOp where
  | getPrevious
  | setNew
deriving DecidableEq

/-- `OpenVmMemoryBusInteraction` (memory_bus_interaction.rs:17-30). -/
structure MemInt (p : ℕ) (V : Type) where
  op : MemoryOp
  space : ZMod p
  pointer : GExpr p V
  data : List (GExpr p V)
  timestamp : GExpr p V

/-- The result of `try_from_bus_interaction`: `Ok(None)`, `Err(_)` or `Ok(Some(_))`. -/
inductive MemConversion (p : ℕ) (V : Type) where
  | notMemory
  | unclear
  | memory (m : MemInt p V)

/-- `try_from_bus_interaction` (memory_bus_interaction.rs:49-81). -/
def memConversion (memoryBusId : ℕ) (b : BusInteraction (GExpr p V)) :
    Except Panic (MemConversion p V) :=
  match b.busId.tryToNumber with
  | none => .ok .unclear
  | some id =>
    if id = (memoryBusId : ZMod p) then
      let op := match b.multiplicity.tryToNumber with
        | some n => if n = 1 then some .setNew else if n = -1 then some .getPrevious else none
        | none => none
      match op with
      | none => .ok .unclear
      | some op =>
        match b.payload with
        | space :: pointer :: rest =>
          match rest.getLast? with
          | none => .error .assertion
          | some timestamp =>
            match space.tryToNumber with
            | none => .error .assertion
            | some space => .ok (.memory ⟨op, space, pointer, rest.dropLast, timestamp⟩)
        | _ => .error .assertion
    else .ok .notMemory

/-- `MemoryContent` (memory_optimizer.rs:113-127). -/
structure MemContent (p : ℕ) (V : Type) where
  busIndex : ℕ
  data : List (GExpr p V)
  timestamp : GExpr p V

/-- The local variables of `redundant_memory_interactions_indices`
(memory_optimizer.rs:145-151). -/
structure MemState (p : ℕ) (V : Type) where
  contents : List ((ZMod p × GExpr p V) × MemContent p V)
  toRemove : List ℕ
  newConstraints : List (GExpr p V)
  solver : Solver p V

/-- `HashMap::remove` (std). -/
def mapRemove {K W : Type} [DecidableEq K] (k : K) (m : List (K × W)) : List (K × W) :=
  m.filter fun x => x.1 ≠ k

section
variable [LinearOrder V] [Fact p.Prime]

/-- The closure `any(..)` (memory_optimizer.rs:201-205) for the two parts of the address. -/
def addressesDiffer (h : Handler p) (a b : ZMod p × GExpr p V) (s : Solver p V) :
    Except Stop (Bool × Solver p V) := do
  let r ← SolverOp.run h s (.knownDifferent (const a.1) (const b.1))
  match r with
  | (.different true, s) => pure (true, s)
  | (_, s) => do
    let r ← SolverOp.run h s (.knownDifferent a.2 b.2)
    match r with
    | (.different d, s) => pure (d, s)
    | (_, s) => pure (false, s)

/-- `retain` (memory_optimizer.rs:200-206). -/
def retainDifferent (h : Handler p) (a : ZMod p × GExpr p V) :
    List ((ZMod p × GExpr p V) × MemContent p V) → Solver p V →
    Except Stop (List ((ZMod p × GExpr p V) × MemContent p V) × Solver p V)
  | [], s => .ok ([], s)
  | (b, c) :: t, s => do
    let (d, s) ← addressesDiffer h a b s
    let (t, s) ← retainDifferent h a t s
    pure (if d then (b, c) :: t else t, s)

/-- The equality constraints for a matching pair (memory_optimizer.rs:175-190), data and timestamp;
`zip_eq` panics if the lengths differ. -/
def equalityConstraints (c : MemContent p V) (m : MemInt p V) : Except Stop (List (GExpr p V)) :=
  if c.data.length ≠ m.data.length then .error .panic
  else .ok ((c.data.zip m.data).map (fun x => sub x.1 x.2) ++ [sub c.timestamp m.timestamp])

/-- One iteration of the loop (memory_optimizer.rs:154-214). -/
def memoryStep (h : Handler p) (memoryBusId index : ℕ) (b : BusInteraction (GExpr p V))
    (st : MemState p V) : Except Stop (MemState p V) := do
  match ← liftPanic (memConversion memoryBusId b) with
  | .notMemory => pure st
  | .unclear => pure { st with contents := [] }
  | .memory m =>
    let addr := (m.space, m.pointer)
    match m.op with
    | .getPrevious =>
      match mapGet addr st.contents with
      | some existing => do
        let new ← equalityConstraints existing m
        pure { st with
          contents := mapRemove addr st.contents
          newConstraints := st.newConstraints ++ new
          toRemove := st.toRemove ++ [index, existing.busIndex] }
      | none => pure st
    | .setNew => do
      let (contents, solver) ← retainDifferent h addr st.contents st.solver
      pure { st with
        contents := mapInsert addr ⟨index, m.data, m.timestamp⟩ contents
        solver }

/-- The loop over the bus interactions (memory_optimizer.rs:154-215). -/
def memoryLoop (h : Handler p) (memoryBusId : ℕ) :
    ℕ → List (BusInteraction (GExpr p V)) → MemState p V → Except Stop (MemState p V)
  | _, [], st => .ok st
  | index, b :: t, st => do
    let st ← memoryStep h memoryBusId index b st
    memoryLoop h memoryBusId (index + 1) t st

/-- `redundant_memory_interactions_indices` (memory_optimizer.rs:133-223). -/
def redundantMemoryInteractions (h : Handler p) (memoryBusId : ℕ)
    (bs : List (BusInteraction (GExpr p V))) (s : Solver p V) : Except Stop (MemState p V) :=
  memoryLoop h memoryBusId 0 bs ⟨[], [], [], s⟩

/-- `optimize_memory` (memory_optimizer.rs:16-48). -/
def optimizeMemory (h : Handler p) (memoryBusId : Option ℕ) (s : ConstraintSystem p V)
    (solver : Solver p V) : Except Stop (ConstraintSystem p V × Solver p V) :=
  match memoryBusId with
  | none => .ok (s, solver)
  | some id => do
    let st ← redundantMemoryInteractions h id s.bus solver
    let r ← SolverOp.run h st.solver (.addAlgebraic st.newConstraints)
    pure ({ s with
      bus := (s.bus.zipIdx.filter fun x => x.2 ∉ st.toRemove).map Prod.fst
      algebraic := s.algebraic ++ st.newConstraints }, r.2)

end

end Verif
