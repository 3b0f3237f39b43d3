import Verif.Model.Build
import Verif.Model.Optimistic

/-!
# Model of the optimistic literals and of the execution constraints

`autoprecompiles/src/optimistic/execution_literals.rs` and
`autoprecompiles/src/optimistic/execution_constraint_generator.rs`.

Simplifications:
* As in `Verif.Model.Build`, the optimizer works on the column ids below some `N`, and a run is one that
  succeeds.
* The `BTreeMap` is the list of the pairs it is collected from. Its lookup finds the last pair with the key.
-/

namespace Verif

open GExpr

section
variable {p : ℕ} [Fact p.Prime] {U : Type} [CommRing U] {N : ℕ}

/-- `optimize` (optimizer.rs:40-197) of a machine, with an allocator made from the machine
(execution_literals.rs:82-95). -/
structure MachineOptimizeRun (execBus : ℕ) (c : OptimizerConfig p (Fin N))
    (ok : RuleInput p (Fin N) → ConstraintSystem p (Fin N) → ConstraintSystem p (Fin N) → Prop)
    (m m' : SymMachine (ZMod p) ℕ) where
  /-- execution bus (optimizer.rs:51-54) -/
  m2 : SymMachine (ZMod p) ℕ
  step2 : optimizeExecBus m execBus = .ok m2
  /-- conversion and optimization (optimizer.rs:69-195) -/
  m3 : SymMachine (ZMod p) (Fin N)
  step3 : m3.renumber Fin.val = m2
  s4 : ConstraintSystem p (Fin N)
  step4 : OptimizeRun c ok (machineToSystem m3) s4
  /-- the ids of new columns are issued by the allocator (optimizer.rs:58-65) -/
  issued : step4.news.Pairwise fun d d' => d.column < d'.column
  issuedAfter : ∀ d ∈ step4.news, (ColumnAllocator.fromMaxPolyId m).nextPolyId ≤ d.column
  issuedFor : ∀ d ∈ step4.news, ∀ v ∈ d.method.vars, v < d.column
  m5 : SymMachine (ZMod p) (Fin N)
  step5 : systemToMachine s4 = .ok m5
  result : m' = m5.renumber Fin.val

/-- `ConcreteMemoryAccess` (execution_literals.rs:53-57). -/
structure ConcreteAccess (p : ℕ) where
  instrIdx : ℕ
  address : List (ZMod p)
  limbs : List ℕ

/-- `try_extract_concrete_memory_access` (execution_literals.rs:105-141). -/
def concreteAccess (memoryBusId idx : ℕ) (b : SymBus (ZMod p) ℕ) :
    Except Panic (Option (ConcreteAccess p)) := do
  match ← memConversion memoryBusId (symBusToBus b) with
  | .memory m =>
    match m.pointer.tryToKnown, m.data.mapM tryToSimpleUnknown with
    | some pointer, some limbs => pure (some ⟨match m.op with
        | .getPrevious => idx
        | .setNew => idx + 1, [m.space, pointer], limbs⟩)
    | _, _ => pure none
  | _ => pure none

/-- `generate_limb_mapping` (execution_literals.rs:146-171). -/
def limbMapping (a : ColumnAllocator) (x : ConcreteAccess p) : List (ℕ × OptLiteral (List (ZMod p))) :=
  x.limbs.zipIdx.filterMap fun l =>
    if a.isKnownId l.1 then some (l.1, ⟨x.instrIdx, .registerLimb x.address l.2⟩) else none

/-- The iterator over the machines (execution_literals.rs:35-50), from number `idx` on: the pairs of each
instruction. -/
def instrLiterals (memoryBusId : ℕ) (a : ColumnAllocator) : ℕ → List (SymMachine (ZMod p) ℕ) →
    Except Panic (List (List (ℕ × OptLiteral (List (ZMod p)))))
  | _, [] => .ok []
  | idx, m :: t => do
    let accesses ← m.bus.mapM (concreteAccess memoryBusId idx)
    let rest ← instrLiterals memoryBusId a (idx + 1) t
    pure ((accesses.reduceOption.flatMap (limbMapping a)) :: rest)

/-- `BTreeMap::get` of the collected map. -/
def literalOf (literals : List (ℕ × OptLiteral (List (ZMod p)))) (r : ℕ) :
    Option (OptLiteral (List (ZMod p))) :=
  literals.reverse.lookup r

/-- `optimistic_literals` (execution_literals.rs:23-50). -/
structure LiteralsRun (φ : U ≃+* ZMod p) (execBus memoryBusId : ℕ) (c : OptimizerConfig p (Fin N))
    (ok : RuleInput p (Fin N) → ConstraintSystem p (Fin N) → ConstraintSystem p (Fin N) → Prop)
    (is : List (InstrAir U)) (literals : List (ℕ × OptLiteral (List (ZMod p)))) where
  next : ℕ
  subs : List (List ℕ)
  ms : List (SymMachine (ZMod p) ℕ)
  machines : instructionMachines execBus c.pcLookupId φ 0 is = .ok (next, subs, ms)
  optimized : List (SymMachine (ZMod p) ℕ)
  length : optimized.length = ms.length
  optimize : ∀ (k : ℕ) (m m' : SymMachine (ZMod p) ℕ), ms[k]? = some m → optimized[k]? = some m' →
    MachineOptimizeRun execBus c ok m m'
  byInstr : List (List (ℕ × OptLiteral (List (ZMod p))))
  accesses : instrLiterals memoryBusId ⟨subs, next⟩ 0 optimized = .ok byInstr
  result : literals = byInstr.flatten

/-- The numbers on both sides (execution_constraint_generator.rs:33-35): `T::from` and back,
`try_into_u32().unwrap()`. -/
def numberToU32 (p n : ℕ) : Except LoopStop ℕ :=
  if (n : ZMod p).val < 2 ^ 32 then .ok (n : ZMod p).val else .error .panic

/-- The references (execution_constraint_generator.rs:36-39). -/
def optimisticReference {A : Type} (literals : ℕ → Option (OptLiteral A)) (r : ℕ) :
    Except LoopStop (OptExpr A ℕ) :=
  match literals r with
  | none => .error .panic
  | some l => .ok (.literal l)

/-- `get_optimistic_expression` (execution_constraint_generator.rs:28-41). -/
def optimisticExpression {A : Type} (p : ℕ) (literals : ℕ → Option (OptLiteral A)) :
    ℕ ⊕ ℕ → Except LoopStop (OptExpr A ℕ)
  | .inl r => optimisticReference literals r
  | .inr n => do
    let n ← numberToU32 p n
    pure (.number n)

/-- `generate_execution_constraints` (execution_constraint_generator.rs:14-26). -/
def executionConstraints {A : Type} (p : ℕ) (literals : ℕ → Option (OptLiteral A)) :
    List (EqConstraint ℕ) → Except LoopStop (List (OptConstraint A ℕ))
  | [] => .ok []
  | k :: t => do
    let left ← optimisticReference literals k.left
    let right ← optimisticExpression p literals k.right
    let rest ← executionConstraints p literals t
    pure (⟨left, right⟩ :: rest)

end

end Verif
