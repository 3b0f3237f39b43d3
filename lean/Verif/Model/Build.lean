import Verif.Model.Optimizer
import Verif.Model.ExecBus
import Verif.Model.Empirical

/-!
# The generation of a precompile as a whole

`build` (autoprecompiles/src/lib.rs:284-390) as a run: the results of all steps in order.

Simplifications:
* Export and metrics are left out.
* Errors and panics are left out: a run is one that succeeds.
* The predicate that filters the empirical constraints in restricted mode (lib.rs:312-317) is a
  parameter.
* The optimizer works on the column ids below `N`, which is the next id after the optimization.
* The optimistic constraints (lib.rs:372-375) are separate (C66).
-/

namespace Verif

section
variable {T R R' : Type}

/-- The computation method with other references. -/
def SymMethod.mapRefs (f : R → R') : SymMethod T R → SymMethod T R'
  | constant c => constant c
  | quotientOrZero e1 e2 => quotientOrZero (e1.mapRefs f) (e2.mapRefs f)

/-- The machine with other references. Used only to go from the ids below a bound to all ids and
back; there is no such function in the code. -/
def SymMachine.renumber (f : R → R') (m : SymMachine T R) : SymMachine T R' where
  constraints := m.constraints.map (AlgExpr.mapRefs f)
  bus := m.bus.map fun b => ⟨b.id, b.mult.mapRefs f, b.args.map (AlgExpr.mapRefs f)⟩
  derived := m.derived.map fun x => (f x.1, x.2.mapRefs f)

end

/-- `From<EqualityConstraint<T>> for SymbolicConstraint<T>`
(autoprecompiles/src/empirical_constraints.rs:372-395). -/
def EqConstraint.toSymbolic {p : ℕ} (c : EqConstraint ℕ) : AlgExpr (ZMod p) ℕ :=
  .binary (.reference c.left) .sub (match c.right with
    | .inl r => .reference r
    | .inr n => .number n)

/-- `SuperBlock::instructions` (blocks/mod.rs:127-129, 34-39): the instructions with their program
counters. -/
def superBlockInstructions {I : Type} (step : ℕ) (blocks : List (BasicBlock I)) : List (ℕ × I) :=
  blocks.flatMap fun b => b.pcInstructions step

/-- The generation of the empirical constraints (lib.rs:299-335). `keep` is the filter in restricted
mode, `step` the step of the program counter. -/
structure EmpiricalRun {I T : Type} (e : EmpiricalConstraints) (step : ℕ)
    (blocks : List (BasicBlock I)) (keep : Option (BlockCell → Bool)) (m : SymMachine T ℕ)
    (subs : List (List ℕ)) (cs : List (EqConstraint ℕ)) where
  refs : List (BlockCell × ℕ)
  mapper : newReferenceMapper id subs m.refs.dedup = .ok refs
  ofBlock : BlockEmpiricalConstraints
  forBlock : e.ForBlock step blocks (.ok ofBlock)
  kept : BlockEmpiricalConstraints
  filter : (keep = none → kept = ofBlock) ∧ ∀ q, keep = some q → ofBlock.Filtered q (.ok kept)
  generate : kept.Generate (fun cell => refs.lookup cell) (superBlockPcs step blocks) (.ok cs)

/-- The steps of `build` before the optimization (lib.rs:293-340, optimizer.rs:51-69). `φ` converts
between the field of the prover (`A::Field`) and that of the optimizer (`A::PowdrField`), `air` is the machine
and the pc lookup row of an instruction at a program counter. -/
structure BuildStart {p : ℕ} [Fact p.Prime] {U I : Type} [CommRing U] (N : ℕ) (φ : U ≃+* ZMod p)
    (execBus pcBus step : ℕ) (air : ℕ × I → InstrAir U) (blocks : List (BasicBlock I))
    (e : EmpiricalConstraints) (keep : Option (BlockCell → Bool)) where
  /-- the machine of the block (lib.rs:293-297) -/
  m0 : SymMachine (ZMod p) ℕ
  a0 : ColumnAllocator
  step0 : blockMachine execBus pcBus φ ((superBlockInstructions step blocks).map air) = .ok (m0, a0)
  /-- empirical constraints (lib.rs:299-340) -/
  cs : List (EqConstraint ℕ)
  step1 : EmpiricalRun e step blocks keep m0 a0.subs cs
  /-- execution bus (optimizer.rs:51-54) -/
  m2 : SymMachine (ZMod p) ℕ
  step2 : optimizeExecBus { m0 with constraints := m0.constraints ++ cs.map EqConstraint.toSymbolic }
    execBus = .ok m2
  /-- the machine that is converted (optimizer.rs:69) -/
  m3 : SymMachine (ZMod p) (Fin N)
  step3 : m3.renumber Fin.val = m2

/-- `build` (lib.rs:284-390). -/
structure BuildRun {p : ℕ} [Fact p.Prime] {U I : Type} [CommRing U] {N : ℕ} (φ : U ≃+* ZMod p)
    (execBus step : ℕ) (c : OptimizerConfig p (Fin N))
    (ok : RuleInput p (Fin N) → ConstraintSystem p (Fin N) → ConstraintSystem p (Fin N) → Prop)
    (air : ℕ × I → InstrAir U) (blocks : List (BasicBlock I)) (e : EmpiricalConstraints)
    (keep : Option (BlockCell → Bool)) (apc : SymMachine U ℕ) (subs : List (List (ℕ × ℕ)))
    extends BuildStart N φ execBus c.pcLookupId step air blocks e keep where
  /-- optimization (optimizer.rs:69-195) -/
  s4 : ConstraintSystem p (Fin N)
  step4 : OptimizeRun c ok (machineToSystem m3) s4
  /-- the ids of new columns are issued by the allocator (optimizer.rs:58-65) -/
  issued : step4.news.Pairwise fun d d' => d.column < d'.column
  issuedAfter : ∀ d ∈ step4.news, a0.nextPolyId ≤ d.column
  allocated : a0.nextPolyId ≤ N
  issuedFor : ∀ d ∈ step4.news, ∀ v ∈ d.method.vars, v < d.column
  m5 : SymMachine (ZMod p) (Fin N)
  step5 : systemToMachine s4 = .ok m5
  /-- guards (lib.rs:362-363) -/
  m6 : SymMachine (ZMod p) ℕ
  a6 : ColumnAllocator
  step6 : addGuards (m5.renumber Fin.val) { a0 with nextPolyId := N } = .ok (m6, a6)
  /-- `Apc::new` and conversion (lib.rs:377-384) -/
  machine : apc = m6.convert φ.symm
  substitutions : subs = apcSubs m6 a6

end Verif
