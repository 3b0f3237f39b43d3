import Verif.Model.LowDegree
import Verif.Model.ConstraintOptimizer
import Verif.Model.Inliner
import Verif.Spec.Indexed
import Verif.Spec.RuleDriver

/-!
# The optimizer as a whole

`optimize_constraints` (autoprecompiles/src/constraint_optimizer.rs:51-156) and `optimize`
(autoprecompiles/src/optimizer.rs:34-197) as runs: the results of all passes in order.

Simplifications:
* Logging, statistics and export are left out. The loop of `optimize` ends when the statistics do not
  change (optimizer.rs:95-113); here it is any number of rounds, at least one.
* `rule_based_optimization` is a run of the rule driver (C57) in which all batches of replacements meet
  `ok`.
* An index of a system is any that results from a history of operations on indexed systems (C23).
* The conversion from and to symbolic machines (C36) and the execution bus (C55) are separate.
-/

namespace Verif

open GExpr

variable {p : ℕ} {V : Type} [LinearOrder V]

/-- The parameters of `optimize` (optimizer.rs:34-47). `intBits` is the size of the integer type of the
field, `pcLookupId` and `memoryBusId` are found in the bus map. -/
structure OptimizerConfig (p : ℕ) (V : Type) where
  handler : Handler p
  rangeHandler : RangeHandler p V
  isStateful : ZMod p → Bool
  memoryBusId : Option ℕ
  pcLookupId : ℕ
  bound : DegreeBound
  intBits : ℕ

/-- An index of the system, made by some history of operations. -/
structure IndexOf (s : ConstraintSystem p V) where
  base : ConstraintSystem p V
  ops : List (IndexedOp p V)
  sys : (indexedHistory base ops).sys = s

/-- The indexed system. -/
def IndexOf.ix {s : ConstraintSystem p V} (i : IndexOf s) : Indexed p V :=
  indexedHistory i.base i.ops

variable [Fact p.Prime]

/-- `optimize_constraints` (constraint_optimizer.rs:51-156). -/
structure ConstraintRound (c : OptimizerConfig p V)
    (ok : RuleInput p V → ConstraintSystem p V → ConstraintSystem p V → Prop)
    (s : ConstraintSystem p V) (solver : Solver p V) (s' : ConstraintSystem p V)
    (solver' : Solver p V) where
  /-- solver based optimization (68) -/
  ix0 : IndexOf s
  ch : Choices p V
  s1 : ConstraintSystem p V
  found : List (V × GExpr p V)
  solver1 : Solver p V
  step1 : solverBased c.handler ch ix0.ix solver = .ok (s1, found, solver1)
  /-- removal of trivial constraints and free variables (72-82) -/
  ix2 : IndexOf (removeTrivial s1)
  s3 : ConstraintSystem p V
  solver3 : Solver p V
  step3 : removeFree c.handler c.isStateful ix2.ix solver1 = .ok (s3, solver3)
  /-- removal of disconnected columns (84-90) -/
  ix3 : IndexOf s3
  ord : SetOrder V
  fuel : ℕ
  s4 : ConstraintSystem p V
  solver4 : Solver p V
  step4 : removeDisconnected c.handler c.isStateful ord fuel ix3.ix solver3 = .ok (s4, solver4)
  /-- exhaustive search (92-97) -/
  ix4 : IndexOf s4
  s5 : ConstraintSystem p V
  step5 : simplifyExhaustive ix4.ix solver4.get = .ok s5
  /-- trivial simplifications (99-105) -/
  s6 : ConstraintSystem p V
  step6 : trivialSimplifications c.isStateful s5 = .ok s6
  /-- rules (107-126) -/
  lt : GExpr p V → GExpr p V → Prop
  st : DriverState p V
  new7 : List (DerivedVariable p V)
  step7 : DriverRun solver4.get c.handler lt c.intBits none ok (driverStart solver4.get s6) st new7
  solver7 : Solver p V
  step8 : SolverOp.run c.handler solver4
    (.addAlgebraic (st.finish.assignments.map fun a => sub (var a.1) a.2)) = .ok (.unit, solver7)
  /-- bus interaction fields and memory (131-144) -/
  s9 : ConstraintSystem p V
  solver9 : Solver p V
  step9 : optimizeMemory c.handler c.memoryBusId
    (substituteBusFields solver7 st.finish.system) solver7 = .ok (s9, solver9)
  /-- low degree functions (146-153) -/
  step10 : lowDegreeOptimize c.handler c.rangeHandler c.isStateful c.bound s9 solver9 =
    .ok (s', solver')

/-- The loop (optimizer.rs:95-113). -/
inductive OptimizeLoop (c : OptimizerConfig p V)
    (ok : RuleInput p V → ConstraintSystem p V → ConstraintSystem p V → Prop) :
    ConstraintSystem p V → Solver p V → ConstraintSystem p V → Solver p V → Type
  | one {s solver s' solver'} (r : ConstraintRound c ok s solver s' solver') :
      OptimizeLoop c ok s solver s' solver'
  | more {s solver s1 solver1 s' solver'} (r : ConstraintRound c ok s solver s1 solver1)
      (rest : OptimizeLoop c ok s1 solver1 s' solver') : OptimizeLoop c ok s solver s' solver'

/-- The new variables of all rounds. -/
def OptimizeLoop.news {c : OptimizerConfig p V}
    {ok : RuleInput p V → ConstraintSystem p V → ConstraintSystem p V → Prop}
    {s s' : ConstraintSystem p V} {solver solver' : Solver p V} :
    OptimizeLoop c ok s solver s' solver' → List (DerivedVariable p V)
  | .one r => r.new7
  | .more r rest => r.new7 ++ rest.news

/-- `optimize` (optimizer.rs:62-160) on constraint systems: all passes, up to the assertions. -/
structure OptimizePasses (c : OptimizerConfig p V)
    (ok : RuleInput p V → ConstraintSystem p V → ConstraintSystem p V → Prop)
    (s s' : ConstraintSystem p V) where
  /-- `new_solver` (89-92) and the loop (94-113) -/
  solver0 : Solver p V
  step0 : newSolver s = .ok solver0
  s1 : ConstraintSystem p V
  solver1 : Solver p V
  loop : OptimizeLoop c ok s solver0 s1 solver1
  /-- inlining (114-120) -/
  ix1 : IndexOf s1
  passes : ℕ
  ix2 : Indexed p V
  inlined : List (V × GExpr p V)
  step2 : replaceConstrainedWitnessColumns passes ix1.ix (belowDegreeBound c.bound) =
    .ok (some (ix2, inlined))
  /-- disconnected columns (122-131) -/
  ix3 : IndexOf ix2.sys
  ord : SetOrder V
  fuel : ℕ
  s3 : ConstraintSystem p V
  solver3 : Solver p V
  step3 : removeDisconnected c.handler c.isStateful ord fuel ix3.ix solver1 = .ok (s3, solver3)
  /-- rules (133-139) -/
  lt : GExpr p V → GExpr p V → Prop
  st : DriverState p V
  new4 : List (DerivedVariable p V)
  step4 : DriverRun solver3.get c.handler lt c.intBits (some c.bound) ok
    (driverStart solver3.get s3) st new4
  /-- range constraints (144-150) -/
  ch : Choices p V
  s5 : ConstraintSystem p V
  step5 : optimizeRangeConstraints c.handler c.rangeHandler ch c.bound st.finish.system = .ok s5
  /-- trivial simplifications (154-160) -/
  step6 : trivialSimplifications c.isStateful s5 = .ok s'

/-- `optimize` (optimizer.rs:62-197) on constraint systems: the passes and the assertions (167-192). -/
structure OptimizeRun (c : OptimizerConfig p V)
    (ok : RuleInput p V → ConstraintSystem p V → ConstraintSystem p V → Prop)
    (s s' : ConstraintSystem p V) extends OptimizePasses c ok s s' where
  degree : ∀ e ∈ s'.algebraic, e.degree ≤ c.bound.identities
  busDegree : ∀ b ∈ s'.bus, ∀ e ∈ b.fields, e.degree ≤ c.bound.identities
  noPcLookup : ∀ b ∈ s'.bus, b.busId ≠ const (c.pcLookupId : ZMod p)

/-- The new variables of the whole run. -/
def OptimizePasses.news {c : OptimizerConfig p V}
    {ok : RuleInput p V → ConstraintSystem p V → ConstraintSystem p V → Prop}
    {s s' : ConstraintSystem p V} (r : OptimizePasses c ok s s') : List (DerivedVariable p V) :=
  r.loop.news ++ r.new4

end Verif
