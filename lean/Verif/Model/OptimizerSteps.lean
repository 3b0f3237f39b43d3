import Verif.Model.Optimizer

/-!
# The optimizer step by step

The passes of `optimize_constraints` (autoprecompiles/src/constraint_optimizer.rs:51-156) and `optimize`
(autoprecompiles/src/optimizer.rs:62-160) one at a time, so that a pass that fails is visible. The runs
of `Model/Optimizer` are the runs in which all passes succeed. The simplifications are the same.
-/

namespace Verif

open GExpr

variable {p : ℕ} {V : Type} [LinearOrder V]

/-- Where the optimizer is, with the current constraint system and the solver. -/
inductive OptState (p : ℕ) (V : Type) where
  /-- before `new_solver` (optimizer.rs:89) -/
  | start (s : ConstraintSystem p V)
  /-- at the beginning of `optimize_constraints` (constraint_optimizer.rs:67) -/
  | round (s : ConstraintSystem p V) (solver : Solver p V)
  /-- after `remove_trivial_constraints` (constraint_optimizer.rs:73) -/
  | solved (s : ConstraintSystem p V) (solver : Solver p V)
  /-- after `remove_free_variables` (constraint_optimizer.rs:82) -/
  | freed (s : ConstraintSystem p V) (solver : Solver p V)
  /-- after `remove_disconnected_columns` (constraint_optimizer.rs:90) -/
  | connected (s : ConstraintSystem p V) (solver : Solver p V)
  /-- after the exhaustive search (constraint_optimizer.rs:97) -/
  | searched (s : ConstraintSystem p V) (solver : Solver p V)
  /-- after `trivial_simplifications` (constraint_optimizer.rs:105) -/
  | simplified (s : ConstraintSystem p V) (solver : Solver p V)
  /-- after `rule_based_optimization` (constraint_optimizer.rs:121) -/
  | ruled (st : DriverState p V) (solver : Solver p V)
  /-- after the assignments have been given to the solver (constraint_optimizer.rs:126) -/
  | told (s : ConstraintSystem p V) (solver : Solver p V)
  /-- after `optimize_memory` (constraint_optimizer.rs:144) -/
  | remembered (s : ConstraintSystem p V) (solver : Solver p V)
  /-- at the end of `optimize_constraints` (constraint_optimizer.rs:155) -/
  | looped (s : ConstraintSystem p V) (solver : Solver p V)
  /-- after inlining (optimizer.rs:120) -/
  | inlined (s : ConstraintSystem p V) (solver : Solver p V)
  /-- after `remove_disconnected_columns` (optimizer.rs:131) -/
  | final (s : ConstraintSystem p V) (solver : Solver p V)
  /-- after `rule_based_optimization` (optimizer.rs:139) -/
  | finalRuled (s : ConstraintSystem p V)
  /-- after `optimize_range_constraints` (optimizer.rs:150) -/
  | ranged (s : ConstraintSystem p V)
  /-- after `trivial_simplifications` (optimizer.rs:160) -/
  | done (s : ConstraintSystem p V)

/-- The system after inlining (optimizer.rs:114-120); too few passes are not a result. -/
def inlineResult {α : Type} (x : Except Panic (Option α)) : Except Stop α :=
  match x with
  | .error _ => .error .panic
  | .ok none => .error .fuel
  | .ok (some a) => .ok a

variable [Fact p.Prime]

/-- One pass, its result and the variables it introduces. `n` bounds the iterations of all loops from
below: all passes may loop at least `n` times. -/
inductive OptStep (c : OptimizerConfig p V)
    (ok : RuleInput p V → ConstraintSystem p V → ConstraintSystem p V → Prop) (n : ℕ) :
    OptState p V → Except Stop (OptState p V) → List (DerivedVariable p V) → Prop
  /-- optimizer.rs:89-92 -/
  | newSolver (s) : OptStep c ok n (.start s) ((newSolver s).map (.round s)) []
  /-- constraint_optimizer.rs:68-77 -/
  | solve (s solver) (i : IndexOf s) (ch : Choices p V) (hn : n ≤ ch.fuel) :
      OptStep c ok n (.round s solver)
        ((solverBased c.handler ch i.ix solver).map fun r => .solved (removeTrivial r.1) r.2.2) []
  /-- constraint_optimizer.rs:78-82 -/
  | free (s solver) (i : IndexOf s) :
      OptStep c ok n (.solved s solver)
        ((removeFree c.handler c.isStateful i.ix solver).map fun r => .freed r.1 r.2) []
  /-- constraint_optimizer.rs:84-90 -/
  | connect (s solver) (i : IndexOf s) (ord : SetOrder V) (fuel : ℕ) (hn : n ≤ fuel) :
      OptStep c ok n (.freed s solver)
        ((removeDisconnected c.handler c.isStateful ord fuel i.ix solver).map fun r =>
          .connected r.1 r.2) []
  /-- constraint_optimizer.rs:92-97 -/
  | search (s solver) (i : IndexOf s) :
      OptStep c ok n (.connected s solver)
        ((liftPanic (simplifyExhaustive i.ix solver.get)).map fun r => .searched r solver) []
  /-- constraint_optimizer.rs:99-105 -/
  | simplify (s solver) :
      OptStep c ok n (.searched s solver)
        ((liftPanic (trivialSimplifications c.isStateful s)).map fun r => .simplified r solver) []
  /-- constraint_optimizer.rs:107-121 -/
  | rules (s solver) (lt : GExpr p V → GExpr p V → Prop) (st : DriverState p V)
      (new : List (DerivedVariable p V))
      (run : DriverRun solver.get c.handler lt c.intBits none ok (driverStart solver.get s) st new) :
      OptStep c ok n (.simplified s solver) (.ok (.ruled st.finish solver)) new
  /-- constraint_optimizer.rs:122-126 -/
  | tell (st solver) :
      OptStep c ok n (.ruled st solver)
        ((SolverOp.run c.handler solver
          (.addAlgebraic (st.assignments.map fun a => sub (var a.1) a.2))).map fun r =>
            .told st.system r.2) []
  /-- constraint_optimizer.rs:131-144 -/
  | memory (s solver) :
      OptStep c ok n (.told s solver)
        ((optimizeMemory c.handler c.memoryBusId (substituteBusFields solver s) solver).map fun r =>
          .remembered r.1 r.2) []
  /-- constraint_optimizer.rs:146-153 -/
  | lowDegree (s solver) :
      OptStep c ok n (.remembered s solver)
        ((lowDegreeOptimize c.handler c.rangeHandler c.isStateful c.bound s solver).map fun r =>
          .looped r.1 r.2) []
  /-- optimizer.rs:95-113 -/
  | again (s solver) : OptStep c ok n (.looped s solver) (.ok (.round s solver)) []
  /-- optimizer.rs:114-120 -/
  | inline (s solver) (i : IndexOf s) (passes : ℕ) (hn : n ≤ passes) :
      OptStep c ok n (.looped s solver)
        ((inlineResult (replaceConstrainedWitnessColumns passes i.ix (belowDegreeBound c.bound))).map
          fun r => .inlined r.1.sys solver) []
  /-- optimizer.rs:122-131 -/
  | connectFinal (s solver) (i : IndexOf s) (ord : SetOrder V) (fuel : ℕ) (hn : n ≤ fuel) :
      OptStep c ok n (.inlined s solver)
        ((removeDisconnected c.handler c.isStateful ord fuel i.ix solver).map fun r =>
          .final r.1 r.2) []
  /-- optimizer.rs:133-139 -/
  | rulesFinal (s solver) (lt : GExpr p V → GExpr p V → Prop) (st : DriverState p V)
      (new : List (DerivedVariable p V))
      (run : DriverRun solver.get c.handler lt c.intBits (some c.bound) ok (driverStart solver.get s)
        st new) :
      OptStep c ok n (.final s solver) (.ok (.finalRuled st.finish.system)) new
  /-- optimizer.rs:144-150 -/
  | ranges (s) (ch : Choices p V) (hn : n ≤ ch.fuel) :
      OptStep c ok n (.finalRuled s)
        ((optimizeRangeConstraints c.handler c.rangeHandler ch c.bound s).map .ranged) []
  /-- optimizer.rs:154-160 -/
  | simplifyFinal (s) :
      OptStep c ok n (.ranged s)
        ((liftPanic (trivialSimplifications c.isStateful s)).map .done) []

/-- The states that can be reached (optimizer.rs:62-160), with all variables introduced on the way. -/
inductive OptReach (c : OptimizerConfig p V)
    (ok : RuleInput p V → ConstraintSystem p V → ConstraintSystem p V → Prop) :
    OptState p V → OptState p V → List (DerivedVariable p V) → Prop
  | refl (a) : OptReach c ok a a []
  | step {a b d news new n} (h : OptReach c ok a b news) (hs : OptStep c ok n b (.ok d) new) :
      OptReach c ok a d (news ++ new)

end Verif
