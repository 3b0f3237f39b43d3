import Verif.Proofs.OptimizerSteps

/-! Sequences of passes are the runs of `Model/Optimizer`. -/

set_option linter.unusedSectionVars false

namespace Verif

open GExpr

variable {p : ℕ} {V : Type} [LinearOrder V] [Fact p.Prime] {c : OptimizerConfig p V}

section
variable {ok : RuleInput p V → ConstraintSystem p V → ConstraintSystem p V → Prop} {n : ℕ}
  {d : OptState p V} {s' : ConstraintSystem p V} {solver' : Solver p V}
  {l : List (DerivedVariable p V)}

/-- What leads to a state. -/
def OptState.Before (c : OptimizerConfig p V)
    (ok : RuleInput p V → ConstraintSystem p V → ConstraintSystem p V → Prop)
    (d : OptState p V) (l : List (DerivedVariable p V)) : OptState p V → Prop
  | .start _ => False
  | .round s solver => (d = .start s ∧ newSolver s = .ok solver ∧ l = []) ∨ (d = .looped s solver ∧ l = [])
  | .solved s solver => ∃ s0 solver0, d = .round s0 solver0 ∧ l = [] ∧ ∃ (i : IndexOf s0) (ch : Choices p V),
      ∃ s1 found, solverBased c.handler ch i.ix solver0 = .ok (s1, found, solver) ∧ s = removeTrivial s1
  | .freed s solver => ∃ s0 solver0, d = .solved s0 solver0 ∧ l = [] ∧ ∃ i : IndexOf s0,
      removeFree c.handler c.isStateful i.ix solver0 = .ok (s, solver)
  | .connected s solver => ∃ s0 solver0, d = .freed s0 solver0 ∧ l = [] ∧ ∃ (i : IndexOf s0) (ord : SetOrder V),
      ∃ fuel, removeDisconnected c.handler c.isStateful ord fuel i.ix solver0 = .ok (s, solver)
  | .searched s solver => ∃ s0, d = .connected s0 solver ∧ l = [] ∧ ∃ i : IndexOf s0,
      simplifyExhaustive i.ix solver.get = .ok s
  | .simplified s solver => ∃ s0, d = .searched s0 solver ∧ l = [] ∧
      trivialSimplifications c.isStateful s0 = .ok s
  | .ruled st solver => ∃ s0, d = .simplified s0 solver ∧ ∃ lt st', st = st'.finish ∧
      DriverRun solver.get c.handler lt c.intBits none ok (driverStart solver.get s0) st' l
  | .told s solver => ∃ st solver0, d = .ruled st solver0 ∧ l = [] ∧ s = st.system ∧
      SolverOp.run c.handler solver0
          (.addAlgebraic (st.assignments.map fun a => sub (var a.1) a.2)) = .ok (.unit, solver)
  | .remembered s solver => ∃ s0 solver0, d = .told s0 solver0 ∧ l = [] ∧
      optimizeMemory c.handler c.memoryBusId (substituteBusFields solver0 s0) solver0 = .ok (s, solver)
  | .looped s solver => ∃ s0 solver0, d = .remembered s0 solver0 ∧ l = [] ∧
      lowDegreeOptimize c.handler c.rangeHandler c.isStateful c.bound s0 solver0 = .ok (s, solver)
  | .inlined s solver => ∃ s0, d = .looped s0 solver ∧ l = [] ∧ ∃ (i : IndexOf s0), ∃ passes ix subs,
      replaceConstrainedWitnessColumns passes i.ix (belowDegreeBound c.bound) = .ok (some (ix, subs)) ∧
      s = ix.sys
  | .final s solver => ∃ s0 solver0, d = .inlined s0 solver0 ∧ l = [] ∧ ∃ (i : IndexOf s0) (ord : SetOrder V),
      ∃ fuel, removeDisconnected c.handler c.isStateful ord fuel i.ix solver0 = .ok (s, solver)
  | .finalRuled s => ∃ s0 solver, d = .final s0 solver ∧ ∃ lt st', s = st'.finish.system ∧
      DriverRun solver.get c.handler lt c.intBits (some c.bound) ok (driverStart solver.get s0) st' l
  | .ranged s => ∃ s0, d = .finalRuled s0 ∧ l = [] ∧ ∃ ch,
      optimizeRangeConstraints c.handler c.rangeHandler ch c.bound s0 = .ok s
  | .done s => ∃ s0, d = .ranged s0 ∧ l = [] ∧ trivialSimplifications c.isStateful s0 = .ok s

theorem OptStep.before {b : OptState p V} (h : OptStep c ok n d (.ok b) l) : OptState.Before c ok d l b := by
  generalize hres : (Except.ok b : Except Stop (OptState p V)) = res at h
  cases h with
  | newSolver s =>
    obtain ⟨solver, h1, rfl⟩ := map_ok_inv hres.symm
    exact Or.inl ⟨rfl, h1, rfl⟩
  | solve s solver i ch hf =>
    obtain ⟨⟨s1, found, solver1⟩, h1, rfl⟩ := map_ok_inv hres.symm
    exact ⟨_, _, rfl, rfl, i, ch, s1, found, h1, rfl⟩
  | free s solver i =>
    obtain ⟨⟨s1, solver1⟩, h1, rfl⟩ := map_ok_inv hres.symm
    exact ⟨_, _, rfl, rfl, i, h1⟩
  | connect s solver i ord fuel hf =>
    obtain ⟨⟨s1, solver1⟩, h1, rfl⟩ := map_ok_inv hres.symm
    exact ⟨_, _, rfl, rfl, i, ord, fuel, h1⟩
  | search s solver i =>
    obtain ⟨s1, h1, rfl⟩ := map_ok_inv hres.symm
    exact ⟨_, rfl, rfl, i, liftPanic_ok_iff.1 h1⟩
  | simplify s solver =>
    obtain ⟨s1, h1, rfl⟩ := map_ok_inv hres.symm
    exact ⟨_, rfl, rfl, liftPanic_ok_iff.1 h1⟩
  | rules s solver lt st new run =>
    cases hres
    exact ⟨_, rfl, lt, st, rfl, run⟩
  | tell st solver =>
    obtain ⟨⟨out, solver1⟩, h1, rfl⟩ := map_ok_inv hres.symm
    refine ⟨_, _, rfl, rfl, rfl, ?_⟩
    have h2 := h1
    simp only [SolverOp.run] at h2
    rw [Except.bind_ok_iff] at h2
    obtain ⟨s2, -, h2⟩ := h2
    cases h2
    exact h1
  | memory s solver =>
    obtain ⟨⟨s1, solver1⟩, h1, rfl⟩ := map_ok_inv hres.symm
    exact ⟨_, _, rfl, rfl, h1⟩
  | lowDegree s solver =>
    obtain ⟨⟨s1, solver1⟩, h1, rfl⟩ := map_ok_inv hres.symm
    exact ⟨_, _, rfl, rfl, h1⟩
  | again s solver =>
    cases hres
    exact Or.inr ⟨rfl, rfl⟩
  | inline s solver i passes hf =>
    obtain ⟨⟨ix2, inlined⟩, h1, rfl⟩ := map_ok_inv hres.symm
    refine ⟨_, rfl, rfl, i, passes, ix2, inlined, ?_, rfl⟩
    cases h2 : replaceConstrainedWitnessColumns passes i.ix (belowDegreeBound c.bound) with
    | error e => rw [h2] at h1; cases h1
    | ok o =>
      rw [h2] at h1
      cases o with
      | none => cases h1
      | some a => cases h1; rfl
  | connectFinal s solver i ord fuel hf =>
    obtain ⟨⟨s1, solver1⟩, h1, rfl⟩ := map_ok_inv hres.symm
    exact ⟨_, _, rfl, rfl, i, ord, fuel, h1⟩
  | rulesFinal s solver lt st new run =>
    cases hres
    exact ⟨_, _, rfl, lt, st, rfl, run⟩
  | ranges s ch hf =>
    obtain ⟨s1, h1, rfl⟩ := map_ok_inv hres.symm
    exact ⟨_, rfl, rfl, ch, h1⟩
  | simplifyFinal s =>
    obtain ⟨s1, h1, rfl⟩ := map_ok_inv hres.symm
    exact ⟨_, rfl, rfl, liftPanic_ok_iff.1 h1⟩

end

/-- A loop with one more round. -/
theorem OptimizeLoop.snoc {ok : RuleInput p V → ConstraintSystem p V → ConstraintSystem p V → Prop}
    {s s1 s' : ConstraintSystem p V} {solver solver1 solver' : Solver p V}
    (l : OptimizeLoop c ok s solver s1 solver1) (r : ConstraintRound c ok s1 solver1 s' solver') :
    ∃ l' : OptimizeLoop c ok s solver s' solver', l'.news = l.news ++ r.new7 := by
  induction l with
  | one r0 => exact ⟨.more r0 (.one r), rfl⟩
  | more r0 rest ih =>
    obtain ⟨l', h⟩ := ih r
    exact ⟨.more r0 l', by rw [OptimizeLoop.news, h, OptimizeLoop.news, List.append_assoc]⟩

/-- What has been done from the start. -/
def From.looped (c : OptimizerConfig p V)
    (ok : RuleInput p V → ConstraintSystem p V → ConstraintSystem p V → Prop)
    (s0 : ConstraintSystem p V) (l : List (DerivedVariable p V)) (s : ConstraintSystem p V) (solver : Solver p V) : Prop :=
  ∃ solver0, newSolver s0 = .ok solver0 ∧
    ∃ k : OptimizeLoop c ok s0 solver0 s solver, k.news = l

/-- What has been done from the start. -/
def From.round (c : OptimizerConfig p V)
    (ok : RuleInput p V → ConstraintSystem p V → ConstraintSystem p V → Prop)
    (s0 : ConstraintSystem p V) (l : List (DerivedVariable p V)) (s : ConstraintSystem p V) (solver : Solver p V) : Prop :=
  (s = s0 ∧ newSolver s0 = .ok solver ∧ l = []) ∨ From.looped c ok s0 l s solver

/-- What has been done from the start. -/
def From.solved (c : OptimizerConfig p V)
    (ok : RuleInput p V → ConstraintSystem p V → ConstraintSystem p V → Prop)
    (s0 : ConstraintSystem p V) (l : List (DerivedVariable p V)) (s : ConstraintSystem p V) (solver : Solver p V) : Prop :=
  ∃ sa solvera, From.round c ok s0 l sa solvera ∧ ∃ (i : IndexOf sa) (ch : Choices p V),
    ∃ s1 found, solverBased c.handler ch i.ix solvera = .ok (s1, found, solver) ∧ s = removeTrivial s1

/-- What has been done from the start. -/
def From.freed (c : OptimizerConfig p V)
    (ok : RuleInput p V → ConstraintSystem p V → ConstraintSystem p V → Prop)
    (s0 : ConstraintSystem p V) (l : List (DerivedVariable p V)) (s : ConstraintSystem p V) (solver : Solver p V) : Prop :=
  ∃ sa solvera, From.solved c ok s0 l sa solvera ∧ ∃ i : IndexOf sa,
    removeFree c.handler c.isStateful i.ix solvera = .ok (s, solver)

/-- What has been done from the start. -/
def From.connected (c : OptimizerConfig p V)
    (ok : RuleInput p V → ConstraintSystem p V → ConstraintSystem p V → Prop)
    (s0 : ConstraintSystem p V) (l : List (DerivedVariable p V)) (s : ConstraintSystem p V) (solver : Solver p V) : Prop :=
  ∃ sa solvera, From.freed c ok s0 l sa solvera ∧ ∃ (i : IndexOf sa) (ord : SetOrder V),
    ∃ fuel, removeDisconnected c.handler c.isStateful ord fuel i.ix solvera = .ok (s, solver)

/-- What has been done from the start. -/
def From.searched (c : OptimizerConfig p V)
    (ok : RuleInput p V → ConstraintSystem p V → ConstraintSystem p V → Prop)
    (s0 : ConstraintSystem p V) (l : List (DerivedVariable p V)) (s : ConstraintSystem p V) (solver : Solver p V) : Prop :=
  ∃ sa, From.connected c ok s0 l sa solver ∧ ∃ i : IndexOf sa,
    simplifyExhaustive i.ix solver.get = .ok s

/-- What has been done from the start. -/
def From.simplified (c : OptimizerConfig p V)
    (ok : RuleInput p V → ConstraintSystem p V → ConstraintSystem p V → Prop)
    (s0 : ConstraintSystem p V) (l : List (DerivedVariable p V)) (s : ConstraintSystem p V) (solver : Solver p V) : Prop :=
  ∃ sa, From.searched c ok s0 l sa solver ∧ trivialSimplifications c.isStateful sa = .ok s

/-- What has been done from the start. -/
def From.ruled (c : OptimizerConfig p V)
    (ok : RuleInput p V → ConstraintSystem p V → ConstraintSystem p V → Prop)
    (s0 : ConstraintSystem p V) (l : List (DerivedVariable p V)) (st : DriverState p V) (solver : Solver p V) : Prop :=
  ∃ sa l1 l2, l = l1 ++ l2 ∧ From.simplified c ok s0 l1 sa solver ∧ ∃ lt st', st = st'.finish ∧
    DriverRun solver.get c.handler lt c.intBits none ok (driverStart solver.get sa) st' l2

/-- What has been done from the start. -/
def From.told (c : OptimizerConfig p V)
    (ok : RuleInput p V → ConstraintSystem p V → ConstraintSystem p V → Prop)
    (s0 : ConstraintSystem p V) (l : List (DerivedVariable p V)) (s : ConstraintSystem p V) (solver : Solver p V) : Prop :=
  ∃ st solvera, From.ruled c ok s0 l st solvera ∧ s = st.system ∧ SolverOp.run c.handler solvera
    (.addAlgebraic (st.assignments.map fun a => sub (var a.1) a.2)) = .ok (.unit, solver)

/-- What has been done from the start. -/
def From.remembered (c : OptimizerConfig p V)
    (ok : RuleInput p V → ConstraintSystem p V → ConstraintSystem p V → Prop)
    (s0 : ConstraintSystem p V) (l : List (DerivedVariable p V)) (s : ConstraintSystem p V) (solver : Solver p V) : Prop :=
  ∃ sa solvera, From.told c ok s0 l sa solvera ∧
    optimizeMemory c.handler c.memoryBusId (substituteBusFields solvera sa) solvera = .ok (s, solver)

/-- What has been done from the start. -/
def From.inlined (c : OptimizerConfig p V)
    (ok : RuleInput p V → ConstraintSystem p V → ConstraintSystem p V → Prop)
    (s0 : ConstraintSystem p V) (l : List (DerivedVariable p V)) (s : ConstraintSystem p V) (solver : Solver p V) : Prop :=
  ∃ sa, From.looped c ok s0 l sa solver ∧ ∃ (i : IndexOf sa), ∃ passes ix subs,
    replaceConstrainedWitnessColumns passes i.ix (belowDegreeBound c.bound) = .ok (some (ix, subs)) ∧
    s = ix.sys

/-- What has been done from the start. -/
def From.final (c : OptimizerConfig p V)
    (ok : RuleInput p V → ConstraintSystem p V → ConstraintSystem p V → Prop)
    (s0 : ConstraintSystem p V) (l : List (DerivedVariable p V)) (s : ConstraintSystem p V) (solver : Solver p V) : Prop :=
  ∃ sa solvera, From.inlined c ok s0 l sa solvera ∧ ∃ (i : IndexOf sa) (ord : SetOrder V),
    ∃ fuel, removeDisconnected c.handler c.isStateful ord fuel i.ix solvera = .ok (s, solver)

/-- What has been done from the start. -/
def From.finalRuled (c : OptimizerConfig p V)
    (ok : RuleInput p V → ConstraintSystem p V → ConstraintSystem p V → Prop)
    (s0 : ConstraintSystem p V) (l : List (DerivedVariable p V)) (s : ConstraintSystem p V) : Prop :=
  ∃ sa solver l1 l2, l = l1 ++ l2 ∧ From.final c ok s0 l1 sa solver ∧ ∃ lt st', s = st'.finish.system ∧
    DriverRun solver.get c.handler lt c.intBits (some c.bound) ok (driverStart solver.get sa) st' l2

/-- What has been done from the start. -/
def From.ranged (c : OptimizerConfig p V)
    (ok : RuleInput p V → ConstraintSystem p V → ConstraintSystem p V → Prop)
    (s0 : ConstraintSystem p V) (l : List (DerivedVariable p V)) (s : ConstraintSystem p V) : Prop :=
  ∃ sa, From.finalRuled c ok s0 l sa ∧ ∃ ch,
    optimizeRangeConstraints c.handler c.rangeHandler ch c.bound sa = .ok s

/-- What has been done from the start. -/
def OptState.From (c : OptimizerConfig p V)
    (ok : RuleInput p V → ConstraintSystem p V → ConstraintSystem p V → Prop)
    (s0 : ConstraintSystem p V) (l : List (DerivedVariable p V)) : OptState p V → Prop
  | .start s => s = s0 ∧ l = []
  | .looped s solver => From.looped c ok s0 l s solver
  | .round s solver => From.round c ok s0 l s solver
  | .solved s solver => From.solved c ok s0 l s solver
  | .freed s solver => From.freed c ok s0 l s solver
  | .connected s solver => From.connected c ok s0 l s solver
  | .searched s solver => From.searched c ok s0 l s solver
  | .simplified s solver => From.simplified c ok s0 l s solver
  | .ruled s solver => From.ruled c ok s0 l s solver
  | .told s solver => From.told c ok s0 l s solver
  | .remembered s solver => From.remembered c ok s0 l s solver
  | .inlined s solver => From.inlined c ok s0 l s solver
  | .final s solver => From.final c ok s0 l s solver
  | .finalRuled s => From.finalRuled c ok s0 l s
  | .ranged s => From.ranged c ok s0 l s
  | .done s => ∃ r : OptimizePasses c ok s0 s, r.news = l

theorem From.looped_of {ok : RuleInput p V → ConstraintSystem p V → ConstraintSystem p V → Prop}
    {s0 s s' : ConstraintSystem p V} {solver solver' : Solver p V} {l : List (DerivedVariable p V)}
    (h : From.remembered c ok s0 l s solver)
    (h10 : lowDegreeOptimize c.handler c.rangeHandler c.isStateful c.bound s solver = .ok (s', solver')) :
    From.looped c ok s0 l s' solver' := by
  obtain ⟨s8, solver7, ⟨st, solver4, ⟨s6, l1, l2, rfl, ⟨s5, ⟨s4, ⟨s3, solver3, ⟨s2, solver1, ⟨sa, solvera,
    hround, i0, ch, s1, found, h1, rfl⟩, i2, h3⟩, i3, ord, fuel, h4⟩, i4, h5⟩, h6⟩, lt, st', rfl, h7⟩, rfl,
    h8⟩, h9⟩ := h
  let r : ConstraintRound c ok sa solvera s' solver' := ⟨i0, ch, s1, found, solver1, h1, i2, s3, solver3, h3,
    i3, ord, fuel, s4, solver4, h4, i4, s5, h5, s6, h6, lt, st', l2, h7, solver7, h8, s, solver, h9, h10⟩
  rcases hround with ⟨rfl, h0, rfl⟩ | ⟨solver0, h0, k, rfl⟩
  · exact ⟨solvera, h0, .one r, rfl⟩
  · obtain ⟨k', hk⟩ := k.snoc r
    exact ⟨solver0, h0, k', hk⟩

theorem From.done_of {ok : RuleInput p V → ConstraintSystem p V → ConstraintSystem p V → Prop}
    {s0 s s' : ConstraintSystem p V} {l : List (DerivedVariable p V)}
    (h : From.ranged c ok s0 l s) (h6 : trivialSimplifications c.isStateful s = .ok s') :
    ∃ r : OptimizePasses c ok s0 s', r.news = l := by
  obtain ⟨s4, ⟨s3, solver3, l1, l2, rfl, ⟨s2, solver1, ⟨s1, ⟨solver0, h0, k, rfl⟩, i1, passes, ix, subs, h2,
    rfl⟩, i3, ord, fuel, h3⟩, lt, st', rfl, h4⟩, ch, h5⟩ := h
  exact ⟨⟨solver0, h0, s1, solver1, k, i1, passes, ix, subs, h2, i3, ord, fuel, s3, solver3, h3, lt, st', l2,
    h4, ch, s, h5, h6⟩, rfl⟩

theorem OptReach.from_start {ok : RuleInput p V → ConstraintSystem p V → ConstraintSystem p V → Prop}
    {s0 : ConstraintSystem p V} {b : OptState p V} {l : List (DerivedVariable p V)}
    (h : OptReach c ok (.start s0) b l) : b.From c ok s0 l := by
  induction h with
  | refl => exact ⟨rfl, rfl⟩
  | @step b d l1 l2 n h hs ih =>
    have hb := hs.before
    cases d with
    | start s => exact hb.elim
    | round s solver =>
      rcases hb with ⟨rfl, h1, rfl⟩ | ⟨rfl, rfl⟩
      · obtain ⟨rfl, rfl⟩ := ih
        exact Or.inl ⟨rfl, h1, rfl⟩
      · rw [List.append_nil]
        exact Or.inr ih
    | solved s solver =>
      obtain ⟨sa, solvera, rfl, rfl, hb⟩ := hb
      rw [List.append_nil]
      exact ⟨sa, solvera, ih, hb⟩
    | freed s solver =>
      obtain ⟨sa, solvera, rfl, rfl, hb⟩ := hb
      rw [List.append_nil]
      exact ⟨sa, solvera, ih, hb⟩
    | connected s solver =>
      obtain ⟨sa, solvera, rfl, rfl, hb⟩ := hb
      rw [List.append_nil]
      exact ⟨sa, solvera, ih, hb⟩
    | searched s solver =>
      obtain ⟨sa, rfl, rfl, hb⟩ := hb
      rw [List.append_nil]
      exact ⟨sa, ih, hb⟩
    | simplified s solver =>
      obtain ⟨sa, rfl, rfl, hb⟩ := hb
      rw [List.append_nil]
      exact ⟨sa, ih, hb⟩
    | ruled st solver =>
      obtain ⟨sa, rfl, hb⟩ := hb
      exact ⟨sa, l1, l2, rfl, ih, hb⟩
    | told s solver =>
      obtain ⟨sa, solvera, rfl, rfl, hb⟩ := hb
      rw [List.append_nil]
      exact ⟨sa, solvera, ih, hb⟩
    | remembered s solver =>
      obtain ⟨sa, solvera, rfl, rfl, hb⟩ := hb
      rw [List.append_nil]
      exact ⟨sa, solvera, ih, hb⟩
    | looped s solver =>
      obtain ⟨sa, solvera, rfl, rfl, hb⟩ := hb
      rw [List.append_nil]
      exact From.looped_of ih hb
    | inlined s solver =>
      obtain ⟨sa, rfl, rfl, hb⟩ := hb
      rw [List.append_nil]
      exact ⟨sa, ih, hb⟩
    | final s solver =>
      obtain ⟨sa, solvera, rfl, rfl, hb⟩ := hb
      rw [List.append_nil]
      exact ⟨sa, solvera, ih, hb⟩
    | finalRuled s =>
      obtain ⟨sa, solver, rfl, hb⟩ := hb
      exact ⟨sa, solver, l1, l2, rfl, ih, hb⟩
    | ranged s =>
      obtain ⟨sa, rfl, rfl, hb⟩ := hb
      rw [List.append_nil]
      exact ⟨sa, ih, hb⟩
    | done s =>
      obtain ⟨sa, rfl, rfl, hb⟩ := hb
      rw [List.append_nil]
      exact From.done_of ih hb

end Verif
