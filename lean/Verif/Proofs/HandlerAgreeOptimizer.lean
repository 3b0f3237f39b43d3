import Verif.Proofs.HandlerAgreeSolver
import Verif.Proofs.OptimizerRuns

/-! Two configurations that agree on the bus interactions that occur: the optimizer does the same. -/

set_option linter.unusedSectionVars false

namespace Verif

open GExpr

variable {p : ℕ} [Fact p.Prime] {V : Type} [LinearOrder V] {h h' : Handler p} {rh rh' : RangeHandler p V}
  {s : ConstraintSystem p V} {solver : Solver p V}

theorem solverBased_agree (hs : solver.BusAll (h.AgreeOn h')) (ch : Choices p V) (ix : Indexed p V) :
    solverBased h ch ix solver = solverBased h' ch ix solver := by
  unfold solverBased
  rw [run_agree hs]

theorem removeFree_agree (f : ZMod p → Bool) (ix : Indexed p V) (solver : Solver p V) :
    removeFree h f ix solver = removeFree h' f ix solver := rfl

theorem removeDisconnected_agree (f : ZMod p → Bool) (ord : SetOrder V) (fuel : ℕ) (ix : Indexed p V)
    (solver : Solver p V) :
    removeDisconnected h f ord fuel ix solver = removeDisconnected h' f ord fuel ix solver := rfl

theorem retainDifferent_agree (a : ZMod p × GExpr p V)
    (l : List ((ZMod p × GExpr p V) × MemContent p V)) (s : Solver p V) :
    retainDifferent h a l s = retainDifferent h' a l s := by
  induction l generalizing s with
  | nil => rfl
  | cons x t ih =>
    obtain ⟨b, c⟩ := x
    rw [retainDifferent, retainDifferent]
    refine bind_congr_ok rfl ?_
    rintro ⟨d, s1⟩ -
    exact bind_congr_ok (ih s1) fun _ _ => rfl

theorem memoryStep_agree (id i : ℕ) (b : BusInteraction (GExpr p V)) (st : MemState p V) :
    memoryStep h id i b st = memoryStep h' id i b st := by
  unfold memoryStep
  refine bind_congr_ok rfl fun m _ => ?_
  cases m with
  | notMemory => rfl
  | unclear => rfl
  | memory m =>
    simp only
    split
    · rfl
    · exact bind_congr_ok (retainDifferent_agree _ _ _) fun _ _ => rfl

theorem memoryLoop_agree (id i : ℕ) (l : List (BusInteraction (GExpr p V))) (st : MemState p V) :
    memoryLoop h id i l st = memoryLoop h' id i l st := by
  induction l generalizing i st with
  | nil => rfl
  | cons b t ih =>
    rw [memoryLoop, memoryLoop]
    exact bind_congr_ok (memoryStep_agree _ _ _ _) fun st _ => ih _ st

theorem optimizeMemory_agree (id : Option ℕ) (s : ConstraintSystem p V) (solver : Solver p V) :
    optimizeMemory h id s solver = optimizeMemory h' id s solver := by
  cases id with
  | none => rfl
  | some id =>
    simp only [optimizeMemory, redundantMemoryInteractions]
    exact bind_congr_ok (memoryLoop_agree _ _ _ _) fun st _ => rfl

/-! ### Functions of low degree -/

theorem forall₂_set {α β : Type} {R : α → β → Prop} {l : List α} {l' : List β} (hl : List.Forall₂ R l l')
    {i : ℕ} {x : β} (hx : ∀ e, l[i]? = some e → R e x) : List.Forall₂ R l (l'.set i x) := by
  induction hl generalizing i with
  | nil => exact .nil
  | @cons a b t t' h1 h2 ih =>
    cases i with
    | zero => exact .cons (hx a rfl) h2
    | succ i => exact .cons h1 (ih fun e he => hx e (by simpa using he))

theorem matches_setInputs {b : BusInteraction (GExpr p V)} {r : BusInteraction (RangeConstraint p)}
    (hm : b.Matches r) {a : List (ℕ × ZMod p)}
    (ha : ∀ x ∈ a, ∀ e, b.payload[x.1]? = some e → e.tryToNumber = none) :
    b.Matches { r with payload := setInputs r.payload a } := by
  unfold setInputs
  obtain ⟨i, m, l⟩ := r
  simp only
  induction a generalizing l with
  | nil => exact hm
  | cons x t ih =>
    rw [List.foldl_cons]
    refine ih (fun y hy => ha y (List.mem_cons_of_mem _ hy)) (l.set x.1 (RangeConstraint.fromValue x.2)) ?_
    cases hm with
    | cons h1 h2 =>
      cases h2 with
      | cons h2 h3 =>
        refine .cons h1 (.cons h2 (forall₂_set h3 fun e he k hk => ?_))
        have := ha x List.mem_cons_self e he
        rw [hk] at this
        cases this

theorem testHypotheses_agree {b : BusInteraction (GExpr p V)} (hb : h.AgreeOn h' b)
    {r : BusInteraction (RangeConstraint p)} (hm : b.Matches r) {out : ℕ} {as : List (List (ℕ × ZMod p))}
    (has : ∀ a ∈ as, ∀ x ∈ a, ∀ e, b.payload[x.1]? = some e → e.tryToNumber = none)
    (hyps : List (LowDegreeFunction p V)) :
    testHypotheses h r out as hyps = testHypotheses h' r out as hyps := by
  induction as generalizing hyps with
  | nil => rfl
  | cons a t ih =>
    rw [testHypotheses, testHypotheses]
    have h1 : concreteOutput h r out a = concreteOutput h' r out a := by
      unfold concreteOutput
      rw [handleChecked_agree hb (matches_setInputs hm (has a List.mem_cons_self))]
    refine bind_congr_ok h1 fun o _ => ?_
    cases o with
    | none => rfl
    | some v =>
      refine bind_congr_ok rfl fun hyps _ => ?_
      rw [ih fun a ha => has a (List.mem_cons_of_mem _ ha)]

theorem inputValues_index {xs : List (SymbolicField p V)} {ls : List (List (ℕ × ZMod p))}
    (hv : inputValues xs = .ok ls) : ∀ a ∈ cartesian ls, ∀ y ∈ a, ∃ x ∈ xs, x.index = y.1 := by
  induction xs generalizing ls with
  | nil =>
    cases hv
    intro a ha y hy
    simp only [cartesian, List.mem_singleton] at ha
    rw [ha] at hy
    cases hy
  | cons x t ih =>
    rw [inputValues] at hv
    split at hv
    · cases hv
    · rw [Except.bind_ok_iff] at hv
      obtain ⟨rest, h1, hv⟩ := hv
      cases hv
      intro a ha y hy
      rw [mem_cartesian] at ha
      cases ha with
      | cons k1 k2 =>
        rcases List.mem_cons.1 hy with rfl | hy
        · obtain ⟨v, -, rfl⟩ := List.mem_map.1 k1
          exact ⟨x, List.mem_cons_self, rfl⟩
        · obtain ⟨z, hz, hzy⟩ := ih h1 _ (mem_cartesian.2 k2) y hy
          exact ⟨z, List.mem_cons_of_mem _ hz, hzy⟩

theorem candidate_free {b : BusInteraction (GExpr p V)} {f : SymbolicFunction p V}
    (hf : f ∈ functionCandidates solver b) {values : List (List (ℕ × ZMod p))}
    (hv : inputValues f.inputs = .ok values) :
    ∀ a ∈ cartesian values, ∀ x ∈ a, ∀ e, b.payload[x.1]? = some e → e.tryToNumber = none := by
  intro a ha y hy e he
  obtain ⟨x, hx, hxy⟩ := inputValues_index hv a ha y hy
  obtain ⟨h1, h2, -⟩ := (functionCandidates_for hf).ins x hx
  rw [← hxy, h1] at he
  cases he
  exact h2

theorem tryReplaceBus_agree {b : BusInteraction (GExpr p V)} (hb : h.AgreeOn h' b) (f : ZMod p → Bool)
    (bound : DegreeBound) : tryReplaceBus h f bound solver b = tryReplaceBus h' f bound solver b := by
  unfold tryReplaceBus
  split
  · rfl
  · split
    · rfl
    · have key : ∀ l : List (SymbolicFunction p V), (∀ g ∈ l, g ∈ functionCandidates solver b) →
          firstReplacement h bound solver b l = firstReplacement h' bound solver b l := by
        intro l
        induction l with
        | nil => intro _; rfl
        | cons g t ih =>
          intro hl
          rw [firstReplacement, firstReplacement, ih fun g hg => hl g (List.mem_cons_of_mem _ hg)]
          have : tryFunction h bound solver b g = tryFunction h' bound solver b g := by
            unfold tryFunction findLowDegreeFunction
            refine bind_congr_ok ?_ fun _ _ => rfl
            refine bind_congr_ok rfl fun hyps _ => ?_
            refine bind_congr_ok rfl fun values hv => ?_
            rw [testHypotheses_agree hb (matches_toRange _ _)
              (candidate_free (hl g List.mem_cons_self) hv)]
          rw [this]
      exact key _ fun _ h => h

theorem ambiguous_agree {b : BusInteraction (GExpr p V)} (hb : h.AgreeOn h' b)
    (ha : AmbiguousFunction h solver b) : AmbiguousFunction h' solver b := by
  obtain ⟨f, hf, hyps, values, l, h1, h2, h3, h4⟩ := ha
  refine ⟨f, hf, hyps, values, l, h1, h2, ?_, h4⟩
  rw [← testHypotheses_agree hb (matches_toRange _ _) (candidate_free hf h2), h3]

theorem lowDegreeLoop_agree {l : List (BusInteraction (GExpr p V))} (hl : ∀ b ∈ l, h.AgreeOn h' b)
    (hm : rh.make = rh'.make) (f : ZMod p → Bool) (bound : DegreeBound) :
    lowDegreeLoop h rh f bound solver l = lowDegreeLoop h' rh' f bound solver l := by
  induction l with
  | nil => rfl
  | cons b t ih =>
    rw [lowDegreeLoop, lowDegreeLoop, tryReplaceBus_agree (hl b List.mem_cons_self),
      ih fun b hb => hl b (List.mem_cons_of_mem _ hb), hm]

theorem lowDegreeOptimize_agree (hl : ∀ b ∈ s.bus, h.AgreeOn h' b) (hm : rh.make = rh'.make)
    (f : ZMod p → Bool) (bound : DegreeBound) :
    lowDegreeOptimize h rh f bound s solver = lowDegreeOptimize h' rh' f bound s solver := by
  unfold lowDegreeOptimize
  rw [lowDegreeLoop_agree hl hm]
  rfl

/-! ### Range constraints -/

theorem collectPure_agree {l : List (BusInteraction (GExpr p V))} (hl : ∀ b ∈ l, rh.pure b = rh'.pure b) :
    collectPure rh l = collectPure rh' l := by
  induction l with
  | nil => rfl
  | cons b t ih =>
    rw [collectPure, collectPure, ih fun b hb => hl b (List.mem_cons_of_mem _ hb), hl b List.mem_cons_self]

theorem newSolver_agree (hl : ∀ b ∈ s.bus, h.AgreeOn h' b) (hn : newSolver s = .ok solver) :
    solver.BusAll (h.AgreeOn h') :=
  newSolver_bus agreeOn_closed (fun b hb => (hl b hb).keeps (transform_keeps b)) hn

theorem solvedSolver_agree (hl : ∀ b ∈ s.bus, h.AgreeOn h' b) (ch : Choices p V) :
    solvedSolver h ch s = solvedSolver h' ch s := by
  unfold solvedSolver
  refine bind_congr_ok rfl fun solver hn => ?_
  rw [run_agree (newSolver_agree hl hn)]

theorem collectPure_sub {l : List (BusInteraction (GExpr p V))} {kept : List (BusInteraction (GExpr p V))}
    {rcs : RangeConstraints p V} (hr : collectPure rh l = .ok (kept, rcs)) : ∀ b ∈ kept, b ∈ l :=
  (collectPure_spec hr).1

theorem optimizeRangeConstraints_agree (hl : ∀ b ∈ s.bus, h.AgreeOn h' b)
    (hp : ∀ b ∈ s.bus, rh.pure b = rh'.pure b) (hm : rh.make = rh'.make) (ch : Choices p V)
    (bound : DegreeBound) :
    optimizeRangeConstraints h rh ch bound s = optimizeRangeConstraints h' rh' ch bound s := by
  unfold optimizeRangeConstraints
  rw [hm]
  refine bind_congr_ok (by rw [collectPure_agree hp]) ?_
  rintro ⟨kept, rcs⟩ h1
  have h1 := collectPure_sub (liftPanic_ok_iff.1 h1)
  simp only
  rw [solvedSolver_agree (s := { s with bus := kept }) fun b hb => hl b (h1 b hb)]

/-! ### The rule driver -/

theorem busRanges_agree {l : List (BusInteraction (GExpr p V))} (hl : ∀ b ∈ l, h.AgreeOn h' b)
    (rc : V → RangeConstraint p) : busRanges rc h l = busRanges rc h' l := by
  induction l with
  | nil => rfl
  | cons b t ih =>
    rw [busRanges, busRanges, ih fun b hb => hl b (List.mem_cons_of_mem _ hb),
      hl b List.mem_cons_self _ (matches_toRange rc b)]

variable {Q : BusInteraction (GExpr p V) → Prop}

theorem driverRun_agree (hQ : ShapeClosed Q) (hl : ∀ b, Q b → h.AgreeOn h' b) {rc : V → RangeConstraint p}
    {lt : GExpr p V → GExpr p V → Prop} {intBits : ℕ} {bound : Option DegreeBound}
    {ok : RuleInput p V → ConstraintSystem p V → ConstraintSystem p V → Prop} {st st' : DriverState p V}
    {news : List (DerivedVariable p V)} (h0 : ∀ b ∈ st.system.bus, Q b)
    (run : DriverRun rc h lt intBits bound ok st st' news) : DriverRun rc h' lt intBits bound ok st st' news := by
  induction run with
  | refl => exact .refl _
  | @round st1 news run new inp hinp hnew actions hactions rs hrs hok ih =>
    refine .round ih new inp ?_ hnew actions hactions rs hrs hok
    have h1 := shape_driver hQ h0 run
    unfold driverInput at hinp ⊢
    rw [← busRanges_agree fun b hb => hl b (h1 b hb)]
    exact hinp

/-! ### All passes -/

/-- The configurations agree on bus interactions of the given shape. -/
structure OptimizerConfig.Agree (c c' : OptimizerConfig p V) (Q : BusInteraction (GExpr p V) → Prop) :
    Prop where
  closed : ShapeClosed Q
  handler : ∀ b, Q b → c.handler.AgreeOn c'.handler b
  pure : ∀ b, Q b → c.rangeHandler.pure b = c'.rangeHandler.pure b
  make : c.rangeHandler.make = c'.rangeHandler.make
  stateful : c.isStateful = c'.isStateful
  memory : c.memoryBusId = c'.memoryBusId
  bound : c.bound = c'.bound
  bits : c.intBits = c'.intBits

theorem OptimizerConfig.Agree.symm {c c' : OptimizerConfig p V} (h : c.Agree c' Q) : c'.Agree c Q :=
  ⟨h.closed, fun b hb r hr => (h.handler b hb r hr).symm, fun b hb => (h.pure b hb).symm, h.make.symm,
    h.stateful.symm, h.memory.symm, h.bound.symm, h.bits.symm⟩

/-- All bus interactions of the system and those of the solver have the given shapes. -/
def OptState.Shaped (Q : BusInteraction (GExpr p V) → Prop)
    (B : BusInteraction (GExpr p (SVar V)) → Prop) : OptState p V → Prop
  | .start s => ∀ b ∈ s.bus, Q b
  | .finalRuled s => ∀ b ∈ s.bus, Q b
  | .ranged s => ∀ b ∈ s.bus, Q b
  | .done s => ∀ b ∈ s.bus, Q b
  | .ruled st solver => (∀ b ∈ st.system.bus, Q b) ∧ solver.BusAll B
  | .round s solver => (∀ b ∈ s.bus, Q b) ∧ solver.BusAll B
  | .solved s solver => (∀ b ∈ s.bus, Q b) ∧ solver.BusAll B
  | .freed s solver => (∀ b ∈ s.bus, Q b) ∧ solver.BusAll B
  | .connected s solver => (∀ b ∈ s.bus, Q b) ∧ solver.BusAll B
  | .searched s solver => (∀ b ∈ s.bus, Q b) ∧ solver.BusAll B
  | .simplified s solver => (∀ b ∈ s.bus, Q b) ∧ solver.BusAll B
  | .told s solver => (∀ b ∈ s.bus, Q b) ∧ solver.BusAll B
  | .remembered s solver => (∀ b ∈ s.bus, Q b) ∧ solver.BusAll B
  | .looped s solver => (∀ b ∈ s.bus, Q b) ∧ solver.BusAll B
  | .inlined s solver => (∀ b ∈ s.bus, Q b) ∧ solver.BusAll B
  | .final s solver => (∀ b ∈ s.bus, Q b) ∧ solver.BusAll B

theorem OptState.Shaped.mono {Q Q' : BusInteraction (GExpr p V) → Prop}
    {B B' : BusInteraction (GExpr p (SVar V)) → Prop} (hQ : ∀ b, Q b → Q' b) (hB : ∀ b, B b → B' b)
    {st : OptState p V} (hst : st.Shaped Q B) : st.Shaped Q' B' := by
  cases st with
  | start s => exact fun b hb => hQ b (hst b hb)
  | finalRuled s => exact fun b hb => hQ b (hst b hb)
  | ranged s => exact fun b hb => hQ b (hst b hb)
  | done s => exact fun b hb => hQ b (hst b hb)
  | _ => exact ⟨fun b hb => hQ b (hst.1 b hb), fun b hb => hB b (hst.2 b hb)⟩

variable {c c' : OptimizerConfig p V}
  {ok : RuleInput p V → ConstraintSystem p V → ConstraintSystem p V → Prop} {n : ℕ}

/-- The same passes have the same results. -/
theorem OptStep.transfer (ha : c.Agree c' Q) {st : OptState p V}
    (hst : st.Shaped Q (c.handler.AgreeOn c'.handler)) {r : Except Stop (OptState p V)}
    {new : List (DerivedVariable p V)} (hs : OptStep c ok n st r new) : OptStep c' ok n st r new := by
  cases hs with
  | newSolver s => exact .newSolver s
  | solve s solver i ch hf => rw [solverBased_agree hst.2]; exact .solve s solver i ch hf
  | free s solver i => rw [ha.stateful]; exact .free s solver i
  | connect s solver i ord fuel hf => rw [ha.stateful]; exact .connect s solver i ord fuel hf
  | search s solver i => exact .search s solver i
  | simplify s solver => rw [ha.stateful]; exact .simplify s solver
  | rules s solver lt st new run =>
    refine .rules s solver lt st new ?_
    rw [← ha.bits]
    exact driverRun_agree ha.closed ha.handler hst.1 run
  | tell st solver => exact .tell st solver
  | memory s solver => rw [optimizeMemory_agree (h' := c'.handler), ha.memory]; exact .memory s solver
  | lowDegree s solver =>
    rw [lowDegreeOptimize_agree (fun b hb => ha.handler b (hst.1 b hb)) ha.make, ha.stateful, ha.bound]
    exact .lowDegree s solver
  | again s solver => exact .again s solver
  | inline s solver i passes hf => rw [ha.bound]; exact .inline s solver i passes hf
  | connectFinal s solver i ord fuel hf => rw [ha.stateful]; exact .connectFinal s solver i ord fuel hf
  | rulesFinal s solver lt st new run =>
    refine .rulesFinal s solver lt st new ?_
    rw [← ha.bits, ← ha.bound]
    exact driverRun_agree ha.closed ha.handler hst.1 run
  | ranges s ch hf =>
    rw [optimizeRangeConstraints_agree (fun b hb => ha.handler b (hst b hb))
      (fun b hb => ha.pure b (hst b hb)) ha.make, ha.bound]
    exact .ranges s ch hf
  | simplifyFinal s => rw [ha.stateful]; exact .simplifyFinal s

variable {B : BusInteraction (GExpr p (SVar V)) → Prop}

theorem removeFree_bus (hi : IndexOf s) {f : ZMod p → Bool} {s' : ConstraintSystem p V} {solver' : Solver p V}
    (hB : BusClosed B) (hs : (∀ b ∈ s.bus, Q b) ∧ solver.BusAll B)
    (hr : removeFree h f hi.ix solver = .ok (s', solver')) : (∀ b ∈ s'.bus, Q b) ∧ solver'.BusAll B := by
  obtain ⟨delete, -, h2, -, rfl⟩ := removeFree_ok hr
  refine ⟨fun b hb => ?_, run_bus hB (by simp) hs.2 h2⟩
  have := (List.mem_filter.1 hb).1
  rw [IndexOf.ix, hi.sys] at this
  exact hs.1 b this

theorem removeDisconnected_bus (hi : IndexOf s) {f : ZMod p → Bool} {s' : ConstraintSystem p V}
    {solver' : Solver p V} {ord : SetOrder V} {fuel : ℕ}
    (hB : BusClosed B) (hs : (∀ b ∈ s.bus, Q b) ∧ solver.BusAll B)
    (hr : removeDisconnected h f ord fuel hi.ix solver = .ok (s', solver')) :
    (∀ b ∈ s'.bus, Q b) ∧ solver'.BusAll B := by
  obtain ⟨keep, -, h2, -, rfl⟩ := removeDisconnected_ok hi.inv hr
  refine ⟨fun b hb => ?_, run_bus hB (by simp) hs.2 h2⟩
  have := (List.mem_filter.1 hb).1
  rw [IndexOf.ix, hi.sys] at this
  exact hs.1 b this

theorem addressesDiffer_bus {a b : ZMod p × GExpr p V} {o : Bool} {s s' : Solver p V} (hB : BusClosed B)
    (hs : s.BusAll B) (hr : addressesDiffer h a b s = .ok (o, s')) : s'.BusAll B := by
  unfold addressesDiffer at hr
  rw [Except.bind_ok_iff] at hr
  obtain ⟨⟨o1, s1⟩, h1, hr⟩ := hr
  have k1 := run_bus hB (by simp) hs h1
  split at hr
  · rename_i heq
    cases heq
    cases hr
    exact k1
  · rename_i heq
    cases heq
    rw [Except.bind_ok_iff] at hr
    obtain ⟨⟨o2, s2⟩, h2, hr⟩ := hr
    have k2 := run_bus hB (by simp) k1 h2
    split at hr
    · rename_i heq; cases heq; cases hr; exact k2
    · rename_i heq; cases heq; cases hr; exact k2

theorem retainDifferent_bus {a : ZMod p × GExpr p V} (hB : BusClosed B)
    {l l' : List ((ZMod p × GExpr p V) × MemContent p V)} {s s' : Solver p V} (hs : s.BusAll B)
    (hr : retainDifferent h a l s = .ok (l', s')) : s'.BusAll B := by
  induction l generalizing s l' with
  | nil => cases hr; exact hs
  | cons x t ih =>
    obtain ⟨b, c⟩ := x
    rw [retainDifferent, Except.bind_ok_iff] at hr
    obtain ⟨⟨d, s1⟩, h1, hr⟩ := hr
    simp only at hr
    rw [Except.bind_ok_iff] at hr
    obtain ⟨⟨t', s2⟩, h2, hr⟩ := hr
    cases hr
    exact ih (addressesDiffer_bus hB hs h1) h2

theorem memoryLoop_bus (hB : BusClosed B) {id i : ℕ} {l : List (BusInteraction (GExpr p V))}
    {st st' : MemState p V} (hs : st.solver.BusAll B) (hr : memoryLoop h id i l st = .ok st') :
    st'.solver.BusAll B := by
  induction l generalizing i st with
  | nil => cases hr; exact hs
  | cons b t ih =>
    rw [memoryLoop, Except.bind_ok_iff] at hr
    obtain ⟨st1, h1, hr⟩ := hr
    refine ih ?_ hr
    unfold memoryStep at h1
    rw [Except.bind_ok_iff] at h1
    obtain ⟨m, -, h1⟩ := h1
    cases m with
    | notMemory => cases h1; exact hs
    | unclear => cases h1; exact hs
    | memory m =>
      simp only at h1
      split at h1
      · split at h1
        · rw [Except.bind_ok_iff] at h1
          obtain ⟨new, -, h1⟩ := h1
          cases h1
          exact hs
        · cases h1; exact hs
      · rw [Except.bind_ok_iff] at h1
        obtain ⟨⟨l', s1⟩, h2, h1⟩ := h1
        cases h1
        exact retainDifferent_bus hB hs h2

theorem optimizeMemory_bus (hB : BusClosed B) {id : Option ℕ} {s' : ConstraintSystem p V}
    {solver' : Solver p V} (hs : (∀ b ∈ s.bus, Q b) ∧ solver.BusAll B)
    (hr : optimizeMemory h id s solver = .ok (s', solver')) : (∀ b ∈ s'.bus, Q b) ∧ solver'.BusAll B := by
  cases id with
  | none => cases hr; exact hs
  | some id =>
    simp only [optimizeMemory, redundantMemoryInteractions] at hr
    rw [Except.bind_ok_iff] at hr
    obtain ⟨st, h1, hr⟩ := hr
    rw [Except.bind_ok_iff] at hr
    obtain ⟨⟨o, s1⟩, h2, hr⟩ := hr
    cases hr
    refine ⟨fun b hb => ?_, run_bus hB (by simp) (memoryLoop_bus hB hs.2 h1) h2⟩
    obtain ⟨x, hx, rfl⟩ := List.mem_map.1 hb
    exact hs.1 _ ((List.mem_zipIdx' (List.mem_filter.1 hx).1).2 ▸ List.getElem_mem _)

/-- Every pass keeps the shapes. -/
theorem OptStep.shaped (hQ : ShapeClosed Q) (hB : BusClosed B) (hQB : ∀ b, Q b → B (b.map transformExpr))
    (hm : c.rangeHandler.Makes Q) {st st' : OptState p V} (hst : st.Shaped Q B)
    {new : List (DerivedVariable p V)} (hs : OptStep c ok n st (.ok st') new) : st'.Shaped Q B := by
  generalize hres : (Except.ok st' : Except Stop (OptState p V)) = res at hs
  cases hs with
  | newSolver s =>
    obtain ⟨solver, h1, rfl⟩ := map_ok_inv hres.symm
    exact ⟨hst, newSolver_bus hB (fun b hb => hQB b (hst b hb)) h1⟩
  | solve s solver i ch hf =>
    obtain ⟨⟨s1, found, solver1⟩, h1, rfl⟩ := map_ok_inv hres.symm
    refine ⟨fun b hb => ?_, run_bus hB (by simp) hst.2 (solverBased_ok h1).1⟩
    exact shape_solverBased hQ i.inv (by rw [IndexOf.ix, i.sys]; exact hst.1) h1 b (List.mem_filter.1 hb).1
  | free s solver i =>
    obtain ⟨⟨s1, solver1⟩, h1, rfl⟩ := map_ok_inv hres.symm
    exact removeFree_bus i hB hst h1
  | connect s solver i ord fuel hf =>
    obtain ⟨⟨s1, solver1⟩, h1, rfl⟩ := map_ok_inv hres.symm
    exact removeDisconnected_bus i hB hst h1
  | search s solver i =>
    obtain ⟨s1, h1, rfl⟩ := map_ok_inv hres.symm
    exact ⟨shape_simplifyExhaustive hQ (by rw [IndexOf.ix, i.sys]; exact hst.1) (liftPanic_ok_iff.1 h1), hst.2⟩
  | simplify s solver =>
    obtain ⟨s1, h1, rfl⟩ := map_ok_inv hres.symm
    exact ⟨shape_trivial hst.1 (liftPanic_ok_iff.1 h1), hst.2⟩
  | rules s solver lt st new run =>
    cases hres
    exact ⟨shape_driver hQ (st := driverStart solver.get s) (st' := st) hst.1 run, hst.2⟩
  | tell st solver =>
    obtain ⟨⟨out, solver1⟩, h1, rfl⟩ := map_ok_inv hres.symm
    exact ⟨hst.1, run_bus hB (by simp) hst.2 h1⟩
  | memory s solver =>
    obtain ⟨⟨s1, solver1⟩, h1, rfl⟩ := map_ok_inv hres.symm
    exact optimizeMemory_bus hB ⟨shape_substituteBusFields hQ hst.1, hst.2⟩ h1
  | lowDegree s solver =>
    obtain ⟨⟨s1, solver1⟩, h1, rfl⟩ := map_ok_inv hres.symm
    refine ⟨shape_lowDegree hm hst.1 h1, ?_⟩
    obtain ⟨r, out, -, h2, -⟩ := lowDegreeOptimize_ok h1
    exact run_bus hB (by simp) hst.2 h2
  | again s solver => cases hres; exact hst
  | inline s solver i passes hf =>
    obtain ⟨⟨ix2, inlined⟩, h1, rfl⟩ := map_ok_inv hres.symm
    refine ⟨?_, hst.2⟩
    have h1 : replaceConstrainedWitnessColumns passes i.ix (belowDegreeBound c.bound) =
        .ok (some (ix2, inlined)) := by
      cases h2 : replaceConstrainedWitnessColumns passes i.ix (belowDegreeBound c.bound) with
      | error e => rw [h2] at h1; cases h1
      | ok o =>
        rw [h2] at h1
        cases o with
        | none => cases h1
        | some a => cases h1; rfl
    exact shape_inline hQ i.inv (by rw [IndexOf.ix, i.sys]; exact hst.1) h1
  | connectFinal s solver i ord fuel hf =>
    obtain ⟨⟨s1, solver1⟩, h1, rfl⟩ := map_ok_inv hres.symm
    exact removeDisconnected_bus i hB hst h1
  | rulesFinal s solver lt st new run =>
    cases hres
    exact shape_driver hQ (st := driverStart solver.get s) (st' := st) hst.1 run
  | ranges s ch hf =>
    obtain ⟨s1, h1, rfl⟩ := map_ok_inv hres.symm
    exact shape_ranges hm hst h1
  | simplifyFinal s =>
    obtain ⟨s1, h1, rfl⟩ := map_ok_inv hres.symm
    exact shape_trivial hst (liftPanic_ok_iff.1 h1)

theorem OptReach.shaped (hQ : ShapeClosed Q) (hB : BusClosed B) (hQB : ∀ b, Q b → B (b.map transformExpr))
    (hm : c.rangeHandler.Makes Q) {st st' : OptState p V} (hst : st.Shaped Q B)
    {news : List (DerivedVariable p V)} (hr : OptReach c ok st st' news) : st'.Shaped Q B := by
  induction hr with
  | refl => exact hst
  | step _ hs ih => exact hs.shaped hQ hB hQB hm ih

theorem OptReach.transfer (ha : c.Agree c' Q) (hm : c.rangeHandler.Makes Q) {st st' : OptState p V}
    (hst : st.Shaped Q (c.handler.AgreeOn c'.handler)) {news : List (DerivedVariable p V)}
    (hr : OptReach c ok st st' news) : OptReach c' ok st st' news := by
  induction hr with
  | refl => exact .refl _
  | step hr hs ih =>
    exact ih.step (hs.transfer ha (hr.shaped ha.closed agreeOn_closed
      (fun b hb => (ha.handler b hb).keeps (transform_keeps b)) hm hst))

theorem OptState.MayPanic.transfer (ha : c.Agree c' Q) {st : OptState p V}
    (hst : st.Shaped Q (c.handler.AgreeOn c'.handler)) (hp : st.MayPanic c) : st.MayPanic c' := by
  cases st with
  | remembered s solver =>
    obtain ⟨b, hb, h1, h2⟩ := hp
    exact ⟨b, hb, ha.stateful ▸ h1, ambiguous_agree (ha.handler b (hst.1 b hb)) h2⟩
  | finalRuled s =>
    obtain ⟨kept, rcs, wanted, h1, h2, h3⟩ := hp
    refine ⟨kept, rcs, wanted, ?_, h2, ha.make ▸ h3⟩
    rw [← collectPure_agree fun b hb => ha.pure b (hst b hb)]
    exact h1
  | _ => exact hp

end Verif
