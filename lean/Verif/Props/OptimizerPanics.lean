import Verif.Proofs.OpenVmPanics

/-!
# C96: the optimizer does not panic with handlers that only accept certain bus interactions
-/

set_option linter.unusedSectionVars false

namespace Verif

open GExpr

variable {p : ℕ} [Fact p.Prime] {V : Type} [LinearOrder V] [Fintype V]

/-- C96: if the handlers accept bus interactions of a certain form, then the optimizer does not panic on
systems that consist of such bus interactions and have an execution, except in the two ways described by
`OptState.MayPanic`. -/
theorem C96_no_panic (hV : Fintype.card V ≤ p) (c : OptimizerConfig p V) (bus : Bus p)
    (hc : c.Correct bus) (Q : BusInteraction (GExpr p V) → Prop) (hp : c.PanicFreeOn Q)
    (s : ConstraintSystem p V) (hQ : ∀ b ∈ s.bus, Q b) (hw : s.WF) (hd : s.DerivedWF)
    (size : ZMod p → ℕ) (hreg : ∀ b ∈ s.bus, RegularBus c.memoryBusId size b)
    (m m' : Memory p) (ok : RuleInput p V → ConstraintSystem p V → ConstraintSystem p V → Prop)
    (σ : V → ZMod p) (hcmp : ComparisonsRight σ ok) (hσ : s.Execution bus c.memoryBusId σ m m')
    (hcomp : s.Computed σ)
    (he : ∀ t news, OptReach c ok (.start s) (.finalRuled t) news →
      (∀ d ∈ news, d.Computed σ) → t.Satisfied bus σ → ∃ w, c.rangeHandler.Exact bus w t.bus)
    (st : OptState p V) (news : List (DerivedVariable p V))
    (hreach : OptReach c ok (.start s) st news) (hnews : ∀ d ∈ news, d.Computed σ) :
    st.MayPanic c ∨ ∃ N, ∀ n, N ≤ n → ∀ r new, OptStep c ok n st r new → ∃ st', r = .ok st' := by
  have hst := hp.shaped hQ hreach
  rcases C95_no_panic hV c.totalize bus hc.totalize hp.totalize s hw hd size hreg m m' ok σ hcmp hσ hcomp
    (fun t news h1 h2 h3 => by
      obtain ⟨w, h⟩ := he t news ((hp.reach hQ _ _).2 h1) h2 h3
      exact ⟨w, h.totalize⟩) st news ((hp.reach hQ _ _).1 hreach) hnews with h | ⟨N, h⟩
  · exact Or.inl (h.transfer hp.agree.symm hst.symm)
  · exact Or.inr ⟨N, fun n hn r new hs => h n hn r new (hs.transfer hp.agree hst)⟩

/-- C96: in all states that are reached, the bus interactions have the form that the handlers accept, and
the system has the given execution. -/
theorem C96_invariant (hV : Fintype.card V ≤ p) (c : OptimizerConfig p V) (bus : Bus p)
    (hc : c.Correct bus) (Q : BusInteraction (GExpr p V) → Prop) (hp : c.PanicFreeOn Q)
    (s : ConstraintSystem p V) (hQ : ∀ b ∈ s.bus, Q b) (hw : s.WF) (hd : s.DerivedWF)
    (size : ZMod p → ℕ) (hreg : ∀ b ∈ s.bus, RegularBus c.memoryBusId size b)
    (m m' : Memory p) (ok : RuleInput p V → ConstraintSystem p V → ConstraintSystem p V → Prop)
    (σ : V → ZMod p) (hcmp : ComparisonsRight σ ok) (hσ : s.Execution bus c.memoryBusId σ m m')
    (hcomp : s.Computed σ)
    (he : ∀ t news, OptReach c ok (.start s) (.finalRuled t) news →
      (∀ d ∈ news, d.Computed σ) → t.Satisfied bus σ → ∃ w, c.rangeHandler.Exact bus w t.bus)
    (st : OptState p V) (news : List (DerivedVariable p V))
    (hreach : OptReach c ok (.start s) st news) (hnews : ∀ d ∈ news, d.Computed σ) :
    (∀ b ∈ st.system.bus, Q b) ∧ st.system.Execution bus c.memoryBusId σ m m' := by
  have g := (OptReach.good hV hc.totalize hp.totalize (start_good (c := c.totalize) hw hd hreg hσ hcomp) hcmp
    ((hp.reach hQ _ _).1 hreach) hnews fun t news h1 h2 h3 => by
      obtain ⟨w, h⟩ := he t news ((hp.reach hQ _ _).2 h1) h2 h3
      exact ⟨w, h.totalize⟩).system
  exact ⟨(hp.shaped hQ hreach).system, g.stage.sat σ rfl, g.stage.memory σ rfl⟩

/-- C96: if none of the two panics is possible in a state that is reached, then the optimizer can be
completed from every state that is reached. -/
theorem C96_completes (hV : Fintype.card V ≤ p) (c : OptimizerConfig p V) (bus : Bus p)
    (hc : c.Correct bus) (Q : BusInteraction (GExpr p V) → Prop) (hp : c.PanicFreeOn Q)
    (s : ConstraintSystem p V) (hQ : ∀ b ∈ s.bus, Q b) (hw : s.WF) (hd : s.DerivedWF)
    (size : ZMod p → ℕ) (hreg : ∀ b ∈ s.bus, RegularBus c.memoryBusId size b)
    (m m' : Memory p) (ok : RuleInput p V → ConstraintSystem p V → ConstraintSystem p V → Prop)
    (σ : V → ZMod p) (hcmp : ComparisonsRight σ ok) (hσ : s.Execution bus c.memoryBusId σ m m')
    (hcomp : s.Computed σ)
    (he : ∀ t news, OptReach c ok (.start s) (.finalRuled t) news →
      (∀ d ∈ news, d.Computed σ) → t.Satisfied bus σ → ∃ w, c.rangeHandler.Exact bus w t.bus)
    (hmay : ∀ st news, OptReach c ok (.start s) st news → (∀ d ∈ news, d.Computed σ) → ¬ st.MayPanic c)
    (st : OptState p V) (news : List (DerivedVariable p V))
    (hreach : OptReach c ok (.start s) st news) (hnews : ∀ d ∈ news, d.Computed σ) :
    ∃ s', OptReach c ok (.start s) (.done s') news := by
  obtain ⟨s', h⟩ := C95_completes hV c.totalize bus hc.totalize hp.totalize s hw hd size hreg m m' ok σ hcmp
    hσ hcomp
    (fun t news h1 h2 h3 => by
      obtain ⟨w, h⟩ := he t news ((hp.reach hQ _ _).2 h1) h2 h3
      exact ⟨w, h.totalize⟩)
    (fun st news h1 h2 h3 => hmay st news ((hp.reach hQ _ _).2 h1) h2
      (h3.transfer hp.agree.symm (hp.shaped hQ ((hp.reach hQ _ _).2 h1)).symm))
    st news ((hp.reach hQ _ _).1 hreach) hnews
  exact ⟨s', (hp.reach hQ _ _).2 h⟩

omit [Fintype V] in
/-- C96: the rule driver does not panic either: whenever it prepares the input of the rules, the handler
accepts all bus interactions. -/
theorem C96_rules (c : OptimizerConfig p V) (Q : BusInteraction (GExpr p V) → Prop) (hp : c.PanicFreeOn Q)
    (s : ConstraintSystem p V) (hQ : ∀ b ∈ s.bus, Q b)
    (ok : RuleInput p V → ConstraintSystem p V → ConstraintSystem p V → Prop)
    (t : ConstraintSystem p V) (solver : Solver p V) (news : List (DerivedVariable p V))
    (hreach : OptReach c ok (.start s) (.simplified t solver) news ∨
      OptReach c ok (.start s) (.final t solver) news)
    (lt : GExpr p V → GExpr p V → Prop) (bound : Option DegreeBound) (st : DriverState p V)
    (new : List (DerivedVariable p V))
    (run : DriverRun solver.get c.handler lt c.intBits bound ok (driverStart solver.get t) st new)
    (requested : V → ComputationMethod p (GExpr p V) → Prop) :
    ∃ inp, driverInput solver.get c.handler lt requested c.intBits st = .ok inp := by
  have h1 : ∀ b ∈ t.bus, Q b := by
    rcases hreach with h | h
    · exact (hp.shaped hQ h).1
    · exact (hp.shaped hQ h).1
  have h2 := shape_driver hp.closed (st := driverStart solver.get t) h1 run
  have key : ∀ l : List (BusInteraction (GExpr p V)), (∀ b ∈ l, Q b) →
      ∃ r, busRanges solver.get c.handler l = .ok r := by
    intro l
    induction l with
    | nil => exact fun _ => ⟨_, rfl⟩
    | cons b t ih =>
      intro hl
      obtain ⟨r, hr⟩ := ih fun b hb => hl b (List.mem_cons_of_mem _ hb)
      obtain ⟨r', hr'⟩ := hp.handler b (hl b List.mem_cons_self) _ (matches_toRange solver.get b)
      rw [busRanges, hr, hr']
      exact ⟨_, rfl⟩
  obtain ⟨r, hr⟩ := key _ h2
  unfold driverInput
  rw [hr]
  exact ⟨_, rfl⟩

/-! ### OpenVM -/

/-- C96: with the buses of OpenVM, on a system of well-formed bus interactions that has an execution, no
pass of the optimizer panics, except for one case: in the low-degree optimizer, a bus interaction
agrees with two of the functions that are tried. -/
theorem C96_openvm_no_panic (hV : Fintype.card V ≤ p) (bm : BusMap) (hm : bm.Fits p) (hf : bm.Complete)
    (h26 : 2 ^ 26 ≤ p) (h32 : p ≤ 2 ^ 32) (memoryBusId : Option ℕ)
    (hmem : ∀ id, memoryBusId = some id → (id, BusType.memory) ∈ bm)
    (pcLookupId : ℕ) (bound : DegreeBound) (intBits : ℕ) (hint : 2 * (p - 1) < 2 ^ intBits)
    (s : ConstraintSystem p V) (hs : ∀ b ∈ s.bus, OpenVmShape bm b) (hw : s.WF) (hd : s.DerivedWF)
    (size : ZMod p → ℕ) (hreg : ∀ b ∈ s.bus, RegularBus memoryBusId size b)
    (m m' : Memory p) (ok : RuleInput p V → ConstraintSystem p V → ConstraintSystem p V → Prop)
    (σ : V → ZMod p) (hcmp : ComparisonsRight σ ok)
    (hσ : s.Execution (openVmBus bm) memoryBusId σ m m') (hcomp : s.Computed σ)
    (st : OptState p V) (news : List (DerivedVariable p V))
    (hreach : OptReach (openVmConfig bm memoryBusId pcLookupId bound intBits) ok (.start s) st news)
    (hnews : ∀ d ∈ news, d.Computed σ) :
    (∃ t solver, st = .remembered t solver ∧ ∃ b ∈ t.bus, AmbiguousFunction (openVmHandler bm) solver b) ∨
    ∃ N, ∀ n, N ≤ n → ∀ r new,
      OptStep (openVmConfig bm memoryBusId pcLookupId bound intBits) ok n st r new → ∃ st', r = .ok st' := by
  have hc : (openVmConfig bm memoryBusId pcLookupId bound intBits : OptimizerConfig p V).Correct
      (openVmBus bm) := C62_openvm bm hm h26
    (fun x hx => lt_of_lt_of_le (hm.ids x hx) (le_trans h32 (by norm_num))) memoryBusId hmem pcLookupId bound
    intBits hint
  have hp := openVm_panicFreeOn (V := V) hm hf h26 h32 memoryBusId pcLookupId bound intBits
  have he : ∀ t news, OptReach (openVmConfig bm memoryBusId pcLookupId bound intBits) ok (.start s)
      (.finalRuled t) news → (∀ d ∈ news, d.Computed σ) → t.Satisfied (openVmBus bm) σ →
      ∃ w, (openVmRangeHandler bm : RangeHandler p V).Exact (openVmBus bm) w t.bus :=
    fun t _ _ _ h => ⟨_, openVm_exact_satisfied hm hf h26 h⟩
  rcases C96_no_panic hV _ _ hc _ hp s hs hw hd size hreg m m' ok σ hcmp hσ hcomp he st news hreach
    hnews with h | h
  · left
    cases st with
    | remembered t solver =>
      obtain ⟨b, hb, -, h⟩ := h
      exact ⟨t, solver, rfl, b, hb, h⟩
    | finalRuled t =>
      obtain ⟨kept, rcs, wanted, h1, h2, h3⟩ := h
      have := C96_invariant hV _ _ hc _ hp s hs hw hd size hreg m m' ok σ hcmp hσ hcomp he _ news hreach
        hnews
      exact absurd h3 (openVm_wanted hm hf h26 this.2.sat h1 h2)
    | _ => exact h.elim
  · exact Or.inr h

/-- C96: with the buses of OpenVM, if a bus interaction agrees with only one of the functions in all
states that are reached, then the optimizer can be completed from every state that is reached. -/
theorem C96_openvm_completes (hV : Fintype.card V ≤ p) (bm : BusMap) (hm : bm.Fits p) (hf : bm.Complete)
    (h26 : 2 ^ 26 ≤ p) (h32 : p ≤ 2 ^ 32) (memoryBusId : Option ℕ)
    (hmem : ∀ id, memoryBusId = some id → (id, BusType.memory) ∈ bm)
    (pcLookupId : ℕ) (bound : DegreeBound) (intBits : ℕ) (hint : 2 * (p - 1) < 2 ^ intBits)
    (s : ConstraintSystem p V) (hs : ∀ b ∈ s.bus, OpenVmShape bm b) (hw : s.WF) (hd : s.DerivedWF)
    (size : ZMod p → ℕ) (hreg : ∀ b ∈ s.bus, RegularBus memoryBusId size b)
    (m m' : Memory p) (ok : RuleInput p V → ConstraintSystem p V → ConstraintSystem p V → Prop)
    (σ : V → ZMod p) (hcmp : ComparisonsRight σ ok)
    (hσ : s.Execution (openVmBus bm) memoryBusId σ m m') (hcomp : s.Computed σ)
    (hamb : ∀ t solver news, OptReach (openVmConfig bm memoryBusId pcLookupId bound intBits) ok (.start s)
      (.remembered t solver) news → (∀ d ∈ news, d.Computed σ) →
      ∀ b ∈ t.bus, ¬ AmbiguousFunction (openVmHandler bm) solver b)
    (st : OptState p V) (news : List (DerivedVariable p V))
    (hreach : OptReach (openVmConfig bm memoryBusId pcLookupId bound intBits) ok (.start s) st news)
    (hnews : ∀ d ∈ news, d.Computed σ) :
    ∃ s', OptReach (openVmConfig bm memoryBusId pcLookupId bound intBits) ok (.start s) (.done s') news := by
  have hc : (openVmConfig bm memoryBusId pcLookupId bound intBits : OptimizerConfig p V).Correct
      (openVmBus bm) := C62_openvm bm hm h26
    (fun x hx => lt_of_lt_of_le (hm.ids x hx) (le_trans h32 (by norm_num))) memoryBusId hmem pcLookupId bound
    intBits hint
  have hp := openVm_panicFreeOn (V := V) hm hf h26 h32 memoryBusId pcLookupId bound intBits
  have he : ∀ t news, OptReach (openVmConfig bm memoryBusId pcLookupId bound intBits) ok (.start s)
      (.finalRuled t) news → (∀ d ∈ news, d.Computed σ) → t.Satisfied (openVmBus bm) σ →
      ∃ w, (openVmRangeHandler bm : RangeHandler p V).Exact (openVmBus bm) w t.bus :=
    fun t _ _ _ h => ⟨_, openVm_exact_satisfied hm hf h26 h⟩
  refine C96_completes hV _ _ hc _ hp s hs hw hd size hreg m m' ok σ hcmp hσ hcomp he ?_ st news hreach hnews
  intro st news hreach hnews h
  cases st with
  | remembered t solver =>
    obtain ⟨b, hb, -, h⟩ := h
    exact hamb t solver news hreach hnews b hb h
  | finalRuled t =>
    obtain ⟨kept, rcs, wanted, h1, h2, h3⟩ := h
    have := C96_invariant hV _ _ hc _ hp s hs hw hd size hreg m m' ok σ hcmp hσ hcomp he _ news hreach hnews
    exact openVm_wanted hm hf h26 this.2.sat h1 h2 h3
  | _ => exact h

omit [Fintype V] in
/-- C96: whether a bus is stateful is known for all buses of all systems that are reached. -/
theorem C96_openvm_buses (bm : BusMap) (hm : bm.Fits p) (hf : bm.Complete)
    (h26 : 2 ^ 26 ≤ p) (h32 : p ≤ 2 ^ 32) (memoryBusId : Option ℕ) (pcLookupId : ℕ) (bound : DegreeBound)
    (intBits : ℕ) (s : ConstraintSystem p V) (hs : ∀ b ∈ s.bus, OpenVmShape bm b)
    (ok : RuleInput p V → ConstraintSystem p V → ConstraintSystem p V → Prop)
    (st : OptState p V) (news : List (DerivedVariable p V))
    (hreach : OptReach (openVmConfig bm memoryBusId pcLookupId bound intBits) ok (.start s) st news) :
    ∀ b ∈ st.system.bus, ∃ i r, b.busId = const i ∧ isStateful bm i = .ok r := by
  have hp := openVm_panicFreeOn (V := V) hm hf h26 h32 memoryBusId pcLookupId bound intBits
  intro b hb
  obtain ⟨i, t, h1, h2, -⟩ := (hp.shaped hs hreach).system b hb
  refine ⟨i, ?_⟩
  unfold isStateful
  rw [toU64_total (le_trans h32 (by norm_num))]
  simp only [bind, Except.bind, BusMap.busType]
  rw [mapGet_of_mem hm.keys h2]
  exact ⟨_, h1, rfl⟩

/-! ### The solver -/

omit [Fintype V] in
theorem runOps_agree {h h' : Handler p} {ops : List (SolverOp p V)} {s : Solver p V}
    (hs : s.BusAll (h.AgreeOn h')) (ho : ∀ bs, .addBus bs ∈ ops → ∀ b ∈ bs, h.AgreeOn h' b) :
    runOps h ops s = runOps h' ops s := by
  induction ops generalizing s with
  | nil => rfl
  | cons op t ih =>
    rw [runOps, runOps, run_agree hs]
    refine bind_congr_ok rfl ?_
    rintro ⟨out, s1⟩ h1
    rw [← run_agree hs] at h1
    have h2 : s1.BusAll (h.AgreeOn h') := run_bus agreeOn_closed
      (by rintro bs rfl b hb; exact (ho bs List.mem_cons_self b hb).keeps (transform_keeps b)) hs h1
    rw [ih h2 fun bs hbs => ho bs (List.mem_cons_of_mem _ hbs)]

omit [Fintype V] in
/-- C96: no sequence of calls of the solver panics if the handler accepts all bus interactions that are
added, whatever is derived for their fields; assignments found by `add_range_constraint` have to be fetched
before `retain_variables` as in C21. -/
theorem C96_solver (bus : Bus p) (h : Handler p) (hs : h.Sound bus) (hp : 2 < p) (hp' : p ≤ 2 ^ 64)
    (ops : List (SolverOp p V)) (hw : ∀ op ∈ ops, op.WF)
    (ha : ∀ bs, .addBus bs ∈ ops → ∀ b ∈ bs, h.Accepts b) (hr : RetainSafe false ops) :
    runOps h ops Solver.new ≠ .error .panic := by
  rw [runOps_agree (h' := h.totalize) new_bus fun bs hbs b hb => (ha bs hbs b hb).agree]
  exact C21_no_panic bus h.totalize (Handler.totalize_sound hs) h.totalize_total hp hp' ops hw hr

omit [Fintype V] in
/-- C96: the same for OpenVM. -/
theorem C96_openvm_solver (bm : BusMap) (hm : bm.Fits p) (hp : 25 < p) (h32 : p ≤ 2 ^ 32)
    (ops : List (SolverOp p V)) (hw : ∀ op ∈ ops, op.WF)
    (ha : ∀ bs, .addBus bs ∈ ops → ∀ b ∈ bs, OpenVmShape bm b) (hr : RetainSafe false ops) :
    runOps (openVmHandler bm) ops Solver.new ≠ .error .panic :=
  C96_solver (openVmBus bm) _ (openVmHandler_sound hp hm) (by omega) (le_trans h32 (by norm_num)) ops hw
    (fun bs hbs b hb => openVm_accepts hm h32 (ha bs hbs b hb)) hr

/-! ### Samples -/

attribute [local instance] fact_babyBear

theorem default_complete : BusMap.default.Complete := by
  refine ⟨⟨3, by decide⟩, ⟨6, by decide⟩, ⟨7, 2 ^ 8, 8 * 2 ^ 8, by decide⟩, fun id s0 s1 h => ?_⟩
  simp only [BusMap.default, List.mem_cons, Prod.mk.injEq, reduceCtorEq, and_false, false_or,
    BusType.other.injEq, OpenVmBusType.tupleRangeChecker.injEq, List.not_mem_nil, or_false] at h
  obtain ⟨-, rfl, rfl⟩ := h
  exact ⟨rfl, 11, by norm_num, by norm_num⟩

/-- The memory operations of the sample for C62, a byte check and the exclusive or of the value read and
another byte. -/
def openVmSample : ConstraintSystem 2013265921 (Fin 5) where
  algebraic := [var 0 - const 5]
  bus := [⟨const 1, const 1, [const 2, const 7, var 0, const 3]⟩,
    ⟨const 1, const (-1), [const 2, const 7, var 1, var 2]⟩,
    ⟨const 3, const 1, [var 1, const 8]⟩,
    ⟨const 6, const 1, [var 1, var 3, var 4, const 1]⟩]
  derived := []

def openVmAssignment : Fin 5 → ZMod 2013265921 := fun v => if v = 2 ∨ v = 3 then 3 else if v = 4 then 6 else 5

theorem openVmSample_shape : ∀ b ∈ openVmSample.bus, OpenVmShape BusMap.default b := by
  intro b hb
  simp only [openVmSample, List.mem_cons, List.not_mem_nil, or_false] at hb
  rcases hb with rfl | rfl | rfl | rfl
  · exact ⟨1, .memory, rfl, by decide +kernel, by simp [BusType.HasFields]⟩
  · exact ⟨1, .memory, rfl, by decide +kernel, by simp [BusType.HasFields]⟩
  · exact ⟨3, .other .variableRangeChecker, rfl, by decide +kernel, rfl⟩
  · exact ⟨6, .other .bitwiseLookup, rfl, by decide +kernel, _, _, _, 1, rfl, Or.inr rfl⟩

theorem openVmSample_regular : ∀ b ∈ openVmSample.bus, RegularBus (some 1) (fun _ => 1) b := by
  intro b hb
  simp only [openVmSample, List.mem_cons, List.not_mem_nil, or_false] at hb
  rcases hb with rfl | rfl | rfl | rfl
  · exact ⟨1, rfl, fun _ _ _ => ⟨2, const 7, [var 0], const 3, rfl, rfl⟩⟩
  · exact ⟨1, rfl, fun _ _ _ => ⟨2, const 7, [var 1], var 2, rfl, rfl⟩⟩
  · refine ⟨3, rfl, fun id hid h => ?_⟩
    cases hid
    exact absurd h (by decide +kernel)
  · refine ⟨6, rfl, fun id hid h => ?_⟩
    cases hid
    exact absurd h (by decide +kernel)

theorem openVmSample_execution : openVmSample.Execution (openVmBus BusMap.default) (some 1) openVmAssignment
    (fun _ => none) (fun _ => none) := by
  have e : openVmSample.bus.map (fun b => b.evalAt openVmAssignment) =
      [⟨1, 1, 2 :: 7 :: ([5] ++ [3])⟩, ⟨1, -1, 2 :: 7 :: ([5] ++ [3])⟩, ⟨3, 1, [5, 8]⟩,
        ⟨6, 1, [5, 3, 6, 1]⟩] := by
    decide +kernel
  refine ⟨⟨by decide +kernel, fun b hb => ?_⟩, fun id hid => ?_⟩
  · have h1 := List.mem_map_of_mem (f := fun b => b.evalAt openVmAssignment) hb
    rw [e] at h1
    simp only [List.mem_cons, List.not_mem_nil, or_false] at h1
    intro _
    rcases h1 with h1 | h1 | h1 | h1 <;> rw [h1]
    · refine ⟨.memory, by decide +kernel, ?_⟩
      intro _ _ _ _ _ h
      exact absurd h (by decide +kernel)
    · refine ⟨.memory, by decide +kernel, ?_⟩
      intro space pointer data timestamp h _ _
      rw [List.cons.injEq, List.cons.injEq] at h
      obtain ⟨rfl, rfl, h⟩ := h
      obtain ⟨rfl, -⟩ := List.append_inj' h rfl
      intro d hd
      rw [List.mem_singleton.1 hd]
      exact ⟨by decide +kernel, fun h => absurd h (by decide +kernel)⟩
    · exact ⟨.other .variableRangeChecker, by decide +kernel, _, _, rfl, by decide +kernel, by decide +kernel⟩
    · exact ⟨.other .bitwiseLookup, by decide +kernel, _, _, _, _, rfl, by decide +kernel, by decide +kernel,
        Or.inr ⟨rfl, by decide +kernel⟩⟩
  · cases hid
    unfold ConstraintSystem.UsesMemory
    rw [e, Nat.cast_one]
    refine ⟨_, memoryStep_set rfl, _, memoryStep_get (by simp) (by decide +kernel), _,
      memoryStep_other (by decide +kernel), _, memoryStep_other (by decide +kernel), ?_⟩
    funext a
    by_cases h : a = (2, 7)
    · rw [h]; simp
    · rw [Function.update_of_ne h, Function.update_of_ne h]

/-- The sample meets all hypotheses. -/
example (st : OptState 2013265921 (Fin 5)) (news : List (DerivedVariable 2013265921 (Fin 5)))
    (hreach : OptReach (openVmConfig BusMap.default (some 1) 2 ⟨3, 3⟩ 32) (fun _ _ _ => False)
      (.start openVmSample) st news) (hnews : ∀ d ∈ news, d.Computed openVmAssignment) :
    (∃ t solver, st = .remembered t solver ∧
      ∃ b ∈ t.bus, AmbiguousFunction (openVmHandler BusMap.default) solver b) ∨
    ∃ N, ∀ n, N ≤ n → ∀ r new, OptStep (openVmConfig BusMap.default (some 1) 2 ⟨3, 3⟩ 32)
      (fun _ _ _ => False) n st r new → ∃ st', r = .ok st' := by
  refine C96_openvm_no_panic (by decide) BusMap.default default_fits default_complete (by norm_num)
    (by norm_num) (some 1) ?_ 2 ⟨3, 3⟩ 32 (by norm_num) openVmSample openVmSample_shape ?_ ?_ (fun _ => 1)
    openVmSample_regular (fun _ => none) (fun _ => none) _ openVmAssignment ?_ openVmSample_execution ?_ st
    news hreach hnews
  · intro id hid
    cases hid
    decide
  · refine ⟨fun e he => ?_, fun b hb e he => ?_⟩
    · rw [List.mem_singleton.1 he]
      exact wf_sub (wf_var _) (wf_const _)
    · simp only [openVmSample, List.mem_cons, List.not_mem_nil, or_false] at hb
      rcases hb with rfl | rfl | rfl | rfl <;>
        simp only [BusInteraction.fields, List.mem_cons, List.not_mem_nil, or_false] at he
      · rcases he with rfl | rfl | rfl | rfl | rfl | rfl <;> first | exact wf_const _ | exact wf_var _
      · rcases he with rfl | rfl | rfl | rfl | rfl | rfl <;> first | exact wf_const _ | exact wf_var _
      · rcases he with rfl | rfl | rfl | rfl <;> first | exact wf_const _ | exact wf_var _
      · rcases he with rfl | rfl | rfl | rfl | rfl | rfl <;> first | exact wf_const _ | exact wf_var _
  · intro d hd
    cases hd
  · intro _ _ _ h
    cases h
  · intro d hd
    cases hd

/-- A bitwise lookup with an unknown operation is not accepted: the operation may turn out to be 2. -/
example : ¬ (openVmHandler BusMap.default : Handler 2013265921).Accepts
    (⟨const 6, const 1, [var 0, var 1, var 2, var 3]⟩ : BusInteraction (GExpr 2013265921 (Fin 4))) := by
  intro h
  have hm : (⟨const 6, const 1, [var 0, var 1, var 2, var 3]⟩ :
      BusInteraction (GExpr 2013265921 (Fin 4))).Matches
      ⟨.fromValue 6, .fromValue 1, [.unconstrained, .unconstrained, .unconstrained, .fromValue 2]⟩ := by
    refine .cons ?_ (.cons ?_ (.cons ?_ (.cons ?_ (.cons ?_ (.cons ?_ .nil)))))
    · intro k hk; cases hk; rfl
    · intro k hk; cases hk; rfl
    · intro k hk; cases hk
    · intro k hk; cases hk
    · intro k hk; cases hk
    · intro k hk; cases hk
  obtain ⟨r, hr⟩ := h _ hm
  have : (openVmHandler BusMap.default : Handler 2013265921)
      ⟨.fromValue 6, .fromValue 1, [.unconstrained, .unconstrained, .unconstrained, .fromValue 2]⟩ =
      .error .assertion := by decide +kernel
  rw [this] at hr
  cases hr

end Verif
