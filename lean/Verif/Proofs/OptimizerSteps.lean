import Verif.Proofs.OptimizerTotalMemory

/-! The invariant of the optimizer, pass by pass. -/

set_option linter.unusedSectionVars false

namespace Verif

open GExpr

variable {p : ℕ} {V : Type} [LinearOrder V] [Fact p.Prime]

theorem regularBus_closed (mid : Option ℕ) (size : ZMod p → ℕ) :
    ShapeClosed (RegularBus mid size : BusInteraction (GExpr p V) → Prop) := by
  rintro b f hf ⟨i, hi, hm⟩
  refine ⟨i, by simp [BusInteraction.map, hi, hf], fun id hid heq => ?_⟩
  obtain ⟨space, pointer, data, ts, hp, hl⟩ := hm id hid heq
  exact ⟨space, f pointer, data.map f, f ts, by simp [BusInteraction.map, hp, hf], by simpa using hl⟩

theorem regularBus_made {c : OptimizerConfig p V} {bus : Bus p} (hc : c.Correct bus) (size : ZMod p → ℕ) :
    c.rangeHandler.Makes (RegularBus c.memoryBusId size) := by
  intro rcs made hm b hb
  obtain ⟨i, hi, hf⟩ := hc.makes.stateless rcs made hm b hb
  refine ⟨i, hi, fun id hid heq => ?_⟩
  rw [heq, hc.memory id hid] at hf
  cases hf

/-- The system in all states, with the given solution. -/
structure SystemOk (c : OptimizerConfig p V) (bus : Bus p) (σ : V → ZMod p) (m m' : Memory p)
    (size : ZMod p → ℕ) (s0 s : ConstraintSystem p V) : Prop where
  stage : Stage c bus (fun τ => τ = σ) m m' s0 s
  regular : ∀ b ∈ s.bus, RegularBus c.memoryBusId size b

theorem SystemOk.ids {c : OptimizerConfig p V} {bus : Bus p} {σ : V → ZMod p} {m m' : Memory p}
    {size : ZMod p → ℕ} {s0 s : ConstraintSystem p V} (h : SystemOk c bus σ m m' size s0 s) :
    ∀ b ∈ s.bus, ∃ i, b.busId = const i := fun b hb => by
  obtain ⟨i, hi, -⟩ := h.regular b hb
  exact ⟨i, hi⟩

/-- The invariant. -/
def OptState.Good (c : OptimizerConfig p V) (bus : Bus p) (σ : V → ZMod p) (m m' : Memory p)
    (size : ZMod p → ℕ) (s0 : ConstraintSystem p V) : OptState p V → Prop
  | .start s => SystemOk c bus σ m m' size s0 s
  | .finalRuled s => SystemOk c bus σ m m' size s0 s
  | .ranged s => SystemOk c bus σ m m' size s0 s
  | .done s => SystemOk c bus σ m m' size s0 s
  | .ruled st solver => SystemOk c bus σ m m' size s0 st.system ∧ SolverReady bus c.handler σ solver ∧
      ∀ a ∈ st.assignments, WF a.2 ∧ σ a.1 = eval σ a.2
  | .round s solver => SystemOk c bus σ m m' size s0 s ∧ SolverReady bus c.handler σ solver
  | .solved s solver => SystemOk c bus σ m m' size s0 s ∧ SolverReady bus c.handler σ solver
  | .freed s solver => SystemOk c bus σ m m' size s0 s ∧ SolverReady bus c.handler σ solver
  | .connected s solver => SystemOk c bus σ m m' size s0 s ∧ SolverReady bus c.handler σ solver
  | .searched s solver => SystemOk c bus σ m m' size s0 s ∧ SolverReady bus c.handler σ solver
  | .simplified s solver => SystemOk c bus σ m m' size s0 s ∧ SolverReady bus c.handler σ solver
  | .told s solver => SystemOk c bus σ m m' size s0 s ∧ SolverReady bus c.handler σ solver
  | .remembered s solver => SystemOk c bus σ m m' size s0 s ∧ SolverReady bus c.handler σ solver
  | .looped s solver => SystemOk c bus σ m m' size s0 s ∧ SolverReady bus c.handler σ solver
  | .inlined s solver => SystemOk c bus σ m m' size s0 s ∧ SolverReady bus c.handler σ solver
  | .final s solver => SystemOk c bus σ m m' size s0 s ∧ SolverReady bus c.handler σ solver

variable {c : OptimizerConfig p V} {bus : Bus p} {σ : V → ZMod p} {m m' : Memory p}
  {size : ZMod p → ℕ} {s0 : ConstraintSystem p V}

theorem OptimizerConfig.PanicFree.noPanic (hp : c.PanicFree) : NoPanic c.handler :=
  ⟨hp.odd, hp.small, hp.handler⟩

theorem IndexOf.inv {s : ConstraintSystem p V} (i : IndexOf s) : i.ix.Inv :=
  Indexed.inv_history i.base i.ops

theorem map_ok {α β ε : Type} {x : Except ε α} {f : α → β} (h : ∃ a, x = .ok a) :
    ∃ b, x.map f = .ok b := by
  obtain ⟨a, rfl⟩ := h
  exact ⟨_, rfl⟩

theorem map_ok_inv {α β ε : Type} {x : Except ε α} {f : α → β} {b : β} (h : x.map f = .ok b) :
    ∃ a, x = .ok a ∧ b = f a := by
  cases x with
  | error e => cases h
  | ok a => cases h; exact ⟨a, rfl, rfl⟩

theorem liftPanic_total {α : Type} {x : Except Panic α} (h : ∃ a, x = .ok a) :
    ∃ a, liftPanic x = .ok a := by
  obtain ⟨a, rfl⟩ := h
  exact ⟨_, rfl⟩

theorem tell_ok (st : DriverState p V) (ha : ∀ a ∈ st.assignments, WF a.2 ∧ σ a.1 = eval σ a.2) :
    (SolverOp.addAlgebraic (st.assignments.map fun a => sub (var a.1) a.2)).WF ∧
    (SolverOp.addAlgebraic (st.assignments.map fun a => sub (var a.1) a.2)).Holds bus σ := by
  constructor
  · intro e he
    obtain ⟨a, h, rfl⟩ := List.mem_map.1 he
    exact wf_sub (wf_var _) (ha a h).1
  · intro e he
    obtain ⟨a, h, rfl⟩ := List.mem_map.1 he
    rw [eval_sub, eval_var, (ha a h).2, sub_self]

theorem SystemOk.busFields (hc : c.Correct bus) {s : ConstraintSystem p V} {solver : Solver p V}
    (h : SystemOk c bus σ m m' size s0 s) (hr : SolverReady bus c.handler σ solver) :
    SystemOk c bus σ m m' size s0 (substituteBusFields solver s) := by
  have k := C61_complete hc.handler (fun τ => τ = σ) solver hr.made s h.stage.wf
  exact ⟨h.stage.next hc k.1 (fun τ hτ => k.2 τ hτ (h.stage.sat τ hτ))
      (fun τ hτ => (C61_sound solver _ bus c.isStateful τ (k.2 τ hτ (h.stage.sat τ hτ))).2)
      fun _ _ hd => hd, shape_substituteBusFields (regularBus_closed _ _) h.regular⟩

/-- No pass fails, if its loops may run long enough. -/
theorem OptState.Good.progress (hc : c.Correct bus) (hp : c.PanicFree) {st : OptState p V}
    (hg : st.Good c bus σ m m' size s0) (hmay : ¬ st.MayPanic c)
    {ok : RuleInput p V → ConstraintSystem p V → ConstraintSystem p V → Prop} :
    ∃ N, ∀ n, N ≤ n → ∀ r new, OptStep c ok n st r new → ∃ st', r = .ok st' := by
  have hs := hc.handler
  have hn := hp.noPanic
  cases st with
  | start s =>
    refine ⟨0, fun n _ r new h => ?_⟩
    cases h
    obtain ⟨solver, h1, -⟩ := newSolver_ready hs hn hg.stage.wf (hg.stage.sat σ rfl)
    exact map_ok ⟨solver, h1⟩
  | round s solver =>
    obtain ⟨hg, hr⟩ := hg
    obtain ⟨N, hN⟩ := solverBased_total hs hn hr
    refine ⟨N, fun n hle r new h => ?_⟩
    cases h with
    | solve _ _ i ch hf => exact map_ok (hN ch (hle.trans hf) i.ix)
  | solved s solver =>
    obtain ⟨hg, hr⟩ := hg
    refine ⟨0, fun n _ r new h => ?_⟩
    cases h with
    | free _ _ i =>
      obtain ⟨base, ops, rfl⟩ := i
      exact map_ok (removeFree_total hs hn hr c.isStateful (Indexed.inv_history base ops) hg.stage.wf
        hg.ids)
  | freed s solver =>
    obtain ⟨hg, hr⟩ := hg
    obtain ⟨N, hN⟩ := removeDisconnected_total hs hn hr c.isStateful s hg.ids
    refine ⟨N, fun n hle r new h => ?_⟩
    cases h with
    | connect _ _ i ord fuel hf => exact map_ok (hN ord fuel (hle.trans hf) i.ix i.inv i.sys)
  | connected s solver =>
    refine ⟨0, fun n _ r new h => ?_⟩
    cases h with
    | search _ _ i => exact map_ok (liftPanic_total (simplifyExhaustive_total i.inv solver.get))
  | searched s solver =>
    obtain ⟨hg, hr⟩ := hg
    refine ⟨0, fun n _ r new h => ?_⟩
    cases h
    exact map_ok (liftPanic_total (trivialSimplifications_total c.isStateful hg.stage.wf
      (hg.stage.sat σ rfl)))
  | simplified s solver =>
    refine ⟨0, fun n _ r new h => ?_⟩
    cases h
    exact ⟨_, rfl⟩
  | ruled st solver =>
    obtain ⟨hg, hr, ha⟩ := hg
    refine ⟨0, fun n _ r new h => ?_⟩
    cases h
    obtain ⟨h1, h2⟩ := tell_ok (bus := bus) st ha
    obtain ⟨out, s', h3, -⟩ := hr.other hs hn h1 h2 (by simp) (by simp)
    exact map_ok ⟨_, h3⟩
  | told s solver =>
    obtain ⟨hg, hr⟩ := hg
    refine ⟨0, fun n _ r new h => ?_⟩
    cases h
    have hg' := hg.busFields hc hr
    obtain ⟨s', solver', h1, -⟩ := optimizeMemory_total hs hn hg'.stage.wf hg'.regular
      (hg'.stage.memory σ rfl) hr
    exact map_ok ⟨_, h1⟩
  | remembered s solver =>
    obtain ⟨hg, hr⟩ := hg
    refine ⟨0, fun n _ r new h => ?_⟩
    cases h
    exact map_ok (lowDegreeOptimize_total hs hn hc.makes hp.make hr hg.stage.wf (hg.stage.sat σ rfl)
      fun b hb id hid hf ha => hmay ⟨b, hb, ⟨id, hid, hf⟩, ha⟩)
  | looped s solver =>
    obtain ⟨hg, hr⟩ := hg
    obtain ⟨N, hN⟩ := inline_total hg.stage.wf c.bound
    refine ⟨N, fun n hle r new h => ?_⟩
    cases h with
    | again => exact ⟨_, rfl⟩
    | inline _ _ i passes hf => exact map_ok (hN passes (hle.trans hf) i.ix i.inv i.sys)
  | inlined s solver =>
    obtain ⟨hg, hr⟩ := hg
    obtain ⟨N, hN⟩ := removeDisconnected_total hs hn hr c.isStateful s hg.ids
    refine ⟨N, fun n hle r new h => ?_⟩
    cases h with
    | connectFinal _ _ i ord fuel hf => exact map_ok (hN ord fuel (hle.trans hf) i.ix i.inv i.sys)
  | final s solver =>
    refine ⟨0, fun n _ r new h => ?_⟩
    cases h
    exact ⟨_, rfl⟩
  | finalRuled s =>
    obtain ⟨N, hN⟩ := optimizeRangeConstraints_total hs hn hp.pure hp.make hp.once (bound := c.bound)
      hg.stage.wf (hg.stage.sat σ rfl) hmay
    refine ⟨N, fun n hle r new h => ?_⟩
    cases h with
    | ranges _ ch hf => exact map_ok (hN ch (hle.trans hf))
  | ranged s =>
    refine ⟨0, fun n _ r new h => ?_⟩
    cases h
    exact map_ok (liftPanic_total (trivialSimplifications_total c.isStateful hg.stage.wf
      (hg.stage.sat σ rfl)))
  | done s =>
    refine ⟨0, fun n _ r new h => ?_⟩
    cases h

theorem SystemOk.connect (hc : c.Correct bus) {s s' : ConstraintSystem p V} {solver solver' : Solver p V}
    (h : SystemOk c bus σ m m' size s0 s) (hr : SolverReady bus c.handler σ solver) (i : IndexOf s)
    {ord : SetOrder V} {fuel : ℕ}
    (ho : removeDisconnected c.handler c.isStateful ord fuel i.ix solver = .ok (s', solver')) :
    SystemOk c bus σ m m' size s0 s' ∧ SolverReady bus c.handler σ solver' := by
  refine ⟨?_, removeDisconnected_ready hc.handler hr i.inv ho⟩
  obtain ⟨base, ops, rfl⟩ := i
  have k := C49_solutions_kept hc.handler c.isStateful base ops ord fuel (fun τ => τ = σ) solver solver'
    hr.made s' ho
  obtain ⟨keep, -, -, h3, h4⟩ := removeDisconnected_ok (Indexed.inv_history base ops) ho
  refine ⟨h.stage.next hc ?_ (fun τ hτ => (k.2.2 τ).2 (h.stage.sat τ hτ)) (fun τ _ => (k.2.2 τ).1)
    fun τ _ hd => by rw [k.2.1]; exact hd, ?_⟩
  · rw [h4]
    exact wf_removed h.stage.wf
  · rw [h4]
    exact fun b hb => h.regular b (List.mem_filter.1 hb).1

theorem SystemOk.trivial (hc : c.Correct bus) {s s' : ConstraintSystem p V}
    (h : SystemOk c bus σ m m' size s0 s) (ho : trivialSimplifications c.isStateful s = .ok s') :
    SystemOk c bus σ m m' size s0 s' := by
  have t := fun τ => C50_trivial_simplifications bus hc.zero c.isStateful s s' h.stage.wf ho τ
  exact ⟨h.stage.next hc (t fun _ => 0).1 (fun τ hτ => (t τ).2.1.2 (h.stage.sat τ hτ))
    (fun τ _ => (t τ).2.2) fun τ _ hd => trivialSimplifications_derived h.stage.wf ho hd,
    shape_trivial h.regular ho⟩

theorem SystemOk.rules [Fintype V] (hV : Fintype.card V ≤ p) (hc : c.Correct bus)
    {s : ConstraintSystem p V} {solver : Solver p V} (h : SystemOk c bus σ m m' size s0 s)
    (hr : SolverReady bus c.handler σ solver)
    {ok : RuleInput p V → ConstraintSystem p V → ConstraintSystem p V → Prop}
    (hcmp : ComparisonsRight σ ok) {lt : GExpr p V → GExpr p V → Prop} {bound : Option DegreeBound}
    {st : DriverState p V} {news : List (DerivedVariable p V)}
    (run : DriverRun solver.get c.handler lt c.intBits bound ok (driverStart solver.get s) st news)
    (hnews : ∀ d ∈ news, d.Computed σ) :
    SystemOk c bus σ m m' size s0 st.finish.system ∧
      ∀ a ∈ st.finish.assignments, WF a.2 ∧ σ a.1 = eval σ a.2 := by
  obtain ⟨g, a⟩ := h.stage.rules hV hc hr.made (by rintro _ rfl; exact hcmp) run
    (by rintro _ rfl; exact hnews)
  refine ⟨⟨g, ?_⟩, fun x hx => ⟨?_, a σ rfl x hx⟩⟩
  · exact shape_driver (regularBus_closed _ _) (st := driverStart solver.get s) (st' := st) h.regular run
  · exact assignments_wf_run (st := driverStart solver.get s) (by simp [driverStart]) run x hx

/-- The invariant is kept by every pass. -/
theorem OptState.Good.next [Fintype V] (hV : Fintype.card V ≤ p) (hc : c.Correct bus)
    (hp : c.PanicFree) {st st' : OptState p V} (hg : st.Good c bus σ m m' size s0)
    {ok : RuleInput p V → ConstraintSystem p V → ConstraintSystem p V → Prop}
    (hcmp : ComparisonsRight σ ok) {n : ℕ} {new : List (DerivedVariable p V)}
    (hstep : OptStep c ok n st (.ok st') new) (hnew : ∀ d ∈ new, d.Computed σ)
    (he : ∀ s, st = .finalRuled s → ∃ w, c.rangeHandler.Exact bus w s.bus) :
    st'.Good c bus σ m m' size s0 := by
  have hs := hc.handler
  have hn := hp.noPanic
  generalize hres : (Except.ok st' : Except Stop (OptState p V)) = res at hstep
  cases hstep with
  | newSolver s =>
    obtain ⟨solver, h1, rfl⟩ := map_ok_inv hres.symm
    obtain ⟨solver', h2, h3⟩ := newSolver_ready hs hn hg.stage.wf (hg.stage.sat σ rfl)
    rw [h1] at h2
    cases h2
    exact ⟨hg, h3⟩
  | solve s solver i ch hf =>
    obtain ⟨⟨s1, found, solver1⟩, h1, rfl⟩ := map_ok_inv hres.symm
    obtain ⟨hg, hr⟩ := hg
    have hr1 := solverBased_ready hs hr h1
    have hreg := shape_solverBased (regularBus_closed c.memoryBusId size) i.inv
      (by rw [IndexOf.ix, i.sys]; exact hg.regular) h1
    obtain ⟨base, ops, rfl⟩ := i
    obtain ⟨w1, m1, k1⟩ := C60_complete hs c.isStateful base ops hg.stage.wf ch (fun τ => τ = σ) solver
      solver1 hr.made s1 found h1
    have g1 : Stage c bus (fun τ => τ = σ) m m' s0 s1 := hg.stage.next hc w1
      (fun τ hτ => ((k1 τ hτ).2 (hg.stage.sat τ hτ)).1)
      (fun τ hτ => ((k1 τ hτ).2 (hg.stage.sat τ hτ)).2)
      fun τ hτ hd => solverBased_derived hs (Indexed.inv_history base ops) hr.made h1 hτ hd
    exact ⟨⟨g1.next hc (wf_removed g1.wf)
      (fun τ hτ => (C50_trivial bus hc.zero c.isStateful s1 τ).1.2 (g1.sat τ hτ))
      (fun τ _ => (C50_trivial bus hc.zero c.isStateful s1 τ).2) fun _ _ hd => hd,
      fun b hb => hreg b (List.mem_filter.1 hb).1⟩, hr1⟩
  | free s solver i =>
    obtain ⟨⟨s1, solver1⟩, h1, rfl⟩ := map_ok_inv hres.symm
    obtain ⟨hg, hr⟩ := hg
    refine ⟨?_, removeFree_ready hs hr h1⟩
    obtain ⟨base, ops, rfl⟩ := i
    have k := C48_solutions_kept hs c.isStateful base ops (fun τ => τ = σ) solver solver1 hr.made s1 h1
    obtain ⟨delete, -, -, -, h4⟩ := removeFree_ok h1
    refine ⟨hg.stage.next hc ?_ (fun τ hτ => (k.2.2 τ).2 (hg.stage.sat τ hτ)) (fun τ _ => (k.2.2 τ).1)
      fun τ _ hd => by rw [k.2.1]; exact hd, ?_⟩
    · simp only
      rw [h4]
      exact wf_removed hg.stage.wf
    · simp only
      rw [h4]
      exact fun b hb => hg.regular b (List.mem_filter.1 hb).1
  | connect s solver i ord fuel hf =>
    obtain ⟨⟨s1, solver1⟩, h1, rfl⟩ := map_ok_inv hres.symm
    exact hg.1.connect hc hg.2 i h1
  | search s solver i =>
    obtain ⟨s1, h1, rfl⟩ := map_ok_inv hres.symm
    have h1 := liftPanic_ok_iff.1 h1
    obtain ⟨hg, hr⟩ := hg
    refine ⟨⟨?_, shape_simplifyExhaustive (regularBus_closed _ _)
      (by rw [IndexOf.ix, i.sys]; exact hg.regular) h1⟩, hr⟩
    obtain ⟨base, ops, rfl⟩ := i
    have k := fun τ (hτ : τ = σ) => C51_complete base ops hg.stage.wf solver.get s1 h1 bus τ
      (hg.stage.sat τ hτ) (get_allows hs hr.made hτ)
    exact hg.stage.next hc (simplifyExhaustive_wf (Indexed.inv_history base ops) hg.stage.wf h1)
      (fun τ hτ => (k τ hτ).2)
      (fun τ hτ => (C51_sound base ops solver.get s1 h1 bus c.isStateful τ (k τ hτ).2).2)
      fun τ _ hd => by rw [simplifyExhaustive_derived h1]; exact hd
  | simplify s solver =>
    obtain ⟨s1, h1, rfl⟩ := map_ok_inv hres.symm
    exact ⟨hg.1.trivial hc (liftPanic_ok_iff.1 h1), hg.2⟩
  | rules s solver lt st new run =>
    cases hres
    obtain ⟨g, a⟩ := hg.1.rules hV hc hg.2 hcmp run hnew
    exact ⟨g, hg.2, a⟩
  | tell st solver =>
    obtain ⟨⟨out, solver1⟩, h1, rfl⟩ := map_ok_inv hres.symm
    obtain ⟨hg, hr, ha⟩ := hg
    obtain ⟨w, hh⟩ := tell_ok (bus := bus) st ha
    exact ⟨hg, (hr.after hs w hh (by simp) h1).1⟩
  | memory s solver =>
    obtain ⟨⟨s1, solver1⟩, h1, rfl⟩ := map_ok_inv hres.symm
    obtain ⟨hg, hr⟩ := hg
    have hg' := hg.busFields hc hr
    obtain ⟨g, m1⟩ := hg'.stage.memoryPass hc hr.made h1
    obtain ⟨s2, solver2, h2, r2⟩ := optimizeMemory_total hs hn hg'.stage.wf hg'.regular
      (hg'.stage.memory σ rfl) hr
    rw [h1] at h2
    cases h2
    exact ⟨⟨g, shape_memory hs hg'.stage.wf hr.made hg'.regular h1⟩, m1, r2⟩
  | lowDegree s solver =>
    obtain ⟨⟨s1, solver1⟩, h1, rfl⟩ := map_ok_inv hres.symm
    obtain ⟨hg, hr⟩ := hg
    obtain ⟨w1, -, k1⟩ := C52_complete hs c.isStateful c.rangeHandler hc.makes c.bound s s1 hg.stage.wf
      (fun τ => τ = σ) hg.stage.sat solver solver1 hr.made h1
    exact ⟨⟨hg.stage.next hc w1 (fun τ hτ => (k1 τ hτ).1) (fun τ hτ => (k1 τ hτ).2)
      (fun τ _ hd => by rw [lowDegree_derived h1]; exact hd),
      shape_lowDegree (regularBus_made hc size) hg.regular h1⟩,
      lowDegreeOptimize_ready hs hc.makes hr hg.stage.wf (hg.stage.sat σ rfl) h1⟩
  | again s solver =>
    cases hres
    exact hg
  | inline s solver i passes hf =>
    obtain ⟨⟨ix2, inlined⟩, h1, rfl⟩ := map_ok_inv hres.symm
    obtain ⟨hg, hr⟩ := hg
    have h1 : replaceConstrainedWitnessColumns passes i.ix (belowDegreeBound c.bound) =
        .ok (some (ix2, inlined)) := by
      cases h2 : replaceConstrainedWitnessColumns passes i.ix (belowDegreeBound c.bound) with
      | error e => rw [h2] at h1; cases h1
      | ok o =>
        rw [h2] at h1
        cases o with
        | none => cases h1
        | some a => cases h1; rfl
    refine ⟨⟨?_, shape_inline (regularBus_closed _ _) i.inv
      (by rw [IndexOf.ix, i.sys]; exact hg.regular) h1⟩, hr⟩
    obtain ⟨base, ops, rfl⟩ := i
    have k2 := C22_solutions base ops hg.stage.wf (belowDegreeBound c.bound) passes ix2 inlined h1 bus
    refine hg.stage.next hc ?_ (fun τ hτ => ((k2 τ).1 (hg.stage.sat τ hτ)).1) (fun τ hτ => ?_)
      fun τ hτ hd => replace_derived (Indexed.inv_history base ops) hg.stage.wf h1
        ((k2 τ).1 (hg.stage.sat τ hτ)).2 hd
    · exact ((replace_spec (Indexed.inv_history base ops) hg.stage.wf _ passes).1 ix2 inlined h1).2.1
    · exact messages_of_sent (C22_messages base ops hg.stage.wf (belowDegreeBound c.bound) passes ix2
        inlined h1 τ ((k2 τ).1 (hg.stage.sat τ hτ)).2) _
  | connectFinal s solver i ord fuel hf =>
    obtain ⟨⟨s1, solver1⟩, h1, rfl⟩ := map_ok_inv hres.symm
    exact hg.1.connect hc hg.2 i h1
  | rulesFinal s solver lt st new run =>
    cases hres
    exact (hg.1.rules hV hc hg.2 hcmp run hnew).1
  | ranges s ch hf =>
    obtain ⟨s1, h1, rfl⟩ := map_ok_inv hres.symm
    obtain ⟨w, he⟩ := he s rfl
    exact ⟨hg.stage.next hc (rangeConstraints_wf hc he hg.stage.wf h1)
      (fun τ hτ => (C34_same_solutions bus c.handler hs c.rangeHandler w ch c.bound s s1
        he hg.stage.wf h1 τ).2 (hg.stage.sat τ hτ))
      (fun τ _ => rangeConstraints_messages hc h1 τ)
      fun τ _ hd => by rw [rangeConstraints_derived h1]; exact hd,
      shape_ranges (regularBus_made hc size) hg.regular h1⟩
  | simplifyFinal s =>
    obtain ⟨s1, h1, rfl⟩ := map_ok_inv hres.symm
    exact SystemOk.trivial hc hg (liftPanic_ok_iff.1 h1)

theorem OptReach.good [Fintype V] (hV : Fintype.card V ≤ p) (hc : c.Correct bus)
    (hp : c.PanicFree) {a b : OptState p V} (hg : a.Good c bus σ m m' size s0)
    {ok : RuleInput p V → ConstraintSystem p V → ConstraintSystem p V → Prop}
    (hcmp : ComparisonsRight σ ok) {news : List (DerivedVariable p V)}
    (hreach : OptReach c ok a b news) (hnews : ∀ d ∈ news, d.Computed σ)
    (he : ∀ s news, OptReach c ok a (.finalRuled s) news → (∀ d ∈ news, d.Computed σ) →
      s.Satisfied bus σ → ∃ w, c.rangeHandler.Exact bus w s.bus) :
    b.Good c bus σ m m' size s0 := by
  induction hreach with
  | refl => exact hg
  | step h hs ih =>
    have ih := ih (fun d hd => hnews d (List.mem_append.2 (Or.inl hd)))
    refine ih.next hV hc hp hcmp hs
      (fun d hd => hnews d (List.mem_append.2 (Or.inr hd))) fun s heq => ?_
    subst heq
    exact he s _ h (fun d hd => hnews d (List.mem_append.2 (Or.inl hd))) (ih.stage.sat σ rfl)

/-! ### Runs as sequences of passes -/

theorem OptReach.trans {ok : RuleInput p V → ConstraintSystem p V → ConstraintSystem p V → Prop}
    {a b d : OptState p V} {l l' : List (DerivedVariable p V)} (h1 : OptReach c ok a b l)
    (h2 : OptReach c ok b d l') : OptReach c ok a d (l ++ l') := by
  induction h2 with
  | refl => rwa [List.append_nil]
  | step h hs ih =>
    rw [← List.append_assoc]
    exact (ih).step hs

theorem OptReach.next {ok : RuleInput p V → ConstraintSystem p V → ConstraintSystem p V → Prop}
    {a b d : OptState p V} {l : List (DerivedVariable p V)} (h1 : OptReach c ok a b l) {n : ℕ}
    {r : Except Stop (OptState p V)} (hs : OptStep c ok n b r []) (hr : r = .ok d) :
    OptReach c ok a d l := by
  subst hr
  have := h1.step hs
  rwa [List.append_nil] at this

theorem ConstraintRound.reach {ok : RuleInput p V → ConstraintSystem p V → ConstraintSystem p V → Prop}
    {s s' : ConstraintSystem p V} {solver solver' : Solver p V}
    (r : ConstraintRound c ok s solver s' solver') :
    OptReach c ok (.round s solver) (.looped s' solver') r.new7 := by
  have h6 : OptReach c ok (.round s solver) (.simplified r.s6 r.solver4) [] :=
    ((((((OptReach.refl _).next (.solve (n := 0) s solver r.ix0 r.ch (Nat.zero_le _))
      (by rw [r.step1]; rfl)).next (.free (n := 0) _ _ r.ix2) (by rw [r.step3]; rfl)).next
      (.connect (n := 0) _ _ r.ix3 r.ord r.fuel (Nat.zero_le _)) (by rw [r.step4]; rfl)).next
      (.search (n := 0) _ _ r.ix4) (by rw [r.step5]; rfl)).next
      (.simplify (n := 0) _ _) (by rw [r.step6]; rfl))
  have h7 := h6.step (.rules (n := 0) _ _ r.lt r.st r.new7 r.step7)
  rw [List.nil_append] at h7
  exact ((h7.next (.tell (n := 0) _ _) (by rw [r.step8]; rfl)).next (.memory (n := 0) _ _)
    (by rw [r.step9]; rfl)).next (.lowDegree (n := 0) _ _) (by rw [r.step10]; rfl)

theorem OptimizeLoop.reach {ok : RuleInput p V → ConstraintSystem p V → ConstraintSystem p V → Prop}
    {s s' : ConstraintSystem p V} {solver solver' : Solver p V}
    (l : OptimizeLoop c ok s solver s' solver') :
    OptReach c ok (.round s solver) (.looped s' solver') l.news := by
  induction l with
  | one r => exact r.reach
  | more r rest ih => exact (r.reach.next (.again (n := 0) _ _) rfl).trans ih

theorem OptimizePasses.reach {ok : RuleInput p V → ConstraintSystem p V → ConstraintSystem p V → Prop}
    {s s' : ConstraintSystem p V} (r : OptimizePasses c ok s s') :
    OptReach c ok (.start s) (.done s') r.news := by
  have h1 : OptReach c ok (.start s) (.looped r.s1 r.solver1) r.loop.news :=
    ((OptReach.refl _).next (.newSolver (n := 0) s) (by rw [r.step0]; rfl)).trans r.loop.reach
  have h3 := (h1.next (.inline (n := 0) _ _ r.ix1 r.passes (Nat.zero_le _))
    (by rw [r.step2]; rfl)).next (.connectFinal (n := 0) _ _ r.ix3 r.ord r.fuel (Nat.zero_le _))
    (by rw [r.step3]; rfl)
  exact ((h3.step (.rulesFinal (n := 0) _ _ r.lt r.st r.new4 r.step4)).next
    (.ranges (n := 0) _ r.ch (Nat.zero_le _)) (by rw [r.step5]; rfl)).next (.simplifyFinal (n := 0) _)
    (by rw [r.step6]; rfl)

end Verif
