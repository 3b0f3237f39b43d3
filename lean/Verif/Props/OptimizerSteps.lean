import Verif.Proofs.OptimizerRuns
import Verif.Proofs.LowDegreeUnique
import Verif.Props.Optimizer

/-!
# C95: the optimizer does not panic
-/

set_option linter.unusedSectionVars false

namespace Verif

open GExpr

variable {p : ℕ} [Fact p.Prime] {V : Type} [LinearOrder V]

/-- C95: the runs of the optimizer are the sequences of passes that all succeed. -/
theorem C95_steps_are_runs (c : OptimizerConfig p V)
    (ok : RuleInput p V → ConstraintSystem p V → ConstraintSystem p V → Prop)
    (s s' : ConstraintSystem p V) (news : List (DerivedVariable p V)) :
    OptReach c ok (.start s) (.done s') news ↔ ∃ r : OptimizePasses c ok s s', r.news = news := by
  constructor
  · exact fun h => h.from_start
  · rintro ⟨r, rfl⟩
    exact r.reach

/-- C95: in every state but the last there is a pass to execute. -/
theorem C95_pass_exists (c : OptimizerConfig p V)
    (ok : RuleInput p V → ConstraintSystem p V → ConstraintSystem p V → Prop) (st : OptState p V)
    (hst : ∀ s, st ≠ .done s) (n : ℕ) : ∃ r new, OptStep c ok n st r new := by
  have ix : ∀ s : ConstraintSystem p V, IndexOf s := fun s => ⟨s, [], rfl⟩
  have ord : SetOrder V := ⟨fun l => l, fun _ => .refl _⟩
  cases st with
  | start s => exact ⟨_, _, .newSolver s⟩
  | round s solver => exact ⟨_, _, .solve s solver (ix s) { plainChoices p V with fuel := n } le_rfl⟩
  | solved s solver => exact ⟨_, _, .free s solver (ix s)⟩
  | freed s solver => exact ⟨_, _, .connect s solver (ix s) ord n le_rfl⟩
  | connected s solver => exact ⟨_, _, .search s solver (ix s)⟩
  | searched s solver => exact ⟨_, _, .simplify s solver⟩
  | simplified s solver => exact ⟨_, _, .rules s solver (fun _ _ => False) _ _ (.refl _)⟩
  | ruled st solver => exact ⟨_, _, .tell st solver⟩
  | told s solver => exact ⟨_, _, .memory s solver⟩
  | remembered s solver => exact ⟨_, _, .lowDegree s solver⟩
  | looped s solver => exact ⟨_, _, .inline s solver (ix s) n le_rfl⟩
  | inlined s solver => exact ⟨_, _, .connectFinal s solver (ix s) ord n le_rfl⟩
  | final s solver => exact ⟨_, _, .rulesFinal s solver (fun _ _ => False) _ _ (.refl _)⟩
  | finalRuled s => exact ⟨_, _, .ranges s { plainChoices p V with fuel := n } le_rfl⟩
  | ranged s => exact ⟨_, _, .simplifyFinal s⟩
  | done s => exact absurd rfl (hst s)

variable [Fintype V]

theorem start_good {c : OptimizerConfig p V} {bus : Bus p} {s : ConstraintSystem p V} (hw : s.WF)
    (hd : s.DerivedWF) {size : ZMod p → ℕ} (hreg : ∀ b ∈ s.bus, RegularBus c.memoryBusId size b)
    {m m' : Memory p} {σ : V → ZMod p} (hσ : s.Execution bus c.memoryBusId σ m m')
    (hcomp : s.Computed σ) : (OptState.start s).Good c bus σ m m' size s := by
  refine ⟨⟨hw, ?_, ?_, fun _ _ => rfl, ?_⟩, hreg⟩ <;> rintro _ rfl
  · exact hσ.sat
  · exact hσ.memory
  · exact fun d h => ⟨hd d h, hcomp d h⟩

/-- C95: on a system that has an execution, no pass of the optimizer fails, whatever passes have been
executed before, except in the two ways that `OptState.MayPanic` describes: a bus interaction that
agrees with two of the functions that are tried, and range checks that the handler cannot make again. All
loops end: from a certain number of iterations on, the limit on the iterations is not reached. -/
theorem C95_no_panic (hV : Fintype.card V ≤ p) (c : OptimizerConfig p V) (bus : Bus p)
    (hc : c.Correct bus) (hp : c.PanicFree) (s : ConstraintSystem p V) (hw : s.WF) (hd : s.DerivedWF)
    (size : ZMod p → ℕ) (hreg : ∀ b ∈ s.bus, RegularBus c.memoryBusId size b)
    (m m' : Memory p) (ok : RuleInput p V → ConstraintSystem p V → ConstraintSystem p V → Prop)
    (σ : V → ZMod p) (hcmp : ComparisonsRight σ ok) (hσ : s.Execution bus c.memoryBusId σ m m')
    (hcomp : s.Computed σ)
    (he : ∀ t news, OptReach c ok (.start s) (.finalRuled t) news →
      (∀ d ∈ news, d.Computed σ) → t.Satisfied bus σ → ∃ w, c.rangeHandler.Exact bus w t.bus)
    (st : OptState p V) (news : List (DerivedVariable p V))
    (hreach : OptReach c ok (.start s) st news) (hnews : ∀ d ∈ news, d.Computed σ) :
    st.MayPanic c ∨ ∃ N, ∀ n, N ≤ n → ∀ r new, OptStep c ok n st r new → ∃ st', r = .ok st' := by
  by_cases hmay : st.MayPanic c
  · exact Or.inl hmay
  · exact Or.inr ((OptReach.good hV hc hp (start_good hw hd hreg hσ hcomp) hcmp hreach hnews he).progress
      hc hp hmay)

/-- C95: two functions agree with a bus interaction only if the solver knows the value of a
field of the interaction that is not a constant. -/
theorem C95_ambiguous (hV : Fintype.card V ≤ p) (c : OptimizerConfig p V) (bus : Bus p)
    (hc : c.Correct bus) (hp : c.PanicFree) (h16 : 2 ^ 16 < p) (s : ConstraintSystem p V) (hw : s.WF)
    (hd : s.DerivedWF)
    (size : ZMod p → ℕ) (hreg : ∀ b ∈ s.bus, RegularBus c.memoryBusId size b)
    (m m' : Memory p) (ok : RuleInput p V → ConstraintSystem p V → ConstraintSystem p V → Prop)
    (σ : V → ZMod p) (hcmp : ComparisonsRight σ ok) (hσ : s.Execution bus c.memoryBusId σ m m')
    (hcomp : s.Computed σ)
    (he : ∀ t news, OptReach c ok (.start s) (.finalRuled t) news →
      (∀ d ∈ news, d.Computed σ) → t.Satisfied bus σ → ∃ w, c.rangeHandler.Exact bus w t.bus)
    (t : ConstraintSystem p V) (solver : Solver p V) (news : List (DerivedVariable p V))
    (hreach : OptReach c ok (.start s) (.remembered t solver) news)
    (hnews : ∀ d ∈ news, d.Computed σ) (hmay : (OptState.remembered t solver).MayPanic c) :
    ∃ b ∈ t.bus, ∃ e ∈ b.payload, e.tryToNumber = none ∧
      (solver.rangeConstraintForExpression e).allowedValues = some [e.eval σ] := by
  obtain ⟨g, hr⟩ := OptReach.good hV hc hp (start_good hw hd hreg hσ hcomp) hcmp hreach hnews he
  obtain ⟨b, hb, -, hamb⟩ := hmay
  have hval : ∀ e ∈ b.payload, (solver.rangeConstraintForExpression e).allowsValue (e.eval σ) = true := by
    intro e hmem
    have hwf : WF e := g.stage.wf.2 b hb e (by simp [BusInteraction.fields, hmem])
    exact (RangeConstraint.allowsValue_iff _ _).2 ((hr.made.queries hc.handler rfl).2.1 e hwf)
  obtain ⟨e, hmem, hnum, v, hv⟩ := ambiguous_input h16 hamb fun e hmem => ⟨_, hval e hmem⟩
  have := ((C06_allowedValues_exact _ _ hv).2 _).2 (hval e hmem)
  rw [← List.mem_singleton.1 this] at hv
  exact ⟨b, hb, e, hmem, hnum, hv⟩

/-- C95: the result of all passes has the given execution, and its bus interactions have the form
required of the input. -/
theorem C95_result (hV : Fintype.card V ≤ p) (c : OptimizerConfig p V) (bus : Bus p)
    (hc : c.Correct bus) (hp : c.PanicFree) (s : ConstraintSystem p V) (hw : s.WF) (hd : s.DerivedWF)
    (size : ZMod p → ℕ) (hreg : ∀ b ∈ s.bus, RegularBus c.memoryBusId size b)
    (m m' : Memory p) (ok : RuleInput p V → ConstraintSystem p V → ConstraintSystem p V → Prop)
    (σ : V → ZMod p) (hcmp : ComparisonsRight σ ok) (hσ : s.Execution bus c.memoryBusId σ m m')
    (hcomp : s.Computed σ)
    (he : ∀ t news, OptReach c ok (.start s) (.finalRuled t) news →
      (∀ d ∈ news, d.Computed σ) → t.Satisfied bus σ → ∃ w, c.rangeHandler.Exact bus w t.bus)
    (t : ConstraintSystem p V) (news : List (DerivedVariable p V))
    (hreach : OptReach c ok (.start s) (.done t) news) (hnews : ∀ d ∈ news, d.Computed σ) :
    t.Execution bus c.memoryBusId σ m m' ∧ ∀ b ∈ t.bus, RegularBus c.memoryBusId size b := by
  have g := OptReach.good hV hc hp (start_good hw hd hreg hσ hcomp) hcmp hreach hnews he
  exact ⟨⟨g.stage.sat σ rfl, g.stage.memory σ rfl⟩, g.regular⟩

/-- How many passes remain at most, if the loop is not repeated. -/
def OptState.remaining : OptState p V → ℕ
  | .start _ => 15
  | .round _ _ => 14
  | .solved _ _ => 13
  | .freed _ _ => 12
  | .connected _ _ => 11
  | .searched _ _ => 10
  | .simplified _ _ => 9
  | .ruled _ _ => 8
  | .told _ _ => 7
  | .remembered _ _ => 6
  | .looped _ _ => 5
  | .inlined _ _ => 4
  | .final _ _ => 3
  | .finalRuled _ => 2
  | .ranged _ => 1
  | .done _ => 0

theorem remaining_map {α ε : Type} {x : Except ε α} {f : α → OptState p V} {y : OptState p V} {k : ℕ}
    (h : x.map f = .ok y) (hP : ∀ a, (f a).remaining < k) : y.remaining < k := by
  obtain ⟨a, -, rfl⟩ := map_ok_inv h
  exact hP a

/-- A pass that goes on. -/
theorem pass_forward (c : OptimizerConfig p V)
    (ok : RuleInput p V → ConstraintSystem p V → ConstraintSystem p V → Prop) (st : OptState p V)
    (hst : ∀ s, st ≠ .done s) (n : ℕ) : ∃ r, OptStep c ok n st r [] ∧
      ∀ st', r = .ok st' → st'.remaining < st.remaining := by
  have ix : ∀ s : ConstraintSystem p V, IndexOf s := fun s => ⟨s, [], rfl⟩
  have ord : SetOrder V := ⟨fun l => l, fun _ => .refl _⟩
  cases st with
  | start s => exact ⟨_, .newSolver s, fun st' h => remaining_map h fun _ => by simp only [OptState.remaining]; omega⟩
  | round s solver =>
    exact ⟨_, .solve s solver (ix s) { plainChoices p V with fuel := n } le_rfl,
      fun st' h => remaining_map h fun _ => by simp only [OptState.remaining]; omega⟩
  | solved s solver => exact ⟨_, .free s solver (ix s), fun st' h => remaining_map h fun _ => by simp only [OptState.remaining]; omega⟩
  | freed s solver =>
    exact ⟨_, .connect s solver (ix s) ord n le_rfl, fun st' h => remaining_map h fun _ => by simp only [OptState.remaining]; omega⟩
  | connected s solver => exact ⟨_, .search s solver (ix s), fun st' h => remaining_map h fun _ => by simp only [OptState.remaining]; omega⟩
  | searched s solver => exact ⟨_, .simplify s solver, fun st' h => remaining_map h fun _ => by simp only [OptState.remaining]; omega⟩
  | simplified s solver =>
    exact ⟨_, .rules s solver (fun _ _ => False) _ _ (.refl _), fun st' h => by cases h; simp only [OptState.remaining]; omega⟩
  | ruled st solver => exact ⟨_, .tell st solver, fun st' h => remaining_map h fun _ => by simp only [OptState.remaining]; omega⟩
  | told s solver => exact ⟨_, .memory s solver, fun st' h => remaining_map h fun _ => by simp only [OptState.remaining]; omega⟩
  | remembered s solver => exact ⟨_, .lowDegree s solver, fun st' h => remaining_map h fun _ => by simp only [OptState.remaining]; omega⟩
  | looped s solver =>
    exact ⟨_, .inline s solver (ix s) n le_rfl, fun st' h => remaining_map h fun _ => by simp only [OptState.remaining]; omega⟩
  | inlined s solver =>
    exact ⟨_, .connectFinal s solver (ix s) ord n le_rfl, fun st' h => remaining_map h fun _ => by simp only [OptState.remaining]; omega⟩
  | final s solver =>
    exact ⟨_, .rulesFinal s solver (fun _ _ => False) _ _ (.refl _), fun st' h => by cases h; simp only [OptState.remaining]; omega⟩
  | finalRuled s =>
    exact ⟨_, .ranges s { plainChoices p V with fuel := n } le_rfl,
      fun st' h => remaining_map h fun _ => by simp only [OptState.remaining]; omega⟩
  | ranged s => exact ⟨_, .simplifyFinal s, fun st' h => remaining_map h fun _ => by simp only [OptState.remaining]; omega⟩
  | done s => exact absurd rfl (hst s)

/-- C95: the optimizer never gets stuck: if none of the two panics is possible in a state that is reached,
then it can be completed from every state that is reached. -/
theorem C95_completes (hV : Fintype.card V ≤ p) (c : OptimizerConfig p V) (bus : Bus p)
    (hc : c.Correct bus) (hp : c.PanicFree) (s : ConstraintSystem p V) (hw : s.WF) (hd : s.DerivedWF)
    (size : ZMod p → ℕ) (hreg : ∀ b ∈ s.bus, RegularBus c.memoryBusId size b)
    (m m' : Memory p) (ok : RuleInput p V → ConstraintSystem p V → ConstraintSystem p V → Prop)
    (σ : V → ZMod p) (hcmp : ComparisonsRight σ ok) (hσ : s.Execution bus c.memoryBusId σ m m')
    (hcomp : s.Computed σ)
    (he : ∀ t news, OptReach c ok (.start s) (.finalRuled t) news →
      (∀ d ∈ news, d.Computed σ) → t.Satisfied bus σ → ∃ w, c.rangeHandler.Exact bus w t.bus)
    (hmay : ∀ st news, OptReach c ok (.start s) st news → (∀ d ∈ news, d.Computed σ) → ¬ st.MayPanic c)
    (st : OptState p V) (news : List (DerivedVariable p V))
    (hreach : OptReach c ok (.start s) st news) (hnews : ∀ d ∈ news, d.Computed σ) :
    ∃ s', OptReach c ok (.start s) (.done s') news := by
  by_cases hst : ∀ t, st ≠ .done t
  · rcases C95_no_panic hV c bus hc hp s hw hd size hreg m m' ok σ hcmp hσ hcomp he st news hreach
      hnews with h | ⟨N, hN⟩
    · exact absurd h (hmay st news hreach hnews)
    · obtain ⟨r, h1, h2⟩ := pass_forward c ok st hst N
      obtain ⟨st', rfl⟩ := hN N le_rfl r [] h1
      have := h2 st' rfl
      have hr : OptReach c ok (.start s) st' news := by simpa using hreach.step h1
      exact C95_completes hV c bus hc hp s hw hd size hreg m m' ok σ hcmp hσ hcomp he hmay st' news hr
        hnews
  · push Not at hst
    obtain ⟨t, rfl⟩ := hst
    exact ⟨t, hreach⟩
termination_by st.remaining

/-! ### Samples -/

attribute [local instance] fact_babyBear

/-- The configuration of the sample for C62, with all buses stateful. -/
def statefulConfig (n : ℕ) : OptimizerConfig 2013265921 (Fin n) :=
  { pipelineConfig n with isStateful := fun _ => true }

theorem stateful_correct (n : ℕ) : (statefulConfig n).Correct pipelineBus where
  handler := (pipeline_correct n).handler
  makes := by
    refine ⟨fun rcs made _ h σ => ?_, fun rcs made h b hb => ?_, fun rcs made _ h b hb => ?_⟩ <;>
      simp only [statefulConfig, pipelineConfig, Except.ok.injEq] at h <;> split at h <;> cases h
    · rename_i h0
      subst h0
      simp
    · cases hb
    · cases hb
  lookups := by
    intro b rcs h
    cases h
  zero := fun _ _ => trivial
  memory := fun _ _ => rfl
  integers := (pipeline_correct n).integers

theorem stateful_panicFree (n : ℕ) : (statefulConfig n).PanicFree where
  odd := by norm_num
  small := by norm_num
  handler := fun r => ⟨_, rfl⟩
  pure := fun b => ⟨_, rfl⟩
  make := fun rcs => ⟨_, rfl⟩
  once := by
    intro rcs made h b hb
    simp only [statefulConfig, pipelineConfig, Except.ok.injEq] at h
    split at h <;> cases h
    cases hb

/-- The interactions with memory of the sample consist of an address space, a pointer, one value and a
timestamp. -/
theorem pipeline_regular : ∀ b ∈ pipelineSample.bus, RegularBus (some 1) (fun _ => 1) b := by
  intro b hb
  simp only [pipelineSample, List.mem_cons, List.not_mem_nil, or_false] at hb
  rcases hb with rfl | rfl | rfl
  · exact ⟨1, rfl, fun _ _ _ => ⟨2, const 7, [var 0], const 3, rfl, rfl⟩⟩
  · exact ⟨1, rfl, fun _ _ _ => ⟨2, const 7, [var 1], var 2, rfl, rfl⟩⟩
  · refine ⟨7, rfl, fun id hid h => ?_⟩
    cases hid
    exact absurd h (by decide +kernel)

theorem stateful_noRanges {n : ℕ} : ∀ (l : List (BusInteraction (GExpr 2013265921 (Fin n)))) kept rcs,
    collectPure (statefulConfig n).rangeHandler l = .ok (kept, rcs) → rcs = [] := by
  intro l
  induction l with
  | nil => intro kept rcs h; cases h; rfl
  | cons b t ih =>
    intro kept rcs h
    unfold collectPure at h
    split at h
    · rw [Except.bind_ok_iff] at h
      obtain ⟨r, h1, h2⟩ := h
      cases h2
      exact ih _ _ h1
    · rw [Except.bind_ok_iff] at h
      obtain ⟨o, h0, h⟩ := h
      cases h0
      simp only at h
      rw [Except.bind_ok_iff] at h
      obtain ⟨r, h1, h2⟩ := h
      cases h2
      exact ih _ _ h1

/-- In this configuration, none of the two panics is possible. -/
theorem stateful_noPanic (n : ℕ) (st : OptState 2013265921 (Fin n)) : ¬ st.MayPanic (statefulConfig n) := by
  intro h
  cases st with
  | remembered s solver =>
    obtain ⟨b, -, ⟨id, -, h⟩, -⟩ := h
    cases h
  | finalRuled s =>
    obtain ⟨kept, rcs, wanted, h1, h2, h3⟩ := h
    have := stateful_noRanges _ _ _ h1
    subst this
    have : wanted = [] := by
      cases wanted with
      | nil => rfl
      | cons x t => exact absurd (h2 x (by simp)) (by simp [mergeRanges])
    subst this
    simp [statefulConfig, pipelineConfig] at h3
  | _ => exact h

/-- The sample meets all hypotheses: from every state that is reached, the optimizer can complete. -/
example (st : OptState 2013265921 (Fin 3)) (hreach : OptReach (statefulConfig 3) (fun _ _ _ => False)
    (.start pipelineSample) st []) :
    ∃ s', OptReach (statefulConfig 3) (fun _ _ _ => False) (.start pipelineSample) (.done s') [] := by
  refine C95_completes (by decide) (statefulConfig 3) pipelineBus (stateful_correct 3)
    (stateful_panicFree 3) pipelineSample ?_ ?_ (fun _ => 1) pipeline_regular (fun _ => none)
    (fun _ => none) (fun _ _ _ => False) pipelineAssignment ?_ pipeline_execution ?_ ?_
    (fun st _ _ _ => stateful_noPanic 3 st) st [] hreach ?_
  · refine ⟨fun e he => ?_, fun b hb e he => ?_⟩
    · rw [List.mem_singleton.1 he]
      exact wf_sub (wf_var _) (wf_const _)
    · simp only [pipelineSample, List.mem_cons, List.not_mem_nil, or_false] at hb
      rcases hb with rfl | rfl | rfl <;>
        simp only [BusInteraction.fields, List.mem_cons, List.not_mem_nil, or_false] at he
      · rcases he with rfl | rfl | rfl | rfl | rfl | rfl <;> first | exact wf_const _ | exact wf_var _
      · rcases he with rfl | rfl | rfl | rfl | rfl | rfl <;> first | exact wf_const _ | exact wf_var _
      · rcases he with rfl | rfl | rfl <;> first | exact wf_const _ | exact wf_var _
  · intro d hd
    cases hd
  · intro _ _ _ h
    cases h
  · intro d hd
    cases hd
  · intro t news _ _ _
    refine ⟨0, by decide, ?_, ?_, ?_⟩
    · intro b _ _ rcs h
      cases h
    · intro b _ _ rcs h
      cases h
    · intro rcs _ made h σ
      simp only [statefulConfig, pipelineConfig, Except.ok.injEq] at h
      split at h
      · rename_i h0
        subst h0
        cases h
        simp
      · cases h
  · intro d hd
    cases hd

end Verif
