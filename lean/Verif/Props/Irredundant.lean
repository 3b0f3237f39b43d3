import Verif.Props.Simplest
import Verif.Props.OptimizerDegree

/-!
# C110: an optimized system has no redundant parts
-/

set_option linter.unusedSectionVars false

namespace Verif

open GExpr

variable {p : ℕ} [Fact p.Prime] {V : Type} [LinearOrder V] [Fintype V]

/-- The system before the last pass is well formed. -/
theorem OptimizePasses.wf_last (hV : Fintype.card V ≤ p) {c : OptimizerConfig p V} {bus : Bus p}
    (hc : c.Correct bus) {s s' : ConstraintSystem p V} (hw : s.WF)
    {ok : RuleInput p V → ConstraintSystem p V → ConstraintSystem p V → Prop}
    (r : OptimizePasses c ok s s') {w : ℕ}
    (he : c.rangeHandler.Exact bus w r.st.finish.system.bus) : r.s5.WF := by
  have h : Stage c bus (fun _ => False) (fun _ => none) (fun _ => none) s s :=
    ⟨hw, fun _ hf => hf.elim, fun _ hf => hf.elim, fun _ hf => hf.elim, fun _ hf => hf.elim⟩
  obtain ⟨-, -, -, -, -, g, -⟩ := r.stages hV hc h (fun _ hf => hf.elim) (fun _ hf => hf.elim) he
  exact g.wf

/-- C110: the simplifications that the optimizer ends with change nothing in its result. -/
theorem C110_stable (hV : Fintype.card V ≤ p) (c : OptimizerConfig p V) (bus : Bus p)
    (hc : c.Correct bus) (s s' : ConstraintSystem p V) (hw : s.WF)
    (ok : RuleInput p V → ConstraintSystem p V → ConstraintSystem p V → Prop)
    (r : OptimizePasses c ok s s') (w : ℕ)
    (he : c.rangeHandler.Exact bus w r.st.finish.system.bus) :
    trivialSimplifications c.isStateful s' = .ok s' :=
  C105_idempotent _ _ _ (r.wf_last hV hc hw he) r.step6

/-- C110: in the result of the optimizer, no constraint is a constant, none appears twice, and none is
the product of another one and an expression that is not constant. -/
theorem C110_constraints (hV : Fintype.card V ≤ p) (c : OptimizerConfig p V) (bus : Bus p)
    (hc : c.Correct bus) (s s' : ConstraintSystem p V) (hw : s.WF)
    (ok : RuleInput p V → ConstraintSystem p V → ConstraintSystem p V → Prop)
    (r : OptimizePasses c ok s s') (w : ℕ)
    (he : c.rangeHandler.Exact bus w r.st.finish.system.bus) :
    (∀ e ∈ s'.algebraic, ∀ k, e ≠ const k) ∧ s'.algebraic.Nodup ∧
    ∀ a ∈ s'.algebraic, ∀ b ∈ s'.algebraic, ∀ f : GExpr p V, (∀ k, f ≠ const k) →
      a ≠ b * f ∧ a ≠ f * b :=
  have h := r.wf_last hV hc hw he
  ⟨fun e he' => ((C105_factors _ _ _ h r.step6).1 e he').1, C105_products _ _ _ h r.step6⟩

/-- C110: in the result of the optimizer, no bus interaction has multiplicity zero, none looks up a
program counter, none appears twice on a bus without state, and the columns to be computed are mentioned
by a constraint or a bus interaction. -/
theorem C110_interactions (hV : Fintype.card V ≤ p) (c : OptimizerConfig p V) (bus : Bus p)
    (hc : c.Correct bus) (s s' : ConstraintSystem p V) (hw : s.WF)
    (ok : RuleInput p V → ConstraintSystem p V → ConstraintSystem p V → Prop)
    (r : OptimizeRun c ok s s') (w : ℕ)
    (he : c.rangeHandler.Exact bus w r.st.finish.system.bus) :
    (∀ b ∈ s'.bus, b.multiplicity ≠ const 0 ∧ b.busId ≠ const (c.pcLookupId : ZMod p)) ∧
    s'.bus.Pairwise (fun b b' => ∀ id, b.busId = const id → c.isStateful id = false → b ≠ b') ∧
    ∀ d ∈ s'.derived, s'.Mentions d.column := by
  obtain ⟨h1, h2, h3⟩ := C105_rest _ _ _ (r.wf_last hV hc hw he) r.step6
  exact ⟨fun b hb => ⟨h1 b hb, r.noPcLookup b hb⟩, h2, h3⟩

/-- C110 for OpenVM. -/
theorem C110_openvm (hV : Fintype.card V ≤ p) (m : BusMap) (hm : m.Fits p) (hp : 2 ^ 26 ≤ p)
    (h64 : ∀ x ∈ m, x.1 < 2 ^ 64)
    (hsz : ∀ id s0 s1, (id, BusType.other (.tupleRangeChecker s0 s1)) ∈ m →
      s0 ≤ 2 ^ 25 ∧ s1 ≤ 2 ^ 25)
    (memoryBusId : Option ℕ) (hmem : ∀ id, memoryBusId = some id → (id, BusType.memory) ∈ m)
    (pcLookupId : ℕ) (bound : DegreeBound) (intBits : ℕ) (hint : 2 * (p - 1) < 2 ^ intBits)
    (s s' : ConstraintSystem p V) (hw : s.WF)
    (ok : RuleInput p V → ConstraintSystem p V → ConstraintSystem p V → Prop)
    (r : OptimizeRun (openVmConfig m memoryBusId pcLookupId bound intBits) ok s s')
    (hsmall : SmallBitCounts m r.st.finish.system.bus) :
    (∀ e ∈ s'.algebraic, ∀ k, e ≠ const k) ∧ s'.algebraic.Nodup ∧
    (∀ b ∈ s'.bus, b.multiplicity ≠ const 0 ∧ b.busId ≠ const (pcLookupId : ZMod p)) ∧
    (s'.bus.filter fun b => ∃ id, b.busId = const id ∧ openVmStateful m id = false).Nodup := by
  have hc := C62_openvm (V := V) m hm hp h64 memoryBusId hmem pcLookupId bound intBits hint
  have he := openVm_exact hm hp hsz hsmall
  obtain ⟨h1, h2, -⟩ := C110_constraints hV _ _ hc s s' hw ok r.toOptimizePasses _ he
  obtain ⟨h3, h4, -⟩ := C110_interactions hV _ _ hc s s' hw ok r _ he
  refine ⟨h1, h2, h3, ?_⟩
  refine List.Pairwise.imp_of_mem ?_ (h4.filter _)
  intro b b' hb _ h
  obtain ⟨id, hid, hf⟩ := of_decide_eq_true (List.mem_filter.1 hb).2
  exact h id hid hf

/-! ### A sample -/

attribute [local instance] fact_babyBear

/-- The run of the sample of C62 meets the hypotheses. -/
example : Fintype.card (Fin 3) ≤ 2013265921 ∧ (pipelineConfig 3).Correct pipelineBus ∧
    pipelineSample.WF ∧
    ∃ r : OptimizeRun (pipelineConfig 3) (fun _ _ _ => False) pipelineSample
      ⟨[], [⟨const 7, const 1, [const 5]⟩], []⟩,
      (pipelineConfig 3).rangeHandler.Exact pipelineBus 0 r.st.finish.system.bus := by
  obtain ⟨r, -, -, h⟩ := pipeline_run pipeline_result (by decide +kernel)
  refine ⟨by simp, pipeline_correct 3, ⟨fun e he => ?_, fun b hb => ?_⟩, r, h⟩
  · rw [List.mem_singleton.1 he]
    exact wf_sub (wf_var _) (wf_const _)
  · intro e he
    revert e
    simp only [pipelineSample, List.mem_cons, List.not_mem_nil, or_false] at hb
    rcases hb with rfl | rfl | rfl <;> simp [BusInteraction.fields, wf_var, wf_const]

end Verif
