import Verif.Proofs.OptimizerMethods
import Verif.Props.OptimizerVars

/-!
# C113: the computation methods of the optimized system
-/

set_option linter.unusedSectionVars false

namespace Verif

open GExpr

variable {p : ℕ} [Fact p.Prime] {V : Type} [LinearOrder V] [Fintype V]

/-- C113: every column with a computation method in the output of the optimizer has one in the input
or was created by the rules. All columns its method needs occur in the input, in a constraint, an
interaction or a computation method, or were themselves created by the rules. -/
theorem C113_methods (hV : Fintype.card V ≤ p) (c : OptimizerConfig p V) (bus : Bus p)
    (hc : c.Correct bus) (s s' : ConstraintSystem p V) (hw : s.WF)
    (ok : RuleInput p V → ConstraintSystem p V → ConstraintSystem p V → Prop)
    (r : OptimizePasses c ok s s') (w : ℕ)
    (he : c.rangeHandler.Exact bus w r.st.finish.system.bus) (hrh : c.rangeHandler.KeepsVars)
    (d : DerivedVariable p V) (hd : d ∈ s'.derived) :
    ((∃ d0 ∈ s.derived, d0.column = d.column) ∨ ∃ d0 ∈ r.news, d0.column = d.column) ∧
    ∀ v, d.method.Mentions v →
      s.Mentions v ∨ (∃ d0 ∈ s.derived, d0.method.Mentions v) ∨ ∃ d0 ∈ r.news, d0.column = v :=
  r.derivedOnly
    (A := fun v => s.Mentions v ∨ (∃ d0 ∈ s.derived, d0.method.Mentions v) ∨
      ∃ d0 ∈ r.news, d0.column = v)
    (B := fun v => (∃ d0 ∈ s.derived, d0.column = v) ∨ ∃ d0 ∈ r.news, d0.column = v)
    hV hc hw he hrh (onlyVars_iff.2 fun _ h => Or.inl h)
    (fun d hd => ⟨Or.inr (Or.inr ⟨d, hd, rfl⟩), Or.inr ⟨d, hd, rfl⟩⟩)
    (fun d hd => ⟨Or.inl ⟨d, hd, rfl⟩, fun _ hv => Or.inr (Or.inl ⟨d, hd, hv⟩)⟩) d hd

/-- C113: if the input has no computation methods, as for a circuit that was not optimized before,
all methods in the output belong to created columns and need only columns of the input and created
ones. -/
theorem C113_fresh (hV : Fintype.card V ≤ p) (c : OptimizerConfig p V) (bus : Bus p)
    (hc : c.Correct bus) (s s' : ConstraintSystem p V) (hw : s.WF) (hs : s.derived = [])
    (ok : RuleInput p V → ConstraintSystem p V → ConstraintSystem p V → Prop)
    (r : OptimizePasses c ok s s') (w : ℕ)
    (he : c.rangeHandler.Exact bus w r.st.finish.system.bus) (hrh : c.rangeHandler.KeepsVars)
    (d : DerivedVariable p V) (hd : d ∈ s'.derived) :
    (∃ d0 ∈ r.news, d0.column = d.column) ∧
    ∀ v, d.method.Mentions v → s.Mentions v ∨ ∃ d0 ∈ r.news, d0.column = v := by
  obtain ⟨h1, h2⟩ := C113_methods hV c bus hc s s' hw ok r w he hrh d hd
  rw [hs] at h1 h2
  refine ⟨h1.elim (by simp) id, fun v hv => ?_⟩
  rcases h2 v hv with h | ⟨d0, h, -⟩ | h
  · exact Or.inl h
  · cases h
  · exact Or.inr h

/-- C113 for one run of the rules: every method recorded afterwards is one from before, after the
substitutions, or belongs to a new column. Its columns occur in the system, in a method recorded
before, or are new. -/
theorem C113_rules (rc : V → RangeConstraint p) (h : Handler p) (lt : GExpr p V → GExpr p V → Prop)
    (intBits : ℕ) (bound : Option DegreeBound)
    (ok : RuleInput p V → ConstraintSystem p V → ConstraintSystem p V → Prop)
    (s : ConstraintSystem p V) (hw : s.WF) (st : DriverState p V) (news : List (DerivedVariable p V))
    (run : DriverRun rc h lt intBits bound ok (driverStart rc s) st news)
    (d : DerivedVariable p V) (hd : d ∈ st.finish.system.derived) :
    ((∃ d0 ∈ s.derived, d0.column = d.column) ∨ ∃ d0 ∈ news, d0.column = d.column) ∧
    ∀ v, d.method.Mentions v →
      s.Mentions v ∨ (∃ d0 ∈ s.derived, d0.method.Mentions v) ∨ ∃ d0 ∈ news, d0.column = v :=
  derivedOnly_driver
    (A := fun v => s.Mentions v ∨ (∃ d0 ∈ s.derived, d0.method.Mentions v) ∨
      ∃ d0 ∈ news, d0.column = v)
    (B := fun v => (∃ d0 ∈ s.derived, d0.column = v) ∨ ∃ d0 ∈ news, d0.column = v)
    hw (onlyVars_driverStart (onlyVars_iff.2 fun _ h => Or.inl h))
    (fun d hd => ⟨Or.inl ⟨d, hd, rfl⟩, fun _ hv => Or.inr (Or.inl ⟨d, hd, hv⟩)⟩) run
    (fun d hd => ⟨Or.inr (Or.inr ⟨d, hd, rfl⟩), Or.inr ⟨d, hd, rfl⟩⟩) d hd

/-- C113 for OpenVM. -/
theorem C113_openvm (hV : Fintype.card V ≤ p) (m : BusMap) (hm : m.Fits p) (hp : 2 ^ 26 ≤ p)
    (h64 : ∀ x ∈ m, x.1 < 2 ^ 64)
    (hsz : ∀ id s0 s1, (id, BusType.other (.tupleRangeChecker s0 s1)) ∈ m →
      s0 ≤ 2 ^ 25 ∧ s1 ≤ 2 ^ 25)
    (memoryBusId : Option ℕ) (hmem : ∀ id, memoryBusId = some id → (id, BusType.memory) ∈ m)
    (pcLookupId : ℕ) (bound : DegreeBound) (intBits : ℕ) (hint : 2 * (p - 1) < 2 ^ intBits)
    (s s' : ConstraintSystem p V) (hw : s.WF)
    (ok : RuleInput p V → ConstraintSystem p V → ConstraintSystem p V → Prop)
    (r : OptimizePasses (openVmConfig m memoryBusId pcLookupId bound intBits) ok s s')
    (hsmall : SmallBitCounts m r.st.finish.system.bus)
    (d : DerivedVariable p V) (hd : d ∈ s'.derived) :
    ((∃ d0 ∈ s.derived, d0.column = d.column) ∨ ∃ d0 ∈ r.news, d0.column = d.column) ∧
    ∀ v, d.method.Mentions v →
      s.Mentions v ∨ (∃ d0 ∈ s.derived, d0.method.Mentions v) ∨ ∃ d0 ∈ r.news, d0.column = v :=
  C113_methods hV _ (openVmBus m) (C62_openvm m hm hp h64 memoryBusId hmem pcLookupId bound intBits hint)
    s s' hw ok r _ (openVm_exact hm hp hsz hsmall) (openVm_keepsVars m) d hd

/-! ### Samples -/

theorem mergeSample_wf : mergeSample.WF := by
  refine ⟨?_, ?_⟩
  · intro e he
    simp only [mergeSample, List.mem_singleton] at he
    subst he
    refine wf_intro ?_ (by simp) (by simp)
    intro x hx
    simp only [List.mem_cons, List.not_mem_nil, or_false] at hx
    rcases hx with rfl | rfl
    all_goals exact ⟨wf_var _, wf_var _, rfl, rfl⟩
  · intro b hb e he
    simp only [mergeSample, List.mem_singleton] at hb
    subst hb
    simp only [BusInteraction.fields, List.mem_cons, List.not_mem_nil, or_false] at he
    rcases he with rfl | rfl | rfl | rfl | rfl
    all_goals first | exact wf_const _ | exact wf_var _

/-- The run of the rules of C57 that creates a column: its method needs exactly three columns, all
from the input. -/
example : ∃ st news, DriverRun mergeRanges' defaultHandler (fun _ _ => True) 32 none
      (fun _ _ _ => True) (driverStart mergeRanges' mergeSample) st news ∧ mergeSample.WF ∧
    ∃ d ∈ st.finish.system.derived, d.column = 9 ∧ ¬ mergeSample.Mentions 9 ∧
      (∀ v, d.method.Mentions v ↔ v = 0 ∨ v = 1 ∨ v = 2) ∧
      ∀ v, d.method.Mentions v → mergeSample.Mentions v := by
  obtain ⟨st, run, -, h⟩ := mergeSample_run
  refine ⟨st, _, run, mergeSample_wf, ⟨9, inverseMethod⟩, by rw [h]; simp, rfl, ?_, ?_⟩
  · rw [mentions_iff]; decide +kernel
  · have key : ∀ v, inverseMethod.Mentions v ↔ v = 0 ∨ v = 1 ∨ v = 2 := by
      intro v
      simp only [inverseMethod, ComputationMethod.Mentions, ← mem_vars_iff_occurs]
      revert v; decide +kernel
    refine ⟨key, fun v hv => ?_⟩
    rw [mentions_iff]
    rcases (key v).1 hv with rfl | rfl | rfl
    all_goals decide +kernel

attribute [local instance] fact_babyBear

/-- The passes of the sample of C62 meet the hypotheses. -/
example : ∃ r : OptimizePasses (pipelineConfig 3) (fun _ _ _ => False) pipelineSample
    ⟨[], [⟨const 7, const 1, [const 5]⟩], []⟩,
    (pipelineConfig 3).rangeHandler.Exact pipelineBus 0 r.st.finish.system.bus ∧
    (pipelineConfig 3).rangeHandler.KeepsVars ∧ pipelineSample.derived = [] := by
  obtain ⟨r, -, -, h⟩ := pipeline_run pipeline_result (by decide +kernel)
  exact ⟨r.toOptimizePasses, h, pipeline_keepsVars 3, rfl⟩

end Verif
