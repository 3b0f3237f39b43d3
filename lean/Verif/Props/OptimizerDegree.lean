import Verif.Proofs.OptimizerDegree
import Verif.Props.Optimizer

/-!
# C94: the optimizer keeps the degree bound
-/

set_option linter.unusedSectionVars false

namespace Verif

open GExpr

variable {p : ℕ} [Fact p.Prime] {V : Type} [LinearOrder V] [Fintype V]

/-- C94: the passes of the optimizer do not raise the degree beyond the configured bound. If the
constraints of the input have degree at most `n` and the fields of its bus interactions degree at most
`k`, where `n` and `k` are at least the configured bounds and `k ≤ n`, then the same holds for the
output. -/
theorem C94_degrees (hV : Fintype.card V ≤ p) (c : OptimizerConfig p V) (bus : Bus p)
    (hc : c.Correct bus) (s s' : ConstraintSystem p V) (hw : s.WF)
    (ok : RuleInput p V → ConstraintSystem p V → ConstraintSystem p V → Prop)
    (r : OptimizePasses c ok s s') (w : ℕ)
    (he : c.rangeHandler.Exact bus w r.st.finish.system.bus) (hrh : c.rangeHandler.KeepsDegree)
    (n k : ℕ) (hk : k ≤ n) (hn : c.bound.identities ≤ n) (hkb : c.bound.busInteractions ≤ k)
    (hd : s.Degrees n k) : s'.Degrees n k :=
  r.degrees hV hc hw he hk hn hkb hrh hd

/-- C94: if the input respects the degree bound, the assertions on degrees at the end of the optimizer
never fail: passes that leave no interaction with the pc lookup bus are a complete run. The bound
for bus interactions must not be larger than the one for constraints, since the assertion compares the
degrees in bus interactions with the bound for constraints. -/
theorem C94_assertions_hold (hV : Fintype.card V ≤ p) (c : OptimizerConfig p V) (bus : Bus p)
    (hc : c.Correct bus) (s s' : ConstraintSystem p V) (hw : s.WF)
    (ok : RuleInput p V → ConstraintSystem p V → ConstraintSystem p V → Prop)
    (r : OptimizePasses c ok s s') (w : ℕ)
    (he : c.rangeHandler.Exact bus w r.st.finish.system.bus) (hrh : c.rangeHandler.KeepsDegree)
    (hb : c.bound.busInteractions ≤ c.bound.identities)
    (hd : s.Degrees c.bound.identities c.bound.busInteractions)
    (hpc : ∀ b ∈ s'.bus, b.busId ≠ const (c.pcLookupId : ZMod p)) :
    ∃ run : OptimizeRun c ok s s', run.toOptimizePasses = r := by
  have h := C94_degrees hV c bus hc s s' hw ok r w he hrh _ _ hb le_rfl le_rfl hd
  exact ⟨{ toOptimizePasses := r, degree := h.algebraic,
           busDegree := fun b hb' e he' => (h.bus b hb' e he').trans hb, noPcLookup := hpc }, rfl⟩

/-- C94 for OpenVM. -/
theorem C94_openvm (hV : Fintype.card V ≤ p) (m : BusMap) (hm : m.Fits p) (hp : 2 ^ 26 ≤ p)
    (h64 : ∀ x ∈ m, x.1 < 2 ^ 64)
    (hsz : ∀ id s0 s1, (id, BusType.other (.tupleRangeChecker s0 s1)) ∈ m →
      s0 ≤ 2 ^ 25 ∧ s1 ≤ 2 ^ 25)
    (memoryBusId : Option ℕ) (hmem : ∀ id, memoryBusId = some id → (id, BusType.memory) ∈ m)
    (pcLookupId : ℕ) (bound : DegreeBound) (intBits : ℕ) (hint : 2 * (p - 1) < 2 ^ intBits)
    (hb : bound.busInteractions ≤ bound.identities)
    (s s' : ConstraintSystem p V) (hw : s.WF)
    (ok : RuleInput p V → ConstraintSystem p V → ConstraintSystem p V → Prop)
    (r : OptimizePasses (openVmConfig m memoryBusId pcLookupId bound intBits) ok s s')
    (hsmall : SmallBitCounts m r.st.finish.system.bus)
    (hd : s.Degrees bound.identities bound.busInteractions) :
    s'.Degrees bound.identities bound.busInteractions :=
  C94_degrees hV _ (openVmBus m) (C62_openvm m hm hp h64 memoryBusId hmem pcLookupId bound intBits hint)
    s s' hw ok r _ (openVm_exact hm hp hsz hsmall) (openVm_keepsDegree m) _ _ hb le_rfl le_rfl hd

/-! ### A sample -/

attribute [local instance] fact_babyBear

/-- The sample of C62 respects the bound of its configuration. -/
theorem pipelineSample_degrees : pipelineSample.Degrees 3 3 :=
  ⟨by decide +kernel, by decide +kernel⟩

/-- Its handler of range constraints keeps degrees. -/
theorem pipeline_keepsDegree (n : ℕ) : (pipelineConfig n).rangeHandler.KeepsDegree := by
  intro rcs made h k _ b hb
  simp only [pipelineConfig, Except.ok.injEq] at h
  split at h <;> cases h
  cases hb

/-- The passes of the sample meet the hypotheses. -/
example : ∃ r : OptimizePasses (pipelineConfig 3) (fun _ _ _ => False) pipelineSample
    ⟨[], [⟨const 7, const 1, [const 5]⟩], []⟩,
    (pipelineConfig 3).rangeHandler.Exact pipelineBus 0 r.st.finish.system.bus := by
  obtain ⟨r, -, -, h⟩ := pipeline_run pipeline_result (by decide +kernel)
  exact ⟨r.toOptimizePasses, h⟩

end Verif
