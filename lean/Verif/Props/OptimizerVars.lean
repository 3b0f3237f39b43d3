import Verif.Proofs.OptimizerVars
import Verif.Props.Optimizer

/-!
# C112: the columns of the optimized system
-/

set_option linter.unusedSectionVars false

namespace Verif

open GExpr

variable {p : ℕ} [Fact p.Prime] {V : Type} [LinearOrder V] [Fintype V]

/-- C112: every column of the output of the optimizer occurs in the input or is one of the new
columns which the rules created, each together with a computation method. -/
theorem C112_columns (hV : Fintype.card V ≤ p) (c : OptimizerConfig p V) (bus : Bus p)
    (hc : c.Correct bus) (s s' : ConstraintSystem p V) (hw : s.WF)
    (ok : RuleInput p V → ConstraintSystem p V → ConstraintSystem p V → Prop)
    (r : OptimizePasses c ok s s') (w : ℕ)
    (he : c.rangeHandler.Exact bus w r.st.finish.system.bus) (hrh : c.rangeHandler.KeepsVars)
    (v : V) (hv : s'.Mentions v) : s.Mentions v ∨ ∃ d ∈ r.news, d.column = v :=
  onlyVars_iff.1 (r.onlyVars (A := fun v => s.Mentions v ∨ ∃ d ∈ r.news, d.column = v) hV hc hw he hrh
    (onlyVars_iff.2 fun _ h => Or.inl h) fun d hd => Or.inr ⟨d, hd, rfl⟩) v hv

/-- C112: the number of columns grows at most by the number of the new columns. -/
theorem C112_count (hV : Fintype.card V ≤ p) (c : OptimizerConfig p V) (bus : Bus p)
    (hc : c.Correct bus) (s s' : ConstraintSystem p V) (hw : s.WF)
    (ok : RuleInput p V → ConstraintSystem p V → ConstraintSystem p V → Prop)
    (r : OptimizePasses c ok s s') (w : ℕ)
    (he : c.rangeHandler.Exact bus w r.st.finish.system.bus) (hrh : c.rangeHandler.KeepsVars) :
    {v | s'.Mentions v}.ncard ≤ {v | s.Mentions v}.ncard + r.news.length := by
  have h1 : {v | s'.Mentions v} ⊆ {v | s.Mentions v} ∪ {v | v ∈ r.news.map (·.column)} := by
    intro v hv
    rcases C112_columns hV c bus hc s s' hw ok r w he hrh v hv with h | ⟨d, hd, rfl⟩
    · exact Or.inl h
    · exact Or.inr (List.mem_map.2 ⟨d, hd, rfl⟩)
  refine (Set.ncard_le_ncard h1 (Set.toFinite _)).trans ((Set.ncard_union_le _ _).trans ?_)
  have h2 : {v | v ∈ r.news.map (·.column)} = ((r.news.map (·.column)).toFinset : Set V) := by
    ext v; simp
  rw [h2, Set.ncard_coe_finset]
  exact Nat.add_le_add_left ((List.toFinset_card_le _).trans (by simp)) _

/-- C112 for OpenVM. -/
theorem C112_openvm (hV : Fintype.card V ≤ p) (m : BusMap) (hm : m.Fits p) (hp : 2 ^ 26 ≤ p)
    (h64 : ∀ x ∈ m, x.1 < 2 ^ 64)
    (hsz : ∀ id s0 s1, (id, BusType.other (.tupleRangeChecker s0 s1)) ∈ m →
      s0 ≤ 2 ^ 25 ∧ s1 ≤ 2 ^ 25)
    (memoryBusId : Option ℕ) (hmem : ∀ id, memoryBusId = some id → (id, BusType.memory) ∈ m)
    (pcLookupId : ℕ) (bound : DegreeBound) (intBits : ℕ) (hint : 2 * (p - 1) < 2 ^ intBits)
    (s s' : ConstraintSystem p V) (hw : s.WF)
    (ok : RuleInput p V → ConstraintSystem p V → ConstraintSystem p V → Prop)
    (r : OptimizePasses (openVmConfig m memoryBusId pcLookupId bound intBits) ok s s')
    (hsmall : SmallBitCounts m r.st.finish.system.bus) (v : V) (hv : s'.Mentions v) :
    s.Mentions v ∨ ∃ d ∈ r.news, d.column = v :=
  C112_columns hV _ (openVmBus m) (C62_openvm m hm hp h64 memoryBusId hmem pcLookupId bound intBits hint)
    s s' hw ok r _ (openVm_exact hm hp hsz hsmall) (openVm_keepsVars m) v hv

/-! ### A sample -/

attribute [local instance] fact_babyBear

/-- The handler of range constraints of the sample of C62 mentions no other variables. -/
theorem pipeline_keepsVars (n : ℕ) : (pipelineConfig n).rangeHandler.KeepsVars := by
  intro rcs made h b hb
  simp only [pipelineConfig, Except.ok.injEq] at h
  split at h <;> cases h
  cases hb

/-- The passes of the sample of C62 meet the hypotheses. -/
example : ∃ r : OptimizePasses (pipelineConfig 3) (fun _ _ _ => False) pipelineSample
    ⟨[], [⟨const 7, const 1, [const 5]⟩], []⟩,
    (pipelineConfig 3).rangeHandler.Exact pipelineBus 0 r.st.finish.system.bus := by
  obtain ⟨r, -, -, h⟩ := pipeline_run pipeline_result (by decide +kernel)
  exact ⟨r.toOptimizePasses, h⟩

/-- A round of the rules that replaces a constraint by one with a new column: both the original
columns and the new one are found again, no others. -/
example (A : V → Prop) (inp : RuleInput p V) (hwf : inp.WF) (h1 : ∀ e ∈ inp.constraints, e.Only A)
    (h2 : ∀ x ∈ inp.exprRanges, x.1.Only A) (h3 : ∀ x ∈ inp.varRanges, A x.1)
    (h4 : ∀ v ∈ inp.single, A v) (hfresh : ∀ w m, inp.fresh w m → A w) (e e' : GExpr p V)
    (h : Derives inp (.replaceBy e e')) : e'.Only A := by
  obtain ⟨E, k, M, hE, h⟩ := in_of_input hwf h1 h2 h3 h4 h
  exact only_newLists hE hfresh h.2 e' (by simp)

end Verif
