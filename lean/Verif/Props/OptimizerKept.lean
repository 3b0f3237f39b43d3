import Verif.Proofs.OptimizerKept
import Verif.Props.OptimizerMethods

/-!
# C114: recorded computation methods are kept
-/

set_option linter.unusedSectionVars false

namespace Verif

open GExpr

variable {p : ℕ} [Fact p.Prime] {V : Type} [LinearOrder V] [Fintype V]

/-- C114: a column of the output of the optimizer for which the input records a computation method, or
which the rules created, still has a computation method, unless it dropped out of the system in an
earlier round and came back. -/
theorem C114_kept (hV : Fintype.card V ≤ p) (c : OptimizerConfig p V) (bus : Bus p)
    (hc : c.Correct bus) (s s' : ConstraintSystem p V) (hw : s.WF)
    (ok : RuleInput p V → ConstraintSystem p V → ConstraintSystem p V → Prop)
    (r : OptimizePasses c ok s s') (w : ℕ)
    (he : c.rangeHandler.Exact bus w r.st.finish.system.bus) (v : V)
    (hv : v ∈ s.recorded ∨ ∃ d ∈ r.news, d.column = v) (hm : s'.Mentions v)
    (hu : ¬ r.loop.Unused v) : v ∈ s'.recorded := by
  obtain ⟨h1, h2⟩ := r.recorded hV hc hw he v
  refine h1.2 ⟨?_, hm⟩
  rcases hv with hv | ⟨d, hd, e⟩
  · exact Or.inl (h2 (Or.inl hv) hu)
  · rcases List.mem_append.1 hd with hd | hd
    · exact Or.inl (h2 (Or.inr ⟨d, hd, e⟩) hu)
    · exact Or.inr ⟨d, hd, e⟩

/-- C114: together with C112, every column of the output is one of the input, without or with a
computation method, or has a computation method in the output, unless it dropped out and came back. -/
theorem C114_columns (hV : Fintype.card V ≤ p) (c : OptimizerConfig p V) (bus : Bus p)
    (hc : c.Correct bus) (s s' : ConstraintSystem p V) (hw : s.WF)
    (ok : RuleInput p V → ConstraintSystem p V → ConstraintSystem p V → Prop)
    (r : OptimizePasses c ok s s') (w : ℕ)
    (he : c.rangeHandler.Exact bus w r.st.finish.system.bus) (hrh : c.rangeHandler.KeepsVars)
    (v : V) (hm : s'.Mentions v) (hu : ¬ r.loop.Unused v) : s.Mentions v ∨ v ∈ s'.recorded := by
  rcases C112_columns hV c bus hc s s' hw ok r w he hrh v hm with h | h
  · exact Or.inl h
  · exact Or.inr (C114_kept hV c bus hc s s' hw ok r w he v (Or.inr h) hm hu)

/-- C114: the output records computation methods only for columns it uses. -/
theorem C114_used (hV : Fintype.card V ≤ p) (c : OptimizerConfig p V) (bus : Bus p)
    (hc : c.Correct bus) (s s' : ConstraintSystem p V) (hw : s.WF)
    (ok : RuleInput p V → ConstraintSystem p V → ConstraintSystem p V → Prop)
    (r : OptimizePasses c ok s s') (w : ℕ)
    (he : c.rangeHandler.Exact bus w r.st.finish.system.bus) (v : V) (hv : v ∈ s'.recorded) :
    s'.Mentions v :=
  ((r.recorded hV hc hw he v).1.1 hv).2

omit [Fintype V] in
/-- C114 for the rules: they keep all recorded columns, in order, and record all new ones. -/
theorem C114_rules (rc : V → RangeConstraint p) (h : Handler p) (lt : GExpr p V → GExpr p V → Prop)
    (intBits : ℕ) (bound : Option DegreeBound)
    (ok : RuleInput p V → ConstraintSystem p V → ConstraintSystem p V → Prop)
    (s : ConstraintSystem p V) (st : DriverState p V) (news : List (DerivedVariable p V))
    (run : DriverRun rc h lt intBits bound ok (driverStart rc s) st news) :
    st.finish.system.recorded = s.recorded ++ news.map (·.column) :=
  (recorded_driver run : st.system.recorded = _)

omit [Fintype V] in
/-- C114 for the inliner: it keeps all recorded columns, in order. -/
theorem C114_inliner (s : ConstraintSystem p V) (ops : List (IndexedOp p V))
    (hw : (indexedHistory s ops).sys.WF) (should : ShouldInline p V) (fuel : ℕ) (ix : Indexed p V)
    (subs : List (V × GExpr p V))
    (h : replaceConstrainedWitnessColumns fuel (indexedHistory s ops) should = .ok (some (ix, subs))) :
    ix.sys.recorded = (indexedHistory s ops).sys.recorded :=
  recorded_inline (Indexed.inv_history s ops) hw h

omit [Fintype V] in
/-- C114 for the substitution of the assignments found by the solver: it keeps all recorded columns,
in order. -/
theorem C114_solver (h : Handler p) (ch : Choices p V) (s : ConstraintSystem p V)
    (ops : List (IndexedOp p V)) (solver solver' : Solver p V) (s' : ConstraintSystem p V)
    (l : List (V × GExpr p V))
    (hr : solverBased h ch (indexedHistory s ops) solver = .ok (s', l, solver')) :
    s'.recorded = (indexedHistory s ops).sys.recorded :=
  recorded_solverBased (Indexed.inv_history s ops) hr

/-- C114 for a round of the constraint optimizer: exactly the methods of columns which the simplified
system no longer mentions are removed, and those of the created columns are added. -/
theorem C114_round (hV : Fintype.card V ≤ p) (c : OptimizerConfig p V) (bus : Bus p)
    (hc : c.Correct bus) (s s' : ConstraintSystem p V) (hw : s.WF) (solver solver' : Solver p V)
    (hm : solver.MadeFor bus c.handler fun _ => False)
    (ok : RuleInput p V → ConstraintSystem p V → ConstraintSystem p V → Prop)
    (r : ConstraintRound c ok s solver s' solver') (v : V) :
    v ∈ s'.recorded ↔ (v ∈ s.recorded ∧ r.s6.Mentions v) ∨ ∃ d ∈ r.new7, d.column = v :=
  r.recorded hV hc (S := fun _ => False) (m := fun _ => none) (m' := fun _ => none) (s0 := s)
    ⟨hw, fun _ hf => hf.elim, fun _ hf => hf.elim, fun _ hf => hf.elim, fun _ hf => hf.elim⟩ hm
    (fun _ hf => hf.elim) (fun _ hf => hf.elim) v

/-! ### Samples -/

/-- The run of the rules of C57 that creates the column 9. -/
example : ∃ st news, DriverRun mergeRanges' defaultHandler (fun _ _ => True) 32 none
      (fun _ _ _ => True) (driverStart mergeRanges' mergeSample) st news ∧
    mergeSample.recorded = [] ∧ st.finish.system.recorded = [9] := by
  obtain ⟨st, run, -, h⟩ := mergeSample_run
  exact ⟨st, _, run, rfl, by rw [ConstraintSystem.recorded, h]; rfl⟩

attribute [local instance] fact_babyBear

/-- The passes of the sample of C62 meet the hypotheses; nothing is recorded, so nothing comes back. -/
example : ∃ r : OptimizePasses (pipelineConfig 3) (fun _ _ _ => False) pipelineSample
    ⟨[], [⟨const 7, const 1, [const 5]⟩], []⟩,
    (pipelineConfig 3).rangeHandler.Exact pipelineBus 0 r.st.finish.system.bus ∧
    pipelineSample.recorded = [] := by
  obtain ⟨r, -, -, h⟩ := pipeline_run pipeline_result (by decide +kernel)
  exact ⟨r.toOptimizePasses, h, rfl⟩

end Verif
