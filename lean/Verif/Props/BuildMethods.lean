import Verif.Props.Build
import Verif.Spec.TraceGen
import Verif.Props.OptimizerMethods
import Verif.Props.OptimizerKept
import Verif.Proofs.BuildMethods

/-!
# C113, C114: the computation methods of a generated precompile
-/

set_option linter.unusedSectionVars false

namespace Verif

open GExpr

section
variable {p : ℕ} [Fact p.Prime] {U I : Type} [Field U] [DecidableEq U] {N : ℕ} {φ : U ≃+* ZMod p}
  {execBus step : ℕ} {c : OptimizerConfig p (Fin N)}
  {ok : RuleInput p (Fin N) → ConstraintSystem p (Fin N) → ConstraintSystem p (Fin N) → Prop}
  {air : ℕ × I → InstrAir U} {blocks : List (BasicBlock I)} {e : EmpiricalConstraints}
  {keep : Option (BlockCell → Bool)} {apc : SymMachine U ℕ} {subs : List (List (ℕ × ℕ))}

theorem BuildRun.copied (r : BuildRun φ execBus step c ok air blocks e keep apc subs) (v : Fin N)
    (hv : (machineToSystem r.m3).Mentions v) (hm : (v : ℕ) ∈ r.m6.refs) : IsCopied subs v := by
  have h1 : (v : ℕ) ∈ r.m2.refs := by
    rw [← r.step3, renumber_refs]
    exact List.mem_map.2 ⟨_, machineToSystem_mentions hv, rfl⟩
  have h2 : (v : ℕ) ∈ r.a6.subs.flatten := by
    rw [show r.a6.subs = r.a0.subs by rw [(C37_column r.step6).2.1], (C47_ids r.step0).1]
    exact List.mem_range.2 (r.known h1)
  obtain ⟨s, hs, hvs⟩ := List.mem_flatten.1 h2
  obtain ⟨i, hi⟩ := List.mem_iff_getElem?.1 hs
  obtain ⟨j, hj⟩ := List.mem_iff_getElem?.1 hvs
  obtain ⟨l, k1, k2, -⟩ := (C47_substitutions r.m6 r.a6).2 i s hi
  rw [r.substitutions]
  exact ⟨l, List.mem_of_getElem? k1, j, (k2 j v).2 ⟨hj, hm⟩⟩

/-- C113 for the generation of a precompile: a computed column of the precompile is the validity
column, which is always one, or was created by the rules of the optimizer. The computation needs only
columns of the instructions of the block and created columns. -/
theorem C113_precompile (r : BuildRun φ execBus step c ok air blocks e keep apc subs) (hN : N ≤ p)
    (bus : Bus p) (hc : c.Correct bus) (width : ℕ)
    (hair : ∀ x ∈ superBlockInstructions step blocks, (air x).Good execBus p width) (hwf : e.WF)
    (hcells : ∀ b ∈ blocks, CellsInBlock e b) (w : ℕ)
    (he : c.rangeHandler.Exact bus w r.step4.st.finish.system.bus) (hrh : c.rangeHandler.KeepsVars)
    (x : ℕ × SymMethod U ℕ) (hx : x ∈ apc.derived) :
    x = (N, .constant 1) ∨
    (∃ d ∈ r.step4.news, (d.column : ℕ) = x.1) ∧
    ∀ v ∈ x.2.refs, v ∈ r.a0.subs.flatten ∨ ∃ d ∈ r.step4.news, (d.column : ℕ) = v := by
  have hids := C47_ids r.step0
  have hn : r.a0.subs.flatten.Nodup := by
    rw [hids.1]
    exact List.nodup_range
  obtain ⟨σ, hσ⟩ := exists_agrees φ hn fun _ _ => 0
  obtain ⟨-, -, -, -, g5⟩ := r.rows hair hwf hcells hσ
  have hd3 : r.m3.derived = [] := by
    have := congrArg SymMachine.derived r.step3
    rw [g5] at this
    exact List.map_eq_nil_iff.1 this
  have hd3' : (machineToSystem r.m3).derived = [] := by simp [machineToSystem, hd3]
  have hknown : ∀ v : Fin N, (machineToSystem r.m3).Mentions v → (v : ℕ) ∈ r.a0.subs.flatten := by
    intro v hv
    have h1 : (v : ℕ) ∈ r.m2.refs := by
      rw [← r.step3, renumber_refs]
      exact List.mem_map.2 ⟨_, machineToSystem_mentions hv, rfl⟩
    rw [hids.1]
    exact List.mem_range.2 (r.known h1)
  rw [r.machine] at hx
  simp only [SymMachine.convert] at hx
  rw [(C37_column r.step6).1] at hx
  obtain ⟨y, hy, rfl⟩ := List.mem_map.1 hx
  rcases List.mem_append.1 hy with hy | hy
  · right
    simp only [SymMachine.renumber] at hy
    obtain ⟨z, hz, rfl⟩ := List.mem_map.1 hy
    have h5 := r.step5
    simp only [systemToMachine, bind, Except.bind, pure, Except.pure] at h5
    split at h5
    · cases h5
    rw [← Except.ok.inj h5] at hz
    obtain ⟨d, hd, rfl⟩ := List.mem_map.1 hz
    obtain ⟨h1, h2⟩ := C113_fresh (by simpa using hN) c bus hc _ _ (machineToSystem_wf _) hd3' ok
      r.step4.toOptimizePasses w he hrh d hd
    refine ⟨?_, ?_⟩
    · obtain ⟨d0, k1, k2⟩ := h1
      exact ⟨d0, k1, by rw [k2]⟩
    · obtain ⟨col, meth⟩ := d
      have key : ∀ v : Fin N, meth.Mentions v →
          (v : ℕ) ∈ r.a0.subs.flatten ∨ ∃ d ∈ r.step4.news, (d.column : ℕ) = (v : ℕ) := by
        intro v hv
        rcases h2 v hv with h | ⟨d0, k1, k2⟩
        · exact Or.inl (hknown v h)
        · exact Or.inr ⟨d0, k1, by rw [k2]⟩
      cases meth with
      | constant k => simp [SymMethod.mapRefs, SymMethod.refs]
      | quotientOrZero e1 e2 =>
        intro v hv
        simp only [SymMethod.mapRefs, SymMethod.refs, List.mem_append, refs_convert, refs_mapRefs,
          List.mem_map] at hv
        rcases hv with ⟨u, hu, rfl⟩ | ⟨u, hu, rfl⟩
        · exact key u (Or.inl (mem_vars_iff_occurs.1 ((mem_refs_groupedToAlgebraic u e1).1 hu)))
        · exact key u (Or.inr (mem_vars_iff_occurs.1 ((mem_refs_groupedToAlgebraic u e2).1 hu)))
  · left
    simp only [List.mem_singleton] at hy
    subst hy
    simp

/-- C113: no column of a precompile is both copied from a row of an instruction and computed. -/
theorem C113_disjoint (r : BuildRun φ execBus step c ok air blocks e keep apc subs) (hN : N ≤ p)
    (bus : Bus p) (hc : c.Correct bus) (width : ℕ)
    (hair : ∀ x ∈ superBlockInstructions step blocks, (air x).Good execBus p width) (hwf : e.WF)
    (hcells : ∀ b ∈ blocks, CellsInBlock e b) (w : ℕ)
    (he : c.rangeHandler.Exact bus w r.step4.st.finish.system.bus) (hrh : c.rangeHandler.KeepsVars)
    (x : ℕ × SymMethod U ℕ) (hx : x ∈ apc.derived) : ¬ IsCopied subs x.1 := by
  rintro ⟨l, hl, j, hj⟩
  have hlt : x.1 < r.a0.nextPolyId := by
    obtain ⟨k, hk⟩ := List.mem_iff_getElem?.1 hl
    rw [r.substitutions] at hk
    obtain ⟨s1, s2⟩ := C47_substitutions r.m6 r.a6
    have ha6 : r.a6.subs = r.a0.subs := by rw [(C37_column r.step6).2.1]
    have hk' : k < r.a6.subs.length := by
      rw [← s1]
      exact (List.getElem?_eq_some_iff.1 hk).1
    obtain ⟨l', h1, h2, -⟩ := s2 k _ (List.getElem?_eq_getElem hk')
    rw [hk] at h1
    cases h1
    have h3 : x.1 ∈ r.a0.subs.flatten := by
      rw [← ha6]
      exact List.mem_flatten.2 ⟨_, List.getElem_mem hk', List.mem_of_getElem? ((h2 j x.1).1 hj).1⟩
    rw [(C47_ids r.step0).1] at h3
    exact List.mem_range.1 h3
  rcases C113_precompile r hN bus hc width hair hwf hcells w he hrh x hx with h | ⟨⟨d, h1, h2⟩, -⟩
  · have := r.allocated
    rw [h] at hlt
    simp only at hlt
    omega
  · have := r.issuedAfter d h1
    omega

/-- C112 for the generation of a precompile: every column of the precompile is copied from a row of an
instruction, was created by the rules of the optimizer, or is the validity column. -/
theorem C112_precompile (r : BuildRun φ execBus step c ok air blocks e keep apc subs) (hN : N ≤ p)
    (bus : Bus p) (hc : c.Correct bus) (w : ℕ)
    (he : c.rangeHandler.Exact bus w r.step4.st.finish.system.bus) (hrh : c.rangeHandler.KeepsVars)
    (id : ℕ) (hid : id ∈ apc.refs) :
    IsCopied subs id ∨ (∃ d ∈ r.step4.news, (d.column : ℕ) = id) ∨ id = N := by
  rw [r.machine, convert_refs] at hid
  rcases refs_addGuards r.step6 hid with h | h
  · rw [renumber_refs] at h
    obtain ⟨v, hv, rfl⟩ := List.mem_map.1 h
    rcases C112_columns (by simpa using hN) c bus hc _ _ (machineToSystem_wf _) ok
      r.step4.toOptimizePasses w he hrh v (refs_systemToMachine r.step5 hv) with h1 | ⟨d, h1, h2⟩
    · exact Or.inl (r.copied v h1 hid)
    · exact Or.inr (Or.inl ⟨d, h1, by rw [h2]⟩)
  · exact Or.inr (Or.inr h)

/-- C114 for the generation of a precompile: every column of the precompile is copied from a row of an
instruction or has a computation method, unless it was created by the rules, dropped out of the system
later in the optimization and came back. -/
theorem C114_precompile (r : BuildRun φ execBus step c ok air blocks e keep apc subs) (hN : N ≤ p)
    (bus : Bus p) (hc : c.Correct bus) (w : ℕ)
    (he : c.rangeHandler.Exact bus w r.step4.st.finish.system.bus) (hrh : c.rangeHandler.KeepsVars)
    (id : ℕ) (hid : id ∈ apc.refs)
    (hu : ∀ d ∈ r.step4.news, (d.column : ℕ) = id → ¬ r.step4.loop.Unused d.column) :
    IsCopied subs id ∨ ∃ d ∈ apc.derived, d.1 = id := by
  have hder : ∀ x ∈ r.m6.derived, ∃ d ∈ apc.derived, d.1 = x.1 := by
    intro x hx
    rw [r.machine]
    exact ⟨_, List.mem_map.2 ⟨x, hx, rfl⟩, rfl⟩
  rw [r.machine, convert_refs] at hid
  rcases refs_addGuards r.step6 hid with h | h
  · rw [renumber_refs] at h
    obtain ⟨v, hv, rfl⟩ := List.mem_map.1 h
    have hm := refs_systemToMachine r.step5 hv
    rcases C112_columns (by simpa using hN) c bus hc _ _ (machineToSystem_wf _) ok
      r.step4.toOptimizePasses w he hrh v hm with h1 | ⟨d, h1, rfl⟩
    · exact Or.inl (r.copied v h1 hid)
    · right
      obtain ⟨d', h2, h3⟩ := List.mem_map.1 (C114_kept (by simpa using hN) c bus hc _ _
        (machineToSystem_wf _) ok r.step4.toOptimizePasses w he d.column (Or.inr ⟨d, h1, rfl⟩) hm
        (hu d h1 rfl))
      have h4 : ∃ x ∈ r.m6.derived, x.1 = (d.column : ℕ) := by
        rw [(C37_column r.step6).1]
        simp only [SymMachine.renumber]
        rw [(systemToMachine_ok r.step5).2.2]
        exact ⟨_, List.mem_append_left _ (List.mem_map.2 ⟨_, List.mem_map.2 ⟨d', h2, rfl⟩, rfl⟩),
          congrArg Fin.val h3⟩
      obtain ⟨x, h5, h6⟩ := h4
      rw [← h6]
      exact hder x h5
  · right
    rw [h]
    refine hder (_, .constant 1) ?_
    rw [(C37_column r.step6).1]
    exact List.mem_append_right _ List.mem_cons_self

/-- C114: the rows of a generated precompile can be filled as soon as its computed columns can be
computed in the recorded order. That copied columns are used, and that there are no columns that are
neither copied nor computed, always holds. -/
theorem C114_fillable (r : BuildRun φ execBus step c ok air blocks e keep apc subs) (hN : N ≤ p)
    (bus : Bus p) (hc : c.Correct bus) (w : ℕ)
    (he : c.rangeHandler.Exact bus w r.step4.st.finish.system.bus) (hrh : c.rangeHandler.KeepsVars)
    (hu : ∀ d ∈ r.step4.news, ¬ r.step4.loop.Unused d.column)
    (ordered : ∀ before d after, apc.derived = before ++ d :: after → d.1 ∈ apc.refs ∧
      ∀ v ∈ d.2.refs, v ∈ apc.refs ∧ (IsCopied subs v ∨ ∃ d' ∈ before, d'.1 = v)) :
    Fillable apc subs where
  copied := by
    rintro id ⟨l, hl, j, hj⟩
    obtain ⟨k, hk⟩ := List.mem_iff_getElem?.1 hl
    rw [r.substitutions] at hk
    obtain ⟨s1, s2⟩ := C47_substitutions r.m6 r.a6
    have hk' : k < r.a6.subs.length := by
      rw [← s1]
      exact (List.getElem?_eq_some_iff.1 hk).1
    obtain ⟨l', h1, h2, -⟩ := s2 k _ (List.getElem?_eq_getElem hk')
    rw [hk] at h1
    cases h1
    rw [r.machine, convert_refs]
    exact ((h2 j id).1 hj).2
  computed := ordered
  covered := fun id hid => C114_precompile r hN bus hc w he hrh id hid fun d hd _ => hu d hd

end

/-! ### Sample

The precompile of C65. Its only computed column is the validity column. -/

attribute [local instance] fact_babyBear

/-- The columns 2 and 8 are used; 2 is copied and 8 is computed. -/
example : 8 ∈ buildApc.refs ∧ 2 ∈ buildApc.refs ∧
    ((IsCopied [[(2, 2)], []] 8) ∨ ∃ d ∈ buildApc.derived, d.1 = 8) ∧
    ∃ r : BuildRun (RingEquiv.refl (ZMod 2013265921)) 0 4 (pipelineConfig 8) (fun _ _ _ => False)
      buildAir buildBlocks buildStats (some buildKeep) buildApc [[(2, 2)], []],
      IsCopied [[(2, 2)], []] 2 ∨ (∃ d ∈ r.step4.news, (d.column : ℕ) = 2) ∨ 2 = 8 := by
  obtain ⟨r, -, he⟩ := build_run
  exact ⟨by decide, by decide,
    C114_precompile r (by decide) pipelineBus (pipeline_correct 8) 0 he (pipeline_keepsVars 8) 8
      (by decide) fun d _ h => absurd h (ne_of_lt d.column.2), r,
    C112_precompile r (by decide) pipelineBus (pipeline_correct 8) 0 he (pipeline_keepsVars 8) 2
      (by decide)⟩

example : buildApc.derived = [(8, .constant 1)] ∧ IsCopied [[(2, 2)], []] 2 ∧
    ¬ IsCopied [[(2, 2)], []] 8 := by
  obtain ⟨r, -, he⟩ := build_run
  exact ⟨rfl, ⟨_, List.mem_cons_self, 2, List.mem_cons_self⟩,
    C113_disjoint r (by decide) pipelineBus (pipeline_correct 8) 1 build_good build_wf
      build_cells 0 he (pipeline_keepsVars 8) (8, .constant 1) List.mem_cons_self⟩

/-- All columns of the precompile can be filled. -/
example : Fillable buildApc [[(2, 2)], []] := by
  obtain ⟨r, -, he, hn⟩ := build_run_news
  refine C114_fillable r (by decide) pipelineBus (pipeline_correct 8) 0 he (pipeline_keepsVars 8)
    (by rw [hn]; simp) fun before d after h => ?_
  cases before with
  | nil =>
    simp only [buildApc, List.nil_append, List.cons.injEq] at h
    obtain ⟨rfl, -⟩ := h
    exact ⟨by decide, by simp [SymMethod.refs]⟩
  | cons x t =>
    simp only [buildApc, List.cons_append, List.cons.injEq] at h
    simp at h

end Verif
