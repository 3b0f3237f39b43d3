import Verif.Proofs.Optimizer

/-!
# C62: the optimizer as a whole
-/

set_option linter.unusedSectionVars false

namespace Verif

open GExpr

variable {p : ℕ} [Fact p.Prime] {V : Type} [LinearOrder V] [Fintype V]

/-- C62: every execution of the original system, in which the columns introduced by the rules have the
values of their computation methods, is an execution of the optimized system, with the same memory
before and after and the same messages on the other stateful buses. All derived columns of the optimized
system have the values of their computation methods. The results of comparisons found by the rules must
be right, which is what C29 shows. -/
theorem C62_complete (hV : Fintype.card V ≤ p) (c : OptimizerConfig p V) (bus : Bus p)
    (hc : c.Correct bus) (s s' : ConstraintSystem p V) (hw : s.WF) (hd : s.DerivedWF)
    (m m' : Memory p) (ok : RuleInput p V → ConstraintSystem p V → ConstraintSystem p V → Prop)
    (r : OptimizeRun c ok s s') (w : ℕ)
    (he : c.rangeHandler.Exact bus w r.st.finish.system.bus)
    (σ : V → ZMod p) (hcmp : ComparisonsRight σ ok) (hσ : s.Execution bus c.memoryBusId σ m m')
    (hcomp : s.Computed σ) (hnews : ∀ d ∈ r.news, d.Computed σ) :
    s'.Execution bus c.memoryBusId σ m m' ∧
      s'.messages c.otherStateful σ = s.messages c.otherStateful σ ∧ s'.Computed σ := by
  have h : Stage c bus (fun τ => τ = σ) m m' s s := by
    refine ⟨hw, ?_, ?_, fun _ _ => rfl, ?_⟩ <;> rintro _ rfl
    · exact hσ.sat
    · exact hσ.memory
    · exact fun d h => ⟨hd d h, hcomp d h⟩
  obtain ⟨-, -, -, -, -, -, g⟩ := r.stages hV hc h (by rintro _ rfl; exact hcmp)
    (by rintro _ rfl; exact hnews) he
  exact ⟨⟨g.sat σ rfl, g.memory σ rfl⟩, g.messages σ rfl, fun d hd => (g.derived σ rfl d hd).2⟩

/-- C62: if the columns introduced by the rules are new, then every execution of the original system
extends to one of the optimized system: values for the new columns can be computed by their computation
methods, and nothing else changes. -/
theorem C62_extends (hV : Fintype.card V ≤ p) (c : OptimizerConfig p V) (bus : Bus p)
    (hc : c.Correct bus) (s s' : ConstraintSystem p V) (hw : s.WF) (hd : s.DerivedWF)
    (m m' : Memory p) (ok : RuleInput p V → ConstraintSystem p V → ConstraintSystem p V → Prop)
    (r : OptimizeRun c ok s s') (hnew : NewColumns s r.news) (w : ℕ)
    (he : c.rangeHandler.Exact bus w r.st.finish.system.bus)
    (σ : V → ZMod p) (hσ : s.Execution bus c.memoryBusId σ m m') (hcomp : s.Computed σ)
    (hcmp : ∀ τ : V → ZMod p, (∀ v, (∀ d ∈ r.news, d.column ≠ v) → τ v = σ v) →
      (∀ d ∈ r.news, d.Computed τ) → ComparisonsRight τ ok) :
    ∃ τ : V → ZMod p, (∀ v, (∀ d ∈ r.news, d.column ≠ v) → τ v = σ v) ∧
      s'.Execution bus c.memoryBusId τ m m' ∧
      s'.messages c.otherStateful τ = s.messages c.otherStateful σ ∧ s'.Computed τ := by
  obtain ⟨τ, h1, h2⟩ := compute_news σ hnew.different hnew.own
  have h3 : ∀ v, s.Mentions v → τ v = σ v := fun v hv => h1 v fun d hd heq =>
    hnew.unused d hd (heq ▸ hv)
  obtain ⟨h4, h5⟩ := unchanged_of_unused h3
  have h6 : s.Execution bus c.memoryBusId τ m m' := by
    refine ⟨(h4 bus).2 hσ.sat, fun id hid => ?_⟩
    have := hσ.memory id hid
    unfold ConstraintSystem.UsesMemory at this ⊢
    rwa [h5]
  have h7 : s.Computed τ := by
    intro d hd
    unfold DerivedVariable.Computed
    rw [h1 d.column fun x hx heq => (hnew.notDerived x hx d hd).1 heq.symm,
      methodValue_congr (τ := σ) fun v hv => h1 v fun x hx heq =>
        (hnew.notDerived x hx d hd).2 (heq ▸ hv)]
    exact hcomp d hd
  obtain ⟨k1, k2, k3⟩ := C62_complete hV c bus hc s s' hw hd m m' ok r w he τ (hcmp τ h1 h2) h6 h7 h2
  refine ⟨τ, h1, k1, k2.trans ?_, k3⟩
  exact messages_of_sent h5 _

/-- C62: every solution of the optimized system comes from an assignment that satisfies all
constraints and all lookups of the original system, and sends on every stateful bus, including
memory, the same messages up to such that cancel out. -/
theorem C62_sound (hV : Fintype.card V ≤ p) (c : OptimizerConfig p V) (bus : Bus p)
    (hc : c.Correct bus) (s s' : ConstraintSystem p V) (hw : s.WF)
    (ok : RuleInput p V → ConstraintSystem p V → ConstraintSystem p V → Prop)
    (hsound : ReplacementsSound bus ok) (hsound' : ReplacementsSound (c.exceptMemory bus) ok)
    (r : OptimizeRun c ok s s') (w : ℕ)
    (he : c.rangeHandler.Exact bus w r.st.finish.system.bus) (hsafe : r.Safe bus)
    (σ : V → ZMod p) (hσ : s'.Satisfied bus σ) :
    ∃ τ, s.Satisfied (c.exceptMemory bus) τ ∧ SameBalance c.isStateful s τ s' σ :=
  r.back hV hc hw hsound hsound' he hsafe σ hσ

/-- The configuration for OpenVM. -/
def openVmConfig (m : BusMap) (memoryBusId : Option ℕ) (pcLookupId : ℕ) (bound : DegreeBound)
    (intBits : ℕ) : OptimizerConfig p V where
  handler := openVmHandler m
  rangeHandler := openVmRangeHandler m
  isStateful := openVmStateful m
  memoryBusId := memoryBusId
  pcLookupId := pcLookupId
  bound := bound
  intBits := intBits

omit [Fintype V] in
/-- C62: OpenVM meets the assumptions on buses and handlers. -/
theorem C62_openvm (m : BusMap) (hm : m.Fits p) (hp : 2 ^ 26 ≤ p) (h64 : ∀ x ∈ m, x.1 < 2 ^ 64)
    (memoryBusId : Option ℕ) (hmem : ∀ id, memoryBusId = some id → (id, BusType.memory) ∈ m)
    (pcLookupId : ℕ) (bound : DegreeBound) (intBits : ℕ) (hint : 2 * (p - 1) < 2 ^ intBits) :
    (openVmConfig m memoryBusId pcLookupId bound intBits : OptimizerConfig p V).Correct
      (openVmBus m) where
  handler := openVmHandler_sound (lt_of_lt_of_le (by norm_num : 25 < 2 ^ 26) hp) hm
  makes := openVm_makesExactly hm hp h64
  lookups := by
    intro b rcs h
    simp only [openVmConfig, openVmRangeHandler, pureRangeConstraints] at h
    cases hb : b.busId.tryToNumber with
    | none => rw [hb] at h; cases h
    | some i =>
      rw [hb] at h
      refine ⟨i, tryToNumber_eq hb, ?_⟩
      simp only [openVmConfig, openVmStateful, isStateful]
      simp only at h
      cases hi : toU64 i with
      | error x => rw [hi] at h; cases h
      | ok id =>
        rw [hi] at h
        simp only [bind, Except.bind] at h ⊢
        cases ht : m.busType id with
        | error x => rw [ht] at h; cases h
        | ok t =>
          rw [ht] at h
          cases t with
          | executionBridge => cases h
          | pcLookup => cases h
          | memory => cases h
          | other t => rfl
  zero := fun b hb h => absurd hb h
  memory := by
    intro id hid
    have h := hmem id hid
    have hv : ((id : ℕ) : ZMod p).val = id := val_cast_of_lt (hm.ids _ h)
    simp only [openVmConfig, openVmStateful, isStateful, toU64]
    rw [hv, if_pos (h64 _ h)]
    simp only [bind, Except.bind, BusMap.busType]
    rw [mapGet_of_mem hm.keys h]
    rfl
  integers := hint

/-! ### A sample

`x0 = 5` is written to memory, read again as `x1` with timestamp `x2`, and `x1` is sent on another
bus. The optimizer removes the memory operations and sends `5`. -/

attribute [local instance] fact_babyBear

/-- The system. Bus 1 is the memory bus. -/
def pipelineSample : ConstraintSystem 2013265921 (Fin 3) where
  algebraic := [var 0 - const 5]
  bus := [⟨const 1, const 1, [const 2, const 7, var 0, const 3]⟩,
    ⟨const 1, const (-1), [const 2, const 7, var 1, var 2]⟩,
    ⟨const 7, const 1, [var 1]⟩]
  derived := []

/-- All buses except for the pc lookup (bus 9) are stateful, no interaction is a range constraint. -/
def pipelineConfig (n : ℕ) : OptimizerConfig 2013265921 (Fin n) where
  handler := defaultHandler
  rangeHandler := ⟨fun _ => .ok none, fun rcs => .ok (if rcs = [] then some [] else none)⟩
  isStateful id := id ≠ 9
  memoryBusId := some 1
  pcLookupId := 9
  bound := ⟨3, 3⟩
  intBits := 32

/-- All messages are admissible. -/
def pipelineBus : Bus 2013265921 := fun _ => True

def pipelineOrder (n : ℕ) : SetOrder (Fin n) := ⟨fun l => l, fun _ => List.Perm.refl _⟩

/-- Nothing is known of the variables of the expression. -/
def fewVars {n : ℕ} (rc : Fin n → RangeConstraint 2013265921) (e : GExpr 2013265921 (Fin n)) : Bool :=
  e.vars.all fun v => rc v = RangeConstraint.unconstrained

/-- The passes of a round, without exhaustive search, which finds no candidates. -/
def pipelineRound {n : ℕ} (s : ConstraintSystem 2013265921 (Fin n)) (solver : Solver 2013265921 (Fin n)) :
    Except Stop (ConstraintSystem 2013265921 (Fin n) × Solver 2013265921 (Fin n)) := do
  let r1 ← solverBased defaultHandler (plainChoices _ _) (indexedHistory s []) solver
  let r3 ← removeFree defaultHandler (pipelineConfig n).isStateful (indexedHistory (removeTrivial r1.1) []) r1.2.2
  let r4 ← removeDisconnected defaultHandler (pipelineConfig n).isStateful (pipelineOrder n) 10
    (indexedHistory r3.1 []) r3.2
  if r4.1.algebraic = r3.1.algebraic ∧ (∀ e ∈ r4.1.algebraic ++ r4.1.bus.flatMap fun b => b.fields,
      fewVars r4.2.get e = true) then
    let s6 ← liftPanic (trivialSimplifications (pipelineConfig n).isStateful r4.1)
    let r7 ← SolverOp.run defaultHandler r4.2 (.addAlgebraic [])
    let finished := (driverStart r4.2.get s6).finish.system
    let r9 ← optimizeMemory defaultHandler (some 1) (substituteBusFields r7.2 finished) r7.2
    if ∀ b ∈ r9.1.bus, b.busId ≠ const 9 then
      lowDegreeOptimize defaultHandler (pipelineConfig n).rangeHandler (pipelineConfig n).isStateful
        ⟨3, 3⟩ r9.1 r9.2
    else .error .panic
  else .error .panic

/-- Two rounds and the final passes. -/
def pipelineAll {n : ℕ} (s : ConstraintSystem 2013265921 (Fin n)) :
    Except Stop (ConstraintSystem 2013265921 (Fin n)) := do
  let solver ← newSolver s
  let r1 ← pipelineRound s solver
  let r2 ← pipelineRound r1.1 r1.2
  let o ← liftPanic (replaceConstrainedWitnessColumns 10 (indexedHistory r2.1 [])
    (belowDegreeBound ⟨3, 3⟩))
  match o with
  | none => .error .fuel
  | some x =>
    let r3 ← removeDisconnected defaultHandler (pipelineConfig n).isStateful (pipelineOrder n) 10
      (indexedHistory x.1.sys []) r2.2
    if r3.1.algebraic = x.1.sys.algebraic then
      let finished := (driverStart r3.2.get r3.1).finish.system
      let s5 ← optimizeRangeConstraints defaultHandler (pipelineConfig n).rangeHandler
        (plainChoices _ _) ⟨3, 3⟩ finished
      liftPanic (trivialSimplifications (pipelineConfig n).isStateful s5)
    else .error .panic

theorem pipeline_result :
    pipelineAll pipelineSample = .ok ⟨[], [⟨const 7, const 1, [const 5]⟩], []⟩ := by
  have h : (match pipelineAll pipelineSample with
      | .ok s => decide (s = ⟨[], [⟨const 7, const 1, [const 5]⟩], []⟩)
      | _ => false) = true := by decide +kernel
  cases hp : pipelineAll pipelineSample with
  | error e => rw [hp] at h; cases h
  | ok s =>
    rw [hp] at h
    rw [of_decide_eq_true h]

theorem fewVars_candidates {n : ℕ} {s : ConstraintSystem 2013265921 (Fin n)}
    {rc : Fin n → RangeConstraint 2013265921}
    (h : ∀ e ∈ s.algebraic ++ s.bus.flatMap fun b => b.fields, fewVars rc e = true) :
    bruteForceCandidates s rc = [] := by
  unfold bruteForceCandidates
  rw [List.eq_nil_iff_forall_not_mem]
  intro l hl
  rw [List.mem_eraseDups, List.mem_filter, List.mem_filterMap] at hl
  obtain ⟨⟨vs, h1, h2⟩, h3⟩ := hl
  rw [List.mem_eraseDups, List.mem_map] at h1
  obtain ⟨e, he, rfl⟩ := h1
  have h4 := h e he
  have hno : ∀ l' : List (Fin n), l'.isEmpty = false → (∀ x ∈ l', x ∈ varSet e) →
      isCandidate rc l' = false := by
    intro l' hne hl'
    cases l' with
    | nil => cases hne
    | cons v t =>
      have hv : rc v = RangeConstraint.unconstrained := by
        have hv := hl' v List.mem_cons_self
        simp only [varSet, mem_btreeSet] at hv
        exact of_decide_eq_true (List.all_eq_true.1 h4 v hv)
      unfold isCandidate
      rw [Bool.and_eq_false_iff]
      right
      rw [List.all_cons, hv, Bool.and_eq_false_iff]
      left
      decide +kernel
  have h3' : l.isEmpty = false := by simpa using h3
  unfold candidateFor at h2
  split at h2
  · rename_i hcand
    cases h2
    rw [hno _ h3' fun x hx => hx] at hcand
    cases hcand
  · simp only at h2
    split at h2
    · rename_i hcand
      cases h2
      rw [hno _ h3' fun x hx => ?_] at hcand
      · cases hcand
      · rw [mem_btreeSet] at hx
        exact mem_foldr_insertBySize.1 (List.mem_of_mem_take hx)
    · cases h2

theorem fewVars_exhaustive {n : ℕ} {s : ConstraintSystem 2013265921 (Fin n)}
    {rc : Fin n → RangeConstraint 2013265921}
    (h : ∀ e ∈ s.algebraic ++ s.bus.flatMap fun b => b.fields, fewVars rc e = true) :
    simplifyExhaustive (indexedHistory s []) rc = .ok s := by
  unfold simplifyExhaustive
  have h1 : bruteForceCandidates (indexedHistory s []).sys rc = [] := fewVars_candidates h
  rw [h1]
  rfl

theorem liftPanic_ok {α : Type} {x : Except Panic α} {a : α} (h : liftPanic x = .ok a) :
    x = .ok a := by
  cases x with
  | error e => cases h
  | ok b => cases h; rfl

theorem pipelineRound_run {n : ℕ} {s s' : ConstraintSystem 2013265921 (Fin n)}
    {solver solver' : Solver 2013265921 (Fin n)}
    (h : pipelineRound s solver = .ok (s', solver')) :
    ∃ r : ConstraintRound (pipelineConfig n) (fun _ _ _ => False) s solver s' solver',
      r.Safe pipelineBus ∧ r.new7 = [] := by
  unfold pipelineRound at h
  rw [Except.bind_ok_iff] at h
  obtain ⟨⟨s1, found, solver1⟩, h1, h⟩ := h
  rw [Except.bind_ok_iff] at h
  obtain ⟨⟨s3, solver3⟩, h3, h⟩ := h
  rw [Except.bind_ok_iff] at h
  obtain ⟨⟨s4, solver4⟩, h4, h⟩ := h
  split at h
  swap
  · cases h
  rename_i hcheck
  obtain ⟨heq, hfew⟩ := hcheck
  rw [Except.bind_ok_iff] at h
  obtain ⟨s6, h6, h⟩ := h
  rw [Except.bind_ok_iff] at h
  obtain ⟨⟨out, solver7⟩, h7, h⟩ := h
  rw [Except.bind_ok_iff] at h
  obtain ⟨⟨s9, solver9⟩, h9, h⟩ := h
  split at h
  swap
  · cases h
  rename_i hpc
  simp only at h1 h3 h4 heq hfew h6 h7 h9 hpc h
  have hout : out = .unit := by
    simp only [SolverOp.run] at h7
    rw [Except.bind_ok_iff] at h7
    obtain ⟨x, -, h7⟩ := h7
    cases h7; rfl
  subst hout
  refine ⟨{
    ix0 := ⟨s, [], rfl⟩
    ch := plainChoices _ _
    s1 := s1
    found := found
    solver1 := solver1
    step1 := h1
    ix2 := ⟨removeTrivial s1, [], rfl⟩
    s3 := s3
    solver3 := solver3
    step3 := h3
    ix3 := ⟨s3, [], rfl⟩
    ord := pipelineOrder n
    fuel := 10
    s4 := s4
    solver4 := solver4
    step4 := h4
    ix4 := ⟨s4, [], rfl⟩
    s5 := s4
    step5 := fewVars_exhaustive hfew
    s6 := s6
    step6 := liftPanic_ok h6
    lt := fun _ _ => False
    st := driverStart solver4.get s6
    new7 := []
    step7 := .refl _
    solver7 := solver7
    step8 := h7
    s9 := s9
    solver9 := solver9
    step9 := h9
    step10 := h }, ⟨?_, ⟨fun _ => 0, ?_⟩, ?_⟩, rfl⟩
  · exact fun b _ _ x _ _ _ _ τ => ⟨0, trivial⟩
  · intro x h1 h2
    cases x with
    | alg e =>
      change e ∉ s4.algebraic at h2
      rw [heq] at h2
      exact absurd h1 h2
    | bus b => trivial
  · intro b hb id hid hf
    have : id = 9 := by simpa [pipelineConfig] using hf
    exact absurd (this ▸ hid) (hpc b hb)

/-- There is such a run, and it meets the hypotheses of the theorems. -/
theorem pipeline_run {n : ℕ} {s s' : ConstraintSystem 2013265921 (Fin n)} (h : pipelineAll s = .ok s')
    (hdeg : (∀ e ∈ s'.algebraic, e.degree ≤ 3) ∧ ∀ b ∈ s'.bus, (∀ e ∈ b.fields, e.degree ≤ 3) ∧
      b.busId ≠ const 9) :
    ∃ r : OptimizeRun (pipelineConfig n) (fun _ _ _ => False) s s', r.Safe pipelineBus ∧ r.news = [] ∧
    (pipelineConfig n).rangeHandler.Exact pipelineBus 0 r.st.finish.system.bus := by
  unfold pipelineAll at h
  rw [Except.bind_ok_iff] at h
  obtain ⟨solver0, h0, h⟩ := h
  rw [Except.bind_ok_iff] at h
  obtain ⟨⟨s1, solver1⟩, h1, h⟩ := h
  rw [Except.bind_ok_iff] at h
  obtain ⟨⟨s2, solver2⟩, h2, h⟩ := h
  rw [Except.bind_ok_iff] at h
  obtain ⟨o, h3, h⟩ := h
  cases o with
  | none => cases h
  | some x =>
    obtain ⟨ix, subs⟩ := x
    simp only at h1 h2 h3 h
    rw [Except.bind_ok_iff] at h
    obtain ⟨⟨s4, solver4⟩, h4, h⟩ := h
    split at h
    swap
    · cases h
    rename_i heq
    rw [Except.bind_ok_iff] at h
    obtain ⟨s5, h5, h⟩ := h
    simp only at h4 heq h5 h
    obtain ⟨r1, k1, n1⟩ := pipelineRound_run h1
    obtain ⟨r2, k2, n2⟩ := pipelineRound_run h2
    have hl : (OptimizeLoop.more r1 (.one r2)).Safe pipelineBus := by
      simp only [OptimizeLoop.Safe]
      exact ⟨k1, k2⟩
    refine ⟨{
      solver0 := solver0
      step0 := h0
      s1 := s2
      solver1 := solver2
      loop := .more r1 (.one r2)
      ix1 := ⟨s2, [], rfl⟩
      passes := 10
      ix2 := ix
      inlined := subs
      step2 := liftPanic_ok h3
      ix3 := ⟨ix.sys, [], rfl⟩
      ord := pipelineOrder n
      fuel := 10
      s3 := s4
      solver3 := solver4
      step3 := h4
      lt := fun _ _ => False
      st := driverStart solver4.get s4
      new4 := []
      step4 := .refl _
      ch := plainChoices _ _
      s5 := s5
      step5 := h5
      step6 := liftPanic_ok h
      degree := hdeg.1
      busDegree := fun b hb => (hdeg.2 b hb).1
      noPcLookup := fun b hb => (hdeg.2 b hb).2 }, ⟨hl, ⟨fun _ => 0, ?_⟩⟩, ?_,
      ⟨by decide, ?_, ?_, ?_⟩⟩
    · intro x h1 h2
      cases x with
      | alg e =>
        change e ∉ s4.algebraic at h2
        rw [heq] at h2
        exact absurd h1 h2
      | bus b => trivial
    · simp [OptimizePasses.news, OptimizeLoop.news, n1, n2]
    · intro b _ _ rcs h
      cases h
    · intro b _ _ rcs h
      cases h
    · intro rcs _ made h σ
      simp only [pipelineConfig, Except.ok.injEq] at h
      split at h
      · rename_i h0
        subst h0
        cases h
        simp
      · cases h

/-- The configuration is correct. -/
theorem pipeline_correct (n : ℕ) : (pipelineConfig n).Correct pipelineBus where
  handler := (C16_default_handler pipelineBus).1
  makes := by
    refine ⟨fun rcs made _ h σ => ?_, fun rcs made h b hb => ?_, fun rcs made _ h b hb => ?_⟩ <;>
      simp only [pipelineConfig, Except.ok.injEq] at h <;> split at h <;> cases h
    · rename_i h0
      subst h0
      simp
    · cases hb
    · cases hb
  lookups := by
    intro b rcs h
    cases h
  zero := fun _ _ => trivial
  memory := by
    intro id hid
    cases hid
    show decide (((1 : ℕ) : ZMod 2013265921) ≠ 9) = true
    decide +kernel
  integers := by
    show 2 * (2013265921 - 1) < 2 ^ 32
    decide +kernel

/-- The run of the sample. -/
example : ∃ r : OptimizeRun (pipelineConfig 3) (fun _ _ _ => False) pipelineSample
    ⟨[], [⟨const 7, const 1, [const 5]⟩], []⟩, r.Safe pipelineBus ∧ r.news = [] ∧
    (pipelineConfig 3).rangeHandler.Exact pipelineBus 0 r.st.finish.system.bus :=
  pipeline_run pipeline_result (by decide +kernel)

/-- The column introduced in the sample for C57 is new. -/
example : NewColumns mergeSample [⟨9, inverseMethod⟩] := by
  refine ⟨by simp, by decide +kernel, ?_, by simp [mergeSample]⟩
  intro d hd hm
  rw [List.mem_singleton.1 hd, mentions_iff] at hm
  revert hm
  decide +kernel

/-- An execution of the sample. -/
def pipelineAssignment : Fin 3 → ZMod 2013265921 := fun v => if v = 2 then 3 else 5

theorem pipeline_execution : pipelineSample.Execution pipelineBus (some 1) pipelineAssignment
    (fun _ => none) (fun _ => none) := by
  refine ⟨⟨by decide +kernel, fun _ _ => trivial⟩, fun id hid => ?_⟩
  cases hid
  have e : pipelineSample.bus.map (fun b => b.evalAt pipelineAssignment) =
      [⟨1, 1, 2 :: 7 :: ([5] ++ [3])⟩, ⟨1, -1, 2 :: 7 :: ([5] ++ [3])⟩, ⟨7, 1, [5]⟩] := by
    decide +kernel
  unfold ConstraintSystem.UsesMemory
  rw [e, Nat.cast_one]
  refine ⟨_, memoryStep_set rfl, _, memoryStep_get (by simp) (by decide +kernel), _,
    memoryStep_other (by decide +kernel), ?_⟩
  funext a
  by_cases h : a = (2, 7)
  · rw [h]; simp
  · rw [Function.update_of_ne h, Function.update_of_ne h]

end Verif
