import Verif.Proofs.TerminationFuel
import Verif.Props.Solver
import Verif.Spec.Termination

/-! # Property C92: the solver ends -/

namespace Verif

open GExpr

set_option linter.unusedSectionVars false

variable {p : ℕ} [Fact p.Prime] {V : Type} [LinearOrder V]

theorem Handler.KeepsLength.sound {h : Handler p} (hh : h.KeepsLength) :
    h.Sound (Solver.noBus : Bus p) :=
  fun r r' hr => ⟨hh r r' hr, fun _ hb => hb.elim⟩

theorem run_bound {h : Handler p} {s : Solver p V} (hi : s.Inv) : ∃ N, ∀ ch : Choices p V,
    N ≤ ch.fuel → SolverOp.run h s (.solve ch) ≠ .error .fuel := by
  obtain ⟨N, hN⟩ := Solver.solve_bound h hi
  refine ⟨N, fun ch hf => ?_⟩
  rw [SolverOp.run]
  exact Solver.noFuel_bind (hN ch hf) fun _ _ =>
    Solver.noFuel_bind (Solver.originalAssignments_noFuel _) fun _ _ => Solver.noFuel_pure _

/-- C92: after every history of calls on a new solver, `solve` ends: there is a number of
iterations that is not exceeded, whatever the iteration orders of hash maps are, by the outer loop
or by the inner one. This holds for every bus interaction handler that keeps the number of
fields, sound or not. -/
theorem C92_solve_ends (h : Handler p) (hh : h.KeepsLength) (ops : List (SolverOp p V))
    (hw : ∀ op ∈ ops, op.WF) (outs : List (SolverOut p V)) (s : Solver p V)
    (ho : runOps h ops Solver.new = .ok (outs, s)) :
    ∃ N, ∀ ch : Choices p V, N ≤ ch.fuel → SolverOp.run h s (.solve ch) ≠ .error .fuel := by
  have h1 := runOps_spec (V := V) hh.sound Solver.inv_new hw
  rw [ho] at h1
  exact run_bound h1.1

/-- C92: the other calls have no unbounded loop. -/
theorem C92_other_calls_end (h : Handler p) (s : Solver p V) (op : SolverOp p V)
    (hop : ∀ ch, op ≠ .solve ch) : op.run h s ≠ .error .fuel := by
  cases op with
  | solve ch => exact absurd rfl (hop ch)
  | addAlgebraic es =>
    exact Solver.noFuel_bind (Solver.addAlgebraic_noFuel _ _) fun _ _ => Solver.noFuel_pure _
  | addBus bs =>
    exact Solver.noFuel_bind (Solver.addBus_noFuel _ _) fun _ _ => Solver.noFuel_pure _
  | addRange v r =>
    exact Solver.noFuel_bind (Solver.addRange_noFuel _ _ _) fun _ _ => Solver.noFuel_pure _
  | retain keep =>
    exact Solver.noFuel_bind (Solver.retain_noFuel _ _) fun _ _ => Solver.noFuel_pure _
  | knownDifferent a b =>
    exact Solver.noFuel_bind (Solver.knownDifferent_noFuel _ _ _) fun _ _ => Solver.noFuel_pure _

theorem history_ends {h : Handler p} (hh : h.KeepsLength) : ∀ {ops : List (SolverOp p V)}
    {s : Solver p V}, s.Inv → (∀ op ∈ ops, op.WF) →
    ∃ ops', List.Forall₂ SolverOp.MoreFuel ops ops' ∧ (∀ op ∈ ops', op.WF) ∧
      runOps h ops' s ≠ .error .fuel := by
  intro ops
  induction ops with
  | nil => intro s _ _; exact ⟨[], .nil, by simp, Solver.noFuel_ok _⟩
  | cons op t ih =>
    intro s hi hw
    have hop : ∃ op' : SolverOp p V, SolverOp.MoreFuel op op' ∧ op'.WF ∧
        op'.run h s ≠ .error .fuel := by
      have hwo := hw op (by simp)
      cases op with
      | solve ch =>
        obtain ⟨N, hN⟩ := run_bound (h := h) hi
        exact ⟨.solve { ch with fuel := max ch.fuel N }, ⟨_, le_max_left _ _, rfl⟩, hwo,
          hN _ (le_max_right _ _)⟩
      | addAlgebraic es => exact ⟨_, rfl, hwo, C92_other_calls_end h s _ (by simp)⟩
      | addBus bs => exact ⟨_, rfl, hwo, C92_other_calls_end h s _ (by simp)⟩
      | addRange v r => exact ⟨_, rfl, hwo, C92_other_calls_end h s _ (by simp)⟩
      | retain keep => exact ⟨_, rfl, hwo, C92_other_calls_end h s _ (by simp)⟩
      | knownDifferent a b => exact ⟨_, rfl, hwo, C92_other_calls_end h s _ (by simp)⟩
    obtain ⟨op', h1, h2, h3⟩ := hop
    cases hr : op'.run h s with
    | error x =>
      rw [hr] at h3
      obtain ⟨t', g1, g2, -⟩ := ih (s := s) hi fun o ho => hw o (by simp [ho])
      refine ⟨op' :: t', .cons h1 g1, by simpa using ⟨h2, g2⟩, ?_⟩
      rw [runOps, hr]
      intro hx
      apply h3
      cases hx
      rfl
    | ok r =>
      have hsp := Solver.run_spec hh.sound hi h2
      rw [hr] at hsp
      obtain ⟨t', g1, g2, g3⟩ := ih (s := r.2) hsp.1 fun o ho => hw o (by simp [ho])
      refine ⟨op' :: t', .cons h1 g1, by simpa using ⟨h2, g2⟩, ?_⟩
      rw [runOps, hr, Solver.stop_bind]
      exact Solver.noFuel_bind g3 fun _ _ => Solver.noFuel_pure _

/-- C92: every history of calls on a new solver ends, whatever the iteration orders of hash
maps are: with enough iterations allowed in each call of `solve`, none of them is cut short. -/
theorem C92_history_ends (h : Handler p) (hh : h.KeepsLength) (ops : List (SolverOp p V))
    (hw : ∀ op ∈ ops, op.WF) :
    ∃ ops', List.Forall₂ SolverOp.MoreFuel ops ops' ∧
      runOps h ops' (Solver.new : Solver p V) ≠ .error .fuel := by
  obtain ⟨ops', h1, -, h3⟩ := history_ends hh Solver.inv_new hw
  exact ⟨ops', h1, h3⟩

/-- C92: `solve_system` ends for every system; with a sound handler that does not panic and
2 < p ≤ 2^64, it returns assignments or an error. -/
theorem C92_solve_system_ends (h : Handler p) (hh : h.KeepsLength) (cs : ConstraintSystem p V)
    (hw : cs.WF) : ∃ N, ∀ ch : Choices p V, N ≤ ch.fuel →
      solveSystem h ch cs ≠ .error .fuel ∧
      ∀ bus, h.Sound bus → h.Total → 2 < p → p ≤ 2 ^ 64 →
        (∃ l, solveSystem h ch cs = .ok l) ∨ ∃ x, solveSystem h ch cs = .error (.error x) := by
  have key : ∃ N, ∀ ch : Choices p V, N ≤ ch.fuel → solveSystem h ch cs ≠ .error .fuel := by
    have hops : ∀ op ∈ [SolverOp.addAlgebraic cs.algebraic, .addBus cs.bus], op.WF := by
      intro op hop
      simp only [List.mem_cons, List.not_mem_nil, or_false] at hop
      rcases hop with rfl | rfl
      · exact hw.1
      · exact hw.2
    have h1 := runOps_spec (V := V) hh.sound Solver.inv_new hops
    have hnew : ∀ {s : Solver p V}, newSolver cs = .ok s → s.Inv := by
      intro s hs
      obtain ⟨s1, h3, h4⟩ := stop_bind_ok hs
      have : runOps h [SolverOp.addAlgebraic cs.algebraic, .addBus cs.bus]
          (Solver.new : Solver p V) = .ok ([.unit, .unit], s) := by
        simp only [runOps, SolverOp.run]
        rw [h3]
        simp only [Solver.stop_bind, Solver.stop_pure]
        rw [h4]
        rfl
      rw [this] at h1
      exact h1.1
    have hnf : newSolver cs ≠ (.error .fuel : Except Stop (Solver p V)) :=
      Solver.noFuel_bind (Solver.addAlgebraic_noFuel _ _) fun _ _ => Solver.addBus_noFuel _ _
    unfold solveSystem
    cases hs : newSolver cs with
    | error x =>
      rw [hs] at hnf
      refine ⟨0, fun ch _ hx => hnf ?_⟩
      cases hx
      rfl
    | ok s =>
      obtain ⟨N, hN⟩ := Solver.solve_bound h (hnew hs)
      refine ⟨N, fun ch hf => ?_⟩
      rw [Solver.stop_bind]
      exact Solver.noFuel_bind (hN ch hf) fun _ _ => Solver.originalAssignments_noFuel _
  obtain ⟨N, hN⟩ := key
  refine ⟨N, fun ch hf => ⟨hN ch hf, fun bus hs ht hp hp' => ?_⟩⟩
  have h1 := hN ch hf
  have h2 := (C21_solve_system bus h hs ch cs hw).2.2 ht hp hp'
  cases ho : solveSystem h ch cs with
  | ok l => exact Or.inl ⟨l, rfl⟩
  | error x =>
    cases x with
    | error e => exact Or.inr ⟨e, rfl⟩
    | fuel => exact absurd ho h1
    | panic => exact absurd ho h2

/-! ### Concrete instances -/

/-- The sample history (`sampleSolverHistory`) with `n` iterations allowed in each `solve`. -/
def sampleHistoryWith (n : ℕ) : List (SolverOp 17 ℕ) :=
  sampleSolverHistory.map fun
    | .solve ch => .solve { ch with fuel := n }
    | op => op

/-- 36 iterations are needed and enough. -/
example : (runOps defaultHandler (sampleHistoryWith 35) Solver.new).toOption.isNone = true ∧
    (runOps defaultHandler (sampleHistoryWith 36) Solver.new).toOption.isSome = true := by
  decide +kernel

example : (defaultHandler : Handler 17).KeepsLength := by
  intro r r' h
  cases h
  rfl

/-- The premises of `C92_solve_ends` hold of a history after which there is work to do. -/
example : ∃ outs s, runOps defaultHandler (sampleSolverHistory.take 2) Solver.new =
    .ok (outs, s) ∧ s.cs.queue.queue ≠ [] := by
  have : ((runOps defaultHandler (sampleSolverHistory.take 2) Solver.new).toOption.map fun r =>
      r.2.cs.queue.queue.isEmpty) = some false := by decide +kernel
  cases ho : runOps defaultHandler (sampleSolverHistory.take 2) Solver.new with
  | error x => rw [ho] at this; cases this
  | ok r =>
    rw [ho] at this
    exact ⟨r.1, r.2, rfl, by
      intro hq
      simp [Except.toOption, hq] at this⟩

end Verif
