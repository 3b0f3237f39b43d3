import Verif.Proofs.SolverOps
import Verif.Props.GroupedExpression

/-! # Property C21: the solver -/

namespace Verif

open GExpr

set_option linter.unusedSectionVars false

variable {p : ℕ} [Fact p.Prime] {V : Type} [LinearOrder V]

/-- The induction behind the theorems on histories. -/
theorem runOps_spec {bus : Bus p} {h : Handler p} (hs : h.Sound bus) :
    ∀ {ops : List (SolverOp p V)} {s : Solver p V}, s.Inv → (∀ op ∈ ops, op.WF) →
    match runOps h ops s with
    | .ok (outs, s') => s'.Inv ∧ ∀ σ, s.Knows bus σ → (∀ op ∈ ops, op.Holds bus σ) →
        s'.Knows bus σ ∧ List.Forall₂ (fun op out => op.Answer σ out) ops outs
    | .error .panic => NoPanic h → ∀ pending, (pending = false → s.toReturn = []) →
        ¬ RetainSafe pending ops
    | .error .fuel => True
    | .error (.error _) => ∀ σ, s.Knows bus σ → ¬ ∀ op ∈ ops, op.Holds bus σ := by
  intro ops
  induction ops with
  | nil => intro s hi _; exact ⟨hi, fun σ hk _ => ⟨hk, .nil⟩⟩
  | cons op ops ih =>
    intro s hi hw
    rw [runOps]
    have h1 := Solver.run_spec hs hi (hw op (by simp))
    cases h2 : op.run h s with
    | error x =>
      rw [h2] at h1
      cases x with
      | panic =>
        intro hn pending hp hr
        obtain ⟨keep, rfl, h3⟩ := h1 hn
        rw [RetainSafe] at hr
        exact h3 (hp hr.1)
      | fuel => trivial
      | error e => exact fun σ hk ho => h1 σ hk (ho op (by simp))
    | ok r =>
      obtain ⟨out, s1⟩ := r
      rw [h2] at h1
      rw [Solver.stop_bind]
      have h3 := ih h1.1 fun o ho => hw o (by simp [ho])
      simp only
      cases h4 : runOps h ops s1 with
      | error x =>
        rw [h4] at h3
        cases x with
        | panic =>
          intro hn pending hp hr
          have hrun : s.toReturn = [] → s1.toReturn = [] ∨ ∃ v r, op = .addRange v r :=
            Solver.run_toReturn hs hi (hw op (by simp)) h2
          cases op with
          | addRange v r => exact h3 hn true (by simp) hr
          | solve ch => exact h3 hn false (fun _ => Solver.solve_toReturn hs hi h2) hr
          | retain keep =>
            refine h3 hn pending (fun hf => ?_) hr.2
            rcases hrun (hp hf) with h5 | ⟨v, r, h5⟩
            · exact h5
            · cases h5
          | addAlgebraic es =>
            refine h3 hn pending (fun hf => ?_) hr
            rcases hrun (hp hf) with h5 | ⟨v, r, h5⟩
            · exact h5
            · cases h5
          | addBus bs =>
            refine h3 hn pending (fun hf => ?_) hr
            rcases hrun (hp hf) with h5 | ⟨v, r, h5⟩
            · exact h5
            · cases h5
          | knownDifferent a b =>
            refine h3 hn pending (fun hf => ?_) hr
            rcases hrun (hp hf) with h5 | ⟨v, r, h5⟩
            · exact h5
            · cases h5
        | fuel => trivial
        | error e =>
          exact fun σ hk ho => h3 σ (h1.2 σ hk (ho op (by simp))).1 fun o ho' => ho o (by simp [ho'])
      | ok r2 =>
        rw [h4] at h3
        rw [Solver.stop_bind, Solver.stop_pure]
        refine ⟨h3.1, fun σ hk ho => ?_⟩
        obtain ⟨h5, h6⟩ := h1.2 σ hk (ho op (by simp))
        obtain ⟨h7, h8⟩ := h3.2 σ h5 fun o ho' => ho o (by simp [ho'])
        exact ⟨h7, .cons h6 h8⟩

/-- C21: for every history of calls on a new solver, in every order, with every sound bus
interaction handler and every choice of iteration orders: in every solution of everything the
caller added, every answer given is correct (each returned assignment holds, and expressions
reported as different are different). -/
theorem C21_answers_correct (bus : Bus p) (h : Handler p) (hs : h.Sound bus)
    (ops : List (SolverOp p V)) (hw : ∀ op ∈ ops, op.WF) (outs : List (SolverOut p V))
    (s : Solver p V) (ho : runOps h ops Solver.new = .ok (outs, s)) (σ : V → ZMod p)
    (hσ : ∀ op ∈ ops, op.Holds bus σ) :
    List.Forall₂ (fun op out => op.Answer σ out) ops outs := by
  have h1 := runOps_spec (V := V) hs Solver.inv_new hw
  rw [ho] at h1
  exact (h1.2 σ (Solver.knows_new σ) hσ).2

/-- C21: after every history, the range constraint of every variable and of every expression, and
the constants reported for expressions, are correct in every solution. -/
theorem C21_queries_correct (bus : Bus p) (h : Handler p) (hs : h.Sound bus)
    (ops : List (SolverOp p V)) (hw : ∀ op ∈ ops, op.WF) (outs : List (SolverOut p V))
    (s : Solver p V) (ho : runOps h ops Solver.new = .ok (outs, s)) (σ : V → ZMod p)
    (hσ : ∀ op ∈ ops, op.Holds bus σ) :
    (∀ v, (s.get v).allowsValue (σ v) = true) ∧
    (∀ e, WF e → (s.rangeConstraintForExpression e).allowsValue (eval σ e) = true) ∧
    ∀ e k, WF e → s.equivalentConstant e = some k → eval σ e = k := by
  have h1 := runOps_spec (V := V) hs Solver.inv_new hw
  rw [ho] at h1
  obtain ⟨τ, hg, hτ⟩ := (h1.2 σ (Solver.knows_new σ) hσ).1
  refine ⟨fun v => ?_, fun e he => ?_, fun e k he hk => ?_⟩
  · rw [RangeConstraint.allowsValue_iff, ← hτ v]
    exact hg.rcs _
  · rw [RangeConstraint.allowsValue_iff, ← transformExpr_spec he hτ]
    exact Solver.rangeConstraintFor_allows h1.1 hg (transformExpr_wf he) (transformExpr_below s e)
  · rw [← transformExpr_spec he hτ]
    exact Solver.tryToEquivalentConstant_eq h1.1 hg (transformExpr_wf he)
      (transformExpr_below s e) hk

/-- C21: an error is returned only if there is no solution of everything the caller added. -/
theorem C21_error_unsatisfiable (bus : Bus p) (h : Handler p) (hs : h.Sound bus)
    (ops : List (SolverOp p V)) (hw : ∀ op ∈ ops, op.WF) (x : SolverError)
    (ho : runOps h ops Solver.new = .error (.error x)) :
    ¬ ∃ σ : V → ZMod p, ∀ op ∈ ops, op.Holds bus σ := by
  rintro ⟨σ, hσ⟩
  have h1 := runOps_spec (V := V) hs Solver.inv_new hw
  rw [ho] at h1
  exact h1 σ (Solver.knows_new σ) hσ

/-- C21: no history panics, in every field with 2 < p ≤ 2^64, for every handler that does not panic,
if assignments found by `add_range_constraint` are fetched before `retain_variables`. -/
theorem C21_no_panic (bus : Bus p) (h : Handler p) (hs : h.Sound bus) (ht : h.Total) (hp : 2 < p)
    (hp' : p ≤ 2 ^ 64) (ops : List (SolverOp p V)) (hw : ∀ op ∈ ops, op.WF)
    (hr : RetainSafe false ops) : runOps h ops Solver.new ≠ .error .panic := by
  intro ho
  have h1 := runOps_spec (V := V) hs Solver.inv_new hw
  rw [ho] at h1
  exact h1 ⟨hp, hp', ht⟩ false (fun _ => rfl) hr

theorem solveSystem_eq (h : Handler p) (ch : Choices p V) (cs : ConstraintSystem p V) :
    solveSystem h ch cs = (do
      let r ← runOps h [.addAlgebraic cs.algebraic, .addBus cs.bus, .solve ch] Solver.new
      match r.1 with
      | [_, _, .assignments l] => pure l
      | _ => .error .panic) := by
  simp only [solveSystem, newSolver, runOps, SolverOp.run]
  cases (Solver.new : Solver p V).addAlgebraic (cs.algebraic.map transformExpr) with
  | error x => rfl
  | ok s1 =>
    simp only [Solver.stop_bind, Solver.stop_pure]
    cases s1.addBus (cs.bus.map fun b => b.map transformExpr) with
    | error x => rfl
    | ok s2 =>
      simp only [Solver.stop_bind]
      cases s2.solve h ch with
      | error x => rfl
      | ok r =>
        simp only [Solver.stop_bind]
        cases originalAssignments r.1 with
        | error x => rfl
        | ok l => rfl

/-- C21: `solve_system` returns only assignments that hold in every solution of the system; an
error means that there is none; and it does not panic. -/
theorem C21_solve_system (bus : Bus p) (h : Handler p) (hs : h.Sound bus) (ch : Choices p V)
    (cs : ConstraintSystem p V) (hw : cs.WF) :
    (∀ l, solveSystem h ch cs = .ok l → ∀ σ, cs.Satisfied bus σ → ∀ x ∈ l, σ x.1 = eval σ x.2) ∧
    (∀ x, solveSystem h ch cs = .error (.error x) → ¬ ∃ σ, cs.Satisfied bus σ) ∧
    (h.Total → 2 < p → p ≤ 2 ^ 64 → solveSystem h ch cs ≠ .error .panic) := by
  have hops : ∀ op ∈ [SolverOp.addAlgebraic cs.algebraic, .addBus cs.bus, .solve ch], op.WF := by
    intro op hop
    simp only [List.mem_cons, List.not_mem_nil, or_false] at hop
    rcases hop with rfl | rfl | rfl
    · exact hw.1
    · exact hw.2
    · trivial
  have hsat : ∀ σ, cs.Satisfied bus σ →
      ∀ op ∈ [SolverOp.addAlgebraic cs.algebraic, .addBus cs.bus, .solve ch], op.Holds bus σ := by
    intro σ hσ op hop
    simp only [List.mem_cons, List.not_mem_nil, or_false] at hop
    rcases hop with rfl | rfl | rfl
    · exact hσ.algebraic
    · exact hσ.bus
    · trivial
  rw [solveSystem_eq]
  have h1 := runOps_spec (V := V) hs Solver.inv_new hops
  have h2 := C21_no_panic (V := V) bus h hs
  cases ho : runOps h [SolverOp.addAlgebraic cs.algebraic, .addBus cs.bus, .solve ch]
    Solver.new with
  | error x =>
    rw [ho] at h1
    refine ⟨fun l hl => (by cases hl), fun y hy => ?_, fun ht hp hp' hx => ?_⟩
    · cases hy
      rintro ⟨σ, hσ⟩
      exact h1 σ (Solver.knows_new σ) (hsat σ hσ)
    · cases hx
      exact h2 ht hp hp' _ hops (by simp [RetainSafe]) ho
  | ok r =>
    obtain ⟨outs, s⟩ := r
    rw [ho] at h1
    rw [Solver.stop_bind]
    simp only
    have hshape : ∃ a b l, outs = [a, b, .assignments l] := by
      rw [runOps] at ho
      cases h3 : SolverOp.run h Solver.new (.addAlgebraic cs.algebraic) with
      | error x => rw [h3] at ho; cases ho
      | ok r1 =>
        rw [h3, Solver.stop_bind, runOps] at ho
        cases h4 : SolverOp.run h r1.2 (.addBus cs.bus) with
        | error x => rw [h4] at ho; cases ho
        | ok r2 =>
          rw [h4, Solver.stop_bind, runOps, SolverOp.run] at ho
          cases h5 : r2.2.solve h ch with
          | error x => rw [h5] at ho; cases ho
          | ok r3 =>
            rw [h5, Solver.stop_bind] at ho
            cases h6 : originalAssignments r3.1 with
            | error x => rw [h6] at ho; cases ho
            | ok l =>
              rw [h6, Solver.stop_bind] at ho
              cases ho
              exact ⟨_, _, l, rfl⟩
    obtain ⟨a, b, l, rfl⟩ := hshape
    refine ⟨fun l' hl σ hσ => ?_, fun y hy => (by cases hy), fun _ _ _ hx => (by cases hx)⟩
    cases hl
    have h3 := (h1.2 σ (Solver.knows_new σ) (hsat σ hσ)).2
    cases h3 with
    | cons _ h3 =>
      cases h3 with
      | cons _ h3 =>
        cases h3 with
        | cons h3 _ => exact h3

/-! ### Concrete instances -/

/-- Iteration orders that change nothing, and enough fuel. -/
def plainChoices (p : ℕ) (V : Type) : Choices p V :=
  ⟨100, fun _ => ⟨id, fun l => .refl l⟩, ⟨id, fun l => .refl l⟩, ⟨id, fun l => .refl l⟩⟩

/-- `x0 * (x0 - 1) = 0`, `x0 + 2 * x1 = 7`, `x1 * (x1 - 3) = 0`, `x2 = x3`, `x4 = 9`. -/
def sampleSolverHistory : List (SolverOp 17 ℕ) :=
  [.addAlgebraic [var 0 * (var 0 - const 1), var 0 + scale 2 (var 1) - const 7],
   .addAlgebraic [var 1 * (var 1 - const 3), var 2 - var 3],
   .solve (plainChoices 17 ℕ),
   .knownDifferent (var 0) (const 5),
   .addRange 4 (.fromValue 9),
   .solve (plainChoices 17 ℕ),
   .retain [2]]

/-- The assignments and comparisons the caller sees in a history. -/
def sampleAnswers : Except Stop (List (SolverOut 17 ℕ) × Solver 17 ℕ) →
    Option (List (List (ℕ × GExpr 17 ℕ)) × List Bool)
  | .ok (outs, _) => some (outs.filterMap fun | .assignments l => some l | _ => none,
      outs.filterMap fun | .different b => some b | _ => none)
  | .error _ => none

example : sampleAnswers (runOps defaultHandler sampleSolverHistory Solver.new) =
    some ([[(3, var 2), (0, const 1), (1, const 3)], [(4, const 9)]], [true]) := by decide +kernel
example : RetainSafe false sampleSolverHistory := by simp [sampleSolverHistory, RetainSafe]
example : ∀ op ∈ sampleSolverHistory, op.WF := by
  have hs : ∀ (k : ZMod 17) (v : ℕ), WF (var v - const k : GExpr 17 ℕ) :=
    fun k v => wf_sub (wf_var v) (wf_const k)
  simp [sampleSolverHistory, SolverOp.WF]
  exact ⟨⟨wf_mul (wf_var _) (hs _ _), wf_sub (wf_add (wf_var _) (wf_scale _ (wf_var _)))
    (wf_const _)⟩, ⟨wf_mul (wf_var _) (hs _ _), wf_sub (wf_var _) (wf_var _)⟩, wf_var _, wf_const _⟩
example : ∀ op ∈ sampleSolverHistory, op.Holds (fun _ => True)
    (fun v => if v = 0 then 1 else if v = 1 then 3 else if v = 4 then 9 else 6) := by
  intro op hop
  simp only [sampleSolverHistory, List.mem_cons, List.not_mem_nil, or_false] at hop
  rcases hop with rfl | rfl | rfl | rfl | rfl | rfl | rfl <;> simp only [SolverOp.Holds] <;>
    decide +kernel
/-- A contradiction is found. -/
example : (runOps defaultHandler [.addAlgebraic [(var 0 * (var 0 - const 1) : GExpr 17 ℕ)],
    .addAlgebraic [var 0 - const 5], .solve (plainChoices 17 ℕ)] Solver.new).toOption.isNone =
    true := by decide +kernel

end Verif
