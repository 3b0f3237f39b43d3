import Verif.Props.Solver

/-!
# C21: what `retain_variables` keeps
-/

set_option linter.unusedSectionVars false

namespace Verif

open GExpr

variable {p : ℕ} [Fact p.Prime] {V : Type} [LinearOrder V]

/-- A variable of the solver that is kept: one that the caller wants to keep, or one that the solver has
introduced for a part of an expression. -/
def SVar.Kept (keep : List V) (s : Solver p V) (v : SVar V) : Prop :=
  (∃ x ∈ keep, v = .original x) ∨ ∃ n < s.nextLin, v = .linearized n

theorem keeps_iff {keep : List V} {s : Solver p V} {v : SVar V} :
    s.keeps (keep.map .original) v = true ↔ v.Kept keep s := by
  unfold Solver.keeps SVar.Kept
  cases v with
  | original x => simp
  | boolean n => simp
  | linearized n => simp

theorem mem_retain {α : Type} {f : ℕ → α → Bool} {l : List α} {x : α} {P : α → Prop}
    (h : ∀ i x, f i x = true ↔ P x) : x ∈ Indexed.retainFrom f 0 l ↔ x ∈ l ∧ P x := by
  rw [mem_retainFrom]
  constructor
  · rintro ⟨i, h1, h2⟩
    exact ⟨List.mem_of_getElem? h1, (h _ _).1 h2⟩
  · rintro ⟨h1, h2⟩
    obtain ⟨i, hi⟩ := List.mem_iff_getElem?.1 h1
    exact ⟨i, hi, (h _ _).2 h2⟩

/-- C21: `retain_variables` removes exactly the constraints and bus interactions that mention neither a
variable to be kept nor a variable that the solver has introduced for a part of an expression. What is
known about the range of a variable that is still mentioned is kept, nothing else is. -/
theorem C21_retained (bus : Bus p) (h : Handler p) (hs : h.Sound bus)
    (ops : List (SolverOp p V)) (hw : ∀ op ∈ ops, op.WF) (outs : List (SolverOut p V))
    (s : Solver p V) (ho : runOps h ops Solver.new = .ok (outs, s)) (keep : List V)
    (out : SolverOut p V) (s' : Solver p V) (hr : (SolverOp.retain keep).run h s = .ok (out, s')) :
    (∀ e, e ∈ s'.cs.ix.sys.algebraic ↔
      e ∈ s.cs.ix.sys.algebraic ∧ ∃ v ∈ e.vars, v.Kept keep s) ∧
    (∀ b, b ∈ s'.cs.ix.sys.bus ↔
      b ∈ s.cs.ix.sys.bus ∧ ∃ e ∈ b.fields, ∃ v ∈ e.vars, v.Kept keep s) ∧
    ∀ v, s'.rcs v = if (∃ e ∈ s'.cs.ix.sys.algebraic, v ∈ e.vars) ∨
      (∃ b ∈ s'.cs.ix.sys.bus, ∃ e ∈ b.fields, v ∈ e.vars) then s.rcs v else .unconstrained := by
  classical
  have hi : s.Inv := by
    have := runOps_spec (p := p) hs (Solver.inv_new) hw
    rw [ho] at this
    exact this.1
  simp only [SolverOp.run] at hr
  cases h1 : s.retain (keep.map .original) with
  | error x => rw [h1] at hr; cases hr
  | ok s1 =>
    rw [h1] at hr
    cases hr
    unfold Solver.retain at h1
    split at h1
    · cases h1
    · obtain ⟨c1, k1, k2, k3, -⟩ := Queued.retainAlgebraic_ok hi.cs
        (fun _ e => e.vars.any (s.keeps (keep.map .original)))
      obtain ⟨c2, k4, k5, k6, -⟩ := Queued.retainBus_ok k3
        (fun _ b => (busVars b).any (s.keeps (keep.map .original)))
      rw [k1, Solver.liftPanic_ok, Solver.stop_bind, k4, Solver.liftPanic_ok, Solver.stop_bind,
        Solver.stop_pure] at h1
      cases h1
      refine ⟨fun e => ?_, fun b => ?_, fun v => ?_⟩
      · simp only
        rw [k5, k2]
        exact mem_retain (P := fun (e : GExpr p (SVar V)) => ∃ v ∈ e.vars, v.Kept keep s)
          (f := fun _ e => e.vars.any (s.keeps (keep.map SVar.original)))
          fun i x => by simp only [List.any_eq_true, keeps_iff]
      · simp only
        rw [k5, k2]
        refine mem_retain (P := fun (b : BusInteraction (GExpr p (SVar V))) => ∃ e ∈ b.fields, ∃ v ∈ e.vars, v.Kept keep s)
          (f := fun _ b => (busVars b).any (s.keeps (keep.map .original))) fun i x => ?_
        simp only [List.any_eq_true, keeps_iff, busVars, List.mem_flatMap]
        constructor
        · rintro ⟨v, ⟨e, he, hv⟩, hk⟩
          exact ⟨e, he, v, hv, hk⟩
        · rintro ⟨e, he, v, hv, hk⟩
          exact ⟨v, ⟨e, he, hv⟩, hk⟩
      · simp only [Solver.mem_sys_vars]

/-- A solver that has introduced a variable for `x0 * x1`: after `retain_variables` for `x3`, the constraint on
`x3` and the two that mention the introduced variable are left. -/
example : ((runOps defaultHandler [.addAlgebraic [(var 0 * var 1 + var 2 : GExpr 17 ℕ), var 3 - const 5,
    var 4 - const 5], .retain [3]] Solver.new).toOption.map fun r => (r.2.nextLin, r.2.cs.ix.sys.algebraic.length)) =
    some (1, 3) := by decide +kernel

end Verif
