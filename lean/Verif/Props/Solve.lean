import Verif.Proofs.Solve
import Verif.Props.GroupedExpression

/-! # Properties C13 to C15: solving a single constraint -/

namespace Verif

open GExpr

set_option linter.unusedSectionVars false

variable {p : ℕ} [Fact p.Prime] {V : Type} [LinearOrder V]

/-- C13: every effect holds in every solution that respects the range constraints. -/
theorem C13_effects_hold (rc : V → RangeConstraint p) (e : GExpr p V) (hw : WF e)
    (r : ProcessResult p V) (h : solve rc e = .ok (.ok r)) (σ : V → ZMod p)
    (hr : InRange rc σ e) (h0 : eval σ e = 0) : ∀ eff ∈ r.effects, eff.Holds σ := by
  obtain ⟨o, ho, g⟩ := solve_spec (rc := rc) hw
  rw [h] at ho
  cases ho
  exact g.sound σ hr h0

/-- C13: if the result is marked complete, the effects say everything: an assignment that respects
the range constraints and for which the effects hold satisfies the constraint. -/
theorem C13_complete (rc : V → RangeConstraint p) (e : GExpr p V) (hw : WF e)
    (r : ProcessResult p V) (h : solve rc e = .ok (.ok r)) (hc : r.complete = true)
    (σ : V → ZMod p) (hr : InRange rc σ e) (hh : ∀ eff ∈ r.effects, eff.Holds σ) :
    eval σ e = 0 := by
  obtain ⟨o, ho, g⟩ := solve_spec (rc := rc) hw
  rw [h] at ho
  cases ho
  exact g.complete hc σ hr hh

/-- C14: if solving reports an error, no assignment that respects the range constraints satisfies
the constraint. -/
theorem C14_contradiction_real (rc : V → RangeConstraint p) (e : GExpr p V) (hw : WF e)
    (err : SolveError) (h : solve rc e = .ok (.error err)) (σ : V → ZMod p)
    (hr : InRange rc σ e) : eval σ e ≠ 0 := by
  obtain ⟨o, ho, g⟩ := solve_spec (rc := rc) hw
  rw [h] at ho
  cases ho
  exact g σ hr

/-- C14: solving an expression that was built through the API never panics. -/
theorem C14_no_panic (rc : V → RangeConstraint p) (e : GExpr p V) (hb : Built e) (x : Panic) :
    solve rc e ≠ .error x := by
  obtain ⟨o, ho, -⟩ := solve_spec (rc := rc) (C09_wf_invariant e hb)
  rw [ho]; simp

/-- The byte constraint on every variable, and `(x0 - 1) * (x0 - 3) = 0`. -/
def sampleProduct : GExpr 17 ℕ := (var 0 - const 1) * (var 0 - const 3)

theorem sampleProduct_wf : WF sampleProduct :=
  wf_mul (wf_sub (wf_var 0) (wf_const 1)) (wf_sub (wf_var 0) (wf_const 3))

-- Range constraint learned from a product.
example : solve (fun _ => RangeConstraint.fromRange (0 : ZMod 17) 7) sampleProduct =
    .ok (.ok ⟨[.rangeConstraint 0 ⟨3, 1, 3⟩], false⟩) := by decide +kernel
-- A boolean constraint is completely captured.
example : solve (fun _ => RangeConstraint.fromRange (0 : ZMod 17) 7) (var 0 * (var 0 - const 1)) =
    .ok (.ok ⟨[.rangeConstraint 0 ⟨1, 0, 1⟩], true⟩) := by decide +kernel
-- One of the factors is impossible: x0 in [0, 1], x0 = 1 or x0 = 3.
example : solve (fun _ => RangeConstraint.fromRange (0 : ZMod 17) 1) sampleProduct =
    .ok (.ok ⟨[.assignment 0 1], true⟩) := by decide +kernel
example : InRange (fun _ => RangeConstraint.fromRange (0 : ZMod 17) 7) (fun _ => 3) sampleProduct ∧
    eval (fun _ => 3) sampleProduct = 0 := 
  ⟨fun _ _ => (by decide : (RangeConstraint.fromRange (0 : ZMod 17) 7).allowsValue 3 = true),
    by decide⟩
-- Contradictions through ranges.
example : ∃ err, solve (fun _ => RangeConstraint.fromRange (4 : ZMod 17) 7) sampleProduct =
    .ok (.error err) := ⟨_, rfl⟩
example : ∃ err, solve (fun _ => RangeConstraint.fromRange (0 : ZMod 17) 1)
    (var 0 + var 1 + const 5) = .ok (.error err) := ⟨_, rfl⟩

/-- C15: `try_solve_for` returns an expression without the variable that equals it exactly if the
constraint holds. -/
theorem C15_trySolveFor (e : GExpr p V) (hw : WF e) (x : V) (s : GExpr p V)
    (h : trySolveFor e x = .ok (some s)) :
    (∀ σ : V → ZMod p, eval σ e = 0 ↔ σ x = eval σ s) ∧ ¬ Occurs x s ∧
      (∀ v, Occurs v s → Occurs v e) := by
  obtain ⟨o, ho, hs⟩ := trySolveFor_spec hw x
  rw [h] at ho
  cases ho
  obtain ⟨_, b, c, d, _⟩ := hs s rfl
  simp only [← mem_vars_iff_occurs]
  exact ⟨b, c, d⟩

/-- C15: `try_solve_for` solves for every variable that occurs only linearly; it does
not panic. -/
theorem C15_trySolveFor_complete (e : GExpr p V) (hw : WF e) (x : V) :
    (∃ o, trySolveFor e x = .ok o) ∧
    (∀ k r, e.tryExtractAffineVar x = some (k, r) → ∃ s, trySolveFor e x = .ok (some s)) := by
  refine ⟨(trySolveFor_spec hw x).imp fun _ h => h.1, fun k r h => ?_⟩
  obtain ⟨o, ho, -⟩ := trySolveFor_spec hw x
  cases o with
  | some s => exact ⟨s, ho⟩
  | none =>
    exfalso
    unfold trySolveFor at ho
    have hk : coefficientOf e x = some k := by
      unfold tryExtractAffineVar at h
      split at h
      · cases h
      · rw [Option.map_eq_some_iff] at h
        obtain ⟨k', hk', heq⟩ := h
        cases heq; exact hk'
    rw [hk] at ho
    simp only [if_neg (coefficient_ne_zero hw hk)] at ho
    split at ho
    · rename_i hx
      apply (vars_extract hw h).1
      rcases e with ⟨q, l, c⟩
      obtain ⟨-, w2, -⟩ := wf_inv hw
      unfold tryExtractAffineVar at h
      split at h
      · cases h
      · rw [Option.map_eq_some_iff] at h
        obtain ⟨k', hk', heq⟩ := h
        cases heq
        rw [mem_vars_mk]
        exact Or.inl (vars_sub_var w2 hk (coefficient_ne_zero hw hk) hx)
    · cases ho

/-- C15: `try_solve_for_expr`. -/
theorem C15_trySolveForExpr (e expr : GExpr p V) (hw : WF e) (hwe : WF expr) (s : GExpr p V)
    (h : trySolveForExpr e expr = .ok (some s)) :
    (∀ σ : V → ZMod p, eval σ e = 0 ↔ eval σ expr = eval σ s) ∧
      ∀ v, Occurs v expr → ¬ Occurs v s := by
  have ha : expr.isAffine = true := by
    unfold trySolveForExpr at h
    split at h
    · cases h
    · rename_i hq; simpa [isAffine] using hq
  obtain ⟨o, ho, hs⟩ := trySolveForExpr_spec ha hw hwe
  rw [h] at ho
  cases ho
  obtain ⟨_, b, c, _⟩ := hs s rfl
  simp only [← mem_vars_iff_occurs]
  exact ⟨b, c⟩

example : ∃ s, trySolveFor (scale 2 (var 0) + var 1 * var 2 - const 3 : GExpr 17 ℕ) 0 =
    .ok (some s) := ⟨_, rfl⟩
example : ∃ s, trySolveForExpr (scale 2 (var 0) + scale 4 (var 1) - var 2 : GExpr 17 ℕ)
    (var 0 + scale 2 (var 1)) = .ok (some s) :=
  ⟨scale 9 (var 2), by decide +kernel⟩
example : WF (scale 2 (var 0) + scale 4 (var 1) - var 2 : GExpr 17 ℕ) :=
  wf_sub (wf_add (wf_scale _ (wf_var 0)) (wf_scale _ (wf_var 1))) (wf_var 2)

end Verif
