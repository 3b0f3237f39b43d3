import Verif.Proofs.FreeExact
import Verif.Props.ConstraintOptimizer

/-! # Property C109: exactly the free variables are removed -/

namespace Verif

open GExpr

set_option linter.unusedSectionVars false

variable {p : ℕ} [Fact p.Prime] {V : Type} [LinearOrder V]

/-- C109: a constraint is removed only if it mentions a variable that occurs in no other constraint
and through which it is removable. All other constraints stay, in their order. -/
theorem C109_kept (h : Handler p) (f : ZMod p → Bool) (s : ConstraintSystem p V)
    (ops : List (IndexedOp p V)) (hw : (indexedHistory s ops).sys.WF)
    (solver solver' : Solver p V) (s' : ConstraintSystem p V)
    (hr : removeFree h f (indexedHistory s ops) solver = .ok (s', solver')) :
    s'.algebraic.Sublist (indexedHistory s ops).sys.algebraic ∧
    s'.bus.Sublist (indexedHistory s ops).sys.bus ∧
    ∀ c : ConstraintRef p V, c.In (indexedHistory s ops).sys → ¬ c.In s' →
      ∃ x, OnlyIn (indexedHistory s ops).sys x c ∧ RemovableVia f x c := by
  obtain ⟨delete, -, -, -, hs⟩ := removeFree_ok hr
  obtain ⟨delete', -, h2, -, h4⟩ := FreeExact.in_result (Indexed.inv_history s ops) hw hr
  refine ⟨by rw [hs]; exact List.filter_sublist, by rw [hs]; exact List.filter_sublist,
    fun c hc hn => ?_⟩
  rw [h4 c hc] at hn
  push Not at hn
  obtain ⟨x, hx, hm⟩ := hn
  obtain ⟨d, h5, h6⟩ := h2 x hx
  obtain ⟨i, h7, -, h9⟩ := FreeExact.onlyIn_iff.1 h5
  obtain ⟨j, hj⟩ := in_iff_refAt.1 hc
  have := h9 j c hj hm
  subst this
  rw [h7] at hj
  cases hj
  exact ⟨x, h5, h6⟩

/-- C109: with an index that was made for the system, a constraint is removed if and only if it
mentions a variable that occurs in no other constraint and through which it is removable. -/
theorem C109_exact (h : Handler p) (f : ZMod p → Bool) (s : ConstraintSystem p V) (hw : s.WF)
    (solver solver' : Solver p V) (s' : ConstraintSystem p V)
    (hr : removeFree h f (indexedHistory s []) solver = .ok (s', solver'))
    (c : ConstraintRef p V) (hc : c.In s) :
    c.In s' ↔ ¬ ∃ x, OnlyIn s x c ∧ RemovableVia f x c := by
  constructor
  · rintro hin ⟨x, h1, h2⟩
    obtain ⟨delete, h3, -, h5, h6⟩ := FreeExact.in_result (Indexed.inv_history s []) hw hr
    obtain ⟨i, h7, h8, -⟩ := FreeExact.onlyIn_iff.1 h1
    refine (h6 c hc).1 hin x (FreeExact.freeVariables_mem h3 ?_ (FreeExact.referencing_single h1)
      ((FreeExact.removable_iff (refAt_wf hw h7) ?_).2 h2)) h8
    · rw [List.mem_eraseDups]
      exact mem_vars_of_item h7 h8
    · rintro b rfl
      exact h5 b hc
  · intro hn
    by_contra hin
    exact hn ((C109_kept h f s [] hw solver solver' s' hr).2.2 c hc hin)

/-- C109: with an index that was made for the system, no free variable is left. -/
theorem C109_removed (h : Handler p) (f : ZMod p → Bool) (s : ConstraintSystem p V) (hw : s.WF)
    (solver solver' : Solver p V) (s' : ConstraintSystem p V)
    (hr : removeFree h f (indexedHistory s []) solver = .ok (s', solver'))
    (c : ConstraintRef p V) (x : V) (h1 : OnlyIn s x c) (h2 : RemovableVia f x c) :
    ¬ s'.Mentions x := by
  obtain ⟨i, h3, -, h5⟩ := FreeExact.onlyIn_iff.1 h1
  have hn : ¬ c.In s' := fun hin =>
    (C109_exact h f s hw solver solver' s' hr c (in_iff_refAt.2 ⟨i, h3⟩)).1 hin ⟨x, h1, h2⟩
  obtain ⟨k1, k2, -⟩ := C109_kept h f s [] hw solver solver' s' hr
  have key : ∀ d : ConstraintRef p V, d.In s' → d.In s → ¬ d.Mentions x := by
    intro d hd hd' hm
    obtain ⟨j, hj⟩ := in_iff_refAt.1 hd'
    have := h5 j d hj hm
    subst this
    rw [h3] at hj
    cases hj
    exact hn hd
  rintro (⟨e, he, ho⟩ | ⟨b, hb, ho⟩)
  · exact key (.alg e) he (k1.subset he) ho
  · exact key (.bus b) hb (k2.subset hb) ho

/-! ### Concrete instances -/

/-- In the sample of C48, `x1` occurs only in `2 * x1 = x0` and the constraint is removable via it. -/
example : OnlyIn freeSample 1 (.alg (scale 2 (var 1) - var 0)) ∧
    RemovableVia (fun b => b = 1) 1 (.alg (scale 2 (var 1) - var 0) : ConstraintRef 17 ℕ) := by
  have hv : ∀ e : GExpr 17 ℕ, 1 ∉ e.vars → ¬ Occurs 1 e := fun e h ho =>
    h (mem_vars_iff_occurs.2 ho)
  constructor
  · refine .alg [] _ [var 2 * (var 2 - var 0)] rfl (mem_vars_iff_occurs.1 (by decide +kernel))
      (by simp) ?_ ?_
    · intro e he
      rw [List.mem_singleton.1 he]
      exact hv _ (by decide +kernel)
    · intro b hb f hf
      refine hv f ?_
      revert f
      revert b
      decide +kernel
  · have : (scale 2 (var 1) - var 0 : GExpr 17 ℕ) = mk [] [(0, 16), (1, 2)] 0 := by decide +kernel
    show SolvableFor 1 _
    rw [this]
    exact .linear _ _ _ 2 (by simp) (by simp)

/-- The lookup of `x3 + x0` in the sample of C48 is removable via `x3`. -/
example : RemovableVia (fun b => b = 1) 3
    (.bus ⟨const 7, const 1, [var 3 + var 0, const 8]⟩ : ConstraintRef 17 ℕ) := by
  refine ⟨⟨7, rfl, by decide⟩, [], var 3 + var 0, [const 8], rfl, ?_, ?_, by decide +kernel⟩
  · intro g hg
    exact ⟨8, List.mem_singleton.1 hg⟩
  · intro k hk
    have : (var 3 + var 0 : GExpr 17 ℕ).tryToNumber = none := by decide +kernel
    rw [hk] at this
    cases this

/-- The index must be made for the system: if `x1 - x2` became zero by the substitution of `x1` for
`x2`, the index still says that it mentions `x1`, and the free variable `x1` is not found. -/
def staleSample : ConstraintSystem 17 ℕ :=
  ⟨[var 1 - var 0, var 1 - var 2], [⟨const 1, const 1, [var 0]⟩], []⟩

example : (indexedHistory staleSample [.subst 2 (var 1)]).sys =
      ⟨[var 1 - var 0, const 0], [⟨const 1, const 1, [var 0]⟩], []⟩ ∧
    (removeFree defaultHandler (fun b => b = 1) (indexedHistory staleSample [.subst 2 (var 1)])
      Solver.new).toOption.map (fun r => r.1.algebraic) = some [var 1 - var 0, const 0] ∧
    (removeFree defaultHandler (fun b => b = 1) (indexedHistory
      (indexedHistory staleSample [.subst 2 (var 1)]).sys [])
      Solver.new).toOption.map (fun r => r.1.algebraic) = some [const 0] := by
  decide +kernel

end Verif
