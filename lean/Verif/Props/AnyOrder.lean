import Verif.Proofs.AnyOrder
import Verif.Props.ConstraintOptimizer

/-! # Property C107: results do not depend on the iteration order of hash collections -/

namespace Verif

open GExpr

set_option linter.unusedSectionVars false

variable {p : ℕ} [Fact p.Prime] {V : Type} [LinearOrder V]

/-- C107: removing disconnected columns has the same outcome - the same system, the same solver or the
same failure - whatever the iteration orders of the sets of variables. The bounds on the number of
rounds only have to be larger than the number of variables. -/
theorem C107_disconnected (h : Handler p) (f : ZMod p → Bool) (s : ConstraintSystem p V)
    (ops : List (IndexedOp p V)) (solver : Solver p V) (vs : List V)
    (hv : ∀ v, (indexedHistory s ops).sys.Mentions v → v ∈ vs) (ord₁ ord₂ : SetOrder V) (n₁ n₂ : ℕ)
    (h1 : vs.length < n₁) (h2 : vs.length < n₂) :
    removeDisconnected h f ord₁ n₁ (indexedHistory s ops) solver =
      removeDisconnected h f ord₂ n₂ (indexedHistory s ops) solver :=
  AnyOrder.disconnected h f ord₁ ord₂ (Indexed.inv_history s ops) solver vs hv h1 h2

/-- C107: a system is split into the same parts in the same order, whatever the iteration orders. Only
the order of the constraints in each part may differ. -/
theorem C107_split (s : ConstraintSystem p V) (ops : List (IndexedOp p V)) (ord₁ ord₂ : SetOrder V)
    (n₁ n₂ : ℕ) (parts₁ parts₂ : List (ConstraintSystem p V))
    (h1 : splitSystem ord₁ n₁ (indexedHistory s ops) = .ok (some parts₁))
    (h2 : splitSystem ord₂ n₂ (indexedHistory s ops) = .ok (some parts₂)) :
    List.Forall₂ (fun a b : ConstraintSystem p V => a.algebraic.Perm b.algebraic ∧
      a.bus.Perm b.bus ∧ a.derived = b.derived) parts₁ parts₂ :=
  AnyOrder.splitLoop_same ord₁ ord₂ (Indexed.inv_ofSystem _) _ _ _ _ _ h1 h2

/-- C107: the value ranges detected for the columns of each instruction do not depend on the order in
which the rows were recorded. -/
theorem C107_ranges {rows rows' : List TraceRow} (h : rows.Perm rows')
    {m : List (ℕ × List (ℕ × ℕ))} (hm : detectColumnRangesByPc rows = .ok m) :
    ∃ m', detectColumnRangesByPc rows' = .ok m' ∧ ∀ pc, m'.lookup pc = m.lookup pc :=
  AnyOrder.detectByPc_perm h hm

/-! ## Examples -/

/-- `x0` is linked to a stateful bus by two steps, `x4` is not linked. -/
def orderSample : ConstraintSystem 17 ℕ :=
  ⟨[var 0 - var 1, var 2 - var 1, var 4 * var 4], [⟨const 1, const 1, [var 2]⟩], []⟩

def plainOrder : SetOrder ℕ := ⟨id, fun l => .refl l⟩

/-- Both orders give the same system. -/
example : (removeDisconnected defaultHandler (fun b => b = 1) plainOrder 9
    (indexedHistory orderSample []) Solver.new).toOption.map (·.1.algebraic) =
    some [var 0 - var 1, var 2 - var 1] := by decide +kernel
example : (removeDisconnected defaultHandler (fun b => b = 1) reverseOrder 7
    (indexedHistory orderSample []) Solver.new).toOption.map (·.1.algebraic) =
    some [var 0 - var 1, var 2 - var 1] := by decide +kernel

/-- The order of the constraints in a part is not fixed. -/
example : (splitSystem plainOrder 9 (indexedHistory orderSample [])).map
    (fun o => o.map fun ps => ps.map fun a => a.algebraic) =
    .ok (some [[var 0 - var 1, var 2 - var 1], [var 4 * var 4]]) := by decide +kernel
example : (splitSystem reverseOrder 9 (indexedHistory orderSample [])).map
    (fun o => o.map fun ps => ps.map fun a => a.algebraic) =
    .ok (some [[var 2 - var 1, var 0 - var 1], [var 4 * var 4]]) := by decide +kernel

/-- Rows recorded in two orders. -/
example : detectColumnRangesByPc [⟨0, ⟨0, 1⟩, [5]⟩, ⟨4, ⟨0, 2⟩, [1]⟩, ⟨0, ⟨0, 3⟩, [7]⟩] =
    .ok [(0, [(5, 7)]), (4, [(1, 1)])] := by decide +kernel
example : detectColumnRangesByPc [⟨4, ⟨0, 2⟩, [1]⟩, ⟨0, ⟨0, 3⟩, [7]⟩, ⟨0, ⟨0, 1⟩, [5]⟩] =
    .ok [(4, [(1, 1)]), (0, [(5, 7)])] := by decide +kernel

end Verif
