import Verif.Proofs.Memory
import Verif.Props.Solver

/-!
# C35: memory optimisation
-/

namespace Verif

open GExpr

set_option linter.unusedSectionVars false

variable {p : ℕ} [Fact p.Prime] {V : Type} [LinearOrder V]

/-- For every assignment that satisfies the polynomial constraints of the result, the balance of
every bus and message is as it was. -/
theorem C35_balance (bus : Bus p) (h : Handler p) (hs : h.Sound bus) (A : (V → ZMod p) → Prop)
    (id : ℕ) (s s' : ConstraintSystem p V) (solver solver' : Solver p V) (hw : s.WF)
    (hm : solver.MadeFor bus h A)
    (hr : optimizeMemory h (some id) s solver = .ok (s', solver')) (σ : V → ZMod p)
    (hσ : ∀ e ∈ s'.algebraic, eval σ e = 0) (busId : ZMod p) (message : List (ZMod p)) :
    busBalance σ s'.bus busId message = busBalance σ s.bus busId message := by
  obtain ⟨P, -, hP, hn, -, -, rfl⟩ := optimizeMemory_ok hs hw hm hr
  exact balance_pairs hP hn (fun e he => hσ e (List.mem_append_right _ he)) busId message

/-- In every valid execution the added equalities hold, and what remains is still a valid sequence of
memory operations from the same memory to the same memory. `A` is what the solver knows. -/
theorem C35_valid_executions (bus : Bus p) (h : Handler p) (hs : h.Sound bus)
    (A : (V → ZMod p) → Prop) (id : ℕ) (s s' : ConstraintSystem p V) (solver solver' : Solver p V)
    (hw : s.WF) (hm : solver.MadeFor bus h A)
    (hr : optimizeMemory h (some id) s solver = .ok (s', solver')) (σ : V → ZMod p) (hA : A σ)
    (m m' : Memory p) (hu : s.UsesMemory id σ m m') :
    s'.UsesMemory id σ m m' ∧ (s.Satisfied bus σ → s'.Satisfied bus σ) := by
  obtain ⟨P, -, hP, hn, -, -, rfl⟩ := optimizeMemory_ok hs hw hm hr
  obtain ⟨h1, h2⟩ := run_without_pairs hA hP hu
  refine ⟨h2, fun hsat => ⟨fun e he => ?_, fun b hb => hsat.bus b ?_⟩⟩
  · rcases List.mem_append.1 he with he | he
    · exact hsat.algebraic e he
    · exact h1 e he
  · obtain ⟨x, hx, rfl⟩ := List.mem_map.1 hb
    exact (List.mem_zipIdx' (List.mem_filter.1 hx).1).2 ▸ List.getElem_mem _

/-- Nothing else changes: constraints are only added, bus interactions only removed (in order), and
only interactions with the memory bus are removed. -/
theorem C35_nothing_else (bus : Bus p) (h : Handler p) (hs : h.Sound bus) (A : (V → ZMod p) → Prop)
    (id : ℕ) (s s' : ConstraintSystem p V) (solver solver' : Solver p V) (hw : s.WF)
    (hm : solver.MadeFor bus h A)
    (hr : optimizeMemory h (some id) s solver = .ok (s', solver')) :
    s.algebraic <+: s'.algebraic ∧ s'.bus.Sublist s.bus ∧ s'.derived = s.derived ∧
      (∀ other ≠ const (id : ZMod p), s'.bus.filter (fun b => b.busId = other) =
        s.bus.filter (fun b => b.busId = other)) := by
  obtain ⟨P, -, hP, hn, -, -, rfl⟩ := optimizeMemory_ok hs hw hm hr
  refine ⟨List.prefix_append _ _, ?_, rfl, fun other hne => ?_⟩
  · have := (List.filter_sublist (p := fun x : BusInteraction (GExpr p V) × ℕ =>
      x.2 ∉ P.flatMap MemPair.indices) (l := s.bus.zipIdx)).map Prod.fst
    rwa [List.zipIdx_map_fst] at this
  · refine filter_removed _ s.bus 0 fun k b hk hb => ?_
    rw [Nat.add_zero] at hk
    obtain ⟨x, hx, hk⟩ := List.mem_flatMap.1 hk
    simp only [MemPair.indices, List.mem_cons, List.not_mem_nil, or_false] at hk
    have : b.busId = const (id : ZMod p) := by
      rcases hk with rfl | rfl
      · obtain ⟨c, c1, c2⟩ := (hP x hx).get
        rw [hb] at c1; cases c1
        exact (memConversion_memory c2).1
      · obtain ⟨c, c1, c2⟩ := (hP x hx).set
        rw [hb] at c1; cases c1
        exact (memConversion_memory c2).1
    simp [this, Ne.symm hne]

/-- The solver handed on knows only what holds in all valid executions. -/
theorem C35_solver (bus : Bus p) (h : Handler p) (hs : h.Sound bus) (A : (V → ZMod p) → Prop)
    (id : ℕ) (s s' : ConstraintSystem p V) (solver solver' : Solver p V) (hw : s.WF)
    (hm : solver.MadeFor bus h A)
    (hr : optimizeMemory h (some id) s solver = .ok (s', solver')) :
    solver'.MadeFor bus h fun σ => A σ ∧ ∃ m m', s.UsesMemory id σ m m' := by
  obtain ⟨P, solver1, hP, hn, h1, h2, rfl⟩ := optimizeMemory_ok hs hw hm hr
  have h3 := h1.mono (B := fun σ => A σ ∧ ∃ m m', s.UsesMemory id σ m m') fun σ hσ => hσ.1
  refine (h3.run hs ?_ h2 ?_).1
  · exact pairs_wf hw hP
  · rintro σ ⟨hA, m, m', hu⟩
    exact (run_without_pairs hA hP hu).1

/-- Without a memory bus nothing happens. -/
theorem C35_no_memory_bus (h : Handler p) (s : ConstraintSystem p V) (solver : Solver p V) :
    optimizeMemory h none s solver = .ok (s, solver) := rfl

/-! A sample: two sets at known different addresses, another bus, then both are fetched; a set at an
unknown address forgets the rest. Bus 1 is the memory bus. -/

def memorySample : ConstraintSystem 17 ℕ where
  algebraic := []
  bus := [⟨const 1, const (-1), [const 2, var 0, var 1, var 2]⟩,
    ⟨const 1, const 1, [const 2, var 0, var 3, var 4]⟩,
    ⟨const 1, const 1, [const 2, var 0 + const 1, var 5, var 6]⟩,
    ⟨const 3, const 1, [var 3, const 8]⟩,
    ⟨const 1, const (-1), [const 2, var 0, var 7, var 8]⟩,
    ⟨const 1, const 1, [const 2, var 9, const 7, var 8]⟩,
    ⟨const 1, const (-1), [const 2, var 0 + const 1, var 10, var 11]⟩]
  derived := []

/-- The second pair is not removed, because `x9` could be the same address. -/
example : (optimizeMemory defaultHandler (some 1) memorySample Solver.new).toOption.map
      (fun r => decide (r.1.bus = [⟨const 1, const (-1), [const 2, var 0, var 1, var 2]⟩,
        ⟨const 1, const 1, [const 2, var 0 + const 1, var 5, var 6]⟩,
        ⟨const 3, const 1, [var 3, const 8]⟩,
        ⟨const 1, const 1, [const 2, var 9, const 7, var 8]⟩,
        ⟨const 1, const (-1), [const 2, var 0 + const 1, var 10, var 11]⟩] ∧
        r.1.algebraic = [var 3 - var 7, var 4 - var 8])) = some true := by
  decide +kernel

/-- The new solver knows nothing and is made for all assignments. -/
theorem new_madeFor (bus : Bus p) (h : Handler p) (A : (V → ZMod p) → Prop) :
    (Solver.new : Solver p V).MadeFor bus h A :=
  ⟨[], [], by simp, rfl, by simp⟩

/-- An execution that uses the memory: address 4 holds `(5, 1)` at the start. -/
def memorySampleAssignment : ℕ → ZMod 17 := fun v =>
  ([4, 5, 1, 6, 2, 8, 3, 6, 2, 9, 8, 3] : List (ZMod 17)).getD v 0

example : ∃ m', memorySample.UsesMemory 1 memorySampleAssignment
    (fun a => if a = (2, 4) then some ([5], 1) else none) m' := by
  have e : memorySample.bus.map (fun b => b.evalAt memorySampleAssignment) =
      [⟨1, -1, 2 :: 4 :: ([5] ++ [1])⟩, ⟨1, 1, 2 :: 4 :: ([6] ++ [2])⟩,
       ⟨1, 1, 2 :: 5 :: ([8] ++ [3])⟩, ⟨3, 1, [6, 8]⟩, ⟨1, -1, 2 :: 4 :: ([6] ++ [2])⟩,
       ⟨1, 1, 2 :: 9 :: ([7] ++ [2])⟩, ⟨1, -1, 2 :: 5 :: ([8] ++ [3])⟩] := by decide +kernel
  unfold ConstraintSystem.UsesMemory
  rw [e, Nat.cast_one]
  exact ⟨_, _, memoryStep_get (by simp) (by decide), _, memoryStep_set (by simp), _,
    memoryStep_set (by simp [Function.update_apply]; decide), _, memoryStep_other (by decide), _,
    memoryStep_get (by simp [Function.update_apply]; decide) (by decide), _,
    memoryStep_set (by simp [Function.update_apply]; decide), _,
    memoryStep_get (by simp [Function.update_apply]; decide) (by decide), rfl⟩

end Verif
