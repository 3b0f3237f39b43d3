import Verif.Proofs.Splitter
import Verif.Props.Solve

/-! # Properties C16 and C17: bus interactions and splitting of constraints -/

namespace Verif

open GExpr

set_option linter.unusedSectionVars false

variable {p : ℕ} [Fact p.Prime] {V : Type} [LinearOrder V]

/-- C16: with a handler that keeps its contract, every effect of solving a bus interaction holds in
every assignment that respects the range constraints and for which the interaction
is admissible. -/
theorem C16_effects_hold (bus : Bus p) (h : Handler p) (hs : h.Sound bus)
    (rc : V → RangeConstraint p) (b : BusInteraction (GExpr p V)) (hw : b.WF)
    (effects : List (Effect p V)) (ho : solveBus rc h b = .ok (.ok effects)) (σ : V → ZMod p)
    (hr : BusInRange rc σ b) (hb : bus (b.evalAt σ)) : ∀ eff ∈ effects, eff.Holds σ :=
  solveBus_spec hs hw ho σ hr hb

/-- C16: if an error is reported, the interaction is not admissible for any assignment that
respects the range constraints. -/
theorem C16_error_real (bus : Bus p) (h : Handler p) (hs : h.Sound bus)
    (rc : V → RangeConstraint p) (b : BusInteraction (GExpr p V)) (hw : b.WF)
    (err : ViolatesBusRules) (ho : solveBus rc h b = .ok (.error err)) (σ : V → ZMod p)
    (hr : BusInRange rc σ b) : ¬ bus (b.evalAt σ) :=
  solveBus_spec hs hw ho σ hr

/-- C16: solving a bus interaction does not panic if the handler does not. -/
theorem C16_no_panic (bus : Bus p) (h : Handler p) (hs : h.Sound bus) (ht : h.Total)
    (rc : V → RangeConstraint p) (b : BusInteraction (GExpr p V)) (hw : b.WF) (x : Panic) :
    solveBus rc h b ≠ .error x := by
  obtain ⟨o, ho⟩ := solveBus_total (rc := rc) hs ht hw
  rw [ho]; simp

/-- C16: the default handler is sound for every bus. -/
theorem C16_default_handler (bus : Bus p) :
    (defaultHandler : Handler p).Sound bus ∧ (defaultHandler : Handler p).Total := by
  refine ⟨fun r r' h => ?_, fun r => ⟨r, rfl⟩⟩
  cases h
  exact ⟨rfl, fun b _ h => h⟩

/-- A lookup table with the values 0 to 3 for a bus with a single field. -/
def sampleBus : Bus 17 := fun b => b.multiplicity = 0 ∨ ∃ v : ZMod 17, b.payload = [v] ∧ v.val ≤ 3

/-- Its handler. -/
def sampleHandler : Handler 17 := fun r =>
  if r.multiplicity.tryToSingleValue = some 1 ∧ r.payload.length = 1 then
    .ok ⟨r.busId, r.multiplicity, [RangeConstraint.fromRange 0 3]⟩
  else .ok r

theorem sampleHandler_sound : sampleHandler.Sound sampleBus := by
  intro r r' h
  unfold sampleHandler at h
  split at h
  · rename_i hc
    cases h
    refine ⟨by simp [hc.2], ?_⟩
    rintro b hb ⟨w1, w2, w3⟩
    refine ⟨w1, w2, ?_⟩
    rcases hb with h0 | ⟨v, hv, hle⟩
    · exfalso
      have := (RangeConstraint.tryToSingleValue_eq_some hc.1 _).1 ((RangeConstraint.allowsValue_iff _ _).1 w2)
      rw [h0] at this
      exact absurd this (by decide)
    · simp only [hv]
      refine List.Forall₂.cons ?_ .nil
      have : ∀ v : ZMod 17, v.val ≤ 3 →
          (RangeConstraint.fromRange (0 : ZMod 17) 3).allowsValue v = true := by decide
      exact this v hle
  · cases h
    exact ⟨rfl, fun b _ h => h⟩

theorem sampleHandler_total : sampleHandler.Total := by
  intro r
  unfold sampleHandler
  split
  · exact ⟨_, rfl⟩
  · exact ⟨_, rfl⟩

/-- Look up `5 - x0`. -/
def sampleInteraction : BusInteraction (GExpr 17 ℕ) :=
  ⟨const 5, const 1, [const 5 - var 0]⟩

theorem sampleInteraction_wf : sampleInteraction.WF := by
  intro e he
  simp only [sampleInteraction, BusInteraction.fields, List.mem_cons, List.not_mem_nil,
    or_false] at he
  rcases he with rfl | rfl | rfl
  · exact wf_const _
  · exact wf_const _
  · exact wf_sub (wf_const _) (wf_var 0)

example : solveBus (fun _ => .unconstrained) sampleHandler sampleInteraction =
    .ok (.ok [.rangeConstraint 0 ⟨7, 2, 5⟩]) := by decide +kernel
example : sampleBus (sampleInteraction.evalAt fun _ => 3) :=
  Or.inr ⟨2, by decide, by decide⟩
example : solveBus (fun _ => RangeConstraint.fromRange 4 6) sampleHandler
    ⟨const 5, const 1, [var 0]⟩ = .ok (.error (.mk)) := by decide +kernel

namespace Splitter

/-- C17: a constraint that is split is equivalent to the conjunction of its parts, for all
assignments that respect the range constraints. -/
theorem C17_split_equivalent (rc : V → RangeConstraint p) (e : GExpr p V)
    (parts : List (GExpr p V)) (h : trySplit rc e = .ok (some parts)) (σ : V → ZMod p)
    (hr : InRange rc σ e) : eval σ e = 0 ↔ ∀ e' ∈ parts, eval σ e' = 0 :=
  (trySplit_spec h).2 σ hr

/-- C17: the parts are well-formed and use only variables of the constraint. -/
theorem C17_parts_wf (rc : V → RangeConstraint p) (e : GExpr p V)
    (parts : List (GExpr p V)) (h : trySplit rc e = .ok (some parts)) :
    ∀ e' ∈ parts, WF e' ∧ ∀ v, Occurs v e' → Occurs v e := by
  intro e' he'
  simp only [← mem_vars_iff_occurs]
  exact (trySplit_spec h).1 e' he'

/-- C17: there is no panic (and no unbounded recursion) for odd fields of at most 64 bits. -/
theorem C17_no_panic (hp : p ≤ 2 ^ 64) (hp2 : 2 < p) (rc : V → RangeConstraint p) (e : GExpr p V)
    (x : Panic) : trySplit rc e ≠ .error x := by
  obtain ⟨o, ho⟩ := trySplit_total (rc := rc) hp hp2 e
  rw [ho]; simp

/-- `x0 + 4 * x1 - 6 = 0` with `x0` in `[0, 3]` and `x1` in `[0, 2]`. -/
def sampleSplit : GExpr 17 ℕ := var 0 + scale 4 (var 1) - const 6

def sampleSplitRc (v : ℕ) : RangeConstraint 17 :=
  if v = 0 then .fromRange 0 3 else .fromRange 0 2

example : ∃ parts, trySplit sampleSplitRc sampleSplit = .ok (some parts) ∧
    parts = [var 0 - const 2, var 1 - const 1] := by
  refine ⟨_, ?_, rfl⟩
  decide +kernel
example : InRange sampleSplitRc (fun v => if v = 0 then 2 else 1) sampleSplit ∧
    eval (fun v => if v = 0 then 2 else 1) sampleSplit = 0 := by
  refine ⟨fun v _ => ?_, by decide⟩
  unfold sampleSplitRc
  by_cases h : v = 0
  · simp only [h, if_true]; decide
  · simp only [h, if_false]; decide

end Splitter

end Verif
