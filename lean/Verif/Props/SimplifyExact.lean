import Verif.Proofs.SimplifyExact
import Verif.Props.ConstraintOptimizer

/-! # Property C108: simplification by exhaustive search finds constant fields -/

namespace Verif

open GExpr RangeConstraint

set_option linter.unusedSectionVars false

variable {p : ℕ} [Fact p.Prime] {V : Type} [LinearOrder V]

/-- C108: the substitutions found for a set of variables contain every field over these variables that
has the same value in all consistent combinations of values, together with this value, provided that
the algebraic constraints have a solution within the ranges. -/
theorem C108_candidate (t : ConstraintSystem p V) (ops : List (IndexedOp p V))
    (hw : (indexedHistory t ops).sys.WF) (rc : V → RangeConstraint p) (vs : List V)
    (l : List (GExpr p V × GExpr p V))
    (h : substitutionsFor (indexedHistory t ops) rc vs = .ok l)
    (hsat : ∃ σ : V → ZMod p, (∀ v, (rc v).allowsValue (σ v) = true) ∧
      ∀ e ∈ (indexedHistory t ops).sys.algebraic, eval σ e = 0)
    (b : BusInteraction (GExpr p V)) (hb : b ∈ (indexedHistory t ops).sys.bus)
    (e : GExpr p V) (he : e ∈ b.fields) (hne : ∃ v, Occurs v e) (hsub : ∀ v, Occurs v e → v ∈ vs)
    (c : ZMod p) (hc : ∀ τ, SearchConsistent (indexedHistory t ops).sys (fun _ => True) rc vs τ →
      eval τ e = c) : (e, const c) ∈ l := by
  obtain ⟨σ, h1, h2⟩ := hsat
  exact SimplifyExact.candidate (Indexed.inv_history t ops) hw h
    (fun v _ => (allowsValue_iff _ _).1 (h1 v)) h2 hb he hne hsub hc

/-- C108: if the algebraic constraints have a solution within the ranges, then every field of a bus
interaction that mentions variables, of which each has at most 5 values and all together at most 1024
combinations, and that has the same value in all consistent combinations, is replaced by another
expression, without variables that it did not mention before. -/
theorem C108_field (t : ConstraintSystem p V) (ops : List (IndexedOp p V))
    (hw : (indexedHistory t ops).sys.WF) (rc : V → RangeConstraint p) (s' : ConstraintSystem p V)
    (h : simplifyExhaustive (indexedHistory t ops) rc = .ok s')
    (hsat : ∃ σ : V → ZMod p, (∀ v, (rc v).allowsValue (σ v) = true) ∧
      ∀ e ∈ (indexedHistory t ops).sys.algebraic, eval σ e = 0) :
    ∃ g : GExpr p V → GExpr p V,
      s'.bus = (indexedHistory t ops).sys.bus.map (fun b => b.map g) ∧
      ∀ b ∈ (indexedHistory t ops).sys.bus, ∀ e ∈ b.fields, (∃ v, Occurs v e) →
        ∀ vs : List V, vs.Nodup → (∀ v, v ∈ vs ↔ Occurs v e) → (∀ v ∈ vs, (rc v).width ≤ 5) →
        (vs.map fun v => (rc v).width).prod ≤ 1024 →
        ∀ c, (∀ τ, SearchConsistent (indexedHistory t ops).sys (fun _ => True) rc vs τ →
          eval τ e = c) →
        g e ≠ e ∧ ∀ v, Occurs v (g e) → Occurs v e := by
  obtain ⟨σ, h1, h2⟩ := hsat
  unfold simplifyExhaustive at h
  rw [Except.bind_ok_iff] at h
  obtain ⟨subs, h3, h⟩ := h
  refine ⟨fun f => (replaceField subs f).1, ?_, fun b hb e he hne vs hnd hvs h5 h1024 c hc =>
    SimplifyExact.field (Indexed.inv_history t ops) hw h3
      (fun v => (allowsValue_iff _ _).1 (h1 v)) h2 hb he hne hnd hvs h5 h1024 hc⟩
  split at h
  · rename_i hs
    cases h
    subst hs
    symm
    have : (fun b : BusInteraction (GExpr p V) => b.map fun f => (replaceField [] f).1) = id := by
      funext b
      simp [BusInteraction.map, replaceField, mapGet]
    rw [this, List.map_id]
  · cases h
    rfl

/-! The field `4 + 3 * x0 * x1` of the sample of C51, with booleans that are not both one, is such a
field. -/

example : ∃ σ : ℕ → ZMod 17, (∀ v, (exhaustiveSampleRc v).allowsValue (σ v) = true) ∧
    ∀ e ∈ (indexedHistory exhaustiveSample []).sys.algebraic, eval σ e = 0 := by
  refine ⟨fun _ => 0, fun v => ?_, ?_⟩
  · unfold exhaustiveSampleRc
    show (if v < 2 then fromRange 0 1 else unconstrained : RangeConstraint 17).allowsValue 0 = true
    split
    · exact (by decide +kernel : (fromRange 0 1 : RangeConstraint 17).allowsValue 0 = true)
    · exact (by decide +kernel : (unconstrained : RangeConstraint 17).allowsValue 0 = true)
  · show ∀ e ∈ exhaustiveSample.algebraic, eval (fun _ => 0) e = 0
    decide +kernel

example (τ : ℕ → ZMod 17)
    (h : SearchConsistent (indexedHistory exhaustiveSample []).sys (fun _ => True)
      exhaustiveSampleRc [0, 1] τ) : eval τ (const 4 + scale 3 (var 0 * var 1)) = 4 := by
  have h1 := h.algebraic (var 0 * var 1) (by
      show _ ∈ exhaustiveSample.algebraic
      unfold exhaustiveSample
      simp)
    ⟨0, mem_vars_iff_occurs.1 (by decide +kernel)⟩
    (fun v hv => by
      have := mem_vars_iff_occurs.2 hv
      have hvars : vars (var 0 * var 1 : GExpr 17 ℕ) = [0, 1] := by decide +kernel
      rwa [hvars] at this)
  have h2 : eval τ (const 4 + scale 3 (var 0 * var 1)) = 4 + 3 * eval τ (var 0 * var 1) := by
    simp [eval_const, eval_scale]
  rw [h2, h1]
  decide

example : (∀ v ∈ [0, 1], (exhaustiveSampleRc v).width ≤ 5) ∧
    ([0, 1].map fun v => (exhaustiveSampleRc v).width).prod ≤ 1024 ∧
    (vars (const 4 + scale 3 (var 0 * var 1) : GExpr 17 ℕ)) = [0, 1] := by decide +kernel

end Verif
