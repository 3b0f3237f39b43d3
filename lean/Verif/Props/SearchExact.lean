import Verif.Proofs.SearchExact
import Verif.Proofs.OpenVmRejects
import Verif.Props.ExhaustiveSearch
import Verif.Props.OpenVm

/-! # Property C106: exhaustive search finds what the searched constraints imply -/

namespace Verif

open GExpr RangeConstraint

set_option linter.unusedSectionVars false

variable {p : ℕ} [Fact p.Prime] {V : Type} [LinearOrder V]

/-- C106: if the search succeeds, then there is a consistent combination of values, and each searched
variable has a range - the one reported for it, or the known one - whose two ends are values in
consistent combinations and whose mask has no bit that is zero in all of them. -/
theorem C106_tight (bus : Bus p) (h : Handler p) (hrej : h.Rejects bus)
    (t : ConstraintSystem p V) (ops : List (IndexedOp p V)) (hw : (indexedHistory t ops).sys.WF)
    (rc : V → RangeConstraint p) (vs : List V) (m : List (V × RangeConstraint p))
    (ho : exhaustiveSearchOn (indexedHistory t ops) vs rc h = .ok (.ok m)) :
    (∃ σ, SearchConsistent (indexedHistory t ops).sys bus rc vs σ) ∧
    ∀ x ∈ vs, ∃ r : RangeConstraint p, ((x, r) ∈ m ∨ r = rc x) ∧ r.min.val ≤ r.max.val ∧
      (∃ σ, SearchConsistent (indexedHistory t ops).sys bus rc vs σ ∧ σ x = r.min) ∧
      (∃ σ, SearchConsistent (indexedHistory t ops).sys bus rc vs σ ∧ σ x = r.max) ∧
      ∀ i, r.mask.testBit i = true →
        ∃ σ, SearchConsistent (indexedHistory t ops).sys bus rc vs σ ∧ (σ x).val.testBit i = true := by
  obtain ⟨h1, h2⟩ := SearchExact.tight hrej (Indexed.inv_history t ops) hw ho
  refine ⟨h1, fun x hx => ?_⟩
  obtain ⟨D, hD, hm⟩ := h2 x hx
  refine ⟨D, hm, hD.le, hD.min, hD.max, fun i hi => ?_⟩
  obtain ⟨c, ⟨σ, hσ, rfl⟩, hc⟩ := hD.mask i hi
  exact ⟨σ, hσ, hc⟩

/-- C106: a searched variable with the same value in all consistent combinations is reported to have
no other value, unless this was known before. -/
theorem C106_value (bus : Bus p) (h : Handler p) (hrej : h.Rejects bus)
    (t : ConstraintSystem p V) (ops : List (IndexedOp p V)) (hw : (indexedHistory t ops).sys.WF)
    (rc : V → RangeConstraint p) (vs : List V) (m : List (V × RangeConstraint p))
    (ho : exhaustiveSearchOn (indexedHistory t ops) vs rc h = .ok (.ok m)) (x : V) (hx : x ∈ vs)
    (c : ZMod p) (hc : ∀ σ, SearchConsistent (indexedHistory t ops).sys bus rc vs σ → σ x = c) :
    ∃ r : RangeConstraint p, ((x, r) ∈ m ∨ r = rc x) ∧ ∀ v, r.allowsValue v = true → v = c := by
  obtain ⟨-, h2⟩ := C106_tight bus h hrej t ops hw rc vs m ho
  obtain ⟨r, hm, -, ⟨σ, hσ, e1⟩, ⟨τ, hτ, e2⟩, -⟩ := h2 x hx
  have h1 : r.min = c := e1 ▸ hc σ hσ
  have h3 : r.max = c := e2 ▸ hc τ hτ
  refine ⟨r, hm, fun v hv => ?_⟩
  simp only [allowsValue, h1, h3, fle, le_refl, if_true, Bool.and_eq_true, decide_eq_true_eq] at hv
  exact ZMod.val_injective p (le_antisymm hv.1.2 hv.1.1)

/-- C106: if no combination of values is consistent, the search does not succeed. -/
theorem C106_contradiction (bus : Bus p) (h : Handler p) (hrej : h.Rejects bus)
    (t : ConstraintSystem p V) (ops : List (IndexedOp p V)) (hw : (indexedHistory t ops).sys.WF)
    (rc : V → RangeConstraint p) (vs : List V)
    (hc : ∀ σ, ¬ SearchConsistent (indexedHistory t ops).sys bus rc vs σ)
    (m : List (V × RangeConstraint p)) :
    exhaustiveSearchOn (indexedHistory t ops) vs rc h ≠ .ok (.ok m) := by
  intro ho
  obtain ⟨⟨σ, hσ⟩, -⟩ := C106_tight bus h hrej t ops hw rc vs m ho
  exact hc σ hσ

/-- C106: the handler of OpenVM reports a violation for every forbidden interaction whose fields are
known, except exclusive ors of numbers that are not bytes. -/
theorem C106_openvm (m : BusMap) (hp : 255 < p) (hm : m.Fits p) :
    (openVmHandler m).Rejects
      (fun b : BusInteraction (ZMod p) => openVmBus m b ∨ XorOfLarge m b) :=
  OpenVmRejects.rejects hp hm

/-- The exception is real: the lookup of 300 xor 0 is not in the table and not rejected. -/
example : handleChecked (openVmHandler BusMap.default)
    ((⟨6, 1, [300, 0, 300, 1]⟩ : BusInteraction (ZMod 2013265921)).map fromValue) =
    .ok (.ok ((⟨6, 1, [300, 0, 300, 1]⟩ : BusInteraction (ZMod 2013265921)).map fromValue)) := by
  decide +kernel
example : XorOfLarge BusMap.default (⟨6, 1, [300, 0, 300, 1]⟩ : BusInteraction (ZMod 2013265921)) :=
  ⟨300, 0, 300, by decide, rfl, by decide +kernel, Or.inl (by decide +kernel)⟩
/-- A wrong exclusive or is rejected. -/
example : ∀ r, handleChecked (openVmHandler BusMap.default)
    ((⟨6, 1, [3, 5, 7, 1]⟩ : BusInteraction (ZMod 2013265921)).map fromValue) ≠ .ok (.ok r) := by
  have : (match handleChecked (openVmHandler BusMap.default)
      ((⟨6, 1, [3, 5, 7, 1]⟩ : BusInteraction (ZMod 2013265921)).map fromValue) with
    | .ok (.error _) => true | _ => false) = true := by decide +kernel
  intro r hr
  rw [hr] at this
  cases this

/-- Handlers that never reject suit buses that admit everything. -/
theorem default_rejects : (defaultHandler : Handler p).Rejects (fun _ => True) :=
  fun _ h => absurd trivial h

/-- In the sample system `x0 * x1 = 1` with bits `x0` and `x1`, both are one in all consistent
combinations, and there is one. -/
example : SearchConsistent (indexedHistory sampleSearch []).sys (fun _ => True) sampleSearchRc [0, 1]
    (fun v => if v = 2 then 3 else 1) := by
  have hs : (indexedHistory sampleSearch []).sys = sampleSearch := rfl
  rw [hs]
  refine ⟨by decide +kernel, fun e he _ _ => ?_, fun b hb => by cases hb⟩
  revert he
  have : ∀ e ∈ sampleSearch.algebraic, eval (fun v => if v = 2 then 3 else 1) e = 0 := by
    decide +kernel
  exact this e
example (σ : ℕ → ZMod 17)
    (h : SearchConsistent (indexedHistory sampleSearch []).sys (fun _ => True) sampleSearchRc [0, 1] σ) :
    σ 0 = 1 := by
  have h0 := h.ranges 0 (by simp)
  have h1 := h.algebraic (var 0 * var 1 - const 1) (List.mem_cons_self ..)
    ⟨0, mem_vars_iff_occurs.1 (by decide +kernel)⟩
    (fun v hv => by
      have := mem_vars_iff_occurs.2 hv
      have hvars : vars (var 0 * var 1 - const 1 : GExpr 17 ℕ) = [0, 1] := by decide +kernel
      rwa [hvars] at this)
  have key : ∀ a b : ZMod 17, (sampleSearchRc 0).allowsValue a = true → a * b - 1 = 0 → a = 1 := by
    decide +kernel
  refine key _ (σ 1) h0 ?_
  rw [← h1]
  simp [sub_eq_add_neg, eval_var, eval_const]

end Verif
