import Verif.Spec.OptimizerPanics
import Verif.Proofs.HandlerAgreeOptimizer
import Verif.Props.OptimizerSteps

/-! Configurations whose handlers accept all bus interactions that occur. -/

set_option linter.unusedSectionVars false

namespace Verif

open GExpr

variable {p : ℕ} [Fact p.Prime] {V : Type} [LinearOrder V] {Q : BusInteraction (GExpr p V) → Prop}

/-- A handler that reports no range constraint instead of a panic. -/
def RangeHandler.totalize (rh : RangeHandler p V) : RangeHandler p V where
  pure b := match rh.pure b with
    | .ok r => .ok r
    | .error _ => .ok none
  make := rh.make

/-- The configuration with handlers that do not panic. -/
def OptimizerConfig.totalize (c : OptimizerConfig p V) : OptimizerConfig p V :=
  { c with handler := c.handler.totalize, rangeHandler := c.rangeHandler.totalize }

theorem RangeHandler.totalize_some {rh : RangeHandler p V} {b : BusInteraction (GExpr p V)}
    {rcs : RangeConstraints p V} (h : rh.totalize.pure b = .ok (some rcs)) : rh.pure b = .ok (some rcs) := by
  simp only [RangeHandler.totalize] at h
  cases h1 : rh.pure b with
  | ok r => rw [h1] at h; exact h
  | error e => rw [h1] at h; cases h

theorem OptimizerConfig.Correct.totalize {c : OptimizerConfig p V} {bus : Bus p} (hc : c.Correct bus) :
    c.totalize.Correct bus where
  handler := Handler.totalize_sound hc.handler
  makes := ⟨hc.makes.exact, hc.makes.stateless, hc.makes.wf⟩
  lookups := fun b rcs h => hc.lookups b rcs (RangeHandler.totalize_some h)
  zero := hc.zero
  memory := hc.memory
  integers := hc.integers

theorem RangeHandler.Exact.totalize {rh : RangeHandler p V} {bus : Bus p} {w : ℕ}
    {bs : List (BusInteraction (GExpr p V))} (h : rh.Exact bus w bs) : rh.totalize.Exact bus w bs where
  half := h.half
  shape := fun b hb hm rcs hr => h.shape b hb hm rcs (RangeHandler.totalize_some hr)
  pureExact := fun b hb hm rcs hr => h.pureExact b hb hm rcs (RangeHandler.totalize_some hr)
  makeExact := h.makeExact

theorem OptimizerConfig.PanicFreeOn.agree {c : OptimizerConfig p V} (hp : c.PanicFreeOn Q) :
    c.Agree c.totalize Q where
  closed := hp.closed
  handler := fun b hb => (hp.handler b hb).agree
  pure := fun b hb => by
    obtain ⟨r, hr⟩ := hp.pure b hb
    simp only [OptimizerConfig.totalize, RangeHandler.totalize, hr]
  make := rfl
  stateful := rfl
  memory := rfl
  bound := rfl
  bits := rfl

theorem OptimizerConfig.PanicFreeOn.totalize {c : OptimizerConfig p V} (hp : c.PanicFreeOn Q) :
    c.totalize.PanicFree where
  odd := hp.odd
  small := hp.small
  handler := c.handler.totalize_total
  pure := fun b => by
    simp only [OptimizerConfig.totalize, RangeHandler.totalize]
    cases c.rangeHandler.pure b <;> exact ⟨_, rfl⟩
  make := hp.make
  once := hp.once

/-- From a system of the given form, the same states are reached. -/
theorem OptimizerConfig.PanicFreeOn.reach {c : OptimizerConfig p V} (hp : c.PanicFreeOn Q)
    {ok : RuleInput p V → ConstraintSystem p V → ConstraintSystem p V → Prop} {s : ConstraintSystem p V}
    (hs : ∀ b ∈ s.bus, Q b) (st : OptState p V) (news : List (DerivedVariable p V)) :
    OptReach c ok (.start s) st news ↔ OptReach c.totalize ok (.start s) st news :=
  ⟨fun h => OptReach.transfer (st := .start s) hp.agree hp.made hs h,
    fun h => OptReach.transfer (st := .start s) hp.agree.symm hp.made hs h⟩

theorem OptimizerConfig.PanicFreeOn.shaped {c : OptimizerConfig p V} (hp : c.PanicFreeOn Q)
    {ok : RuleInput p V → ConstraintSystem p V → ConstraintSystem p V → Prop} {s : ConstraintSystem p V}
    (hs : ∀ b ∈ s.bus, Q b) {st : OptState p V} {news : List (DerivedVariable p V)}
    (h : OptReach c ok (.start s) st news) : st.Shaped Q (c.handler.AgreeOn c.totalize.handler) :=
  OptReach.shaped (st := .start s) hp.closed agreeOn_closed
    (fun b hb => (hp.agree.handler b hb).keeps (transform_keeps b)) hp.made hs h

theorem OptState.Shaped.symm {h h' : Handler p} {st : OptState p V} (hst : st.Shaped Q (h.AgreeOn h')) :
    st.Shaped Q (h'.AgreeOn h) :=
  hst.mono (fun _ h => h) fun _ h r hr => (h r hr).symm

theorem OptState.Shaped.system {B : BusInteraction (GExpr p (SVar V)) → Prop} {st : OptState p V}
    (hst : st.Shaped Q B) : ∀ b ∈ st.system.bus, Q b := by
  cases st with
  | start s => exact hst
  | finalRuled s => exact hst
  | ranged s => exact hst
  | done s => exact hst
  | _ => exact hst.1

theorem OptState.Good.system {c : OptimizerConfig p V} {bus : Bus p} {σ : V → ZMod p} {m m' : Memory p}
    {size : ZMod p → ℕ} {s0 : ConstraintSystem p V} {st : OptState p V}
    (hg : st.Good c bus σ m m' size s0) : SystemOk c bus σ m m' size s0 st.system := by
  cases st with
  | start s => exact hg
  | finalRuled s => exact hg
  | ranged s => exact hg
  | done s => exact hg
  | _ => exact hg.1

end Verif
