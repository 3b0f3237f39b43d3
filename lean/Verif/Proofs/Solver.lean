import Verif.Model.Solver
import Verif.Proofs.SolverBase
import Verif.Proofs.Splitter
import Verif.Proofs.Indexed
import Verif.Proofs.BooleanExtractor
import Verif.Proofs.Linearizer
import Verif.Proofs.ExhaustiveSearch
import Verif.Proofs.TransformVars

/-! Helper lemmas about the solver: the invariant and how the operations extend the knowledge. -/

set_option linter.unusedSectionVars false

namespace Verif

open GExpr

variable {p : ℕ} {V : Type}

/-- The variable has been dispensed already (or is an original variable). -/
def SVar.Below (nb nl : ℕ) : SVar V → Prop
  | .original _ => True
  | .boolean n => n < nb
  | .linearized n => n < nl

theorem SVar.Below.mono {nb nl nb' nl' : ℕ} {v : SVar V} (h : v.Below nb nl) (hb : nb ≤ nb')
    (hl : nl ≤ nl') : v.Below nb' nl' := by
  cases v with
  | original v => trivial
  | boolean n => exact lt_of_lt_of_le h hb
  | linearized n => exact lt_of_lt_of_le h hl

theorem dispenses_linearized (nb : ℕ) :
    Dispenses (SVar.linearized : ℕ → SVar V) (fun n v => v.Below nb n) where
  mono n n' v hn h := h.mono le_rfl hn
  succ n := Nat.lt_succ_self n
  ne n v h := by
    rintro rfl
    exact lt_irrefl _ h

namespace Solver

variable [Fact p.Prime] [LinearOrder V]

/-- The variable has been dispensed. -/
def Below (s : Solver p V) (v : SVar V) : Prop := v.Below s.nextBool s.nextLin

/-- All variables of the expression have been dispensed. -/
def BelowE (s : Solver p V) (e : GExpr p (SVar V)) : Prop := ∀ v ∈ vars e, s.Below v

/-- Invariant of the solver. -/
structure Inv (s : Solver p V) : Prop where
  cs : s.cs.Inv
  wf : s.cs.ix.sys.WF
  below : ∀ v ∈ s.cs.ix.sys.vars, s.Below v
  rcs : ∀ v, ¬ s.Below v → s.rcs v = .unconstrained
  linKey : ∀ x ∈ s.linSubs, WF x.1 ∧ s.BelowE x.1
  linValue : ∀ x ∈ s.linSubs, WF x.2 ∧ s.BelowE x.2 ∧ x.2.isAffine = true
  ret : ∀ x ∈ s.toReturn, s.Below x.1 ∧ WF x.2 ∧ s.BelowE x.2 ∧ x.2.isAffine = true
  cache : ∀ x ∈ s.cache, s.BelowE x.1 ∧ ∀ e ∈ x.2, WF e ∧ s.BelowE e

/-- The assignment satisfies everything the solver knows. -/
structure Good (bus : Bus p) (τ : SVar V → ZMod p) (s : Solver p V) : Prop where
  sat : s.cs.ix.sys.Satisfied bus τ
  rcs : ∀ v, (s.rcs v).Allows (τ v)
  lin : ∀ x ∈ s.linSubs, eval τ x.1 = eval τ x.2
  ret : ∀ x ∈ s.toReturn, τ x.1 = eval τ x.2
  cache : ∀ x ∈ s.cache, ∀ e ∈ x.2, eval τ e = eval τ x.1

/-- Agreement on the variables dispensed so far. -/
def Agree (s : Solver p V) (τ' τ : SVar V → ZMod p) : Prop := ∀ v, s.Below v → τ' v = τ v

variable {bus : Bus p} {s s' s'' : Solver p V}

theorem Agree.refl (s : Solver p V) (τ : SVar V → ZMod p) : s.Agree τ τ := fun _ _ => rfl

theorem Agree.eval {τ' τ : SVar V → ZMod p} (h : s.Agree τ' τ) {e : GExpr p (SVar V)}
    (he : s.BelowE e) : eval τ' e = eval τ e := eval_congr fun v hv => h v (he v hv)

theorem mem_sys_vars {t : ConstraintSystem p (SVar V)} {v : SVar V} : v ∈ t.vars ↔
    (∃ e ∈ t.algebraic, v ∈ vars e) ∨ ∃ b ∈ t.bus, ∃ e ∈ b.fields, v ∈ vars e := by
  unfold ConstraintSystem.vars busVars
  simp [List.mem_flatMap]

theorem Inv.algBelow (h : s.Inv) {e : GExpr p (SVar V)} (he : e ∈ s.cs.ix.sys.algebraic) :
    s.BelowE e := fun v hv => h.below v (mem_sys_vars.2 (Or.inl ⟨e, he, hv⟩))

theorem Inv.busBelow (h : s.Inv) {b : BusInteraction (GExpr p (SVar V))}
    (hb : b ∈ s.cs.ix.sys.bus) {e : GExpr p (SVar V)} (he : e ∈ b.fields) :
    s.BelowE e := fun v hv => h.below v (mem_sys_vars.2 (Or.inr ⟨b, hb, e, he, hv⟩))

theorem evalAt_eq {τ' τ : SVar V → ZMod p} {b : BusInteraction (GExpr p (SVar V))}
    (h : ∀ e ∈ b.fields, eval τ' e = eval τ e) : b.evalAt τ' = b.evalAt τ := by
  unfold BusInteraction.evalAt
  simp only [BusInteraction.mk.injEq]
  exact ⟨h _ (by simp [BusInteraction.fields]), h _ (by simp [BusInteraction.fields]),
    List.map_congr_left fun e he => h e (by simp [BusInteraction.fields, he])⟩

/-- Only the variables dispensed so far matter. -/
theorem Good.congr {τ' τ : SVar V → ZMod p} (h : Good bus τ s) (hi : s.Inv)
    (ha : s.Agree τ' τ) : Good bus τ' s where
  sat := by
    constructor
    · intro e he
      rw [ha.eval (hi.algBelow he)]
      exact h.sat.algebraic e he
    · intro b hb
      rw [evalAt_eq fun e he => ha.eval (hi.busBelow hb he)]
      exact h.sat.bus b hb
  rcs v := by
    by_cases hv : s.Below v
    · rw [ha v hv]; exact h.rcs v
    · rw [hi.rcs v hv]; exact RangeConstraint.unconstrained_allows _
  lin x hx := by
    rw [ha.eval (hi.linKey x hx).2, ha.eval (hi.linValue x hx).2.1]; exact h.lin x hx
  ret x hx := by
    rw [ha _ (hi.ret x hx).1, ha.eval (hi.ret x hx).2.2.1]; exact h.ret x hx
  cache x hx e he := by
    rw [ha.eval (hi.cache x hx).1, ha.eval ((hi.cache x hx).2 e he).2]; exact h.cache x hx e he

/-- `s'` results from `s` by adding implied knowledge, given that `P` holds. -/
structure Ext (bus : Bus p) (P : (SVar V → ZMod p) → Prop) (s s' : Solver p V)
    (Q : (SVar V → ZMod p) → Prop) : Prop where
  inv : s'.Inv
  bool : s.nextBool ≤ s'.nextBool
  linear : s.nextLin ≤ s'.nextLin
  width : ∀ v, (s'.rcs v).width ≤ (s.rcs v).width
  complete : ∀ τ, Good bus τ s → P τ → ∃ τ', s.Agree τ' τ ∧ Good bus τ' s' ∧ Q τ'

theorem Below.mono (hb : s.nextBool ≤ s'.nextBool) (hl : s.nextLin ≤ s'.nextLin) {v : SVar V}
    (h : s.Below v) : s'.Below v := SVar.Below.mono h hb hl

theorem BelowE.mono (hb : s.nextBool ≤ s'.nextBool) (hl : s.nextLin ≤ s'.nextLin)
    {e : GExpr p (SVar V)} (h : s.BelowE e) : s'.BelowE e := fun v hv => (h v hv).mono hb hl

section
variable {P P' Q Q' : (SVar V → ZMod p) → Prop}

theorem Ext.below (h : Ext bus P s s' Q) {v : SVar V} (hv : s.Below v) : s'.Below v :=
  hv.mono h.bool h.linear

theorem Ext.belowE (h : Ext bus P s s' Q) {e : GExpr p (SVar V)} (he : s.BelowE e) : s'.BelowE e :=
  he.mono h.bool h.linear

/-- What is known after an extension: the postcondition, and the precondition for an assignment
that agrees on the old variables. -/
def After (bus : Bus p) (P : (SVar V → ZMod p) → Prop) (s : Solver p V)
    (Q : (SVar V → ZMod p) → Prop) (τ' : SVar V → ZMod p) : Prop :=
  Q τ' ∧ ∃ τ, P τ ∧ Good bus τ s ∧ s.Agree τ' τ

theorem Ext.trans (h : Ext bus P s s' Q) (h' : Ext bus (After bus P s Q) s' s'' Q') :
    Ext bus P s s'' Q' where
  inv := h'.inv
  bool := h.bool.trans h'.bool
  linear := h.linear.trans h'.linear
  width v := (h'.width v).trans (h.width v)
  complete τ hg hp := by
    obtain ⟨τ1, a1, g1, q1⟩ := h.complete τ hg hp
    obtain ⟨τ2, a2, g2, q2⟩ := h'.complete τ1 g1 ⟨q1, τ, hp, hg, a1⟩
    exact ⟨τ2, fun v hv => (a2 v (h.below hv)).trans (a1 v hv), g2, q2⟩

theorem Ext.mono (h : Ext bus P s s' Q) (hP : ∀ τ, Good bus τ s → P' τ → P τ)
    (hQ : ∀ τ', Good bus τ' s' → (∃ τ, P' τ ∧ Good bus τ s ∧ s.Agree τ' τ) → Q τ' → Q' τ') :
    Ext bus P' s s' Q' where
  inv := h.inv
  bool := h.bool
  linear := h.linear
  width := h.width
  complete τ hg hp := by
    obtain ⟨τ', a, g, q⟩ := h.complete τ hg (hP τ hg hp)
    exact ⟨τ', a, g, hQ τ' g ⟨τ, hp, hg, a⟩ q⟩

/-- No new variables. -/
theorem Ext.of_same (hi : s'.Inv) (hb : s'.nextBool = s.nextBool) (hl : s'.nextLin = s.nextLin)
    (hw : ∀ v, (s'.rcs v).width ≤ (s.rcs v).width)
    (hg : ∀ τ, Good bus τ s → P τ → Good bus τ s' ∧ Q τ) : Ext bus P s s' Q where
  inv := hi
  bool := hb.ge
  linear := hl.ge
  width := hw
  complete τ h hp := ⟨τ, Agree.refl s τ, (hg τ h hp).1, (hg τ h hp).2⟩

theorem Ext.refl (hi : s.Inv) (hg : ∀ τ, Good bus τ s → P τ → Q τ) : Ext bus P s s Q :=
  .of_same hi rfl rfl (fun _ => le_rfl) fun τ h hp => ⟨h, hg τ h hp⟩

end

/-- What is true of the outcome of an operation on `s`: given `P`, a normal result extends the
knowledge; an error is only returned if no assignment is possible; there is no panic
under the conditions `NP`. -/
def Spec (bus : Bus p) (NP : Prop) (s : Solver p V) (P : (SVar V → ZMod p) → Prop) {α : Type}
    (st : α → Solver p V) (W : α → Prop) (Q : α → (SVar V → ZMod p) → Prop) :
    Except Stop α → Prop
  | .ok a => Ext bus P s (st a) (Q a) ∧ W a
  | .error .panic => ¬ NP
  | .error .fuel => True
  | .error (.error _) => ∀ τ, Good bus τ s → ¬ P τ

section
variable {NP : Prop} {α β : Type} {P P' : (SVar V → ZMod p) → Prop}
  {st : α → Solver p V} {W W' : α → Prop} {Q Q' : α → (SVar V → ZMod p) → Prop}
  {st2 : β → Solver p V} {W2 : β → Prop} {Q2 : β → (SVar V → ZMod p) → Prop}

theorem Spec.bind {o : Except Stop α} {f : α → Except Stop β} (h : Spec bus NP s P st W Q o)
    (hf : ∀ a, W a → Ext bus P s (st a) (Q a) →
      Spec bus NP (st a) (After bus P s (Q a)) st2 W2 Q2 (f a)) :
    Spec bus NP s P st2 W2 Q2 (o >>= f) := by
  cases o with
  | error x =>
    cases x with
    | panic => exact h
    | fuel => trivial
    | error e => exact h
  | ok a =>
    show Spec bus NP s P st2 W2 Q2 (f a)
    have h2 := hf a h.2 h.1
    revert h2
    generalize f a = o2
    intro h2
    cases o2 with
    | error x =>
      cases x with
      | panic => exact h2
      | fuel => trivial
      | error e =>
        intro τ hg hp
        obtain ⟨τ1, a1, g1, q1⟩ := h.1.complete τ hg hp
        exact h2 τ1 g1 ⟨q1, τ, hp, hg, a1⟩
    | ok b => exact ⟨h.1.trans h2.1, h2.2⟩

theorem Spec.mono {o : Except Stop α} (h : Spec bus NP s P st W Q o)
    (hP : ∀ τ, Good bus τ s → P' τ → P τ)
    (hW : ∀ a, Ext bus P s (st a) (Q a) → W a → W' a)
    (hQ : ∀ a, W a → Ext bus P s (st a) (Q a) → ∀ τ', Good bus τ' (st a) →
      (∃ τ, P' τ ∧ Good bus τ s ∧ s.Agree τ' τ) → Q a τ' → Q' a τ') :
    Spec bus NP s P' st W' Q' o := by
  cases o with
  | error x =>
    cases x with
    | panic => exact h
    | fuel => trivial
    | error e => exact fun τ hg hp => h τ hg (hP τ hg hp)
  | ok a => exact ⟨h.1.mono hP (hQ a h.2 h.1), hW a h.1 h.2⟩

/-- First a pure change of the state. -/
theorem Spec.after {o : Except Stop α} {R : (SVar V → ZMod p) → Prop} (h : Ext bus P s s' R)
    (h2 : Spec bus NP s' (After bus P s R) st W Q o) : Spec bus NP s P st W Q o := by
  cases o with
  | error x =>
    cases x with
    | panic => exact h2
    | fuel => trivial
    | error e =>
      intro τ hg hp
      obtain ⟨τ1, a1, g1, q1⟩ := h.complete τ hg hp
      exact h2 τ1 g1 ⟨q1, τ, hp, hg, a1⟩
  | ok a => exact ⟨h.trans h2.1, h2.2⟩

end

theorem liftPanic_ok {α : Type} (a : α) : liftPanic (.ok a) = .ok a := rfl

theorem stop_bind {α β : Type} (a : α) (f : α → Except Stop β) :
    ((Except.ok a : Except Stop α) >>= f) = f a := rfl

theorem stop_pure {α : Type} (a : α) : (pure a : Except Stop α) = .ok a := rfl

/-! ### Simple changes of the state -/

theorem Inv.withCs (h : s.Inv) {cs : Queued p (SVar V)} (h1 : cs.Inv) (h2 : cs.ix.sys.WF)
    (h3 : ∀ v ∈ cs.ix.sys.vars, s.Below v) : Inv { s with cs := cs } where
  cs := h1
  wf := h2
  below := h3
  rcs := h.rcs
  linKey := h.linKey
  linValue := h.linValue
  ret := h.ret
  cache := h.cache

theorem Good.withCs {τ : SVar V → ZMod p} (h : Good bus τ s) {cs : Queued p (SVar V)}
    (h1 : cs.ix.sys.Satisfied bus τ) : Good bus τ { s with cs := cs } where
  sat := h1
  rcs := h.rcs
  lin := h.lin
  ret := h.ret
  cache := h.cache

theorem Inv.sameIx (h : s.Inv) {cs : Queued p (SVar V)} (h1 : cs.Inv) (h2 : cs.ix = s.cs.ix) :
    Inv { s with cs := cs } :=
  h.withCs h1 (by rw [h2]; exact h.wf) (by rw [h2]; exact h.below)

theorem Good.sameIx {τ : SVar V → ZMod p} (h : Good bus τ s) {cs : Queued p (SVar V)}
    (h2 : cs.ix = s.cs.ix) : Good bus τ { s with cs := cs } :=
  h.withCs (by rw [h2]; exact h.sat)

theorem Inv.clearCache (h : s.Inv) : Inv { s with cache := [] } where
  cs := h.cs
  wf := h.wf
  below := h.below
  rcs := h.rcs
  linKey := h.linKey
  linValue := h.linValue
  ret := h.ret
  cache := by simp

theorem Good.clearCache {τ : SVar V → ZMod p} (h : Good bus τ s) :
    Good bus τ { s with cache := [] } where
  sat := h.sat
  rcs := h.rcs
  lin := h.lin
  ret := h.ret
  cache := by simp

theorem ext_clearCache (h : s.Inv) {P : (SVar V → ZMod p) → Prop} :
    Ext bus P s { s with cache := [] } P :=
  .of_same h.clearCache rfl rfl (fun _ => le_rfl) fun _ hg hp => ⟨hg.clearCache, hp⟩

theorem variableUpdated_ok (h : s.Inv) (x : SVar V) :
    ∃ cs, variableUpdated x s = .ok { s with cs := cs } ∧ cs.ix = s.cs.ix ∧ cs.Inv := by
  obtain ⟨cs, h1, h2, h3, -⟩ := Queued.variableUpdated_ok h.cs x
  refine ⟨cs, ?_, h2, h3⟩
  unfold variableUpdated
  rw [h1, liftPanic_ok, stop_bind]
  rfl

/-- The state after a change of a range constraint. -/
def setRc (x : SVar V) (r : RangeConstraint p) (s : Solver p V) : Solver p V :=
  { s with rcs := Function.update s.rcs x ((s.rcs x).conjunction r) }

theorem updateRc_cases (x : SVar V) (r : RangeConstraint p) (s : Solver p V) :
    updateRc x r s = none ∨ updateRc x r s = some (setRc x r s) := by
  unfold updateRc setRc
  simp only
  split
  · exact Or.inr rfl
  · exact Or.inl rfl

theorem setRc_rcs (x : SVar V) (r : RangeConstraint p) (s : Solver p V) :
    (setRc x r s).rcs x = (s.rcs x).conjunction r := Function.update_self ..

theorem setRc_rcs_ne {x v : SVar V} (r : RangeConstraint p) (s : Solver p V) (h : v ≠ x) :
    (setRc x r s).rcs v = s.rcs v := Function.update_of_ne h ..

theorem Inv.setRc (h : s.Inv) {x : SVar V} (hx : s.Below x) (r : RangeConstraint p) :
    (setRc x r s).Inv where
  cs := h.cs
  wf := h.wf
  below := h.below
  rcs v hv := by
    rw [setRc_rcs_ne]
    · exact h.rcs v hv
    · rintro rfl; exact hv hx
  linKey := h.linKey
  linValue := h.linValue
  ret := h.ret
  cache := h.cache

theorem Good.setRc {τ : SVar V → ZMod p} (h : Good bus τ s) {x : SVar V} {r : RangeConstraint p}
    (hr : r.Allows (τ x)) : Good bus τ (setRc x r s) where
  sat := h.sat
  rcs v := by
    by_cases hv : v = x
    · subst hv
      rw [setRc_rcs]
      exact RangeConstraint.conjunction_allows (h.rcs v) hr
    · rw [setRc_rcs_ne _ _ hv]; exact h.rcs v
  lin := h.lin
  ret := h.ret
  cache := h.cache

theorem setRc_width (x : SVar V) (r : RangeConstraint p) (s : Solver p V) (v : SVar V) :
    ((setRc x r s).rcs v).width ≤ (s.rcs v).width := by
  by_cases hv : v = x
  · subst hv
    rw [setRc_rcs]
    exact RangeConstraint.conjunction_width _ _
  · rw [setRc_rcs_ne _ _ hv]

theorem ext_setRc (h : s.Inv) {x : SVar V} (hx : s.Below x) (r : RangeConstraint p) :
    Ext bus (fun τ => r.Allows (τ x)) s (setRc x r s) (fun τ => r.Allows (τ x)) :=
  .of_same (h.setRc hx r) rfl rfl (setRc_width x r s) fun _ hg hp => ⟨hg.setRc hp, hp⟩

/-! ### Boolean constraints -/

theorem boolMask_zero : (RangeConstraint.fromMask 1 : RangeConstraint p).Allows 0 := by
  rw [RangeConstraint.fromMask_allows]
  simp [InMask]

theorem boolMask_one : (RangeConstraint.fromMask 1 : RangeConstraint p).Allows 1 := by
  have : Fact (1 < p) := ⟨(Fact.out : p.Prime).one_lt⟩
  rw [RangeConstraint.fromMask_allows, ZMod.val_one]
  simp [InMask]

theorem bool_not_single {r : RangeConstraint p} (h : r = .unconstrained) :
    ((r.conjunction (.fromMask 1)).tryToSingleValue).isSome = false := by
  subst h
  cases hs : (RangeConstraint.conjunction .unconstrained
    (.fromMask 1) : RangeConstraint p).tryToSingleValue with
  | none => rfl
  | some v =>
    have h0 := (RangeConstraint.tryToSingleValue_eq_some hs 0).1
      (RangeConstraint.conjunction_allows (RangeConstraint.unconstrained_allows _) boolMask_zero)
    have h1 := (RangeConstraint.tryToSingleValue_eq_some hs 1).1
      (RangeConstraint.conjunction_allows (RangeConstraint.unconstrained_allows _) boolMask_one)
    exact absurd (h0.trans h1.symm) zero_ne_one

/-- The parts of the state that stay the same. -/
structure Frame (s s' : Solver p V) (l : List (SVar V)) : Prop where
  ret : s'.toReturn = s.toReturn
  bool : s'.nextBool = s.nextBool
  linear : s'.nextLin = s.nextLin
  rcs : ∀ v, v ∉ l → s'.rcs v = s.rcs v

theorem constrainBoolean_spec {NP : Prop} (hi : s.Inv) {z : SVar V} (hz : s.Below z)
    (hu : s.rcs z = .unconstrained) :
    Spec bus NP s (fun τ => τ z = 0 ∨ τ z = 1) id (fun s' => Frame s s' [z]) (fun _ _ => True)
      (constrainBoolean z s) := by
  have hic := hi.clearCache
  have hzc : ({ s with cache := [] } : Solver p V).Below z := hz
  unfold constrainBoolean
  rcases updateRc_cases z (.fromMask 1) ({ s with cache := [] } : Solver p V) with h | h
  · rw [h]
    exact ⟨(ext_clearCache hi).mono (fun _ _ h => h) fun _ _ _ _ => trivial,
      ⟨rfl, rfl, rfl, fun _ _ => rfl⟩⟩
  · rw [h]
    simp only
    rw [setRc_rcs, bool_not_single (show ({ s with cache := [] } : Solver p V).rcs z = _ from hu)]
    have hi2 := hic.setRc hzc (.fromMask 1)
    obtain ⟨cs, h1, h2, h3⟩ := variableUpdated_ok hi2 z
    simp only [Bool.false_eq_true, if_false]
    rw [h1]
    refine ⟨Ext.of_same (hi2.sameIx h3 h2) rfl rfl (setRc_width z _ ({ s with cache := [] } : Solver p V)) ?_,
      ⟨rfl, rfl, rfl, fun v hv => setRc_rcs_ne _ _ (by simpa using hv)⟩⟩
    intro τ hg hp
    refine ⟨(hg.clearCache.setRc ?_).sameIx h2, trivial⟩
    rcases hp with hp | hp
    · rw [hp]; exact boolMask_zero
    · rw [hp]; exact boolMask_one

theorem constrainBooleans_spec {NP : Prop} : ∀ {l : List (SVar V)} {s : Solver p V}, s.Inv →
    (∀ z ∈ l, s.Below z ∧ s.rcs z = .unconstrained) → l.Nodup →
    Spec bus NP s (fun τ => ∀ z ∈ l, τ z = 0 ∨ τ z = 1) id (fun s' => Frame s s' l)
      (fun _ _ => True) (constrainBooleans l s) := by
  intro l
  induction l with
  | nil =>
    intro s hi _ _
    exact ⟨.refl hi fun _ _ _ => trivial, ⟨rfl, rfl, rfl, fun _ _ => rfl⟩⟩
  | cons z t ih =>
    intro s hi hz hn
    obtain ⟨hz0, hu⟩ := hz z (by simp)
    rw [List.nodup_cons] at hn
    rw [constrainBooleans]
    refine Spec.bind ((constrainBoolean_spec hi hz0 hu).mono (P' := fun τ => ∀ y ∈ z :: t, τ y = 0 ∨ τ y = 1)
      (fun τ _ h => h z (by simp)) (fun _ _ h => h) (fun _ _ _ _ _ _ h => h)) ?_
    intro s1 hf hx
    have hf' : Frame s s1 [z] := hf
    refine (ih (s := s1) hx.inv (fun y hy => ?_) hn.2).mono ?_ ?_ ?_
    · obtain ⟨h1, h2⟩ := hz y (by simp [hy])
      refine ⟨hx.below h1, ?_⟩
      rw [hf'.rcs y ?_]
      · exact h2
      · intro h
        rw [List.mem_singleton] at h
        exact hn.1 (h ▸ hy)
    · rintro τ - ⟨-, τ0, hp, -, ha⟩ y hy
      rw [ha y (hz y (by simp [hy])).1]
      exact hp y (by simp [hy])
    · intro s2 _ h
      refine ⟨h.ret.trans hf'.ret, h.bool.trans hf'.bool, h.linear.trans hf'.linear, fun v hv => ?_⟩
      rw [List.mem_cons, not_or] at hv
      rw [h.rcs v hv.2, hf'.rcs v (by simpa using hv.1)]
    · exact fun _ _ _ _ _ _ h => h

/-- Dispensing more variables. -/
theorem Inv.dispense (h : s.Inv) (subs : BooleanSubs p (SVar V)) {n : ℕ} (hn : s.nextBool ≤ n) :
    Inv { s with boolSubs := subs, nextBool := n } := by
  have hm : ∀ v, s.Below v → ({ s with boolSubs := subs, nextBool := n } : Solver p V).Below v :=
    fun v hv => SVar.Below.mono hv hn le_rfl
  exact
  { cs := h.cs
    wf := h.wf
    below := fun v hv => hm v (h.below v hv)
    rcs := fun v hv => h.rcs v fun h' => hv (hm v h')
    linKey := fun x hx => ⟨(h.linKey x hx).1, fun v hv => hm v ((h.linKey x hx).2 v hv)⟩
    linValue := fun x hx => ⟨(h.linValue x hx).1, fun v hv => hm v ((h.linValue x hx).2.1 v hv),
      (h.linValue x hx).2.2⟩
    ret := fun x hx => ⟨hm _ (h.ret x hx).1, (h.ret x hx).2.1,
      fun v hv => hm v ((h.ret x hx).2.2.1 v hv), (h.ret x hx).2.2.2⟩
    cache := fun x hx => ⟨fun v hv => hm v ((h.cache x hx).1 v hv), fun e he =>
      ⟨((h.cache x hx).2 e he).1, fun v hv => hm v (((h.cache x hx).2 e he).2 v hv)⟩⟩ }

theorem Good.dispense {τ : SVar V → ZMod p} (h : Good bus τ s) (subs : BooleanSubs p (SVar V))
    (n : ℕ) : Good bus τ { s with boolSubs := subs, nextBool := n } where
  sat := h.sat
  rcs := h.rcs
  lin := h.lin
  ret := h.ret
  cache := h.cache

/-- What is true of the extraction from `e`. -/
structure Extracted (s s' : Solver p V) (o : Option (BooleanExtraction p (SVar V))) : Prop where
  ret : s'.toReturn = s.toReturn
  rcs : s'.rcs = s.rcs
  cs : s'.cs = s.cs
  wf : ∀ x, o = some x → WF x.constraint ∧ s'.BelowE x.constraint
  newVar : ∀ x, o = some x → ∀ z, x.newVar = some z → ¬ s.Below z ∧ s'.Below z

theorem extractBoolean_spec (hi : s.Inv) {e : GExpr p (SVar V)} (hw : WF e) (hb : s.BelowE e) :
    Extracted s (extractBoolean e s).2 (extractBoolean e s).1 ∧
    Ext bus (fun τ => eval τ e = 0) s (extractBoolean e s).2 (fun τ => ∀ x,
      (extractBoolean e s).1 = some x → eval τ x.constraint = 0 ∧
        ∀ z, x.newVar = some z → τ z = 0 ∨ τ z = 1) := by
  unfold extractBoolean
  cases ht : Verif.tryExtractBoolean s.boolSubs e (.boolean s.nextBool) with
  | none =>
    exact ⟨⟨rfl, rfl, rfl, by simp, by simp⟩, .refl hi fun _ _ _ => by simp⟩
  | some r =>
    obtain ⟨x, subs⟩ := r
    have hs := tryExtractBoolean_spec hw ht
    simp only
    have hzn : ¬ s.Below (.boolean s.nextBool) := fun h => lt_irrefl _ h
    have hze : (.boolean s.nextBool) ∉ vars e := fun h => hzn (hb _ h)
    rcases hs.newVar with hn | hn
    · rw [hn]
      simp only [Option.isSome_none, Bool.false_eq_true, if_false]
      refine ⟨⟨rfl, rfl, rfl, ?_, ?_⟩, .of_same (hi.dispense subs le_rfl) rfl rfl
        (fun _ => le_rfl) fun τ hg hp => ⟨hg.dispense subs _, ?_⟩⟩
      · intro y hy
        cases hy
        refine ⟨hs.wf, fun v hv => ?_⟩
        rcases hs.vars v hv with h | h
        · exact hb v h
        · rw [hn] at h; cases h
      · intro y hy z hz
        cases hy
        rw [hn] at hz; cases hz
      · intro y hy
        cases hy
        exact ⟨(hs.plain hn τ).1 hp, fun z hz => by rw [hn] at hz; cases hz⟩
    · rw [hn]
      simp only [Option.isSome_some, if_true]
      have hlt : s.nextBool ≤ s.nextBool + 1 := Nat.le_succ _
      have hnb : ({ s with boolSubs := subs, nextBool := s.nextBool + 1 } : Solver p V).Below
          (.boolean s.nextBool) := Nat.lt_succ_self s.nextBool
      refine ⟨⟨rfl, rfl, rfl, ?_, ?_⟩, ⟨hi.dispense subs hlt, hlt, le_rfl, fun _ => le_rfl, ?_⟩⟩
      · intro y hy
        cases hy
        refine ⟨hs.wf, fun v hv => ?_⟩
        rcases hs.vars v hv with h | h
        · exact SVar.Below.mono (hb v h) hlt le_rfl
        · rw [hn] at h; cases h; exact hnb
      · intro y hy z hz
        cases hy
        rw [hn] at hz
        cases hz
        exact ⟨hzn, hnb⟩
      · intro τ hg hp
        obtain ⟨b, hb01, hbe⟩ := (hs.boolean hn hze τ).1 hp
        have ha : s.Agree (Function.update τ (.boolean s.nextBool) b) τ := fun v hv =>
          Function.update_of_ne (by rintro rfl; exact hzn hv) _ _
        refine ⟨_, ha, (hg.congr hi ha).dispense subs _, ?_⟩
        intro y hy
        cases hy
        refine ⟨hbe, fun z hz => ?_⟩
        rw [hn] at hz
        cases hz
        rw [Function.update_self]
        exact hb01

theorem tryExtractBoolean_spec' {NP : Prop} (hi : s.Inv) {e : GExpr p (SVar V)} (hw : WF e)
    (hb : s.BelowE e) :
    Spec bus NP s (fun τ => eval τ e = 0) Prod.snd
      (fun r => r.2.toReturn = s.toReturn ∧ ∀ c, r.1 = some c → WF c ∧ r.2.BelowE c)
      (fun r τ => ∀ c, r.1 = some c → eval τ c = 0) (tryExtractBoolean e s) := by
  obtain ⟨hx, hext⟩ := extractBoolean_spec (bus := bus) hi hw hb
  unfold tryExtractBoolean
  refine Spec.after hext ?_
  have hmem : ∀ z ∈ ((extractBoolean e s).1.bind (·.newVar)).toList, ∃ x,
      (extractBoolean e s).1 = some x ∧ x.newVar = some z := by
    intro z hz
    rw [Option.mem_toList, Option.bind_eq_some_iff] at hz
    exact hz
  refine Spec.bind ((constrainBooleans_spec (bus := bus) (NP := NP)
    (l := ((extractBoolean e s).1.bind (·.newVar)).toList) hext.inv ?_ ?_).mono ?_
    (fun _ _ h => h) (fun _ _ _ _ _ _ h => h)) ?_
  · intro z hz
    obtain ⟨x, h1, h2⟩ := hmem z hz
    obtain ⟨h3, h4⟩ := hx.newVar x h1 z h2
    refine ⟨h4, ?_⟩
    rw [hx.rcs]
    exact hi.rcs z h3
  · cases (extractBoolean e s).1.bind (·.newVar) <;> simp
  · rintro τ - ⟨hq, -⟩ z hz
    obtain ⟨x, h1, h2⟩ := hmem z hz
    exact (hq x h1).2 z h2
  · intro s1 hf he1
    refine ⟨.refl he1.inv ?_, ?_, ?_⟩
    · rintro τ hg ⟨-, τ1, ⟨hq, -⟩, hg1, ha1⟩ c hc
      obtain ⟨x, h1, rfl⟩ := Option.map_eq_some_iff.1 hc
      rw [ha1.eval (hx.wf x h1).2]
      exact (hq x h1).1
    · exact hf.ret.trans hx.ret
    · intro c hc
      obtain ⟨x, h1, rfl⟩ := Option.map_eq_some_iff.1 hc
      exact ⟨(hx.wf x h1).1, he1.belowE (hx.wf x h1).2⟩

theorem extractAll_spec {NP : Prop} : ∀ {es : List (GExpr p (SVar V))} {s : Solver p V}, s.Inv →
    (∀ e ∈ es, WF e ∧ s.BelowE e) →
    Spec bus NP s (fun τ => ∀ e ∈ es, eval τ e = 0) Prod.snd
      (fun r => r.2.toReturn = s.toReturn ∧ ∀ c ∈ r.1, WF c ∧ r.2.BelowE c)
      (fun r τ => ∀ c ∈ r.1, eval τ c = 0) (extractAll es s) := by
  intro es
  induction es with
  | nil => intro s hi _; exact ⟨.refl hi fun _ _ _ => by simp, rfl, by simp⟩
  | cons e t ih =>
    intro s hi hw
    obtain ⟨hwe, hbe⟩ := hw e (by simp)
    rw [extractAll]
    refine Spec.bind ((tryExtractBoolean_spec' hi hwe hbe).mono
      (P' := fun τ => ∀ c ∈ e :: t, eval τ c = 0) (fun τ _ h => h e (by simp)) (fun _ _ h => h)
      (fun _ _ _ _ _ _ h => h)) ?_
    rintro r ⟨hr1, hr2⟩ hx
    refine Spec.bind ((ih hx.inv (fun c hc => ⟨(hw c (by simp [hc])).1,
      hx.belowE (hw c (by simp [hc])).2⟩)).mono
      (P' := After bus (fun τ => ∀ c ∈ e :: t, eval τ c = 0) s (fun τ => ∀ c, r.1 = some c →
        eval τ c = 0)) ?_ (fun _ _ h => h) (fun _ _ _ _ _ _ h => h)) ?_
    · rintro τ - ⟨-, τ0, hp, -, ha⟩ c hc
      rw [ha.eval (hw c (by simp [hc])).2]
      exact hp c (by simp [hc])
    · rintro rs ⟨hrs1, hrs2⟩ hx2
      refine ⟨.refl hx2.inv ?_, hrs1.trans hr1, ?_⟩
      · rintro τ hg ⟨hq2, τ1, ⟨hq1, τ0, hp, -, ha0⟩, hg1, ha1⟩ c hc
        rcases List.mem_append.1 hc with hc | hc
        · rw [Option.mem_toList] at hc
          rw [ha1.eval (hr2 c hc).2]
          exact hq1 c hc
        · rcases List.mem_cons.1 hc with rfl | hc
          · rw [ha1.eval (hx.belowE hbe), ha0.eval hbe]
            exact hp c (by simp)
          · exact hq2 c hc
      · intro c hc
        rcases List.mem_append.1 hc with hc | hc
        · rw [Option.mem_toList] at hc
          exact ⟨(hr2 c hc).1, hx2.belowE (hr2 c hc).2⟩
        · rcases List.mem_cons.1 hc with rfl | hc
          · exact ⟨hwe, hx2.belowE (hx.belowE hbe)⟩
          · exact hrs2 c hc

/-! ### Linearization -/

/-- The state of the linearizer. -/
def linState (s : Solver p V) (l : List (GExpr p (SVar V))) : LinState p (SVar V) :=
  ⟨s.linSubs, s.nextLin, l⟩

theorem linState_inv (hi : s.Inv) {l : List (GExpr p (SVar V))}
    (hl : ∀ e ∈ l, WF e ∧ s.BelowE e) :
    (linState s l).Inv fun n v => v.Below s.nextBool n :=
  ⟨hi.linKey, hi.linValue, hl⟩

/-- The state after linearization. -/
def setLin (s : Solver p V) (st : LinState p (SVar V)) : Solver p V :=
  { s with linSubs := st.subs, nextLin := st.next }

theorem setLin_below (s : Solver p V) (st : LinState p (SVar V)) (v : SVar V) :
    (setLin s st).Below v ↔ v.Below s.nextBool st.next := Iff.rfl

theorem ext_setLin (hi : s.Inv) {l : List (GExpr p (SVar V))} {st : LinState p (SVar V)}
    (h : LinExt SVar.linearized (fun n v => v.Below s.nextBool n) (linState s l) st) :
    Ext bus (fun τ => ∀ e ∈ l, eval τ e = 0) s (setLin s st) (fun τ => st.Holds τ) := by
  have hm : ∀ v, s.Below v → (setLin s st).Below v := fun v hv => SVar.Below.mono hv le_rfl h.le
  refine ⟨?_, le_rfl, h.le, fun _ => le_rfl, ?_⟩
  · exact
    { cs := hi.cs
      wf := hi.wf
      below := fun v hv => hm v (hi.below v hv)
      rcs := fun v hv => hi.rcs v fun h' => hv (hm v h')
      linKey := h.inv.key
      linValue := h.inv.value
      ret := fun x hx => ⟨hm _ (hi.ret x hx).1, (hi.ret x hx).2.1,
        fun v hv => hm v ((hi.ret x hx).2.2.1 v hv), (hi.ret x hx).2.2.2⟩
      cache := fun x hx => ⟨fun v hv => hm v ((hi.cache x hx).1 v hv), fun e he =>
        ⟨((hi.cache x hx).2 e he).1, fun v hv => hm v (((hi.cache x hx).2 e he).2 v hv)⟩⟩ }
  · intro τ hg hp
    obtain ⟨τ', h1, h2⟩ := h.complete τ ⟨hp, hg.lin⟩
    have ha : s.Agree τ' τ := by
      intro v hv
      refine h1 v fun m hm _ => ?_
      rintro rfl
      exact absurd (show m < s.nextLin from hv) (not_lt.2 hm)
    have hg' := hg.congr hi ha
    exact ⟨τ', ha, ⟨hg'.sat, hg'.rcs, h2.2, hg'.ret, hg'.cache⟩, h2⟩

theorem linearizeConstraint_spec (hi : s.Inv) {e : GExpr p (SVar V)} (hw : WF e) (hb : s.BelowE e) :
    Ext bus (fun τ => eval τ e = 0) s (linearizeConstraint e s).2
      (fun τ => ∀ c ∈ (linearizeConstraint e s).1, eval τ c = 0) ∧
    (∀ c ∈ (linearizeConstraint e s).1, WF c ∧ (linearizeConstraint e s).2.BelowE c) ∧
    (linearizeConstraint e s).2.toReturn = s.toReturn := by
  unfold linearizeConstraint
  split
  · refine ⟨.refl hi fun τ _ h => ?_, ?_, rfl⟩
    · simpa using h
    · simpa using ⟨hw, hb⟩
  · have hle : ∀ c ∈ [e], WF c ∧ s.BelowE c := by simpa using ⟨hw, hb⟩
    obtain ⟨h1, h2⟩ := linearizeExpression_spec (dispenses_linearized s.nextBool) e
      (st := linState s [e]) (linState_inv hi hle) hw hb
    refine ⟨(ext_setLin (bus := bus) hi h1).mono ?_ ?_, ?_, rfl⟩
    · intro τ _ h; simpa using h
    · intro τ _ _ hh c hc
      rcases List.mem_append.1 hc with hc | hc
      · exact hh.1 c hc
      · rw [List.mem_singleton] at hc
        subst hc
        rw [show linearizeExpression SVar.linearized e ⟨s.linSubs, s.nextLin, [e]⟩ =
          linearizeExpression SVar.linearized e (linState s [e]) from rfl, h2.sound τ hh]
        obtain ⟨new, hn⟩ := h1.constraints
        exact hh.1 e (by rw [hn]; simp [linState])
    · intro c hc
      rcases List.mem_append.1 hc with hc | hc
      · exact h1.inv.constraint c hc
      · rw [List.mem_singleton] at hc
        subst hc
        exact ⟨h2.wf, h2.below⟩

theorem linearizeConstraints_spec : ∀ {es : List (GExpr p (SVar V))} {s : Solver p V}, s.Inv →
    (∀ e ∈ es, WF e ∧ s.BelowE e) →
    Ext bus (fun τ => ∀ e ∈ es, eval τ e = 0) s (linearizeConstraints es s).2
      (fun τ => ∀ c ∈ (linearizeConstraints es s).1, eval τ c = 0) ∧
    (∀ c ∈ (linearizeConstraints es s).1, WF c ∧ (linearizeConstraints es s).2.BelowE c) ∧
    (linearizeConstraints es s).2.toReturn = s.toReturn := by
  intro es
  induction es with
  | nil => intro s hi _; exact ⟨.refl hi fun _ _ _ => by simp [linearizeConstraints], by simp [linearizeConstraints], rfl⟩
  | cons e t ih =>
    intro s hi hw
    obtain ⟨hwe, hbe⟩ := hw e (by simp)
    rw [linearizeConstraints]
    simp only
    obtain ⟨h1, h2, h3⟩ := linearizeConstraint_spec (bus := bus) hi hwe hbe
    obtain ⟨h4, h5, h6⟩ := ih h1.inv (fun c hc => ⟨(hw c (by simp [hc])).1,
      h1.belowE (hw c (by simp [hc])).2⟩)
    refine ⟨Ext.trans (h1.mono (P' := fun τ => ∀ c ∈ e :: t, eval τ c = 0)
      (fun τ _ h => h e (by simp)) (fun _ _ _ h => h)) (h4.mono ?_ ?_), ?_, h6.trans h3⟩
    · rintro τ - ⟨-, τ0, hp, -, ha⟩ c hc
      rw [ha.eval (hw c (by simp [hc])).2]
      exact hp c (by simp [hc])
    · rintro τ' hg ⟨τ1, ⟨hq1, -⟩, hg1, ha1⟩ hq2 c hc
      rcases List.mem_append.1 hc with hc | hc
      · rw [ha1.eval (h2 c hc).2]
        exact hq1 c hc
      · exact hq2 c hc
    · intro c hc
      rcases List.mem_append.1 hc with hc | hc
      · exact ⟨(h2 c hc).1, h4.belowE (h2 c hc).2⟩
      · exact h5 c hc

/-- Adding constraints to the system. -/
theorem cs_addAlgebraic (hi : s.Inv) {l : List (GExpr p (SVar V))}
    (hl : ∀ e ∈ l, WF e ∧ s.BelowE e) : ∃ cs, s.cs.addAlgebraic l = .ok cs ∧
    Ext bus (fun τ => ∀ e ∈ l, eval τ e = 0) s { s with cs := cs } (fun _ => True) := by
  obtain ⟨cs, h1, h2, h3, -⟩ := Queued.addAlgebraic_ok hi.cs l
  have hsys : cs.ix.sys = ⟨s.cs.ix.sys.algebraic ++ l, s.cs.ix.sys.bus ++ [],
    s.cs.ix.sys.derived ++ []⟩ := by rw [h2]; rfl
  refine ⟨cs, h1, .of_same (hi.withCs h3 ?_ ?_) rfl rfl (fun _ => le_rfl) ?_⟩
  · rw [hsys]
    refine ⟨fun e he => ?_, fun b hb => hi.wf.2 b (by simpa using hb)⟩
    rcases List.mem_append.1 he with he | he
    · exact hi.wf.1 e he
    · exact (hl e he).1
  · intro v hv
    rw [hsys, mem_sys_vars] at hv
    rcases hv with ⟨e, he, hv⟩ | ⟨b, hb, e, he, hv⟩
    · rcases List.mem_append.1 he with he | he
      · exact hi.algBelow he v hv
      · exact (hl e he).2 v hv
    · exact hi.busBelow (by simpa using hb) he v hv
  · intro τ hg hp
    refine ⟨hg.withCs ?_, trivial⟩
    rw [hsys]
    refine ⟨fun e he => ?_, fun b hb => hg.sat.bus b (by simpa using hb)⟩
    rcases List.mem_append.1 he with he | he
    · exact hg.sat.algebraic e he
    · exact hp e he

theorem cs_addBus (hi : s.Inv) {l : List (BusInteraction (GExpr p (SVar V)))}
    (hl : ∀ b ∈ l, ∀ e ∈ b.fields, WF e ∧ s.BelowE e) : ∃ cs, s.cs.addBus l = .ok cs ∧
    Ext bus (fun τ => ∀ b ∈ l, bus (b.evalAt τ)) s { s with cs := cs } (fun _ => True) := by
  obtain ⟨cs, h1, h2, h3, -⟩ := Queued.addBus_ok hi.cs l
  have hsys : cs.ix.sys = ⟨s.cs.ix.sys.algebraic ++ [], s.cs.ix.sys.bus ++ l,
    s.cs.ix.sys.derived ++ []⟩ := by rw [h2]; rfl
  refine ⟨cs, h1, .of_same (hi.withCs h3 ?_ ?_) rfl rfl (fun _ => le_rfl) ?_⟩
  · rw [hsys]
    refine ⟨fun e he => hi.wf.1 e (by simpa using he), fun b hb => ?_⟩
    rcases List.mem_append.1 hb with hb | hb
    · exact hi.wf.2 b hb
    · exact fun e he => (hl b hb e he).1
  · intro v hv
    rw [hsys, mem_sys_vars] at hv
    rcases hv with ⟨e, he, hv⟩ | ⟨b, hb, e, he, hv⟩
    · exact hi.algBelow (by simpa using he) v hv
    · rcases List.mem_append.1 hb with hb | hb
      · exact hi.busBelow hb he v hv
      · exact (hl b hb e he).2 v hv
  · intro τ hg hp
    refine ⟨hg.withCs ?_, trivial⟩
    rw [hsys]
    refine ⟨fun e he => hg.sat.algebraic e (by simpa using he), fun b hb => ?_⟩
    rcases List.mem_append.1 hb with hb | hb
    · exact hg.sat.bus b hb
    · exact hp b hb

theorem addAlgebraic_spec {NP : Prop} (hi : s.Inv) {es : List (GExpr p (SVar V))}
    (hw : ∀ e ∈ es, WF e ∧ s.BelowE e) :
    Spec bus NP s (fun τ => ∀ e ∈ es, eval τ e = 0) id (fun s' => s'.toReturn = s.toReturn)
      (fun _ _ => True) (addAlgebraic es s) := by
  unfold addAlgebraic
  refine Spec.after (ext_clearCache hi) ?_
  refine Spec.bind ((extractAll_spec (bus := bus) (NP := NP) (s := { s with cache := [] })
    (es := es.filter fun e => !e.isZero) hi.clearCache
    (fun e he => hw e (List.mem_filter.1 he).1)).mono ?_ (fun _ _ h => h)
    (fun _ _ _ _ _ _ h => h)) ?_
  · rintro τ - ⟨hq, -⟩ e he
    exact hq e (List.mem_filter.1 he).1
  · rintro r ⟨hr1, hr2⟩ hx
    simp only
    obtain ⟨h1, h2, h3⟩ := linearizeConstraints_spec (bus := bus) hx.inv hr2
    refine Spec.after (h1.mono (Q' := fun τ => ∀ c ∈ (linearizeConstraints r.1 r.2).1,
      eval τ c = 0) (fun τ _ h => h.1) (fun _ _ _ h => h)) ?_
    obtain ⟨cs, h4, h5⟩ := cs_addAlgebraic (bus := bus) h1.inv
      (l := (linearizeConstraints r.1 r.2).1.filter fun e => !e.isZero)
      (fun e he => h2 e (List.mem_filter.1 he).1)
    rw [h4, liftPanic_ok, stop_bind, stop_pure]
    refine ⟨h5.mono ?_ (fun _ _ _ h => h), h3.trans hr1⟩
    rintro τ - ⟨hq, -⟩ e he
    exact hq e (List.mem_filter.1 he).1

end Solver

end Verif
