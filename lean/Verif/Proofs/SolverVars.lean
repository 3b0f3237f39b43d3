import Verif.Proofs.SolverOps
import Verif.Proofs.FreeVariables

/-! Helper lemmas about the solver: which variables it works with, and the shape of the
assignments it finds. -/

set_option linter.unusedSectionVars false

namespace Verif

open GExpr

variable {p : ℕ} {V : Type} [Fact p.Prime] [LinearOrder V]

namespace Solver

variable {bus : Bus p} {s s' s'' : Solver p V} {Q : SVar V → Prop}

theorem Spec.of_ok {NP : Prop} {α : Type} {P : (SVar V → ZMod p) → Prop} {st : α → Solver p V}
    {W : α → Prop} {R : α → (SVar V → ZMod p) → Prop} {o : Except Stop α}
    (h : Spec bus NP s P st W R o) {a : α} (ho : o = .ok a) :
    Ext bus P s (st a) (R a) ∧ W a := by
  subst ho
  exact h

/-- All variables of the expression satisfy `Q`. -/
def InScope (Q : SVar V → Prop) (e : GExpr p (SVar V)) : Prop := ∀ v ∈ vars e, Q v

/-- The solver works with variables in `Q` only, and the assignments to be returned are
numbers or variables. -/
structure Scoped (Q : SVar V → Prop) (s : Solver p V) : Prop where
  inv : s.Inv
  sys : ∀ v ∈ s.cs.ix.sys.vars, Q v
  lin : ∀ x ∈ s.linSubs, InScope Q x.1 ∧ InScope Q x.2
  ret : ∀ x ∈ s.toReturn, Q x.1 ∧ ((∃ k, x.2 = const k) ∨ ∃ u, Q u ∧ u ≠ x.1 ∧ x.2 = var u)

/-- Nothing relevant has changed. -/
structure SameScope (s s' : Solver p V) : Prop where
  ix : s'.cs.ix = s.cs.ix
  lin : s'.linSubs = s.linSubs
  ret : s'.toReturn = s.toReturn
  cs : s'.cs.Inv

theorem SameScope.refl (h : s.cs.Inv) : SameScope s s := ⟨rfl, rfl, rfl, h⟩

theorem SameScope.trans (h : SameScope s s') (h' : SameScope s' s'') : SameScope s s'' :=
  ⟨h'.ix.trans h.ix, h'.lin.trans h.lin, h'.ret.trans h.ret, h'.cs⟩

theorem Scoped.same (h : Scoped Q s) (hi : s'.Inv) (hs : SameScope s s') : Scoped Q s' where
  inv := hi
  sys := by rw [hs.ix]; exact h.sys
  lin := by rw [hs.lin]; exact h.lin
  ret := by rw [hs.ret]; exact h.ret

theorem Scoped.alg (h : Scoped Q s) {e : GExpr p (SVar V)} (he : e ∈ s.cs.ix.sys.algebraic) :
    InScope Q e := fun v hv => h.sys v (mem_sys_vars.2 (Or.inl ⟨e, he, hv⟩))

theorem Scoped.busIn (h : Scoped Q s) {b : BusInteraction (GExpr p (SVar V))}
    (hb : b ∈ s.cs.ix.sys.bus) {e : GExpr p (SVar V)} (he : e ∈ b.fields) :
    InScope Q e := fun v hv => h.sys v (mem_sys_vars.2 (Or.inr ⟨b, hb, e, he, hv⟩))

theorem Scoped.clearCache (h : Scoped Q s) : Scoped Q { s with cache := [] } :=
  h.same h.inv.clearCache ⟨rfl, rfl, rfl, h.inv.cs⟩

theorem variableUpdated_scopeSame (h : s.cs.Inv) {x : SVar V} (ho : variableUpdated x s = .ok s') :
    SameScope s s' := by
  unfold variableUpdated at ho
  rw [Except.bind_ok_iff] at ho
  obtain ⟨cs, h1, ho⟩ := ho
  rw [liftPanic_ok_iff] at h1
  obtain ⟨cs', h2, h3, h4, -⟩ := Queued.variableUpdated_ok h x
  rw [h1] at h2
  cases h2
  cases ho
  exact ⟨h3, rfl, rfl, h4⟩

theorem constrainBoolean_scopeSame (h : s.cs.Inv) {z : SVar V} (ho : constrainBoolean z s = .ok s') :
    SameScope s s' := by
  unfold constrainBoolean at ho
  rcases updateRc_cases z (.fromMask 1) { s with cache := [] } with h1 | h1
  · rw [h1] at ho
    cases ho
    exact ⟨rfl, rfl, rfl, h⟩
  · rw [h1] at ho
    simp only at ho
    split at ho
    · cases ho
    · have h2 := variableUpdated_scopeSame (s := setRc z (.fromMask 1) { s with cache := [] }) h ho
      exact ⟨h2.ix, h2.lin, h2.ret, h2.cs⟩

theorem constrainBooleans_scopeSame : ∀ {l : List (SVar V)} {s s' : Solver p V}, s.cs.Inv →
    constrainBooleans l s = .ok s' → SameScope s s' := by
  intro l
  induction l with
  | nil => intro s s' h ho; cases ho; exact .refl h
  | cons z t ih =>
    intro s s' h ho
    rw [constrainBooleans, Except.bind_ok_iff] at ho
    obtain ⟨s1, h1, ho⟩ := ho
    have h2 := constrainBoolean_scopeSame h h1
    exact h2.trans (ih h2.cs ho)

theorem extractBoolean_scoped (hb : ∀ n, Q (.boolean n)) (hi : s.cs.Inv) {e : GExpr p (SVar V)}
    (hw : WF e) (hq : InScope Q e) : SameScope s (extractBoolean e s).2 ∧
    ∀ x, (extractBoolean e s).1 = some x → InScope Q x.constraint := by
  unfold extractBoolean
  cases ht : Verif.tryExtractBoolean s.boolSubs e (.boolean s.nextBool) with
  | none => exact ⟨.refl hi, by simp⟩
  | some y =>
    obtain ⟨x, subs⟩ := y
    have hs := Verif.tryExtractBoolean_spec hw ht
    refine ⟨⟨rfl, rfl, rfl, hi⟩, ?_⟩
    intro x' hx'
    cases hx'
    intro v hv
    rcases hs.vars v hv with h | h
    · exact hq v h
    · rcases hs.newVar with h' | h'
      · rw [h'] at h; cases h
      · rw [h'] at h; cases h; exact hb _

theorem extractAll_scoped (hb : ∀ n, Q (.boolean n)) : ∀ {es : List (GExpr p (SVar V))}
    {s : Solver p V} {r : List (GExpr p (SVar V)) × Solver p V}, s.cs.Inv →
    (∀ e ∈ es, WF e ∧ InScope Q e) → extractAll es s = .ok r →
    SameScope s r.2 ∧ ∀ c ∈ r.1, InScope Q c := by
  intro es
  induction es with
  | nil => intro s r hi _ ho; cases ho; exact ⟨.refl hi, by simp⟩
  | cons e t ih =>
    intro s r hi hw ho
    rw [extractAll, Except.bind_ok_iff] at ho
    obtain ⟨r1, h1, ho⟩ := ho
    rw [Except.bind_ok_iff] at ho
    obtain ⟨r2, h2, ho⟩ := ho
    cases ho
    unfold tryExtractBoolean at h1
    rw [Except.bind_ok_iff] at h1
    obtain ⟨s1, h3, h1⟩ := h1
    cases h1
    obtain ⟨h4, h5⟩ := extractBoolean_scoped hb hi (hw e (by simp)).1 (hw e (by simp)).2
    have h6 := h4.trans (constrainBooleans_scopeSame h4.cs h3)
    obtain ⟨h7, h8⟩ := ih h6.cs (fun e' he' => hw e' (by simp [he'])) h2
    refine ⟨h6.trans h7, fun c hc => ?_⟩
    rcases List.mem_append.1 hc with hc | hc
    · rw [Option.mem_toList] at hc
      obtain ⟨x, hx, rfl⟩ := Option.map_eq_some_iff.1 hc
      exact h5 x hx
    · rcases List.mem_cons.1 hc with rfl | hc
      · exact (hw c (by simp)).2
      · exact h8 c hc

theorem extractRefs_scoped (hb : ∀ n, Q (.boolean n)) : ∀ {es : List (GExpr p (SVar V))}
    {s : Solver p V}, s.cs.Inv → (∀ e ∈ es, WF e ∧ InScope Q e) →
    SameScope s (extractRefs es s).2.2 ∧ ∀ c ∈ (extractRefs es s).1, InScope Q c := by
  intro es
  induction es with
  | nil => intro s hi _; exact ⟨.refl hi, by simp [extractRefs]⟩
  | cons e t ih =>
    intro s hi hw
    rw [extractRefs]
    obtain ⟨h4, h5⟩ := extractBoolean_scoped hb hi (hw e (by simp)).1 (hw e (by simp)).2
    obtain ⟨h7, h8⟩ := ih h4.cs (fun e' he' => hw e' (by simp [he']))
    refine ⟨h4.trans h7, fun c hc => ?_⟩
    rcases List.mem_append.1 hc with hc | hc
    · rw [Option.mem_toList] at hc
      obtain ⟨x, hx, rfl⟩ := Option.map_eq_some_iff.1 hc
      exact h5 x hx
    · exact h8 c hc

theorem dispenses_scoped (hl : ∀ n, Q (.linearized n)) (nb : ℕ) :
    Dispenses (SVar.linearized : ℕ → SVar V) (fun n v => v.Below nb n ∧ Q v) where
  mono n n' v hn h := ⟨(dispenses_linearized nb).mono n n' v hn h.1, h.2⟩
  succ n := ⟨(dispenses_linearized nb).succ n, hl n⟩
  ne n v h := (dispenses_linearized nb).ne n v h.1

theorem linState_scoped (h : Scoped Q s) {l : List (GExpr p (SVar V))}
    (hw : ∀ e ∈ l, WF e ∧ s.BelowE e ∧ InScope Q e) :
    (linState s l).Inv fun n v => v.Below s.nextBool n ∧ Q v where
  key x hx := ⟨(h.inv.linKey x hx).1, fun v hv => ⟨(h.inv.linKey x hx).2 v hv, (h.lin x hx).1 v hv⟩⟩
  value x hx := ⟨(h.inv.linValue x hx).1,
    fun v hv => ⟨(h.inv.linValue x hx).2.1 v hv, (h.lin x hx).2 v hv⟩, (h.inv.linValue x hx).2.2⟩
  constraint c hc := ⟨(hw c hc).1, fun v hv => ⟨(hw c hc).2.1 v hv, (hw c hc).2.2 v hv⟩⟩

theorem linearizeConstraint_scoped (hl : ∀ n, Q (.linearized n)) (h : Scoped Q s)
    {e : GExpr p (SVar V)} (hw : WF e) (hb : s.BelowE e) (hq : InScope Q e) :
    Scoped Q (linearizeConstraint e s).2 ∧ ∀ c ∈ (linearizeConstraint e s).1, InScope Q c := by
  have hi := (linearizeConstraint_spec (bus := fun _ => True) h.inv hw hb).1.inv
  revert hi
  unfold linearizeConstraint
  split
  · intro _
    refine ⟨h, fun c hc => ?_⟩
    rw [List.mem_singleton] at hc
    subst hc
    exact hq
  · intro hi
    obtain ⟨h1, h2⟩ := linearizeExpression_spec (dispenses_scoped hl s.nextBool) e
      (st := linState s [e]) (linState_scoped h (by
        intro c hc
        rw [List.mem_singleton] at hc
        subst hc
        exact ⟨hw, hb, hq⟩)) hw (fun v hv => ⟨hb v hv, hq v hv⟩)
    refine ⟨⟨hi, h.sys, fun x hx => ⟨fun v hv => ((h1.inv.key x hx).2 v hv).2,
      fun v hv => ((h1.inv.value x hx).2.1 v hv).2⟩, h.ret⟩, fun c hc => ?_⟩
    rcases List.mem_append.1 hc with hc | hc
    · exact fun v hv => ((h1.inv.constraint c hc).2 v hv).2
    · rw [List.mem_singleton] at hc
      subst hc
      exact fun v hv => (h2.below v hv).2

theorem linearizeConstraints_scoped (hl : ∀ n, Q (.linearized n)) :
    ∀ {es : List (GExpr p (SVar V))} {s : Solver p V}, Scoped Q s →
    (∀ e ∈ es, WF e ∧ s.BelowE e ∧ InScope Q e) →
    Scoped Q (linearizeConstraints es s).2 ∧
      ∀ c ∈ (linearizeConstraints es s).1, InScope Q c := by
  intro es
  induction es with
  | nil => intro s h _; exact ⟨h, by simp [linearizeConstraints]⟩
  | cons e t ih =>
    intro s h hw
    obtain ⟨w, b, q⟩ := hw e (by simp)
    rw [linearizeConstraints]
    obtain ⟨h1, h2⟩ := linearizeConstraint_scoped hl h w b q
    have hx := (linearizeConstraint_spec (bus := fun _ => True) h.inv w b).1
    obtain ⟨h3, h4⟩ := ih h1 fun c hc =>
      ⟨(hw c (by simp [hc])).1, hx.belowE (hw c (by simp [hc])).2.1, (hw c (by simp [hc])).2.2⟩
    refine ⟨h3, fun c hc => ?_⟩
    rcases List.mem_append.1 hc with hc | hc
    · exact h2 c hc
    · exact h4 c hc

theorem addAlgebraic_scoped (hb : ∀ n, Q (.boolean n)) (hl : ∀ n, Q (.linearized n))
    (h : Scoped Q s) {es : List (GExpr p (SVar V))}
    (hw : ∀ e ∈ es, WF e ∧ s.BelowE e ∧ InScope Q e) (ho : addAlgebraic es s = .ok s') :
    Scoped Q s' := by
  have hi := (addAlgebraic_spec (bus := fun _ => True) (NP := False) h.inv
    fun e he => ⟨(hw e he).1, (hw e he).2.1⟩).of_ok ho |>.1.inv
  unfold addAlgebraic at ho
  rw [Except.bind_ok_iff] at ho
  obtain ⟨r, h1, ho⟩ := ho
  rw [Except.bind_ok_iff] at ho
  obtain ⟨cs, h2, ho⟩ := ho
  rw [liftPanic_ok_iff] at h2
  cases ho
  have hf : ∀ e ∈ es.filter (fun e => !e.isZero), e ∈ es := fun e he => (List.mem_filter.1 he).1
  obtain ⟨h3, h4⟩ := extractAll_scoped hb (s := { s with cache := [] }) h.inv.cs
    (fun e he => ⟨(hw e (hf e he)).1, (hw e (hf e he)).2.2⟩) h1
  obtain ⟨h5, h6⟩ := (extractAll_spec (bus := fun _ => True) (NP := False)
    (s := { s with cache := [] }) h.inv.clearCache
    (fun e he => ⟨(hw e (hf e he)).1, (hw e (hf e he)).2.1⟩)).of_ok h1
  obtain ⟨h7, h8⟩ := linearizeConstraints_scoped hl (h.clearCache.same h5.inv h3)
    (fun c hc => ⟨(h6.2 c hc).1, (h6.2 c hc).2, h4 c hc⟩)
  obtain ⟨cs', h9, h10, -⟩ := Queued.addAlgebraic_ok h7.inv.cs
    ((linearizeConstraints r.1 r.2).1.filter fun e => !e.isZero)
  rw [h2] at h9
  cases h9
  refine ⟨hi, ?_, h7.lin, h7.ret⟩
  have hsys : cs.ix.sys = ⟨(linearizeConstraints r.1 r.2).2.cs.ix.sys.algebraic ++
    ((linearizeConstraints r.1 r.2).1.filter fun e => !e.isZero),
    (linearizeConstraints r.1 r.2).2.cs.ix.sys.bus ++ [],
    (linearizeConstraints r.1 r.2).2.cs.ix.sys.derived ++ []⟩ := by rw [h10]; rfl
  intro v hv
  change v ∈ cs.ix.sys.vars at hv
  rw [hsys, mem_sys_vars] at hv
  rcases hv with ⟨e, he, hv⟩ | ⟨b, hb', e, he, hv⟩
  · rcases List.mem_append.1 he with he | he
    · exact h7.alg he v hv
    · exact h8 e (List.mem_filter.1 he).1 v hv
  · exact h7.busIn (by simpa using hb') he v hv

theorem addBus_scoped (hb : ∀ n, Q (.boolean n)) (hl : ∀ n, Q (.linearized n))
    (h : Scoped Q s) {bs : List (BusInteraction (GExpr p (SVar V)))}
    (hw : ∀ b ∈ bs, ∀ e ∈ b.fields, WF e ∧ s.BelowE e ∧ InScope Q e)
    (ho : addBus bs s = .ok s') : Scoped Q s' := by
  have hi := (addBus_spec (bus := fun _ => True) (NP := False) h.inv
    fun b hb e he => ⟨(hw b hb e he).1, (hw b hb e he).2.1⟩).of_ok ho |>.1.inv
  unfold addBus at ho
  rw [Except.bind_ok_iff] at ho
  obtain ⟨s1, h1, ho⟩ := ho
  rw [Except.bind_ok_iff] at ho
  obtain ⟨cs, h2, ho⟩ := ho
  rw [liftPanic_ok_iff] at h2
  cases ho
  obtain ⟨h3, h4, -⟩ := linearizeBuses_spec (dispenses_scoped hl s.nextBool) (bs := bs)
    (st := linState s []) (linState_scoped h (by simp)) fun b hb e he =>
      ⟨(hw b hb e he).1, fun v hv => ⟨(hw b hb e he).2.1 v hv, (hw b hb e he).2.2 v hv⟩⟩
  obtain ⟨h3', -, -⟩ := linearizeBuses_spec (dispenses_linearized s.nextBool) (bs := bs)
    (st := linState s []) (linState_inv h.inv (by simp)) fun b hb e he =>
      ⟨(hw b hb e he).1, (hw b hb e he).2.1⟩
  have hx := ext_setLin (bus := fun _ => True) (s := { s with cache := [] }) (l := [])
    h.inv.clearCache h3'
  have h5 : Scoped Q (setLin { s with cache := [] } (linearizeBuses bs (linState s [])).2) :=
    ⟨hx.inv, h.sys, fun x hx => ⟨fun v hv => ((h3.inv.key x hx).2 v hv).2,
      fun v hv => ((h3.inv.value x hx).2.1 v hv).2⟩, h.ret⟩
  have h6 : Scoped Q s1 := addAlgebraic_scoped hb hl h5 (fun c hc =>
    ⟨(h3.inv.constraint c hc).1, fun v hv => ((h3.inv.constraint c hc).2 v hv).1,
      fun v hv => ((h3.inv.constraint c hc).2 v hv).2⟩) h1
  obtain ⟨cs', h9, h10, -⟩ := Queued.addBus_ok h6.inv.cs (linearizeBuses bs (linState s [])).1
  have h2 : s1.cs.addBus (linearizeBuses bs (linState s [])).1 = .ok cs := h2
  rw [h2] at h9
  cases h9
  refine ⟨hi, ?_, h6.lin, h6.ret⟩
  have hsys : cs.ix.sys = ⟨s1.cs.ix.sys.algebraic ++ [],
    s1.cs.ix.sys.bus ++ (linearizeBuses bs (linState s [])).1,
    s1.cs.ix.sys.derived ++ []⟩ := by rw [h10]; rfl
  intro v hv
  change v ∈ cs.ix.sys.vars at hv
  rw [hsys, mem_sys_vars] at hv
  rcases hv with ⟨e, he, hv⟩ | ⟨b, hb', e, he, hv⟩
  · exact h6.alg (by simpa using he) v hv
  · rcases List.mem_append.1 hb' with hb' | hb'
    · exact h6.busIn hb' he v hv
    · exact ((h4 b hb' e he).2 v hv).2

theorem inScope_subst {x : SVar V} {r e : GExpr p (SVar V)} (hr : InScope Q r) (he : InScope Q e) :
    InScope Q (GExpr.subst x r e) := by
  intro v hv
  rcases vars_subst x r hv with h | h
  · exact he v h.1
  · exact hr v h.1

theorem inScope_const (k : ZMod p) : InScope Q (const k) := by
  intro v hv
  rw [vars_const] at hv
  cases hv

theorem inScope_var {u : SVar V} (h : Q u) : InScope (p := p) Q (var u) := by
  intro v hv
  rw [vars_var, List.mem_singleton] at hv
  subst hv
  exact h

theorem affine_const' (k : ZMod p) : (const k : GExpr p (SVar V)).isAffine = true := by
  rfl

theorem applyAssignment_scoped (hb : ∀ n, Q (.boolean n)) (hl : ∀ n, Q (.linearized n))
    (h : Scoped Q s) {x : SVar V} {r : GExpr p (SVar V)} (hx : s.Below x) (hq : Q x)
    (hr : (∃ k, r = const k) ∨ ∃ u, Q u ∧ s.Below u ∧ u ≠ x ∧ r = var u)
    (ho : applyAssignment x r s = .ok s') : Scoped Q s' := by
  have hr1 : WF r ∧ s.BelowE r ∧ r.isAffine = true ∧ InScope Q r := by
    rcases hr with ⟨k, rfl⟩ | ⟨u, h1, h2, -, rfl⟩
    · exact ⟨wf_const k, belowE_const k, affine_const' k, inScope_const k⟩
    · exact ⟨wf_var u, inScope_var (Q := s.Below) h2, affine_var u, inScope_var h1⟩
  obtain ⟨hw, hbe, ha, hqr⟩ := hr1
  have hi := (applyAssignment_spec (bus := fun _ => True) (NP := False) h.inv hx hw hbe
    ha).of_ok ho |>.1.inv
  unfold applyAssignment at ho
  rw [Except.bind_ok_iff] at ho
  obtain ⟨cs, h1, ho⟩ := ho
  rw [liftPanic_ok_iff] at h1
  rw [Except.bind_ok_iff] at ho
  obtain ⟨refs, h2, ho⟩ := ho
  rw [liftPanic_ok_iff] at h2
  rw [Except.bind_ok_iff] at ho
  obtain ⟨s1, h3, ho⟩ := ho
  rw [Except.bind_ok_iff] at ho
  obtain ⟨s2, h4, ho⟩ := ho
  cases ho
  obtain ⟨cs', h5, h6⟩ := cs_subst (bus := fun _ => True) h.inv (x := x) hw hbe
  rw [h1] at h5
  cases h5
  obtain ⟨cs'', h5, h7, -⟩ := Queued.subst_ok h.inv.cs x r
  rw [h1] at h5
  cases h5
  have hsys : cs.ix.sys = s.cs.ix.sys.mapExpr (GExpr.subst x r) := by
    rw [h7]; exact Indexed.subst_sys h.inv.cs.ix x r
  have hsc : Scoped Q { s with cs := cs } := by
    refine ⟨h6.inv, ?_, h.lin, h.ret⟩
    intro v hv
    change v ∈ cs.ix.sys.vars at hv
    rw [hsys, mem_sys_vars] at hv
    rcases hv with ⟨e, he, hv⟩ | ⟨b, hb', e, he, hv⟩
    · obtain ⟨e', he', rfl⟩ := List.mem_map.1 he
      exact inScope_subst hqr (h.alg he') v hv
    · obtain ⟨b', hb'', rfl⟩ := List.mem_map.1 hb'
      obtain ⟨e', he', rfl⟩ := mem_fields_map he
      exact inScope_subst hqr (h.busIn hb'' he') v hv
  obtain ⟨refs', h8, h9⟩ := refs_ok hsc.inv [x]
  rw [show cs.ix.constraintsReferencing [x] = .ok refs' from h8] at h2
  cases h2
  obtain ⟨h10, h11⟩ := extractRefs_spec (bus := fun _ => True) (es := algebraicRefs refs) hsc.inv
    fun e he => ⟨hsc.inv.wf.1 e (h9 e he), hsc.inv.algBelow (h9 e he)⟩
  obtain ⟨h12, h13⟩ := extractRefs_scoped hb (es := algebraicRefs refs) hsc.inv.cs
    fun e he => ⟨hsc.inv.wf.1 e (h9 e he), hsc.alg (h9 e he)⟩
  have h14 := (constrainBooleans_spec (bus := fun _ => True) (NP := False) h11.inv (fun z hz => by
    refine ⟨(h10.newVar z hz).2, ?_⟩
    rw [h10.rcs]
    exact h.inv.rcs z (h10.newVar z hz).1) h10.nodup).of_ok h3
  have h15 : Scoped Q s1 := hsc.same h14.1.inv (h12.trans (constrainBooleans_scopeSame h12.cs h3))
  have h16 : Scoped Q s2 := addAlgebraic_scoped hb hl h15 (fun c hc =>
    ⟨(h10.wf c hc).1, h14.1.belowE (h10.wf c hc).2, h13 c hc⟩) h4
  refine ⟨hi, h16.sys, h16.lin, fun y hy => ?_⟩
  rcases List.mem_append.1 hy with hy | hy
  · exact h16.ret y hy
  · rw [List.mem_singleton] at hy
    subst hy
    refine ⟨hq, ?_⟩
    rcases hr with ⟨k, rfl⟩ | ⟨u, hu, -, hne, rfl⟩
    · exact Or.inl ⟨k, rfl⟩
    · exact Or.inr ⟨u, hu, hne, rfl⟩

theorem applyRc_scoped (hb : ∀ n, Q (.boolean n)) (hl : ∀ n, Q (.linearized n))
    (h : Scoped Q s) {x : SVar V} (hx : s.Below x) (hq : Q x) {r : RangeConstraint p}
    {a : Bool × Solver p V} (ho : applyRc x r s = .ok a) : Scoped Q a.2 := by
  unfold applyRc at ho
  rcases updateRc_cases x r s with h1 | h1
  · rw [h1] at ho
    cases ho
    exact h
  · rw [h1] at ho
    simp only at ho
    have h2 : Scoped Q (setRc x r s) := h.same (h.inv.setRc hx r) ⟨rfl, rfl, rfl, h.inv.cs⟩
    split at ho
    · rw [Except.bind_ok_iff] at ho
      obtain ⟨s1, h3, ho⟩ := ho
      cases ho
      exact applyAssignment_scoped hb hl h2 hx hq (Or.inl ⟨_, rfl⟩) h3
    · rw [Except.bind_ok_iff] at ho
      obtain ⟨s1, h3, ho⟩ := ho
      cases ho
      obtain ⟨cs, h4, h5, h6⟩ := variableUpdated_ok h2.inv x
      rw [h3] at h4
      cases h4
      exact h2.same (h2.inv.sameIx h6 h5) ⟨h5, rfl, rfl, h6⟩

/-- The effect can be applied and is about a variable in `Q`. -/
def ScopedEffect (Q : SVar V → Prop) (s : Solver p V) (eff : Effect p (SVar V)) : Prop :=
  (∃ v a, eff = .assignment v a ∧ s.Below v ∧ Q v) ∨
    ∃ v r, eff = .rangeConstraint v r ∧ s.Below v ∧ Q v

theorem ScopedEffect.mono {eff : Effect p (SVar V)} (h : ScopedEffect Q s eff)
    (hm : ∀ v, s.Below v → s'.Below v) : ScopedEffect Q s' eff := by
  rcases h with ⟨v, a, h1, h2, h3⟩ | ⟨v, a, h1, h2, h3⟩
  · exact Or.inl ⟨v, a, h1, hm v h2, h3⟩
  · exact Or.inr ⟨v, a, h1, hm v h2, h3⟩

theorem applyEffect_scoped (hb : ∀ n, Q (.boolean n)) (hl : ∀ n, Q (.linearized n))
    (h : Scoped Q s) {eff : Effect p (SVar V)} (he : ScopedEffect Q s eff)
    {a : Bool × Solver p V} (ho : applyEffect s eff = .ok a) :
    Scoped Q a.2 ∧ ∀ v, s.Below v → a.2.Below v := by
  rcases he with ⟨v, k, rfl, h1, h2⟩ | ⟨v, r, rfl, h1, h2⟩
  · refine ⟨?_, fun w hw => ((applyEffect_spec (bus := fun _ => True) (NP := False) h.inv
      (Or.inl ⟨v, k, rfl, h1⟩)).of_ok ho).1.below hw⟩
    rw [applyEffect, Except.bind_ok_iff] at ho
    obtain ⟨s1, h3, ho⟩ := ho
    cases ho
    exact applyAssignment_scoped hb hl h h1 h2 (Or.inl ⟨_, rfl⟩) h3
  · refine ⟨?_, fun w hw => ((applyEffect_spec (bus := fun _ => True) (NP := False) h.inv
      (Or.inr ⟨v, r, rfl, h1⟩)).of_ok ho).1.below hw⟩
    exact applyRc_scoped hb hl h h1 h2 ho

theorem applyEffects_scoped (hb : ∀ n, Q (.boolean n)) (hl : ∀ n, Q (.linearized n)) :
    ∀ {l : List (Effect p (SVar V))} {s : Solver p V} {a : Bool × Solver p V}, Scoped Q s →
    (∀ eff ∈ l, ScopedEffect Q s eff) → applyEffects l s = .ok a → Scoped Q a.2 := by
  intro l
  induction l with
  | nil => intro s a h _ ho; cases ho; exact h
  | cons e t ih =>
    intro s a h he ho
    rw [applyEffects, Except.bind_ok_iff] at ho
    obtain ⟨r, h1, ho⟩ := ho
    rw [Except.bind_ok_iff] at ho
    obtain ⟨rs, h2, ho⟩ := ho
    cases ho
    obtain ⟨h3, h4⟩ := applyEffect_scoped hb hl h (he e (by simp)) h1
    exact ih (a := rs) h3 (fun eff hm => (he eff (by simp [hm])).mono h4) h2

theorem addAlgebraicIfNew_scoped (hb : ∀ n, Q (.boolean n)) (hl : ∀ n, Q (.linearized n))
    (h : Scoped Q s) {es : List (GExpr p (SVar V))}
    (hw : ∀ e ∈ es, WF e ∧ s.BelowE e ∧ InScope Q e) {a : Bool × Solver p V}
    (ho : addAlgebraicIfNew es s = .ok a) : Scoped Q a.2 ∧ ∀ v, s.Below v → a.2.Below v := by
  refine ⟨?_, fun w hw' => ((addAlgebraicIfNew_spec (bus := fun _ => True) (NP := False) h.inv
    fun e he => ⟨(hw e he).1, (hw e he).2.1⟩).of_ok ho).1.below hw'⟩
  unfold addAlgebraicIfNew at ho
  obtain ⟨l, h1, h2⟩ := filterNew_ok h.inv es
  rw [h1, stop_bind] at ho
  split at ho
  · cases ho
    exact h
  · rw [Except.bind_ok_iff] at ho
    obtain ⟨s1, h3, ho⟩ := ho
    cases ho
    exact addAlgebraic_scoped hb hl h (fun e he => hw e (h2 e he)) h3

variable {h : Handler p}

theorem trySimpleEquivalence_ne {e : GExpr p (SVar V)} {v v1 : SVar V} (hw : WF e)
    (h : trySimpleEquivalence e = some (v, var v1)) : v1 ≠ v := by
  unfold trySimpleEquivalence at h
  split at h
  · cases h
  split at h
  · cases h
  obtain ⟨q, l, c⟩ := e
  split at h
  · rename_i w1 c1 w2 c2 hl
    have hl : l = [(w1, c1), (w2, c2)] := hl
    subst hl
    split at h
    · rw [Option.some.injEq, Prod.mk.injEq] at h
      obtain ⟨rfl, h2⟩ := h
      have h3 : v1 ∈ vars (var w1 : GExpr p (SVar V)) := by rw [h2, vars_var]; simp
      rw [vars_var, List.mem_singleton] at h3
      subst h3
      obtain ⟨-, hp, -⟩ := wf_inv hw
      have := List.rel_of_pairwise_cons hp (List.mem_singleton.2 rfl)
      exact ne_of_lt this
    · cases h
  · cases h

theorem processAlgebraic_scoped (hb : ∀ n, Q (.boolean n)) (hl : ∀ n, Q (.linearized n))
    {order : Rearrange (Effect p (SVar V))} (hs : Scoped Q s) {e : GExpr p (SVar V)} (hw : WF e)
    (hbe : s.BelowE e) (hq : InScope Q e) {a : Bool × Solver p V}
    (ho : processAlgebraic order e s = .ok a) : Scoped Q a.2 := by
  unfold processAlgebraic at ho
  cases ht : trySimpleEquivalence e with
  | some y =>
    obtain ⟨v, r⟩ := y
    obtain ⟨v1, rfl, hv, hv1, -⟩ := trySimpleEquivalence_spec hw ht
    rw [ht] at ho
    simp only at ho
    rw [Except.bind_ok_iff] at ho
    obtain ⟨s1, h3, ho⟩ := ho
    cases ho
    exact applyAssignment_scoped hb hl hs (hbe v hv) (hq v hv)
      (Or.inr ⟨v1, hq v1 hv1, hbe v1 hv1, trySimpleEquivalence_ne hw ht, rfl⟩) h3
  | none =>
    rw [ht] at ho
    simp only at ho
    obtain ⟨o, h1, h2⟩ := solve_spec (rc := s.rcs) hw
    rw [h1, liftPanic_ok, stop_bind] at ho
    cases o with
    | error x => cases ho
    | ok result =>
      simp only at ho
      have happ : ∀ eff ∈ order.1 result.effects, ScopedEffect Q s eff := by
        intro eff he
        have he := (order.2 result.effects).mem_iff.1 he
        have h3 := solve_simple h1 eff he
        have h4 := h2.inVars eff he
        cases eff with
        | assignment v a => exact Or.inl ⟨v, a, rfl, hbe v (h4 v _ rfl), hq v (h4 v _ rfl)⟩
        | rangeConstraint v r => exact Or.inr ⟨v, r, rfl, hbe v (h4 v _ rfl), hq v (h4 v _ rfl)⟩
        | assertion a b c => exact absurd h3 id
        | conditionalAssignment a b c d e => exact absurd h3 id
      rw [Except.bind_ok_iff] at ho
      obtain ⟨split, hsp, ho⟩ := ho
      rw [liftPanic_ok_iff] at hsp
      cases split with
      | none =>
        simp only at ho
        rw [stop_pure, stop_bind, Except.bind_ok_iff] at ho
        obtain ⟨r, h3, ho⟩ := ho
        cases ho
        exact applyEffects_scoped (a := r) hb hl hs happ h3
      | some parts =>
        simp only at ho
        rw [Except.bind_ok_iff] at ho
        obtain ⟨n, h3, ho⟩ := ho
        rw [Except.bind_ok_iff] at ho
        obtain ⟨r, h4, ho⟩ := ho
        cases ho
        have h5 := (Splitter.trySplit_spec hsp).1
        obtain ⟨h6, h7⟩ := addAlgebraicIfNew_scoped hb hl hs (fun e' he' => ⟨(h5 e' he').1,
          fun v hv => hbe v ((h5 e' he').2 v hv), fun v hv => hq v ((h5 e' he').2 v hv)⟩) h3
        exact applyEffects_scoped (a := r) hb hl h6 (fun eff he => (happ eff he).mono h7) h4

theorem processBus_scoped (hb : ∀ n, Q (.boolean n)) (hl : ∀ n, Q (.linearized n))
    {order : Rearrange (Effect p (SVar V))} (hs : Scoped Q s)
    {b : BusInteraction (GExpr p (SVar V))} (hbe : ∀ e ∈ b.fields, s.BelowE e ∧ InScope Q e)
    {a : Bool × Solver p V} (ho : processBus h order b s = .ok a) : Scoped Q a.2 := by
  unfold processBus at ho
  rw [Except.bind_ok_iff] at ho
  obtain ⟨o, h1, ho⟩ := ho
  rw [liftPanic_ok_iff] at h1
  cases o with
  | error x => cases ho
  | ok effects =>
    simp only at ho
    refine applyEffects_scoped hb hl hs (fun eff he => ?_) ho
    obtain ⟨v, r, rfl, hv⟩ := solveBus_simple h1 eff ((order.2 effects).mem_iff.1 he)
    unfold busVars at hv
    obtain ⟨e, he, hv⟩ := List.mem_flatMap.1 hv
    exact Or.inr ⟨v, r, rfl, (hbe e he).1 v hv, (hbe e he).2 v hv⟩

theorem solveInIsolation_scoped (hb : ∀ n, Q (.boolean n)) (hl : ∀ n, Q (.linearized n))
    {order : ℕ → Rearrange (Effect p (SVar V))} : ∀ (fuel : ℕ) (progress : Bool)
    {s : Solver p V} {a : Bool × Solver p V}, Scoped Q s →
    solveInIsolation h order fuel progress s = .ok a → Scoped Q a.2 := by
  intro fuel
  induction fuel with
  | zero => intro progress s a _ ho; cases ho
  | succ n ih =>
    intro progress s a hs ho
    rw [solveInIsolation] at ho
    rcases Queued.popFront_ok hs.inv.cs with ⟨-, h1⟩ | ⟨x, c, cs, h1, h2, -, h3, h4⟩
    · rw [h1, liftPanic_ok, stop_bind] at ho
      cases ho
      exact hs
    · rw [h1, liftPanic_ok, stop_bind] at ho
      simp only at ho
      rw [Except.bind_ok_iff] at ho
      obtain ⟨r, h5, ho⟩ := ho
      have hs' : Scoped Q { s with cs := cs } :=
        hs.same (hs.inv.sameIx h4 h3) ⟨h3, rfl, rfl, h4⟩
      refine ih _ ?_ ho
      rw [← h3] at h2
      cases c with
      | alg e =>
        have he := (refAt_mem h2).1 e rfl
        exact processAlgebraic_scoped hb hl hs' (refAt_wf hs'.inv.wf h2) (hs'.inv.algBelow he)
          (hs'.alg he) h5
      | bus b =>
        have hb' := (refAt_mem h2).2 b rfl
        exact processBus_scoped hb hl hs' (fun e he => ⟨hs'.inv.busBelow hb' he, hs'.busIn hb' he⟩) h5

theorem applyRcs_scoped (hb : ∀ n, Q (.boolean n)) (hl : ∀ n, Q (.linearized n)) :
    ∀ {l : List (SVar V × RangeConstraint p)} {s : Solver p V} {a : Bool × Solver p V},
    Scoped Q s → (∀ x ∈ l, s.Below x.1 ∧ Q x.1) → applyRcs l s = .ok a →
    Scoped Q a.2 ∧ ∀ v, s.Below v → a.2.Below v := by
  intro l
  induction l with
  | nil => intro s a hs _ ho; cases ho; exact ⟨hs, fun _ h => h⟩
  | cons x t ih =>
    intro s a hs hx ho
    rw [applyRcs, Except.bind_ok_iff] at ho
    obtain ⟨r, h1, ho⟩ := ho
    rw [Except.bind_ok_iff] at ho
    obtain ⟨rs, h2, ho⟩ := ho
    cases ho
    obtain ⟨h3, h4⟩ := hx x (by simp)
    have h5 : ∀ v, s.Below v → r.2.Below v := fun v hv => ((applyRc_spec (bus := fun _ => True)
      (NP := False) hs.inv h3 x.2).of_ok h1).1.below hv
    obtain ⟨h6, h7⟩ := ih (applyRc_scoped hb hl hs h3 h4 h1) (fun y hy =>
      ⟨h5 _ (hx y (by simp [hy])).1, (hx y (by simp [hy])).2⟩) h2
    exact ⟨h6, fun v hv => h7 v (h5 v hv)⟩

theorem searchSets_scoped (hb : ∀ n, Q (.boolean n)) (hl : ∀ n, Q (.linearized n)) :
    ∀ {sets bad : List (List (SVar V))} {progress : Bool} {s : Solver p V} {a : Bool × Solver p V},
    Scoped Q s → (∀ vs ∈ sets, ∀ v ∈ vs, s.Below v ∧ Q v) →
    searchSets h sets bad progress s = .ok a → Scoped Q a.2 := by
  intro sets
  induction sets with
  | nil => intro bad progress s a hs _ ho; cases ho; exact hs
  | cons vs t ih =>
    intro bad progress s a hs hv ho
    rw [searchSets] at ho
    split at ho
    · exact ih hs (fun us hu => hv us (by simp [hu])) ho
    · rw [Except.bind_ok_iff] at ho
      obtain ⟨o, h1, ho⟩ := ho
      rw [liftPanic_ok_iff] at h1
      cases o with
      | error x => cases ho
      | ok m =>
        simp only at ho
        split at ho
        · exact ih hs (fun us hu => hv us (by simp [hu])) ho
        · rw [Except.bind_ok_iff] at ho
          obtain ⟨r, h2, ho⟩ := ho
          obtain ⟨h3, h4⟩ := applyRcs_scoped hb hl hs (fun x hx => by
            rcases exhaustiveSearchOn_keys hs.inv.cs.ix hs.inv.wf h1 x hx with h3 | h3
            · exact ⟨hs.inv.below _ h3, hs.sys _ h3⟩
            · exact hv vs (by simp) _ (List.mem_filter.1 h3).1) h2
          exact ih h3 (fun us hu v hv' => ⟨h4 v (hv us (by simp [hu]) v hv').1,
            (hv us (by simp [hu]) v hv').2⟩) ho

theorem exhaustiveSearch_scoped (hb : ∀ n, Q (.boolean n)) (hl : ∀ n, Q (.linearized n))
    (hs : Scoped Q s) {a : Bool × Solver p V} (ho : exhaustiveSearch h s = .ok a) :
    Scoped Q a.2 := by
  unfold exhaustiveSearch at ho
  refine searchSets_scoped hb hl hs (fun vs hvs v hv => ?_) ho
  rw [mem_sortByLength] at hvs
  have := bruteForceCandidates_vars hvs v hv
  exact ⟨hs.inv.below v this, hs.sys v this⟩

theorem loopUntilNoProgress_scoped (hb : ∀ n, Q (.boolean n)) (hl : ∀ n, Q (.linearized n))
    {ch : Choices p V} : ∀ (n : ℕ) {s s' : Solver p V}, Scoped Q s →
    loopUntilNoProgress h ch n s = .ok s' → Scoped Q s' := by
  intro n
  induction n with
  | zero => intro s s' _ ho; cases ho
  | succ n ih =>
    intro s s' hs ho
    rw [loopUntilNoProgress, Except.bind_ok_iff] at ho
    obtain ⟨r, h1, ho⟩ := ho
    have h2 := solveInIsolation_scoped hb hl ch.fuel false hs h1
    have hlast : ∀ r2 : Bool × Solver p V, Scoped Q r2.2 →
        (if r2.1 = true then loopUntilNoProgress h ch n r2.2 else pure r2.2) = .ok s' →
        Scoped Q s' := by
      intro r2 h4 ho
      split at ho
      · exact ih h4 ho
      · cases ho; exact h4
    simp only at ho
    split at ho
    · rw [stop_pure, stop_bind] at ho
      exact hlast r h2 ho
    · rw [Except.bind_ok_iff] at ho
      obtain ⟨r2, h3, ho⟩ := ho
      exact hlast r2 (exhaustiveSearch_scoped hb hl h2 h3) ho

theorem foldSubst_scoped : ∀ {l : List (SVar V × GExpr p (SVar V))}, (∀ x ∈ l, InScope Q x.2) →
    ∀ {e : GExpr p (SVar V)}, InScope Q e →
    InScope Q (l.foldl (fun e x => GExpr.subst x.1 x.2 e) e) := by
  intro l
  induction l with
  | nil => intro _ e h; exact h
  | cons x t ih =>
    intro hl e he
    exact ih (fun y hy => hl y (by simp [hy])) (inScope_subst (hl x (by simp)) he)

theorem solve_scoped (hb : ∀ n, Q (.boolean n)) (hl : ∀ n, Q (.linearized n)) {bus : Bus p}
    (hsd : h.Sound bus) {ch : Choices p V} (hs : Scoped Q s)
    {a : List (SVar V × GExpr p (SVar V)) × Solver p V} (ho : solve h ch s = .ok a) :
    Scoped Q a.2 ∧ ∀ x ∈ a.1, Q x.1 ∧
      ((∃ k, x.2 = const k) ∨ ∃ u, Q u ∧ u ≠ x.1 ∧ x.2 = var u) := by
  have hi := (solve_op_spec hsd ch hs.inv).of_ok ho |>.1.inv
  unfold solve at ho
  rw [Except.bind_ok_iff] at ho
  obtain ⟨s1, h1, ho⟩ := ho
  cases ho
  have h2 := loopUntilNoProgress_scoped hb hl _ hs.clearCache h1
  refine ⟨⟨hi, h2.sys, fun x hx => ?_, by simp⟩, h2.ret⟩
  have h3 : ∀ x ∈ s1.toReturn, InScope Q x.2 := by
    intro x hx
    rcases (h2.ret x hx).2 with ⟨k, hk⟩ | ⟨u, hu, -, hk⟩
    · rw [hk]; exact inScope_const k
    · rw [hk]; exact inScope_var hu
  obtain ⟨y, hy, rfl⟩ := mem_linSubs_applyAssignments hx
  exact ⟨foldSubst_scoped h3 (h2.lin y hy).1, foldSubst_scoped h3 (h2.lin y hy).2⟩

theorem retain_scoped (hs : Scoped Q s) {keep : List (SVar V)} (ho : retain keep s = .ok s') :
    Scoped Q s' := by
  have hr : s.toReturn = [] := by
    by_contra hr
    unfold retain at ho
    rw [if_pos (by simpa using hr)] at ho
    cases ho
  obtain ⟨s1, h0, hi, -⟩ := retain_ok (bus := fun _ => True) hs.inv keep hr
  rw [ho] at h0
  cases h0
  unfold retain at ho
  rw [if_neg (by simp [hr])] at ho
  obtain ⟨c1, h1, h2, h3, -⟩ := Queued.retainAlgebraic_ok hs.inv.cs
    (fun _ e => e.vars.any (s.keeps keep))
  obtain ⟨c2, h4, h5, h6, -⟩ := Queued.retainBus_ok h3 (fun _ b => (busVars b).any (s.keeps keep))
  rw [h1, liftPanic_ok, stop_bind, h4, liftPanic_ok, stop_bind, stop_pure] at ho
  cases ho
  refine ⟨hi, fun v hv => ?_, hs.lin, hs.ret⟩
  change v ∈ c2.ix.sys.vars at hv
  rw [mem_sys_vars] at hv
  rcases hv with ⟨e, he, hv⟩ | ⟨b, hb', e, he, hv⟩
  · rw [h5, h2] at he
    obtain ⟨i, hi, -⟩ := mem_retainFrom.1 he
    exact hs.alg (List.mem_of_getElem? hi) v hv
  · rw [h5, h2] at hb'
    obtain ⟨i, hi, -⟩ := mem_retainFrom.1 hb'
    exact hs.busIn (List.mem_of_getElem? hi) he v hv

theorem equivalentExpressions_scopeSame (hi : s.cs.Inv) {e : GExpr p (SVar V)}
    {a : List (GExpr p (SVar V)) × Solver p V} (ho : equivalentExpressions e s = .ok a) :
    SameScope s a.2 := by
  unfold equivalentExpressions at ho
  split at ho
  · cases ho; exact .refl hi
  · split at ho
    · cases ho; exact .refl hi
    · rw [Except.bind_ok_iff] at ho
      obtain ⟨r, -, ho⟩ := ho
      rw [Except.bind_ok_iff] at ho
      obtain ⟨r2, -, ho⟩ := ho
      cases ho
      exact ⟨rfl, rfl, rfl, hi⟩

theorem knownDifferent_scopeSame (hi : s.cs.Inv) {x y : GExpr p (SVar V)} {a : Bool × Solver p V}
    (ho : knownDifferent x y s = .ok a) : SameScope s a.2 := by
  unfold knownDifferent at ho
  split at ho
  · cases ho; exact .refl hi
  · rw [Except.bind_ok_iff] at ho
    obtain ⟨r, h1, ho⟩ := ho
    rw [Except.bind_ok_iff] at ho
    obtain ⟨r2, h2, ho⟩ := ho
    rw [Except.bind_ok_iff] at ho
    obtain ⟨r3, -, ho⟩ := ho
    cases ho
    have h3 := equivalentExpressions_scopeSame hi h1
    exact h3.trans (equivalentExpressions_scopeSame h3.cs h2)

end Solver

end Verif
