import Verif.Proofs.Solver

/-! Helper lemmas about the solver: the operations. -/

set_option linter.unusedSectionVars false

namespace Verif

open GExpr

variable {p : ℕ} {V : Type} [Fact p.Prime] [LinearOrder V]

namespace Solver

variable {bus : Bus p} {s s' s'' : Solver p V}

/-! ### Bus interactions -/

section
variable {B : ℕ → SVar V → Prop}

theorem linearizeFields_spec (hB : Dispenses SVar.linearized B) :
    ∀ {es : List (GExpr p (SVar V))} {st : LinState p (SVar V)}, st.Inv B →
    (∀ e ∈ es, WF e ∧ Verif.Below B st.next e) →
    LinExt SVar.linearized B st (linearizeFields es st).2 ∧
    (∀ e ∈ (linearizeFields es st).1, WF e ∧ Verif.Below B (linearizeFields es st).2.next e) ∧
    ∀ τ, (linearizeFields es st).2.Holds τ →
      (linearizeFields es st).1.map (eval τ) = es.map (eval τ) := by
  intro es
  induction es with
  | nil => intro st hi _; exact ⟨.refl hi, by simp [linearizeFields], by simp [linearizeFields]⟩
  | cons e t ih =>
    intro st hi hw
    obtain ⟨hwe, hbe⟩ := hw e (by simp)
    rw [linearizeFields]
    simp only
    obtain ⟨h1, h2⟩ := substituteByVar_spec hB hi hwe hbe
    obtain ⟨h3, h4, h5⟩ := ih h1.inv fun c hc => ⟨(hw c (by simp [hc])).1,
      (hw c (by simp [hc])).2.mono hB h1.le⟩
    refine ⟨h1.trans h3, ?_, ?_⟩
    · intro c hc
      rcases List.mem_cons.1 hc with rfl | hc
      · exact ⟨h2.wf, h2.below.mono hB h3.le⟩
      · exact h4 c hc
    · intro τ hτ
      rw [List.map_cons, List.map_cons, h5 τ hτ, h2.sound τ (h3.holds hτ)]

theorem linearizeBus_spec (hB : Dispenses SVar.linearized B)
    {b : BusInteraction (GExpr p (SVar V))} {st : LinState p (SVar V)} (hi : st.Inv B)
    (hw : ∀ e ∈ b.fields, WF e ∧ Verif.Below B st.next e) :
    LinExt SVar.linearized B st (linearizeBus b st).2 ∧
    (∀ e ∈ (linearizeBus b st).1.fields, WF e ∧ Verif.Below B (linearizeBus b st).2.next e) ∧
    ∀ τ, (linearizeBus b st).2.Holds τ → (linearizeBus b st).1.evalAt τ = b.evalAt τ := by
  obtain ⟨w1, b1⟩ := hw b.busId (by simp [BusInteraction.fields])
  obtain ⟨w2, b2⟩ := hw b.multiplicity (by simp [BusInteraction.fields])
  unfold linearizeBus
  simp only
  obtain ⟨h1, h2⟩ := substituteByVar_spec hB hi w1 b1
  obtain ⟨h3, h4⟩ := substituteByVar_spec hB h1.inv w2 (b2.mono hB h1.le)
  obtain ⟨h5, h6, h7⟩ := linearizeFields_spec hB (es := b.payload) h3.inv fun e he =>
    ⟨(hw e (by simp [BusInteraction.fields, he])).1,
      (hw e (by simp [BusInteraction.fields, he])).2.mono hB (h1.le.trans h3.le)⟩
  refine ⟨(h1.trans h3).trans h5, ?_, ?_⟩
  · intro e he
    simp only [BusInteraction.fields, List.mem_cons] at he
    rcases he with rfl | rfl | he
    · exact ⟨h2.wf, h2.below.mono hB (h3.le.trans h5.le)⟩
    · exact ⟨h4.wf, h4.below.mono hB h5.le⟩
    · exact h6 e he
  · intro τ hτ
    unfold BusInteraction.evalAt
    simp only [BusInteraction.mk.injEq]
    exact ⟨h2.sound τ (h3.holds (h5.holds hτ)), h4.sound τ (h5.holds hτ), h7 τ hτ⟩

theorem linearizeBuses_spec (hB : Dispenses SVar.linearized B) :
    ∀ {bs : List (BusInteraction (GExpr p (SVar V)))} {st : LinState p (SVar V)}, st.Inv B →
    (∀ b ∈ bs, ∀ e ∈ b.fields, WF e ∧ Verif.Below B st.next e) →
    LinExt SVar.linearized B st (linearizeBuses bs st).2 ∧
    (∀ b ∈ (linearizeBuses bs st).1, ∀ e ∈ b.fields,
      WF e ∧ Verif.Below B (linearizeBuses bs st).2.next e) ∧
    ∀ τ, (linearizeBuses bs st).2.Holds τ →
      (linearizeBuses bs st).1.map (·.evalAt τ) = bs.map (·.evalAt τ) := by
  intro bs
  induction bs with
  | nil => intro st hi _; exact ⟨.refl hi, by simp [linearizeBuses], by simp [linearizeBuses]⟩
  | cons b t ih =>
    intro st hi hw
    rw [linearizeBuses]
    simp only
    obtain ⟨h1, h2, h2'⟩ := linearizeBus_spec hB hi (hw b (by simp))
    obtain ⟨h3, h4, h5⟩ := ih h1.inv fun c hc e he => ⟨(hw c (by simp [hc]) e he).1,
      (hw c (by simp [hc]) e he).2.mono hB h1.le⟩
    refine ⟨h1.trans h3, ?_, ?_⟩
    · intro c hc
      rcases List.mem_cons.1 hc with rfl | hc
      · exact fun e he => ⟨(h2 e he).1, (h2 e he).2.mono hB h3.le⟩
      · exact h4 c hc
    · intro τ hτ
      rw [List.map_cons, List.map_cons, h5 τ hτ, h2' τ (h3.holds hτ)]

end

theorem addBus_spec {NP : Prop} (hi : s.Inv) {bs : List (BusInteraction (GExpr p (SVar V)))}
    (hw : ∀ b ∈ bs, ∀ e ∈ b.fields, WF e ∧ s.BelowE e) :
    Spec bus NP s (fun τ => ∀ b ∈ bs, bus (b.evalAt τ)) id (fun s' => s'.toReturn = s.toReturn)
      (fun _ _ => True) (addBus bs s) := by
  unfold addBus
  refine Spec.after (ext_clearCache hi) ?_
  obtain ⟨h1, h2, h3⟩ := linearizeBuses_spec (dispenses_linearized s.nextBool) (bs := bs)
    (st := linState s []) (linState_inv hi (by simp)) hw
  have hc : Ext bus (After bus (fun τ => ∀ b ∈ bs, bus (b.evalAt τ)) s
      (fun τ => ∀ b ∈ bs, bus (b.evalAt τ))) { s with cache := [] }
      (setLin { s with cache := [] } (linearizeBuses bs (linState s [])).2)
      (fun τ => (linearizeBuses bs (linState s [])).2.Holds τ ∧
        ∀ b ∈ (linearizeBuses bs (linState s [])).1, bus (b.evalAt τ)) := by
    refine (ext_setLin (bus := bus) (s := { s with cache := [] }) (l := []) hi.clearCache h1).mono
      (by simp) ?_
    rintro τ' - ⟨τ, ⟨hp, -⟩, -, ha⟩ hh
    refine ⟨hh, fun b hb => ?_⟩
    have hm : b.evalAt τ' ∈ bs.map (·.evalAt τ') := by
      rw [← h3 τ' hh]
      exact List.mem_map.2 ⟨b, hb, rfl⟩
    obtain ⟨b0, hb0, he⟩ := List.mem_map.1 hm
    rw [← he, evalAt_eq fun e h => ha.eval (hw b0 hb0 e h).2]
    exact hp b0 hb0
  refine Spec.after hc ?_
  change Spec bus NP (setLin { s with cache := [] } (linearizeBuses bs (linState s [])).2) _ _ _ _
    (do
      let s' ← addAlgebraic (linearizeBuses bs (linState s [])).2.constraints
        (setLin { s with cache := [] } (linearizeBuses bs (linState s [])).2)
      let cs ← liftPanic (s'.cs.addBus (linearizeBuses bs (linState s [])).1)
      pure { s' with cs := cs })
  generalize (linearizeBuses bs (linState s [])).2 = st at h1 h2 h3 hc ⊢
  generalize (linearizeBuses bs (linState s [])).1 = nb at h2 h3 hc ⊢
  refine Spec.bind ((addAlgebraic_spec (bus := bus) (NP := NP) hc.inv
    (es := st.constraints) h1.inv.constraint).mono ?_
    (fun _ _ h => h) (fun _ _ _ _ _ _ h => h)) ?_
  · rintro τ - ⟨⟨hq, -⟩, -⟩ e he
    exact hq.1 e he
  · intro s1 hr hx
    obtain ⟨cs, h4, h5⟩ := cs_addBus (bus := bus) (s := s1) hx.inv (l := nb)
      (fun b hb e he => ⟨(h2 b hb e he).1, hx.belowE (h2 b hb e he).2⟩)
    rw [h4, liftPanic_ok, stop_bind, stop_pure]
    refine ⟨h5.mono ?_ (fun _ _ _ h => h), hr⟩
    rintro τ - ⟨-, τ1, ⟨⟨-, hq⟩, -⟩, -, ha⟩ b hb
    rw [evalAt_eq fun e he => ha.eval (h2 b hb e he).2]
    exact hq b hb

/-! ### Assignments -/

theorem mem_algebraicRefs {refs : List (ConstraintRef p (SVar V))} {e : GExpr p (SVar V)} :
    e ∈ algebraicRefs refs ↔ .alg e ∈ refs := by
  unfold algebraicRefs
  rw [List.mem_filterMap]
  constructor
  · rintro ⟨c, hc, h⟩
    cases c with
    | alg e' => cases h; exact hc
    | bus b => cases h
  · exact fun h => ⟨_, h, rfl⟩

/-- The constraints that reference some variables are in the system. -/
theorem refs_ok (hi : s.Inv) (vs : List (SVar V)) : ∃ refs,
    s.cs.ix.constraintsReferencing vs = .ok refs ∧
    ∀ e ∈ algebraicRefs refs, e ∈ s.cs.ix.sys.algebraic := by
  refine ⟨_, Indexed.constraintsReferencing_ok hi.cs.ix vs, fun e he => ?_⟩
  rw [mem_algebraicRefs, List.mem_filterMap] at he
  obtain ⟨x, -, hx⟩ := he
  exact (refAt_mem hx).1 e rfl

/-- What is true of the extractions from several constraints. -/
structure ExtractedRefs (s s' : Solver p V) (es : List (GExpr p (SVar V))) (zs : List (SVar V)) :
    Prop where
  ret : s'.toReturn = s.toReturn
  rcs : s'.rcs = s.rcs
  wf : ∀ e ∈ es, WF e ∧ s'.BelowE e
  newVar : ∀ z ∈ zs, ¬ s.Below z ∧ s'.Below z
  nodup : zs.Nodup

theorem extractRefs_spec : ∀ {es : List (GExpr p (SVar V))} {s : Solver p V}, s.Inv →
    (∀ e ∈ es, WF e ∧ s.BelowE e) →
    ExtractedRefs s (extractRefs es s).2.2 (extractRefs es s).1 (extractRefs es s).2.1 ∧
    Ext bus (fun τ => ∀ e ∈ es, eval τ e = 0) s (extractRefs es s).2.2
      (fun τ => (∀ e ∈ (extractRefs es s).1, eval τ e = 0) ∧
        ∀ z ∈ (extractRefs es s).2.1, τ z = 0 ∨ τ z = 1) := by
  intro es
  induction es with
  | nil =>
    intro s hi _
    exact ⟨⟨rfl, rfl, by simp [extractRefs], by simp [extractRefs], by simp [extractRefs]⟩,
      .refl hi fun _ _ _ => by simp [extractRefs]⟩
  | cons e t ih =>
    intro s hi hw
    obtain ⟨hwe, hbe⟩ := hw e (by simp)
    rw [extractRefs]
    simp only
    obtain ⟨h1, h2⟩ := extractBoolean_spec (bus := bus) hi hwe hbe
    obtain ⟨h3, h4⟩ := ih h2.inv fun c hc => ⟨(hw c (by simp [hc])).1,
      h2.belowE (hw c (by simp [hc])).2⟩
    have hmem : ∀ z ∈ ((extractBoolean e s).1.bind (·.newVar)).toList, ∃ x,
        (extractBoolean e s).1 = some x ∧ x.newVar = some z := by
      intro z hz
      rw [Option.mem_toList, Option.bind_eq_some_iff] at hz
      exact hz
    have hmem' : ∀ c ∈ ((extractBoolean e s).1.map (·.constraint)).toList, ∃ x,
        (extractBoolean e s).1 = some x ∧ x.constraint = c := by
      intro z hz
      rw [Option.mem_toList, Option.map_eq_some_iff] at hz
      exact hz
    refine ⟨⟨h3.ret.trans h1.ret, h3.rcs.trans h1.rcs, ?_, ?_, ?_⟩, ?_⟩
    · intro c hc
      rcases List.mem_append.1 hc with hc | hc
      · obtain ⟨x, h5, rfl⟩ := hmem' c hc
        exact ⟨(h1.wf x h5).1, h4.belowE (h1.wf x h5).2⟩
      · exact h3.wf c hc
    · intro z hz
      rcases List.mem_append.1 hz with hz | hz
      · obtain ⟨x, h5, h6⟩ := hmem z hz
        obtain ⟨h7, h8⟩ := h1.newVar x h5 z h6
        exact ⟨h7, h4.below h8⟩
      · exact ⟨fun h => (h3.newVar z hz).1 (h2.below h), (h3.newVar z hz).2⟩
    · rw [List.nodup_append]
      refine ⟨by cases (extractBoolean e s).1.bind (·.newVar) <;> simp, h3.nodup, ?_⟩
      rintro z hz _ hz' rfl
      obtain ⟨x, h5, h6⟩ := hmem z hz
      exact (h3.newVar z hz').1 (h1.newVar x h5 z h6).2
    · refine Ext.trans (h2.mono (P' := fun τ => ∀ c ∈ e :: t, eval τ c = 0)
        (fun τ _ h => h e (by simp)) (fun _ _ _ h => h)) (h4.mono ?_ ?_)
      · rintro τ - ⟨-, τ0, hp, -, ha⟩ c hc
        rw [ha.eval (hw c (by simp [hc])).2]
        exact hp c (by simp [hc])
      · rintro τ' - ⟨τ1, ⟨hq1, -⟩, -, ha1⟩ ⟨hq2, hq3⟩
        refine ⟨fun c hc => ?_, fun z hz => ?_⟩
        · rcases List.mem_append.1 hc with hc | hc
          · obtain ⟨x, h5, rfl⟩ := hmem' c hc
            rw [ha1.eval (h1.wf x h5).2]
            exact (hq1 x h5).1
          · exact hq2 c hc
        · rcases List.mem_append.1 hz with hz | hz
          · obtain ⟨x, h5, h6⟩ := hmem z hz
            rw [ha1 z (h1.newVar x h5 z h6).2]
            exact (hq1 x h5).2 z h6
          · exact hq3 z hz

theorem eval_subst_eq {τ : SVar V → ZMod p} {x : SVar V} {r : GExpr p (SVar V)}
    (h : τ x = eval τ r) (e : GExpr p (SVar V)) : eval τ (GExpr.subst x r e) = eval τ e := by
  rw [eval_subst, ← h, Function.update_eq_self]

theorem belowE_subst {x : SVar V} {r e : GExpr p (SVar V)} (hr : s.BelowE r) (he : s.BelowE e) :
    s.BelowE (GExpr.subst x r e) := by
  intro v hv
  rcases vars_subst x r hv with h | h
  · exact he v h.1
  · exact hr v h.1

theorem mem_fields_map {f : GExpr p V → GExpr p V} {b : BusInteraction (GExpr p V)} {e : GExpr p V}
    (h : e ∈ (b.map f).fields) : ∃ e' ∈ b.fields, e = f e' := by
  simp only [BusInteraction.fields, BusInteraction.map, List.mem_cons, List.mem_map] at h
  rcases h with rfl | rfl | ⟨e', h5, rfl⟩
  · exact ⟨_, by simp [BusInteraction.fields], rfl⟩
  · exact ⟨_, by simp [BusInteraction.fields], rfl⟩
  · exact ⟨e', by simp [BusInteraction.fields, h5], rfl⟩

theorem evalAt_map {f : GExpr p V → GExpr p V} {b : BusInteraction (GExpr p V)} {τ : V → ZMod p}
    (h : ∀ e, eval τ (f e) = eval τ e) : (b.map f).evalAt τ = b.evalAt τ := by
  unfold BusInteraction.evalAt BusInteraction.map
  simp [h, Function.comp_def]

theorem cs_subst (hi : s.Inv) {x : SVar V} {r : GExpr p (SVar V)} (hw : WF r) (hb : s.BelowE r) :
    ∃ cs, s.cs.subst x r = .ok cs ∧
    Ext bus (fun τ => τ x = eval τ r) s { s with cs := cs } (fun τ => τ x = eval τ r) := by
  obtain ⟨cs, h1, h2, h3, -⟩ := Queued.subst_ok hi.cs x r
  have hsys : cs.ix.sys = s.cs.ix.sys.mapExpr (GExpr.subst x r) := by
    rw [h2]; exact Indexed.subst_sys hi.cs.ix x r
  refine ⟨cs, h1, .of_same (hi.withCs h3 ?_ ?_) rfl rfl (fun _ => le_rfl) ?_⟩
  · rw [hsys]
    refine ⟨fun e he => ?_, fun b hb e he => ?_⟩
    · obtain ⟨e', he', rfl⟩ := List.mem_map.1 he
      exact wf_subst x hw (hi.wf.1 e' he')
    · obtain ⟨b', hb', rfl⟩ := List.mem_map.1 hb
      obtain ⟨e', he', rfl⟩ := mem_fields_map he
      exact wf_subst x hw (hi.wf.2 b' hb' e' he')
  · intro v hv
    rw [hsys, mem_sys_vars] at hv
    rcases hv with ⟨e, he, hv⟩ | ⟨b, hb', e, he, hv⟩
    · obtain ⟨e', he', rfl⟩ := List.mem_map.1 he
      exact belowE_subst hb (hi.algBelow he') v hv
    · obtain ⟨b', hb'', rfl⟩ := List.mem_map.1 hb'
      obtain ⟨e', he', rfl⟩ := mem_fields_map he
      exact belowE_subst hb (hi.busBelow hb'' he') v hv
  · intro τ hg hp
    refine ⟨hg.withCs ?_, hp⟩
    rw [hsys]
    refine ⟨fun e he => ?_, fun b hb => ?_⟩
    · obtain ⟨e', he', rfl⟩ := List.mem_map.1 he
      rw [eval_subst_eq hp]
      exact hg.sat.algebraic e' he'
    · obtain ⟨b', hb', rfl⟩ := List.mem_map.1 hb
      rw [evalAt_map (eval_subst_eq hp)]
      exact hg.sat.bus b' hb'

theorem applyAssignment_spec {NP : Prop} (hi : s.Inv) {x : SVar V} {r : GExpr p (SVar V)}
    (hx : s.Below x) (hw : WF r) (hb : s.BelowE r) (ha : r.isAffine = true) :
    Spec bus NP s (fun τ => τ x = eval τ r) id (fun _ => True) (fun _ _ => True)
      (applyAssignment x r s) := by
  unfold applyAssignment
  obtain ⟨cs, h1, h2⟩ := cs_subst (bus := bus) hi (x := x) hw hb
  rw [h1, liftPanic_ok, stop_bind]
  refine Spec.after h2 ?_
  obtain ⟨refs, h3, h4⟩ := refs_ok h2.inv [x]
  rw [h3, liftPanic_ok, stop_bind]
  obtain ⟨h5, h6⟩ := extractRefs_spec (bus := bus) (es := algebraicRefs refs) h2.inv fun e he =>
    ⟨h2.inv.wf.1 e (h4 e he), h2.inv.algBelow (h4 e he)⟩
  refine Spec.after (h6.mono (P' := After bus (fun τ => τ x = eval τ r) s fun τ => τ x = eval τ r)
    (Q' := fun τ => ((∀ e ∈ (extractRefs (algebraicRefs refs) { s with cs := cs }).1,
      eval τ e = 0) ∧ ∀ z ∈ (extractRefs (algebraicRefs refs) { s with cs := cs }).2.1,
      τ z = 0 ∨ τ z = 1) ∧ τ x = eval τ r) ?_ ?_) ?_
  · intro τ hg _ e he
    exact hg.sat.algebraic e (h4 e he)
  · rintro τ' hg ⟨τ, ⟨hq, -⟩, -, hag⟩ hq'
    refine ⟨hq', ?_⟩
    have hag' : s.Agree τ' τ := hag
    rw [hag' x hx, hag'.eval hb]
    exact hq
  · simp only
    generalize extractRefs (algebraicRefs refs) { s with cs := cs } = n at h5 h6 ⊢
    have hb2 : n.2.2.BelowE r := h6.belowE hb
    have hx2 : n.2.2.Below x := h6.below hx
    refine Spec.bind ((constrainBooleans_spec (bus := bus) (NP := NP) (l := n.2.1) h6.inv ?_
      h5.nodup).mono (fun τ _ h => h.1.1.2) (fun _ _ h => h)
      (Q' := fun _ τ => (∀ e ∈ n.1, eval τ e = 0) ∧ τ x = eval τ r) ?_) ?_
    · intro z hz
      refine ⟨(h5.newVar z hz).2, ?_⟩
      rw [h5.rcs]
      exact hi.rcs z (h5.newVar z hz).1
    · rintro s1 - h7 τ' - ⟨τ, ⟨⟨⟨hq1, -⟩, hq2⟩, -⟩, -, hag⟩ -
      refine ⟨fun e he => ?_, ?_⟩
      · rw [hag.eval (h5.wf e he).2]
        exact hq1 e he
      · rw [hag x hx2, hag.eval hb2]
        exact hq2
    · intro s1 hf h7
      refine Spec.bind ((addAlgebraic_spec (bus := bus) (NP := NP) (s := s1) h7.inv
        (es := n.1) fun e he => ⟨(h5.wf e he).1, h7.belowE (h5.wf e he).2⟩).mono
        (fun τ _ h => h.1.1) (fun _ _ h => h) (Q' := fun _ τ => τ x = eval τ r) ?_) ?_
      · rintro s2 - h8 τ' - ⟨τ, ⟨⟨-, hq2⟩, -⟩, -, hag⟩ -
        have hag : s1.Agree τ' τ := hag
        rw [hag x (h7.below hx2), hag.eval (h7.belowE hb2)]
        exact hq2
      · intro s2 _ h8
        have hi2 : s2.Inv := h8.inv
        rw [stop_pure]
        refine ⟨.of_same ?_ rfl rfl (fun _ => le_rfl) ?_, trivial⟩
        · exact
          { cs := hi2.cs
            wf := hi2.wf
            below := hi2.below
            rcs := hi2.rcs
            linKey := hi2.linKey
            linValue := hi2.linValue
            cache := hi2.cache
            ret := fun y hy => by
              rcases List.mem_append.1 hy with hy | hy
              · exact hi2.ret y hy
              · rw [List.mem_singleton] at hy
                subst hy
                exact ⟨h8.below (h7.below hx2), hw, h8.belowE (h7.belowE hb2), ha⟩ }
        · rintro τ hg ⟨hq, -⟩
          have hg : Good bus τ s2 := hg
          refine ⟨⟨hg.sat, hg.rcs, hg.lin, fun y hy => ?_, hg.cache⟩, trivial⟩
          rcases List.mem_append.1 hy with hy | hy
          · exact hg.ret y hy
          · rw [List.mem_singleton] at hy
            subst hy
            exact hq

theorem belowE_const (c : ZMod p) : s.BelowE (const c) := by
  intro v hv
  rw [vars_const] at hv
  cases hv

theorem applyRc_spec {NP : Prop} (hi : s.Inv) {x : SVar V} (hx : s.Below x)
    (r : RangeConstraint p) :
    Spec bus NP s (fun τ => r.Allows (τ x)) Prod.snd (fun _ => True) (fun _ _ => True)
      (applyRc x r s) := by
  unfold applyRc
  rcases updateRc_cases x r s with h | h
  · rw [h]; exact ⟨.refl hi fun _ _ _ => trivial, trivial⟩
  · rw [h]
    simp only
    rw [setRc_rcs]
    have he := ext_setRc (bus := bus) hi hx r
    cases hv : ((s.rcs x).conjunction r).tryToSingleValue with
    | some value =>
      simp only
      refine Spec.after he ?_
      refine Spec.bind ((applyAssignment_spec (bus := bus) (NP := NP) he.inv (x := x)
        (r := const value) hx (wf_const value) (belowE_const value) (affine_const value)).mono ?_
        (fun _ _ h => h) (fun _ _ _ _ _ _ h => h)) ?_
      · intro τ hg _
        have := hg.rcs x
        rw [setRc_rcs] at this
        rw [eval_const]
        exact (RangeConstraint.tryToSingleValue_eq_some hv _).1 this
      · intro s1 _ h1
        exact ⟨.refl h1.inv fun _ _ _ => trivial, trivial⟩
    | none =>
      simp only
      refine Spec.after he ?_
      obtain ⟨cs, h1, h2, h3⟩ := variableUpdated_ok he.inv x
      rw [h1, stop_bind, stop_pure]
      exact ⟨.of_same (he.inv.sameIx h3 h2) rfl rfl (fun _ => le_rfl)
        fun τ hg _ => ⟨hg.sameIx h2, trivial⟩, trivial⟩

theorem addRange_spec {NP : Prop} (hi : s.Inv) {x : SVar V} (hx : s.Below x)
    (r : RangeConstraint p) :
    Spec bus NP s (fun τ => r.Allows (τ x)) id (fun _ => True) (fun _ _ => True)
      (addRange x r s) := by
  unfold addRange
  refine Spec.after (ext_clearCache hi) ?_
  refine Spec.bind ((applyRc_spec (bus := bus) (NP := NP) hi.clearCache (x := x) hx r).mono
    (fun τ _ h => h.1) (fun _ _ h => h) (fun _ _ _ _ _ _ h => h)) ?_
  intro s1 _ h1
  exact ⟨.refl h1.inv fun _ _ _ => trivial, trivial⟩

/-! ### Effects -/

/-- The effect can be applied: it is about a known variable, and neither a
conditional assignment nor an assertion. -/
def Applicable (s : Solver p V) (eff : Effect p (SVar V)) : Prop :=
  (∃ v a, eff = .assignment v a ∧ s.Below v) ∨ ∃ v r, eff = .rangeConstraint v r ∧ s.Below v

theorem Applicable.mono {P Q : (SVar V → ZMod p) → Prop} {eff : Effect p (SVar V)}
    (h : s.Applicable eff) (hx : Ext bus P s s' Q) : s'.Applicable eff := by
  rcases h with ⟨v, a, rfl, h⟩ | ⟨v, r, rfl, h⟩
  · exact Or.inl ⟨v, a, rfl, hx.below h⟩
  · exact Or.inr ⟨v, r, rfl, hx.below h⟩

theorem Applicable.congr {eff : Effect p (SVar V)} (h : s.Applicable eff)
    {τ' τ : SVar V → ZMod p} (ha : s.Agree τ' τ) : eff.Holds τ' ↔ eff.Holds τ := by
  rcases h with ⟨v, a, rfl, h⟩ | ⟨v, r, rfl, h⟩
  · simp only [Effect.Holds, ha v h]
  · simp only [Effect.Holds, ha v h]

theorem applyEffect_spec {NP : Prop} (hi : s.Inv) {eff : Effect p (SVar V)}
    (ha : s.Applicable eff) :
    Spec bus NP s (fun τ => eff.Holds τ) Prod.snd (fun _ => True) (fun _ _ => True)
      (applyEffect s eff) := by
  rcases ha with ⟨v, a, rfl, h⟩ | ⟨v, r, rfl, h⟩
  · rw [applyEffect]
    refine Spec.bind ((applyAssignment_spec (bus := bus) (NP := NP) hi (x := v) (r := const a) h
      (wf_const a) (belowE_const a) (affine_const a)).mono (fun τ _ h => by
        rw [eval_const]; exact h) (fun _ _ h => h) (fun _ _ _ _ _ _ h => h)) ?_
    intro s1 _ h1
    exact ⟨.refl h1.inv fun _ _ _ => trivial, trivial⟩
  · rw [applyEffect]
    exact (applyRc_spec (bus := bus) (NP := NP) hi h r).mono
      (fun τ _ h => (RangeConstraint.allowsValue_iff _ _).1 h) (fun _ _ h => h)
      (fun _ _ _ _ _ _ h => h)

theorem applyEffects_spec {NP : Prop} : ∀ {l : List (Effect p (SVar V))} {s : Solver p V}, s.Inv →
    (∀ eff ∈ l, s.Applicable eff) →
    Spec bus NP s (fun τ => ∀ eff ∈ l, eff.Holds τ) Prod.snd (fun _ => True) (fun _ _ => True)
      (applyEffects l s) := by
  intro l
  induction l with
  | nil => intro s hi _; exact ⟨.refl hi fun _ _ _ => trivial, trivial⟩
  | cons e t ih =>
    intro s hi ha
    rw [applyEffects]
    refine Spec.bind ((applyEffect_spec (bus := bus) (NP := NP) hi (ha e (by simp))).mono
      (P' := fun τ => ∀ eff ∈ e :: t, eff.Holds τ) (fun τ _ h => h e (by simp)) (fun _ _ h => h)
      (fun _ _ _ _ _ _ h => h)) ?_
    intro r _ hx
    refine Spec.bind ((ih hx.inv fun eff he => (ha eff (by simp [he])).mono hx).mono
      ?_ (fun _ _ h => h) (fun _ _ _ _ _ _ h => h)) ?_
    · rintro τ - ⟨-, τ0, hp, -, hag⟩ eff he
      exact ((ha eff (by simp [he])).congr hag).2 (hp eff (by simp [he]))
    · intro rs _ hx2
      exact ⟨.refl hx2.inv fun _ _ _ => trivial, trivial⟩

/-! ### Processing a constraint -/

theorem trySimpleEquivalence_spec {e r : GExpr p (SVar V)} {v : SVar V} (hw : WF e)
    (h : trySimpleEquivalence e = some (v, r)) :
    ∃ v1, r = var v1 ∧ v ∈ vars e ∧ v1 ∈ vars e ∧ ∀ τ, eval τ e = 0 → τ v = τ v1 := by
  unfold trySimpleEquivalence at h
  split at h
  · cases h
  rename_i ha
  split at h
  · cases h
  rename_i hc
  obtain ⟨q, l, c⟩ := e
  have ha' : (⟨q, l, c⟩ : GExpr p (SVar V)).isAffine = true := by simpa using ha
  have hq : q = [] := isAffine_iff.1 ha'
  have hc0 : c = 0 := by simpa [constant] using hc
  subst hq hc0
  split at h
  · rename_i v1 c1 v2 c2 hl
    have hl : l = [(v1, c1), (v2, c2)] := hl
    subst hl
    split at h
    · rename_i hk
      cases h
      obtain ⟨-, -, hn⟩ := wf_inv hw
      have hc1 : c1 ≠ 0 := hn (v1, c1) (by simp)
      refine ⟨v1, rfl, ?_, ?_, ?_⟩
      · rw [mem_vars_mk]; exact Or.inr ⟨c2, by simp⟩
      · rw [mem_vars_mk]; exact Or.inr ⟨c1, by simp⟩
      · intro τ h0
        have hk' : -c2 = c1 := by
          field_simp at hk
          exact hk
        have hc2 : c2 = -c1 := by rw [← hk', neg_neg]
        have h0' : c1 * τ v1 + c2 * τ v = 0 := by
          have := h0
          simp [eval_mk] at this
          linear_combination this
        rw [hc2] at h0'
        have : c1 * (τ v1 - τ v) = 0 := by linear_combination h0'
        rcases mul_eq_zero.1 this with h | h
        · exact absurd h hc1
        · exact (sub_eq_zero.1 h).symm
    · cases h
  · cases h

theorem filterNew_ok (hi : s.Inv) : ∀ (es : List (GExpr p (SVar V))), ∃ l,
    filterNew s es = .ok l ∧ ∀ e ∈ l, e ∈ es := by
  intro es
  induction es with
  | nil => exact ⟨[], rfl, by simp⟩
  | cons e t ih =>
    obtain ⟨l, h1, h2⟩ := ih
    obtain ⟨refs, h3, -⟩ := refs_ok hi e.vars
    rw [filterNew, containsAlgebraic, h3, liftPanic_ok, stop_bind, stop_pure, stop_bind, h1,
      stop_bind, stop_pure]
    refine ⟨_, rfl, fun x hx => ?_⟩
    split at hx
    · exact List.mem_cons_of_mem _ (h2 x hx)
    · rcases List.mem_cons.1 hx with rfl | hx
      · simp
      · exact List.mem_cons_of_mem _ (h2 x hx)

theorem addAlgebraicIfNew_spec {NP : Prop} (hi : s.Inv) {es : List (GExpr p (SVar V))}
    (hw : ∀ e ∈ es, WF e ∧ s.BelowE e) :
    Spec bus NP s (fun τ => ∀ e ∈ es, eval τ e = 0) Prod.snd (fun _ => True) (fun _ _ => True)
      (addAlgebraicIfNew es s) := by
  obtain ⟨l, h1, h2⟩ := filterNew_ok hi es
  unfold addAlgebraicIfNew
  rw [h1, stop_bind]
  split
  · exact ⟨.refl hi fun _ _ _ => trivial, trivial⟩
  · refine Spec.bind ((addAlgebraic_spec (bus := bus) (NP := NP) hi fun e he =>
      hw e (h2 e he)).mono (fun τ _ h e he => h e (h2 e he)) (fun _ _ h => h)
      (fun _ _ _ _ _ _ h => h)) ?_
    intro s1 _ hx
    exact ⟨.refl hx.inv fun _ _ _ => trivial, trivial⟩

end Solver

/-- The conditions under which the solver does not panic. -/
structure NoPanic (h : Handler p) : Prop where
  odd : 2 < p
  small : p ≤ 2 ^ 64
  total : h.Total

namespace Solver

variable {bus : Bus p} {s s' s'' : Solver p V} {h : Handler p}

theorem solve_applicable {e : GExpr p (SVar V)} {r : ProcessResult p (SVar V)} (hb : s.BelowE e)
    (ho : GExpr.solve s.rcs e = .ok (.ok r)) (hg : GExpr.Good s.rcs e r) :
    ∀ eff ∈ r.effects, s.Applicable eff := by
  intro eff he
  have h1 := solve_simple ho eff he
  have h2 := hg.inVars eff he
  cases eff with
  | assignment v a => exact Or.inl ⟨v, a, rfl, hb v (h2 v _ rfl)⟩
  | rangeConstraint v r => exact Or.inr ⟨v, r, rfl, hb v (h2 v _ rfl)⟩
  | assertion a b c => exact absurd h1 id
  | conditionalAssignment a b c d e => exact absurd h1 id

theorem processAlgebraic_spec {order : Rearrange (Effect p (SVar V))} (hi : s.Inv)
    {e : GExpr p (SVar V)} (hw : WF e) (hb : s.BelowE e) :
    Spec bus (NoPanic h) s (fun τ => eval τ e = 0) Prod.snd (fun _ => True) (fun _ _ => True)
      (processAlgebraic order e s) := by
  unfold processAlgebraic
  cases ht : trySimpleEquivalence e with
  | some y =>
    obtain ⟨v, r⟩ := y
    obtain ⟨v1, rfl, hv, hv1, he⟩ := trySimpleEquivalence_spec hw ht
    simp only
    refine Spec.bind ((applyAssignment_spec (bus := bus) (NP := NoPanic h) hi (x := v)
      (r := var v1) (hb v hv) (wf_var v1) ?_ (affine_var v1)).mono ?_ (fun _ _ h => h)
      (fun _ _ _ _ _ _ h => h)) ?_
    · intro w hw
      rw [vars_var, List.mem_singleton] at hw
      subst hw
      exact hb w hv1
    · intro τ _ h0
      rw [eval_var]
      exact he τ h0
    · intro s1 _ hx
      exact ⟨.refl hx.inv fun _ _ _ => trivial, trivial⟩
  | none =>
    simp only
    obtain ⟨o, h1, h2⟩ := solve_spec (rc := s.rcs) hw
    rw [h1, liftPanic_ok, stop_bind]
    cases o with
    | error x =>
      intro τ hg hp
      exact h2 τ (inRange_of_vars fun v _ => hg.rcs v) hp
    | ok result =>
      simp only
      have happ := solve_applicable hb h1 h2
      have hmem : ∀ eff, eff ∈ order.1 result.effects ↔ eff ∈ result.effects := fun eff =>
        (order.2 result.effects).mem_iff
      have final : ∀ (n : Bool × Solver p V), Ext bus (fun τ => eval τ e = 0) s n.2 (fun _ => True) →
          Spec bus (NoPanic h) n.2 (After bus (fun τ => eval τ e = 0) s fun _ => True) Prod.snd
            (fun _ => True) (fun _ _ => True) (do
              let r ← applyEffects (order.1 result.effects) n.2
              pure (n.1 || r.1, r.2)) := by
        intro n hx
        refine Spec.bind ((applyEffects_spec (bus := bus) (NP := NoPanic h) hx.inv
          (l := order.1 result.effects) fun eff he => (happ eff ((hmem eff).1 he)).mono hx).mono
          ?_ (fun _ _ h => h) (fun _ _ _ _ _ _ h => h)) ?_
        · rintro τ - ⟨-, τ0, hp, hg0, hag⟩ eff he
          have he := (hmem eff).1 he
          exact ((happ eff he).congr hag).2
            (h2.sound τ0 (inRange_of_vars fun v _ => hg0.rcs v) hp eff he)
        · intro r _ hx2
          exact ⟨.refl hx2.inv fun _ _ _ => trivial, trivial⟩
      cases hsp : Splitter.trySplit s.rcs e with
      | error x =>
        intro hnp
        obtain ⟨o, ho⟩ := Splitter.trySplit_total (rc := s.rcs) hnp.small hnp.odd e
        rw [ho] at hsp
        cases hsp
      | ok split =>
        rw [liftPanic_ok, stop_bind]
        cases split with
        | none =>
          simp only
          rw [stop_pure, stop_bind]
          exact Spec.after (s' := s) (.refl hi fun _ _ _ => trivial)
            (final (false, s) (.refl hi fun _ _ _ => trivial))
        | some parts =>
          simp only
          obtain ⟨h3, h4⟩ := Splitter.trySplit_spec hsp
          refine Spec.bind ((addAlgebraicIfNew_spec (bus := bus) (NP := NoPanic h) hi
            (es := parts) fun e' he' => ⟨(h3 e' he').1, fun v hv => hb v ((h3 e' he').2 v hv)⟩).mono
            ?_ (fun _ _ h => h) (fun _ _ _ _ _ _ h => h)) ?_
          · intro τ hg hp
            exact (h4 τ (inRange_of_vars fun v _ => hg.rcs v)).1 hp
          · intro n _ hx
            exact final n hx

theorem processBus_spec (hs : h.Sound bus) {order : Rearrange (Effect p (SVar V))} (hi : s.Inv)
    {b : BusInteraction (GExpr p (SVar V))} (hw : b.WF) (hb : ∀ e ∈ b.fields, s.BelowE e) :
    Spec bus (NoPanic h) s (fun τ => bus (b.evalAt τ)) Prod.snd (fun _ => True) (fun _ _ => True)
      (processBus h order b s) := by
  unfold processBus
  cases h1 : solveBus s.rcs h b with
  | error x =>
    intro hnp
    obtain ⟨o, ho⟩ := solveBus_total (rc := s.rcs) hs hnp.total hw
    rw [ho] at h1
    cases h1
  | ok o =>
    have h2 := solveBus_spec hs hw h1
    rw [liftPanic_ok, stop_bind]
    cases o with
    | error x =>
      intro τ hg hp
      exact h2 τ (fun e _ => inRange_of_vars fun v _ => hg.rcs v) hp
    | ok effects =>
      simp only
      have hmem : ∀ eff, eff ∈ order.1 effects ↔ eff ∈ effects := fun eff =>
        (order.2 effects).mem_iff
      refine (applyEffects_spec (bus := bus) (NP := NoPanic h) hi (l := order.1 effects)
        fun eff he => ?_).mono ?_ (fun _ _ h => h) (fun _ _ _ _ _ _ h => h)
      · obtain ⟨v, r, rfl, hv⟩ := solveBus_simple h1 eff ((hmem eff).1 he)
        unfold busVars at hv
        obtain ⟨e, he, hv⟩ := List.mem_flatMap.1 hv
        exact Or.inr ⟨v, r, rfl, hb e he v hv⟩
      · intro τ hg hp eff he
        exact h2 τ (fun e _ => inRange_of_vars fun v _ => hg.rcs v) hp eff ((hmem eff).1 he)

theorem solveInIsolation_spec (hs : h.Sound bus) (order : ℕ → Rearrange (Effect p (SVar V))) :
    ∀ (fuel : ℕ) (progress : Bool) {s : Solver p V}, s.Inv →
    Spec bus (NoPanic h) s (fun _ => True) Prod.snd (fun _ => True) (fun _ _ => True)
      (solveInIsolation h order fuel progress s) := by
  intro fuel
  induction fuel with
  | zero => intro progress s _; trivial
  | succ n ih =>
    intro progress s hi
    rw [solveInIsolation]
    rcases Queued.popFront_ok hi.cs with ⟨-, h1⟩ | ⟨x, c, cs, h1, h2, -, h3, h4⟩
    · rw [h1, liftPanic_ok, stop_bind]
      exact ⟨.refl hi fun _ _ _ => trivial, trivial⟩
    · rw [h1, liftPanic_ok, stop_bind]
      simp only
      have hi' := hi.sameIx h4 h3
      have hx : Ext bus (fun _ => True) s { s with cs := cs } (fun _ => True) :=
        .of_same hi' rfl rfl (fun _ => le_rfl) fun τ hg _ => ⟨hg.sameIx h3, trivial⟩
      refine Spec.after hx ?_
      have hp : Spec bus (NoPanic h) { s with cs := cs } (After bus (fun _ => True) s fun _ => True)
          Prod.snd (fun _ => True) (fun _ _ => True) (process h (order n) c { s with cs := cs }) := by
        rw [← h3] at h2
        cases c with
        | alg e =>
          exact (processAlgebraic_spec (bus := bus) hi' (refAt_wf hi'.wf h2)
            (hi'.algBelow ((refAt_mem h2).1 e rfl))).mono
            (fun τ hg _ => refAt_holds hg.sat h2) (fun _ _ h => h) (fun _ _ _ _ _ _ h => h)
        | bus b =>
          exact (processBus_spec (bus := bus) hs hi' (refAt_wf hi'.wf h2)
            (fun e he => hi'.busBelow ((refAt_mem h2).2 b rfl) he)).mono
            (fun τ hg _ => refAt_holds hg.sat h2) (fun _ _ h => h) (fun _ _ _ _ _ _ h => h)
      refine Spec.bind hp ?_
      intro r _ hx2
      exact (ih (progress || r.1) hx2.inv).mono (fun _ _ _ => trivial) (fun _ _ h => h)
        (fun _ _ _ _ _ _ h => h)

/-! ### Exhaustive search -/

theorem applyRcs_spec {NP : Prop} : ∀ {l : List (SVar V × RangeConstraint p)} {s : Solver p V},
    s.Inv → (∀ x ∈ l, s.Below x.1) →
    Spec bus NP s (fun τ => ∀ x ∈ l, x.2.Allows (τ x.1)) Prod.snd (fun _ => True) (fun _ _ => True)
      (applyRcs l s) := by
  intro l
  induction l with
  | nil => intro s hi _; exact ⟨.refl hi fun _ _ _ => trivial, trivial⟩
  | cons x t ih =>
    intro s hi hb
    rw [applyRcs]
    refine Spec.bind ((applyRc_spec (bus := bus) (NP := NP) hi (hb x (by simp)) x.2).mono
      (P' := fun τ => ∀ y ∈ x :: t, y.2.Allows (τ y.1)) (fun τ _ h => h x (by simp))
      (fun _ _ h => h) (fun _ _ _ _ _ _ h => h)) ?_
    intro r _ hx
    refine Spec.bind ((ih hx.inv fun y hy => hx.below (hb y (by simp [hy]))).mono
      ?_ (fun _ _ h => h) (fun _ _ _ _ _ _ h => h)) ?_
    · rintro τ - ⟨-, τ0, hp, -, hag⟩ y hy
      rw [hag y.1 (hb y (by simp [hy]))]
      exact hp y (by simp [hy])
    · intro rs _ hx2
      exact ⟨.refl hx2.inv fun _ _ _ => trivial, trivial⟩

theorem searchSets_spec (hs : h.Sound bus) : ∀ {sets : List (List (SVar V))}
    (bad : List (List (SVar V))) (progress : Bool) {s : Solver p V}, s.Inv →
    (∀ vs ∈ sets, ∀ v ∈ vs, s.Below v ∧ (s.rcs v).width < 2 ^ 32) →
    Spec bus (NoPanic h) s (fun _ => True) Prod.snd (fun _ => True) (fun _ _ => True)
      (searchSets h sets bad progress s) := by
  intro sets
  induction sets with
  | nil => intro bad progress s hi _; exact ⟨.refl hi fun _ _ _ => trivial, trivial⟩
  | cons vs t ih =>
    intro bad progress s hi hv
    rw [searchSets]
    generalize hvs : (vs.filter fun v => (s.rcs v).tryToSingleValue.isNone) = ws
    have hws : ∀ v ∈ ws, s.Below v ∧ (s.rcs v).width < 2 ^ 32 := fun v h => by
      rw [← hvs] at h
      exact hv vs (by simp) v (List.mem_filter.1 h).1
    split
    · exact ih bad progress hi fun us hu => hv us (by simp [hu])
    · cases h1 : exhaustiveSearchOn s.cs.ix ws s.rcs h with
      | error x =>
        intro hnp
        obtain ⟨o, ho⟩ := exhaustiveSearchOn_total hs hnp.total hi.cs.ix hi.wf (rc := s.rcs)
          (vs := ws) fun v hv => (hws v hv).2
        rw [ho] at h1
        cases h1
      | ok o =>
        rw [liftPanic_ok, stop_bind]
        cases o with
        | error x =>
          intro τ hg _
          obtain ⟨m, hm, -⟩ := exhaustiveSearchOn_spec hs hi.cs.ix hi.wf hg.rcs hg.sat h1
          cases hm
        | ok m =>
          simp only
          split
          · exact ih _ progress hi fun us hu => hv us (by simp [hu])
          · refine Spec.bind ((applyRcs_spec (bus := bus) (NP := NoPanic h) hi (l := m) ?_).mono
              ?_ (fun _ _ h => h) (fun _ _ _ _ _ _ h => h)) ?_
            · intro x hx
              rcases exhaustiveSearchOn_keys hi.cs.ix hi.wf h1 x hx with h2 | h2
              · exact hi.below _ h2
              · exact (hws _ h2).1
            · intro τ hg _
              obtain ⟨m', hm, h2⟩ := exhaustiveSearchOn_spec hs hi.cs.ix hi.wf hg.rcs hg.sat h1
              cases hm
              exact h2
            · intro r _ hx
              refine (ih bad (progress || r.1) hx.inv fun us hu v hv' => ?_).mono
                (fun _ _ _ => trivial) (fun _ _ h => h) (fun _ _ _ _ _ _ h => h)
              obtain ⟨h2, h3⟩ := hv us (by simp [hu]) v hv'
              exact ⟨hx.below h2, lt_of_le_of_lt (hx.width v) h3⟩

theorem mem_insertByLength {α : Type} {l m : List α} {ls : List (List α)} :
    m ∈ insertByLength l ls ↔ m = l ∨ m ∈ ls := by
  induction ls with
  | nil => simp [insertByLength]
  | cons x t ih =>
    rw [insertByLength]
    split
    · simp
    · rw [List.mem_cons, ih, List.mem_cons]; tauto

theorem mem_sortByLength {α : Type} {m : List α} {ls : List (List α)} :
    m ∈ ls.foldr insertByLength [] ↔ m ∈ ls := by
  induction ls with
  | nil => simp
  | cons x t ih => rw [List.foldr_cons, mem_insertByLength, ih, List.mem_cons]

theorem exhaustiveSearch_spec (hs : h.Sound bus) (hi : s.Inv) :
    Spec bus (NoPanic h) s (fun _ => True) Prod.snd (fun _ => True) (fun _ _ => True)
      (exhaustiveSearch h s) := by
  unfold exhaustiveSearch
  refine searchSets_spec hs _ _ hi fun vs hvs v hv => ?_
  rw [mem_sortByLength] at hvs
  exact ⟨hi.below v (bruteForceCandidates_vars hvs v hv), bruteForceCandidates_width hvs v hv⟩

theorem loopUntilNoProgress_spec (hs : h.Sound bus) (ch : Choices p V) : ∀ (n : ℕ)
    {s : Solver p V}, s.Inv →
    Spec bus (NoPanic h) s (fun _ => True) id (fun _ => True) (fun _ _ => True)
      (loopUntilNoProgress h ch n s) := by
  intro n
  induction n with
  | zero => intro s _; trivial
  | succ n ih =>
    intro s hi
    rw [loopUntilNoProgress]
    refine Spec.bind (solveInIsolation_spec hs ch.effects ch.fuel false hi) ?_
    intro r _ hx
    have hlast : ∀ (r2 : Bool × Solver p V) {P : (SVar V → ZMod p) → Prop}, r2.2.Inv →
        Spec bus (NoPanic h) r2.2 P id (fun _ => True) (fun _ _ => True)
          (if r2.1 = true then loopUntilNoProgress h ch n r2.2 else pure r2.2) := by
      intro r2 P hi2
      split
      · exact (ih hi2).mono (fun _ _ _ => trivial) (fun _ _ h => h) (fun _ _ _ _ _ _ h => h)
      · rw [stop_pure]
        exact ⟨.refl hi2 fun _ _ _ => trivial, trivial⟩
    simp only
    split
    · rw [stop_pure, stop_bind]
      exact hlast r hx.inv
    · refine Spec.bind ((exhaustiveSearch_spec hs hx.inv).mono (fun _ _ _ => trivial)
        (fun _ _ h => h) (fun _ _ _ _ _ _ h => h)) ?_
      intro r2 _ hx2
      exact hlast r2 hx2.inv

end Solver

end Verif
