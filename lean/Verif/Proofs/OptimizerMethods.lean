import Verif.Proofs.OptimizerVars
import Verif.Spec.OptimizerMethods

/-! Proofs about the computation methods in the optimizer. -/

set_option linter.unusedSectionVars false

namespace Verif

open GExpr

variable {p : ℕ} {V : Type} [LinearOrder V] [Fact p.Prime]

/-- The columns of the derived variables are in `B`, the variables of their methods in `A`. -/
def DerivedOnly (A B : V → Prop) (ds : List (DerivedVariable p V)) : Prop :=
  ∀ d ∈ ds, B d.column ∧ ∀ v, d.method.Mentions v → A v

variable {A B : V → Prop}

theorem methodOnly_quotient {e1 e2 : GExpr p V} (h1 : e1.Only A) (h2 : e2.Only A) (v : V)
    (h : (ComputationMethod.quotientOrZero e1 e2).Mentions v) : A v :=
  h.elim (fun h => h1 v (mem_vars_iff_occurs.2 h)) fun h => h2 v (mem_vars_iff_occurs.2 h)

theorem derivedOnly_map {f : GExpr p V → GExpr p V} (hf : ∀ e, e.Only A → (f e).Only A)
    {ds : List (DerivedVariable p V)} (h : DerivedOnly A B ds) :
    DerivedOnly A B (ds.map fun d => ⟨d.column, d.method.mapExpr f⟩) := by
  intro d' hd'
  obtain ⟨⟨c, m⟩, hd, rfl⟩ := List.mem_map.1 hd'
  obtain ⟨h1, h2⟩ := h _ hd
  refine ⟨h1, ?_⟩
  cases m with
  | constant c => exact fun v hv => hv.elim
  | quotientOrZero e1 e2 =>
    exact methodOnly_quotient (hf e1 fun v hv => h2 v (Or.inl (mem_vars_iff_occurs.1 hv)))
      (hf e2 fun v hv => h2 v (Or.inr (mem_vars_iff_occurs.1 hv)))

theorem derivedOnly_foldl_subst {l : List (V × GExpr p V)} (hl : ∀ x ∈ l, x.2.Only A)
    {s : ConstraintSystem p V} (h : DerivedOnly A B s.derived) :
    DerivedOnly A B (l.foldl (fun s x => s.mapExpr (GExpr.subst x.1 x.2)) s).derived := by
  induction l generalizing s with
  | nil => exact h
  | cons x t ih =>
    rw [List.foldl_cons]
    exact ih (fun y hy => hl y (List.mem_cons_of_mem _ hy))
      (derivedOnly_map (fun e he => only_subst _ (hl x List.mem_cons_self) he) h)

theorem derivedOnly_solverBased {bus : Bus p} {h : Handler p} (hs : h.Sound bus) {ch : Choices p V}
    {ix : Indexed p V} (hi : ix.Inv) {solver solver' : Solver p V} {s' : ConstraintSystem p V}
    {l : List (V × GExpr p V)} (hsc : Solver.Scoped (SVar.Over A) solver)
    (hd : DerivedOnly A B ix.sys.derived)
    (hr : solverBased h ch ix solver = .ok (s', l, solver')) : DerivedOnly A B s'.derived := by
  obtain ⟨h1, rfl⟩ := solverBased_ok hr
  obtain ⟨-, l', k2, k3⟩ := solve_over hs hsc h1
  cases k2
  show DerivedOnly A B (ix.applySubsts l).sys.derived
  rw [applySubsts_sys hi]
  refine derivedOnly_foldl_subst (fun x hx => ?_) hd
  rcases (k3 x hx).2 with ⟨k, hk⟩ | ⟨u, hu, -, hk⟩
  · rw [hk]; exact only_const k
  · rw [hk]; exact only_var hu

theorem derivedOnly_trivial {f : ZMod p → Bool} {s s' : ConstraintSystem p V} (hw : s.WF)
    (h : trivialSimplifications f s = .ok s') (hd : DerivedOnly A B s.derived) :
    DerivedOnly A B s'.derived := by
  unfold trivialSimplifications at h
  simp only at h
  rw [Except.bind_ok_iff] at h
  obtain ⟨s1, h1, h⟩ := h
  cases h
  have hw0 : (removeEqualBus f (removeTrivial s)).WF :=
    wf_sublist hw (fun e he => (List.mem_filter.1 he).1)
      (fun x hx => (List.mem_filter.1 ((retainUnseen_sublist f _ _).subset hx)).1) _
  obtain ⟨-, -, e, -⟩ := removeRedundant_spec h1 hw0
  intro d hd'
  have := (List.mem_filter.1 hd').1
  rw [e] at this
  exact hd d this

theorem memory_derived {bus : Bus p} {h : Handler p} (hs : h.Sound bus)
    {S : (V → ZMod p) → Prop} {id : Option ℕ} {s s' : ConstraintSystem p V} {solver solver' : Solver p V}
    (hw : s.WF) (hm : solver.MadeFor bus h S)
    (hr : optimizeMemory h id s solver = .ok (s', solver')) : s'.derived = s.derived := by
  cases id with
  | none => cases hr; rfl
  | some id =>
    obtain ⟨P, -, hP, -, -, -, rfl⟩ := optimizeMemory_ok hs hw hm hr
    rfl

/-! ### The rules -/

theorem derivedOnly_applyAction {st : DriverState p V} {a : RuleAction p V} (ha : a.Only A)
    (h : DerivedOnly A B st.system.derived) : DerivedOnly A B (applyAction st a).system.derived := by
  cases a with
  | updateRange v rc =>
    simp only [applyAction]
    split
    · split
      · exact derivedOnly_map (fun e => only_substKnown _ _) h
      · exact h
    · exact h
  | substituteByConstant v val => exact derivedOnly_map (fun e => only_substKnown _ _) h
  | substituteByVariable v w => exact derivedOnly_map (fun e => only_subst _ (only_var ha.2)) h

theorem methodOnly_requested {inp : RuleInput p V}
    (hin : ∀ {f}, Derives inp f → ∃ (E : Set (GExpr p V)) (k M : ℕ), (∀ e ∈ E, e.Only A) ∧
      f.In (factSets inp (· ∈ E) A k M)) {m : ComputationMethod p (GExpr p V)}
    (h : MethodRequested inp m) (v : V) (hv : m.Mentions v) : A v := by
  cases h with
  | freeVariables h h1 h2 hr =>
    obtain ⟨rfl, rfl, -⟩ := freeVariableParts_inv hr
    obtain ⟨E, k, M, hE, i1, -, i3, -, i5⟩ := hin h
    refine methodOnly_quotient ?_ ?_ v hv
    · intro v hv
      rw [vars_neg] at hv
      exact only_sum (only_remaining (hE _ i1) _ _) v hv
    · exact only_add (only_scale _ fun v hv => hE _ i3 v (squareIfNeeded_vars _ _ hv))
        (only_scale _ fun v hv => hE _ i5 v (squareIfNeeded_vars _ _ hv))
  | equalZero h =>
    obtain ⟨E, k, M, hE, -, -, -, -, i5⟩ := hin h
    refine methodOnly_quotient (only_const _) (only_sum fun e he => ?_) v hv
    obtain ⟨v, hv, rfl⟩ := List.mem_map.1 he
    exact only_var (i5 v hv)

theorem derivedOnly_driver {rc : V → RangeConstraint p} {h : Handler p}
    {lt : GExpr p V → GExpr p V → Prop} {intBits : ℕ} {bound : Option DegreeBound}
    {ok : RuleInput p V → ConstraintSystem p V → ConstraintSystem p V → Prop} {st st' : DriverState p V}
    {news : List (DerivedVariable p V)} (hw : st.system.WF) (h0 : st.OnlyVars A)
    (hd : DerivedOnly A B st.system.derived)
    (run : DriverRun rc h lt intBits bound ok st st' news)
    (hnews : ∀ d ∈ news, A d.column ∧ B d.column) : DerivedOnly A B st'.system.derived := by
  induction run with
  | refl => exact hd
  | @round st' news run new inp hinp hnew actions hactions rs hrs hok ih =>
    have hn' : ∀ d ∈ news, A d.column ∧ B d.column := fun d hd => hnews d (List.mem_append.2 (Or.inl hd))
    have io := onlyVars_driver hw h0 run fun d hd => (hn' d hd).1
    have ih := ih hn'
    have hwi := wf_driverInput (wf_of_run hw run) hinp
    obtain ⟨ranges, i0, i1, i2, i3, i4, i5, -⟩ := driverInput_ok hinp
    have hin : ∀ {f}, Derives inp f → ∃ (E : Set (GExpr p V)) (k M : ℕ), (∀ e ∈ E, e.Only A) ∧
        f.In (factSets inp (· ∈ E) A k M) := by
      intro f hf
      refine in_of_input hwi (by rw [i1]; exact io.sys.algebraic) ?_ (by rw [i3]; exact io.ranges)
        ?_ hf
      · rw [i2]
        refine groupRanges_spec (fun e _ => e.Only A) (fun e r r' h _ => h) fun x hx => ?_
        obtain ⟨b, hb, hm⟩ := busRanges_mem i0 x hx
        exact io.sys.bus b hb _ hm
      · rw [i4]
        intro v hv
        exact OnlyVars.vars io.sys v (List.mem_dedup.1 (List.mem_filter.1 hv).1)
    have hact : ∀ a ∈ actions, a.Only A := by
      intro a ha
      have := hactions a ha
      cases a with
      | updateRange v rc => obtain ⟨E, k, M, -, h⟩ := hin this; exact h.1
      | substituteByConstant v val => obtain ⟨E, k, M, -, h⟩ := hin this; exact h
      | substituteByVariable v w => obtain ⟨E, k, M, -, h⟩ := hin this; exact h
    have key : ∀ (as : List (RuleAction p V)) (st : DriverState p V),
        DerivedOnly A B st.system.derived → (∀ a ∈ as, a.Only A) →
        DerivedOnly A B (as.foldl applyAction st).system.derived := by
      intro as
      induction as with
      | nil => exact fun _ h _ => h
      | cons a t ih =>
        intro st h ha
        exact ih _ (derivedOnly_applyAction (ha a (by simp)) h) fun b hb => ha b (by simp [hb])
    have h1 := key actions _ ih hact
    obtain ⟨acc, hacc, heq, -⟩ := batchReplace_spec (beforeBatch st' actions new) rs bound
    show DerivedOnly A B (batchReplace (beforeBatch st' actions new) rs bound).2.derived
    rw [heq]
    intro d hd
    rcases List.mem_append.1 hd with hd | hd
    · exact h1 d hd
    · exact ⟨(hnews d (List.mem_append.2 (Or.inr hd))).2, methodOnly_requested hin (hnew d hd)⟩

/-! ### The inliner -/

theorem derivedOnly_inlineFirst {should : ShouldInline p V} {s0 : ConstraintSystem p V}
    (hA : ∀ v ∈ systemVars s0, A v) {st st' : InlineState p V} (h : InlineInv s0 st) {i : ℕ}
    {e : GExpr p V} (hi : st.ix.sys.algebraic[i]? = some e) {l : List (V × GExpr p V)}
    (hl : ∀ y ∈ l, trySolveFor e y.1 = .ok (some y.2)) (hd : DerivedOnly A B st.ix.sys.derived)
    (hr : inlineFirst should i st l = .ok st') : DerivedOnly A B st'.ix.sys.derived := by
  induction l with
  | nil => cases hr; exact hd
  | cons y t ih =>
    obtain ⟨x, r⟩ := y
    rw [inlineFirst, Except.bind_ok_iff] at hr
    obtain ⟨b, -, hr⟩ := hr
    cases b with
    | false => exact ih (fun y hy => hl y (List.mem_cons_of_mem _ hy)) hr
    | true =>
      cases hr
      have hstep := inline_step h hi (hl (x, r) List.mem_cons_self)
      have hr : r.Only A := fun v hv =>
        hA v ((hstep.subVars (x, r) (by simp [subsInsert])).2 v hv)
      show DerivedOnly A B (st.ix.subst x r).sys.derived
      rw [Indexed.subst_sys h.ix]
      exact derivedOnly_map (fun e he => only_subst _ hr he) hd

theorem derivedOnly_inlinePass {should : ShouldInline p V} {s0 : ConstraintSystem p V}
    (hA : ∀ v ∈ systemVars s0, A v) {l : List ℕ} (hl : ∀ i ∈ l, i < s0.algebraic.length)
    {st st' : InlineState p V} (h : InlineInv s0 st) (hd : DerivedOnly A B st.ix.sys.derived)
    (hr : inlinePass should l st = .ok st') : DerivedOnly A B st'.ix.sys.derived := by
  induction l generalizing st with
  | nil => cases hr; exact hd
  | cons i t ih =>
    rw [inlinePass, Except.bind_ok_iff] at hr
    obtain ⟨st1, h1, hr⟩ := hr
    refine ih (fun j hj => hl j (List.mem_cons_of_mem _ hj))
      ((inlineAt_spec should h (hl i (by simp))).1 st1 h1).1 ?_ hr
    rw [inlineAt] at h1
    cases he : st.ix.sys.algebraic[i]? with
    | none => rw [he] at h1; cases h1
    | some e =>
      obtain ⟨r, hr, hr'⟩ := findInlinable_spec (h.wf.1 e (List.mem_iff_getElem?.2 ⟨i, he⟩))
        ((e.linear.map (·.1)).reverse)
      simp only [he, findInlinableVariables, hr, ok_bind] at h1
      exact derivedOnly_inlineFirst hA h he hr' hd h1

theorem derivedOnly_inlineLoop {should : ShouldInline p V} {s0 : ConstraintSystem p V}
    (hA : ∀ v ∈ systemVars s0, A v) {fuel : ℕ} {st st' : InlineState p V} (h : InlineInv s0 st)
    (hd : DerivedOnly A B st.ix.sys.derived)
    (hr : inlineLoop should s0.algebraic.length fuel st = .ok (some st')) :
    DerivedOnly A B st'.ix.sys.derived := by
  induction fuel generalizing st with
  | zero => cases hr
  | succ n ih =>
    rw [inlineLoop, Except.bind_ok_iff] at hr
    obtain ⟨st1, h1, hr⟩ := hr
    have hl : ∀ i ∈ (List.range s0.algebraic.length).reverse, i < s0.algebraic.length :=
      fun i hi => by simpa using hi
    have hd1 := derivedOnly_inlinePass hA hl h hd h1
    split at hr
    · cases hr; exact hd1
    · exact ih ((inlinePass_spec should _ hl h).1 st1 h1).1 hd1 hr

theorem derivedOnly_inline {s : Indexed p V} (hi : s.Inv) (hw : s.sys.WF) {should : ShouldInline p V}
    {fuel : ℕ} {ix : Indexed p V} {subs : List (V × GExpr p V)} (hA : ∀ v ∈ systemVars s.sys, A v)
    (hd : DerivedOnly A B s.sys.derived)
    (h : replaceConstrainedWitnessColumns fuel s should = .ok (some (ix, subs))) :
    DerivedOnly A B ix.sys.derived := by
  rw [replaceConstrainedWitnessColumns] at h
  cases hs : inlineLoop should s.sys.algebraic.length fuel ⟨s, [], []⟩ with
  | error p => rw [hs] at h; cases h
  | ok o =>
    rw [hs, ok_bind] at h
    cases o with
    | none => cases h
    | some st =>
      simp only at h
      split at h
      · cases h
        exact derivedOnly_inlineLoop hA (inlineInv_init hi hw) hd hs
      · cases h

/-! ### Rounds and runs -/

theorem ConstraintRound.derivedOnly [Fintype V] (hV : Fintype.card V ≤ p) {c : OptimizerConfig p V}
    {bus : Bus p} (hc : c.Correct bus) {S : (V → ZMod p) → Prop} {m m' : Memory p}
    {s0 s s' : ConstraintSystem p V} (h : Stage c bus S m m' s0 s) {solver solver' : Solver p V}
    (hm : solver.MadeFor bus c.handler S)
    {ok : RuleInput p V → ConstraintSystem p V → ConstraintSystem p V → Prop}
    (hcmp : ∀ σ, S σ → ComparisonsRight σ ok)
    (r : ConstraintRound c ok s solver s' solver')
    (hnews : ∀ σ, S σ → ∀ d ∈ r.new7, d.Computed σ)
    (hd : s.OnlyVars A) (hsc : Solver.Scoped (SVar.Over A) solver)
    (hA : ∀ d ∈ r.new7, A d.column ∧ B d.column) (hB : DerivedOnly A B s.derived) :
    DerivedOnly A B s'.derived := by
  obtain ⟨-, -, -, -, g5, g6, -, m7, g8, -⟩ := r.stages hV hc h hm hcmp hnews
  have hs := hc.handler
  obtain ⟨d1, -⟩ := onlyVars_solverBased (A := A) hs (Indexed.inv_history _ _)
    (by have := r.ix0.sys; rw [← this] at hd; exact hd) hsc r.step1
  have b1 : DerivedOnly A B r.s1.derived := derivedOnly_solverBased hs (Indexed.inv_history _ _) hsc
    (by have := r.ix0.sys; rw [← this] at hB; exact hB) r.step1
  have d2 : (removeTrivial r.s1).OnlyVars A := onlyVars_filter d1
  have b2 : DerivedOnly A B (removeTrivial r.s1).derived := b1
  obtain ⟨d3, b3⟩ : r.s3.OnlyVars A ∧ DerivedOnly A B r.s3.derived := by
    obtain ⟨delete, -, -, -, h4⟩ := removeFree_ok r.step3
    rw [h4]
    exact ⟨onlyVars_filter (by rw [IndexOf.eq]; exact d2),
      by show DerivedOnly A B r.ix2.ix.sys.derived; rw [IndexOf.eq]; exact b2⟩
  obtain ⟨d4, b4⟩ : r.s4.OnlyVars A ∧ DerivedOnly A B r.s4.derived := by
    obtain ⟨keep, -, -, -, h4⟩ := removeDisconnected_ok (Indexed.inv_history _ _) r.step4
    rw [h4]
    exact ⟨onlyVars_filter (by rw [r.ix3.sys]; exact d3),
      by show DerivedOnly A B (indexedHistory r.ix3.base r.ix3.ops).sys.derived; rw [r.ix3.sys]; exact b3⟩
  have d5 : r.s5.OnlyVars A := onlyVars_simplifyExhaustive (by rw [IndexOf.eq]; exact d4) r.step5
  have b5 : DerivedOnly A B r.s5.derived := by
    rw [simplifyExhaustive_derived r.step5, IndexOf.eq]; exact b4
  have d6 : r.s6.OnlyVars A := onlyVars_trivial d5 r.step6
  have b6 : DerivedOnly A B r.s6.derived := derivedOnly_trivial g5.wf r.step6 b5
  have b7 : DerivedOnly A B r.st.finish.system.derived :=
    (derivedOnly_driver g6.wf (onlyVars_driverStart d6) b6 r.step7 hA :
      DerivedOnly A B r.st.system.derived)
  rw [lowDegree_derived r.step10, memory_derived hs g8.wf m7 r.step9]
  exact b7

theorem OptimizeLoop.derivedOnly [Fintype V] (hV : Fintype.card V ≤ p) {c : OptimizerConfig p V}
    {bus : Bus p} (hc : c.Correct bus) {S : (V → ZMod p) → Prop} {m m' : Memory p}
    {s0 : ConstraintSystem p V}
    {ok : RuleInput p V → ConstraintSystem p V → ConstraintSystem p V → Prop}
    (hcmp : ∀ σ, S σ → ComparisonsRight σ ok)
    {s s' : ConstraintSystem p V} {solver solver' : Solver p V}
    (l : OptimizeLoop c ok s solver s' solver') (h : Stage c bus S m m' s0 s)
    (hm : solver.MadeFor bus c.handler S) (hnews : ∀ σ, S σ → ∀ d ∈ l.news, d.Computed σ)
    (hrh : c.rangeHandler.KeepsVars) (hd : s.OnlyVars A) (hsc : Solver.Scoped (SVar.Over A) solver)
    (hA : ∀ d ∈ l.news, A d.column ∧ B d.column) (hB : DerivedOnly A B s.derived) :
    DerivedOnly A B s'.derived := by
  induction l with
  | one r => exact r.derivedOnly hV hc h hm hcmp hnews hd hsc hA hB
  | more r rest ih =>
    have hn1 : ∀ σ, S σ → ∀ d ∈ r.new7, d.Computed σ :=
      fun σ hσ d hd => hnews σ hσ d (List.mem_append.2 (Or.inl hd))
    have hA1 : ∀ d ∈ r.new7, A d.column ∧ B d.column :=
      fun d hd => hA d (List.mem_append.2 (Or.inl hd))
    obtain ⟨-, -, -, -, -, -, -, -, -, -, h1, h2⟩ := r.stages hV hc h hm hcmp hn1
    obtain ⟨k1, k2⟩ := r.onlyVars hV hc h hm hcmp hn1 hrh hd hsc fun d hd => (hA1 d hd).1
    exact ih h1 h2 (fun σ hσ d hd => hnews σ hσ d (List.mem_append.2 (Or.inr hd))) k1 k2
      (fun d hd => hA d (List.mem_append.2 (Or.inr hd)))
      (r.derivedOnly hV hc h hm hcmp hn1 hd hsc hA1 hB)

theorem OptimizePasses.derivedOnly [Fintype V] (hV : Fintype.card V ≤ p) {c : OptimizerConfig p V}
    {bus : Bus p} (hc : c.Correct bus) {s s' : ConstraintSystem p V} (hw : s.WF)
    {ok : RuleInput p V → ConstraintSystem p V → ConstraintSystem p V → Prop}
    (r : OptimizePasses c ok s s') {w : ℕ}
    (he : c.rangeHandler.Exact bus w r.st.finish.system.bus)
    (hrh : c.rangeHandler.KeepsVars) (hd : s.OnlyVars A)
    (hA : ∀ d ∈ r.news, A d.column ∧ B d.column) (hB : DerivedOnly A B s.derived) :
    DerivedOnly A B s'.derived := by
  have h : Stage c bus (fun _ => False) (fun _ => none) (fun _ => none) s s :=
    ⟨hw, fun _ hf => hf.elim, fun _ hf => hf.elim, fun _ hf => hf.elim, fun _ hf => hf.elim⟩
  obtain ⟨m0, g1, g2, g3, g4, g5, g6⟩ := r.stages hV hc h (fun _ hf => hf.elim) (fun _ hf => hf.elim) he
  have hs := hc.handler
  have hA1 : ∀ d ∈ r.loop.news, A d.column ∧ B d.column :=
    fun d hd => hA d (List.mem_append.2 (Or.inl hd))
  obtain ⟨d1, v1⟩ := r.loop.onlyVars (A := A) hV hc (fun _ hf => hf.elim) h m0
    (fun _ hf => hf.elim) hrh hd (newSolver_over hs hw hd r.step0) fun d hd => (hA1 d hd).1
  have b1 := r.loop.derivedOnly (A := A) (B := B) hV hc (fun _ hf => hf.elim) h m0
    (fun _ hf => hf.elim) hrh hd (newSolver_over hs hw hd r.step0) hA1 hB
  have hw1 : (indexedHistory r.ix1.base r.ix1.ops).sys.WF := by rw [r.ix1.sys]; exact g1.wf
  have d2 : r.ix2.sys.OnlyVars A := by
    have := ((replace_spec (Indexed.inv_history _ _) hw1 (belowDegreeBound c.bound) r.passes).1
      r.ix2 r.inlined r.step2).2.2.2.2.2.2.1
    rw [r.ix1.sys] at this
    rw [onlyVars_iff] at d1 ⊢
    exact fun v hv => d1 v (mentions_iff.2 (this v (mentions_iff.1 hv)))
  have b2 : DerivedOnly A B r.ix2.sys.derived := by
    refine derivedOnly_inline (Indexed.inv_history _ _) hw1 ?_ ?_ r.step2
    · rw [r.ix1.sys]
      rw [onlyVars_iff] at d1
      exact fun v hv => d1 v (mentions_iff.2 hv)
    · rw [r.ix1.sys]; exact b1
  obtain ⟨d3, b3⟩ : r.s3.OnlyVars A ∧ DerivedOnly A B r.s3.derived := by
    obtain ⟨keep, -, -, -, h4⟩ := removeDisconnected_ok (Indexed.inv_history _ _) r.step3
    rw [h4]
    exact ⟨onlyVars_filter (by rw [r.ix3.sys]; exact d2),
      by show DerivedOnly A B (indexedHistory r.ix3.base r.ix3.ops).sys.derived; rw [r.ix3.sys]; exact b2⟩
  have b4 : DerivedOnly A B r.st.finish.system.derived :=
    (derivedOnly_driver g3.wf (onlyVars_driverStart d3) b3 r.step4
      fun d hd => hA d (List.mem_append.2 (Or.inr hd)) : DerivedOnly A B r.st.system.derived)
  exact derivedOnly_trivial g5.wf r.step6 (by rw [rangeConstraints_derived r.step5]; exact b4)

end Verif
