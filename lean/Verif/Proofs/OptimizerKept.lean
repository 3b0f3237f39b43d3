import Verif.Proofs.OptimizerMethods
import Verif.Spec.OptimizerKept

/-! Proofs about the recorded columns in the optimizer. -/

set_option linter.unusedSectionVars false

namespace Verif

open GExpr

variable {p : ℕ} {V : Type} [LinearOrder V] [Fact p.Prime]

theorem recorded_mapExpr (f : GExpr p V → GExpr p V) (s : ConstraintSystem p V) :
    (s.mapExpr f).recorded = s.recorded := by
  simp [ConstraintSystem.recorded, ConstraintSystem.mapExpr]

theorem recorded_mapExprs (f : GExpr p V → GExpr p V) (s : ConstraintSystem p V) :
    (s.mapExprs f).recorded = s.recorded := by
  simp [ConstraintSystem.recorded, ConstraintSystem.mapExprs]

theorem recorded_solverBased {h : Handler p} {ch : Choices p V}
    {ix : Indexed p V} (hi : ix.Inv) {solver solver' : Solver p V} {s' : ConstraintSystem p V}
    {l : List (V × GExpr p V)} (hr : solverBased h ch ix solver = .ok (s', l, solver')) :
    s'.recorded = ix.sys.recorded := by
  obtain ⟨-, rfl⟩ := solverBased_ok hr
  show (ix.applySubsts l).sys.recorded = _
  rw [applySubsts_sys hi]
  clear hr hi
  generalize ix.sys = s
  induction l generalizing s with
  | nil => rfl
  | cons x t ih => rw [List.foldl_cons, ih, recorded_mapExpr]

theorem recorded_trivial {f : ZMod p → Bool} {s s' : ConstraintSystem p V} (hw : s.WF)
    (h : trivialSimplifications f s = .ok s') (v : V) :
    v ∈ s'.recorded ↔ v ∈ s.recorded ∧ s'.Mentions v := by
  unfold trivialSimplifications at h
  simp only at h
  rw [Except.bind_ok_iff] at h
  obtain ⟨s1, h1, h⟩ := h
  cases h
  have hw0 : (removeEqualBus f (removeTrivial s)).WF :=
    wf_sublist hw (fun e he => (List.mem_filter.1 he).1)
      (fun x hx => (List.mem_filter.1 ((retainUnseen_sublist f _ _).subset hx)).1) _
  obtain ⟨-, -, e, -⟩ := removeRedundant_spec h1 hw0
  have e : s1.derived = s.derived := e
  simp only [ConstraintSystem.recorded, List.mem_map, (C50_derived s1 _).2.2, e]
  constructor
  · rintro ⟨d, ⟨h1, h2⟩, rfl⟩
    exact ⟨⟨d, h1, rfl⟩, h2⟩
  · rintro ⟨⟨d, h1, rfl⟩, h2⟩
    exact ⟨d, ⟨h1, h2⟩, rfl⟩

theorem recorded_applyAction (st : DriverState p V) (a : RuleAction p V) :
    (applyAction st a).system.recorded = st.system.recorded := by
  cases a with
  | updateRange v rc =>
    simp only [applyAction]
    split
    · split
      · exact recorded_mapExprs _ _
      · rfl
    · rfl
  | substituteByConstant v val => exact recorded_mapExprs _ _
  | substituteByVariable v w => exact recorded_mapExprs _ _

theorem recorded_driver {rc : V → RangeConstraint p} {h : Handler p}
    {lt : GExpr p V → GExpr p V → Prop} {intBits : ℕ} {bound : Option DegreeBound}
    {ok : RuleInput p V → ConstraintSystem p V → ConstraintSystem p V → Prop} {st st' : DriverState p V}
    {news : List (DerivedVariable p V)} (run : DriverRun rc h lt intBits bound ok st st' news) :
    st'.system.recorded = st.system.recorded ++ news.map (·.column) := by
  induction run with
  | refl => simp
  | @round st' news run new inp hinp hnew actions hactions rs hrs hok ih =>
    have key : ∀ (as : List (RuleAction p V)) (st : DriverState p V),
        (as.foldl applyAction st).system.recorded = st.system.recorded := by
      intro as
      induction as with
      | nil => exact fun _ => rfl
      | cons a t ih => intro st; rw [List.foldl_cons, ih, recorded_applyAction]
    obtain ⟨acc, hacc, heq, -⟩ := batchReplace_spec (beforeBatch st' actions new) rs bound
    show (batchReplace (beforeBatch st' actions new) rs bound).2.recorded = _
    rw [heq, List.map_append, ← List.append_assoc, ← ih, ← key actions st']
    simp [ConstraintSystem.recorded, beforeBatch, ConstraintSystem.addDerived]

/-! ### The inliner -/

theorem recorded_inlineFirst {should : ShouldInline p V} {st st' : InlineState p V} (h : st.ix.Inv)
    {i : ℕ} {l : List (V × GExpr p V)} (hr : inlineFirst should i st l = .ok st') :
    st'.ix.sys.recorded = st.ix.sys.recorded := by
  induction l with
  | nil => cases hr; rfl
  | cons y t ih =>
    obtain ⟨x, r⟩ := y
    rw [inlineFirst, Except.bind_ok_iff] at hr
    obtain ⟨b, -, hr⟩ := hr
    cases b with
    | false => exact ih hr
    | true =>
      cases hr
      show (st.ix.subst x r).sys.recorded = _
      rw [Indexed.subst_sys h, recorded_mapExpr]

theorem recorded_inlinePass {should : ShouldInline p V} {s0 : ConstraintSystem p V}
    {l : List ℕ} (hl : ∀ i ∈ l, i < s0.algebraic.length)
    {st st' : InlineState p V} (h : InlineInv s0 st)
    (hr : inlinePass should l st = .ok st') : st'.ix.sys.recorded = st.ix.sys.recorded := by
  induction l generalizing st with
  | nil => cases hr; rfl
  | cons i t ih =>
    rw [inlinePass, Except.bind_ok_iff] at hr
    obtain ⟨st1, h1, hr⟩ := hr
    rw [ih (fun j hj => hl j (List.mem_cons_of_mem _ hj))
      ((inlineAt_spec should h (hl i (by simp))).1 st1 h1).1 hr]
    rw [inlineAt] at h1
    split at h1
    · cases h1
    · rw [Except.bind_ok_iff] at h1
      obtain ⟨cands, -, h1⟩ := h1
      exact recorded_inlineFirst h.ix h1

theorem recorded_inlineLoop {should : ShouldInline p V} {s0 : ConstraintSystem p V}
    {fuel : ℕ} {st st' : InlineState p V} (h : InlineInv s0 st)
    (hr : inlineLoop should s0.algebraic.length fuel st = .ok (some st')) :
    st'.ix.sys.recorded = st.ix.sys.recorded := by
  induction fuel generalizing st with
  | zero => cases hr
  | succ n ih =>
    rw [inlineLoop, Except.bind_ok_iff] at hr
    obtain ⟨st1, h1, hr⟩ := hr
    have hl : ∀ i ∈ (List.range s0.algebraic.length).reverse, i < s0.algebraic.length :=
      fun i hi => by simpa using hi
    have hd1 := recorded_inlinePass hl h h1
    split at hr
    · cases hr; exact hd1
    · rw [ih ((inlinePass_spec should _ hl h).1 st1 h1).1 hr, hd1]

theorem recorded_inline {s : Indexed p V} (hi : s.Inv) (hw : s.sys.WF) {should : ShouldInline p V}
    {fuel : ℕ} {ix : Indexed p V} {subs : List (V × GExpr p V)}
    (h : replaceConstrainedWitnessColumns fuel s should = .ok (some (ix, subs))) :
    ix.sys.recorded = s.sys.recorded := by
  rw [replaceConstrainedWitnessColumns] at h
  cases hs : inlineLoop should s.sys.algebraic.length fuel ⟨s, [], []⟩ with
  | error p => rw [hs] at h; cases h
  | ok o =>
    rw [hs, ok_bind] at h
    cases o with
    | none => cases h
    | some st =>
      simp only at h
      split at h
      · cases h
        exact recorded_inlineLoop (inlineInv_init hi hw) hs
      · cases h

/-! ### Rounds and runs -/

theorem ConstraintRound.recorded [Fintype V] (hV : Fintype.card V ≤ p) {c : OptimizerConfig p V}
    {bus : Bus p} (hc : c.Correct bus) {S : (V → ZMod p) → Prop} {m m' : Memory p}
    {s0 s s' : ConstraintSystem p V} (h : Stage c bus S m m' s0 s) {solver solver' : Solver p V}
    (hm : solver.MadeFor bus c.handler S)
    {ok : RuleInput p V → ConstraintSystem p V → ConstraintSystem p V → Prop}
    (hcmp : ∀ σ, S σ → ComparisonsRight σ ok)
    (r : ConstraintRound c ok s solver s' solver')
    (hnews : ∀ σ, S σ → ∀ d ∈ r.new7, d.Computed σ) (v : V) :
    v ∈ s'.recorded ↔ (v ∈ s.recorded ∧ r.s6.Mentions v) ∨ ∃ d ∈ r.new7, d.column = v := by
  obtain ⟨-, -, -, -, g5, g6, -, m7, g8, -⟩ := r.stages hV hc h hm hcmp hnews
  have hs := hc.handler
  have b1 : r.s1.recorded = s.recorded := by
    have := recorded_solverBased (Indexed.inv_history _ _) r.step1
    rw [r.ix0.sys] at this
    exact this
  have b3 : r.s3.recorded = s.recorded := by
    obtain ⟨delete, -, -, -, h4⟩ := removeFree_ok r.step3
    rw [h4]
    show r.ix2.ix.sys.recorded = _
    rw [IndexOf.eq]
    exact b1
  have b4 : r.s4.recorded = s.recorded := by
    obtain ⟨keep, -, -, -, h4⟩ := removeDisconnected_ok (Indexed.inv_history _ _) r.step4
    rw [h4]
    show (indexedHistory r.ix3.base r.ix3.ops).sys.recorded = _
    rw [r.ix3.sys]
    exact b3
  have b5 : r.s5.recorded = s.recorded := by
    rw [ConstraintSystem.recorded, simplifyExhaustive_derived r.step5, IndexOf.eq]
    exact b4
  have b6 := recorded_trivial g5.wf r.step6 v
  rw [b5] at b6
  have b7 : r.st.system.recorded = r.s6.recorded ++ r.new7.map (·.column) := recorded_driver r.step7
  have b10 : s'.recorded = r.st.system.recorded := by
    rw [ConstraintSystem.recorded, lowDegree_derived r.step10, memory_derived hs g8.wf m7 r.step9]
    rfl
  rw [b10, b7, List.mem_append, b6, List.mem_map]

theorem OptimizeLoop.kept [Fintype V] (hV : Fintype.card V ≤ p) {c : OptimizerConfig p V}
    {bus : Bus p} (hc : c.Correct bus) {S : (V → ZMod p) → Prop} {m m' : Memory p}
    {s0 : ConstraintSystem p V}
    {ok : RuleInput p V → ConstraintSystem p V → ConstraintSystem p V → Prop}
    (hcmp : ∀ σ, S σ → ComparisonsRight σ ok)
    {s s' : ConstraintSystem p V} {solver solver' : Solver p V}
    (l : OptimizeLoop c ok s solver s' solver') (h : Stage c bus S m m' s0 s)
    (hm : solver.MadeFor bus c.handler S) (hnews : ∀ σ, S σ → ∀ d ∈ l.news, d.Computed σ) (v : V)
    (hv : v ∈ s.recorded ∨ ∃ d ∈ l.news, d.column = v) (hu : ¬ l.Unused v) : v ∈ s'.recorded := by
  induction l with
  | one r =>
    refine (r.recorded hV hc h hm hcmp hnews v).2 (hv.imp_left fun h => ⟨h, ?_⟩)
    by_contra hn
    exact hu ⟨h, hn⟩
  | more r rest ih =>
    have hn1 : ∀ σ, S σ → ∀ d ∈ r.new7, d.Computed σ :=
      fun σ hσ d hd => hnews σ hσ d (List.mem_append.2 (Or.inl hd))
    obtain ⟨-, -, -, -, -, -, -, -, -, -, h1, h2⟩ := r.stages hV hc h hm hcmp hn1
    have k := r.recorded hV hc h hm hcmp hn1 v
    refine ih h1 h2 (fun σ hσ d hd => hnews σ hσ d (List.mem_append.2 (Or.inr hd))) ?_
      fun hr => hu (Or.inr hr)
    rcases hv with hv | ⟨d, hd, he⟩
    · refine Or.inl (k.2 (Or.inl ⟨hv, ?_⟩))
      by_contra hn
      exact hu (Or.inl ⟨hv, hn⟩)
    · rcases List.mem_append.1 hd with hd | hd
      · exact Or.inl (k.2 (Or.inr ⟨d, hd, he⟩))
      · exact Or.inr ⟨d, hd, he⟩

theorem OptimizePasses.recorded [Fintype V] (hV : Fintype.card V ≤ p) {c : OptimizerConfig p V}
    {bus : Bus p} (hc : c.Correct bus) {s s' : ConstraintSystem p V} (hw : s.WF)
    {ok : RuleInput p V → ConstraintSystem p V → ConstraintSystem p V → Prop}
    (r : OptimizePasses c ok s s') {w : ℕ}
    (he : c.rangeHandler.Exact bus w r.st.finish.system.bus) (v : V) :
    (v ∈ s'.recorded ↔ (v ∈ r.s1.recorded ∨ ∃ d ∈ r.new4, d.column = v) ∧ s'.Mentions v) ∧
    ((v ∈ s.recorded ∨ ∃ d ∈ r.loop.news, d.column = v) → ¬ r.loop.Unused v → v ∈ r.s1.recorded) := by
  have h : Stage c bus (fun _ => False) (fun _ => none) (fun _ => none) s s :=
    ⟨hw, fun _ hf => hf.elim, fun _ hf => hf.elim, fun _ hf => hf.elim, fun _ hf => hf.elim⟩
  obtain ⟨m0, g1, g2, g3, g4, g5, g6⟩ := r.stages hV hc h (fun _ hf => hf.elim) (fun _ hf => hf.elim) he
  refine ⟨?_, fun h1 h2 => r.loop.kept hV hc (S := fun _ => False) (fun _ hf => hf.elim) h m0
    (fun _ hf => hf.elim) v h1 h2⟩
  have hw1 : (indexedHistory r.ix1.base r.ix1.ops).sys.WF := by rw [r.ix1.sys]; exact g1.wf
  have b2 : r.ix2.sys.recorded = r.s1.recorded := by
    have := recorded_inline (Indexed.inv_history _ _) hw1 r.step2
    rw [r.ix1.sys] at this
    exact this
  have b3 : r.s3.recorded = r.s1.recorded := by
    obtain ⟨keep, -, -, -, h4⟩ := removeDisconnected_ok (Indexed.inv_history _ _) r.step3
    rw [h4]
    show (indexedHistory r.ix3.base r.ix3.ops).sys.recorded = _
    rw [r.ix3.sys]
    exact b2
  have b4 : r.st.system.recorded = r.s3.recorded ++ r.new4.map (·.column) := recorded_driver r.step4
  have b5 : r.s5.recorded = r.st.system.recorded := by
    rw [ConstraintSystem.recorded, rangeConstraints_derived r.step5]
    rfl
  rw [recorded_trivial g5.wf r.step6 v, b5, b4, b3, List.mem_append, List.mem_map]

end Verif
