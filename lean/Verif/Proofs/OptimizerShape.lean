import Verif.Proofs.OptimizerDegree

/-! Proofs about the shape of bus interactions in the optimizer. -/

set_option linter.unusedSectionVars false

namespace Verif

open GExpr

variable {p : ℕ} {V : Type} [LinearOrder V] [Fact p.Prime]

/-! ### Functions that keep constants -/

theorem substKnown_const (x : V) (v a : ZMod p) : substKnown x v (const a) = const a := by
  simp [const, substKnown, substKnownQ, Linear.moveToConstant, zero, tryToKnown,
    removeQuadraticTermsAddingToZero, removePairs, Linear.lookup]

theorem subst_const (x : V) (e : GExpr p V) (a : ZMod p) : subst x e (const a) = const a := by
  simp [const, subst, vars, varsQ]

theorem substKnownMulti_const (l : List (V × ZMod p)) (a : ZMod p) :
    substKnownMulti l (const a) = const a := by
  unfold substKnownMulti
  induction l with
  | nil => rfl
  | cons x t ih => rw [List.foldl_cons, substKnown_const]; exact ih

/-- A property of bus interactions that is kept by replacements of fields which keep constants. -/
def ShapeClosed (Q : BusInteraction (GExpr p V) → Prop) : Prop :=
  ∀ b (f : GExpr p V → GExpr p V), (∀ a, f (const a) = const a) → Q b → Q (b.map f)

variable {Q : BusInteraction (GExpr p V) → Prop}

theorem shape_solverBased (hQ : ShapeClosed Q) {h : Handler p} {ch : Choices p V} {ix : Indexed p V}
    (hi : ix.Inv) {solver solver' : Solver p V} {s' : ConstraintSystem p V} {l : List (V × GExpr p V)}
    (hd : ∀ b ∈ ix.sys.bus, Q b) (hr : solverBased h ch ix solver = .ok (s', l, solver')) :
    ∀ b ∈ s'.bus, Q b := by
  obtain ⟨-, rfl⟩ := solverBased_ok hr
  have h1 : ∀ b ∈ (ix.applySubsts l).sys.bus, Q b := by
    rw [applySubsts_sys hi]
    clear hr
    generalize ix.sys = s at hd
    induction l generalizing s with
    | nil => exact hd
    | cons x t ih =>
      rw [List.foldl_cons]
      refine ih _ fun b hb => ?_
      obtain ⟨b', hb', rfl⟩ := List.mem_map.1 hb
      exact hQ b' _ (subst_const x.1 x.2) (hd b' hb')
  intro b hb
  obtain ⟨b', hb', rfl⟩ := List.mem_map.1 hb
  refine hQ b' _ (fun a => ?_) (h1 b' hb')
  unfold numberField tryReplaceByNumber
  rfl

theorem shape_substituteBusFields (hQ : ShapeClosed Q) {solver : Solver p V} {s : ConstraintSystem p V}
    (hd : ∀ b ∈ s.bus, Q b) : ∀ b ∈ (substituteBusFields solver s).bus, Q b := by
  intro b hb
  obtain ⟨b', hb', rfl⟩ := List.mem_map.1 hb
  refine hQ b' _ (fun a => ?_) (hd b' hb')
  unfold constantField
  rfl

theorem simplify_fold_form {as : List (List (V × ZMod p))} {xs : List (Simplified p V)}
    (hxs : ∀ x ∈ xs, ∀ s, x.simplified = some (some s) → ∃ a, s = substKnownMulti a x.expr) :
    ∀ x ∈ as.foldl simplifyUnder xs, ∀ s, x.simplified = some (some s) →
      ∃ a, s = substKnownMulti a x.expr := by
  induction as generalizing xs with
  | nil => exact hxs
  | cons a t ih =>
    refine ih fun x hx => ?_
    rcases simplifyUnder_mem hx with hx | ⟨y, hy, rfl⟩
    · exact hxs x hx
    · intro s hs
      rw [(update_expr _ y).1, (update_some hs).1]
      exact ⟨a, rfl⟩

theorem allSubstitutions_form {ix : Indexed p V} {rc : V → RangeConstraint p} {vss : List (List V)}
    {acc subs : List (GExpr p V × GExpr p V)} (h : allSubstitutions ix rc vss acc = .ok subs)
    (hacc : ∀ x ∈ acc, x.2 ≠ x.1 ∧ ∃ a, x.2 = substKnownMulti a x.1) :
    ∀ x ∈ subs, x.2 ≠ x.1 ∧ ∃ a, x.2 = substKnownMulti a x.1 := by
  induction vss generalizing acc with
  | nil => rw [allSubstitutions] at h; cases h; exact hacc
  | cons vs t ih =>
    rw [allSubstitutions, Except.bind_ok_iff] at h
    obtain ⟨l, h1, h⟩ := h
    refine ih h fun x hx => ?_
    rcases mem_foldl_mapInsert hx with hx | hx
    · unfold substitutionsFor at h1
      rw [Except.bind_ok_iff] at h1
      obtain ⟨refs, -, h1⟩ := h1
      rw [Except.bind_ok_iff] at h1
      obtain ⟨as, -, h1⟩ := h1
      cases h1
      obtain ⟨y, hy, hyx⟩ := List.mem_filterMap.1 hx
      split at hyx
      · rename_i s hs
        split at hyx
        · rename_i hne
          cases hyx
          refine ⟨hne, simplify_fold_form (fun z hz s hs => ?_) y hy s hs⟩
          rw [simplifiedInit_none refs z hz] at hs
          cases hs
        · cases hyx
      · cases hyx
    · exact hacc x hx

theorem shape_simplifyExhaustive (hQ : ShapeClosed Q) {ix : Indexed p V} {rc : V → RangeConstraint p}
    {s' : ConstraintSystem p V} (hd : ∀ b ∈ ix.sys.bus, Q b) (h : simplifyExhaustive ix rc = .ok s') :
    ∀ b ∈ s'.bus, Q b := by
  obtain ⟨subs, h1, rfl | rfl⟩ := simplifyExhaustive_ok h
  · exact hd
  · have hs := allSubstitutions_form h1 (fun x hx => by cases hx)
    intro b hb
    obtain ⟨b', hb', rfl⟩ := List.mem_map.1 hb
    refine hQ b' _ (fun a => ?_) (hd b' hb')
    unfold replaceField
    split
    · rename_i s hg
      obtain ⟨k1, l, k2⟩ := hs _ (mapGet_mem hg)
      rw [substKnownMulti_const] at k2
      exact absurd k2 k1
    · rfl

theorem shape_trivial {f : ZMod p → Bool} {s s' : ConstraintSystem p V} (hd : ∀ b ∈ s.bus, Q b)
    (h : trivialSimplifications f s = .ok s') : ∀ b ∈ s'.bus, Q b := by
  unfold trivialSimplifications at h
  simp only at h
  rw [Except.bind_ok_iff] at h
  obtain ⟨s1, h1, h⟩ := h
  cases h
  unfold removeRedundant at h1
  rw [Except.bind_ok_iff] at h1
  obtain ⟨s2, h2, h1⟩ := h1
  obtain ⟨r, h3, rfl⟩ := removeDuplicateFactors_ok h2
  simp only at h1
  split at h1
  · cases h1
  · rw [Except.bind_ok_iff] at h1
    obtain ⟨red, -, h1⟩ := h1
    cases h1
    intro b hb
    exact hd b (List.mem_filter.1 ((retainUnseen_sublist f _ _).subset hb)).1

theorem shape_mapExprs (hQ : ShapeClosed Q) {s : ConstraintSystem p V} (hd : ∀ b ∈ s.bus, Q b)
    {f : GExpr p V → GExpr p V} (hf : ∀ a, f (const a) = const a) : ∀ b ∈ (s.mapExprs f).bus, Q b := by
  intro b hb
  obtain ⟨b', hb', rfl⟩ := List.mem_map.1 hb
  exact hQ b' f hf (hd b' hb')

theorem shape_applyAction (hQ : ShapeClosed Q) {st : DriverState p V} (h : ∀ b ∈ st.system.bus, Q b)
    (a : RuleAction p V) : ∀ b ∈ (applyAction st a).system.bus, Q b := by
  cases a with
  | updateRange v rc =>
    simp only [applyAction]
    split
    · split
      · exact shape_mapExprs hQ h (substKnown_const _ _)
      · exact h
    · exact h
  | substituteByConstant v val => exact shape_mapExprs hQ h (substKnown_const _ _)
  | substituteByVariable v w => exact shape_mapExprs hQ h (subst_const _ _)

theorem shape_driver (hQ : ShapeClosed Q) {rc : V → RangeConstraint p} {h : Handler p}
    {lt : GExpr p V → GExpr p V → Prop} {intBits : ℕ} {bound : Option DegreeBound}
    {ok : RuleInput p V → ConstraintSystem p V → ConstraintSystem p V → Prop} {st st' : DriverState p V}
    {news : List (DerivedVariable p V)} (h0 : ∀ b ∈ st.system.bus, Q b)
    (run : DriverRun rc h lt intBits bound ok st st' news) : ∀ b ∈ st'.system.bus, Q b := by
  induction run with
  | refl => exact h0
  | round run new inp hinp hnew actions hactions rs hrs hok ih =>
    have key : ∀ (as : List (RuleAction p V)) (st : DriverState p V), (∀ b ∈ st.system.bus, Q b) →
        ∀ b ∈ (as.foldl applyAction st).system.bus, Q b := by
      intro as
      induction as with
      | nil => exact fun _ h => h
      | cons a t ih => exact fun st h => ih _ (shape_applyAction hQ h a)
    have := key actions _ ih
    intro b hb
    have hb := (C30_rest_unchanged (beforeBatch _ actions new) rs bound).1 ▸ hb
    exact this b hb

theorem shape_memory {bus : Bus p} {h : Handler p} (hs : h.Sound bus)
    {A : (V → ZMod p) → Prop} {id : Option ℕ} {s s' : ConstraintSystem p V} {solver solver' : Solver p V}
    (hw : s.WF) (hm : solver.MadeFor bus h A) (hd : ∀ b ∈ s.bus, Q b)
    (hr : optimizeMemory h id s solver = .ok (s', solver')) : ∀ b ∈ s'.bus, Q b := by
  cases id with
  | none => cases hr; exact hd
  | some id =>
    obtain ⟨P, -, hP, -, -, -, rfl⟩ := optimizeMemory_ok hs hw hm hr
    intro b hb
    obtain ⟨x, hx, rfl⟩ := List.mem_map.1 hb
    exact hd _ ((List.mem_zipIdx' (List.mem_filter.1 hx).1).2 ▸ List.getElem_mem _)

/-- The interactions made by the handler have the shape. -/
def RangeHandler.Makes (rh : RangeHandler p V) (Q : BusInteraction (GExpr p V) → Prop) : Prop :=
  ∀ rcs made, rh.make rcs = .ok (some made) → ∀ b ∈ made, Q b

theorem lowDegreeLoop_shape {h : Handler p} {isStateful : ZMod p → Bool} {rh : RangeHandler p V}
    (hrh : rh.Makes Q) {bound : DegreeBound} {solver : Solver p V} :
    ∀ {bs : List (BusInteraction (GExpr p V))}
      {o : List (BusInteraction (GExpr p V)) × List (GExpr p V)},
      lowDegreeLoop h rh isStateful bound solver bs = .ok o →
      (∀ b ∈ bs, Q b) → ∀ b ∈ o.1, Q b := by
  intro bs
  induction bs with
  | nil => intro o ho; cases ho; simp
  | cons b t ih =>
    intro o ho hb
    obtain ⟨rest, hrest, hcase⟩ := lowDegreeLoop_cons ho
    have ih' := ih hrest fun b h => hb b (List.mem_cons_of_mem _ h)
    rcases hcase with rfl | ⟨r, f, g, made, hr, hmade, rfl⟩
    · intro x hx
      rcases List.mem_cons.1 hx with rfl | hx
      · exact hb x List.mem_cons_self
      · exact ih' x hx
    · intro x hx
      rcases List.mem_append.1 hx with hx | hx
      · cases made with
        | none => rw [List.mem_singleton.1 hx]; exact hb b List.mem_cons_self
        | some made => exact hrh _ _ hmade x hx
      · exact ih' x hx

theorem shape_lowDegree {h : Handler p} {rh : RangeHandler p V} (hrh : rh.Makes Q)
    {isStateful : ZMod p → Bool} {bound : DegreeBound}
    {s s' : ConstraintSystem p V} {solver solver' : Solver p V} (hd : ∀ b ∈ s.bus, Q b)
    (ho : lowDegreeOptimize h rh isStateful bound s solver = .ok (s', solver')) :
    ∀ b ∈ s'.bus, Q b := by
  obtain ⟨r, out, h1, h2, rfl⟩ := lowDegreeOptimize_ok ho
  exact lowDegreeLoop_shape hrh h1 hd

theorem shape_ranges {h : Handler p} {rh : RangeHandler p V}
    (hrh : rh.Makes Q) {ch : Choices p V} {bound : DegreeBound}
    {s s' : ConstraintSystem p V} (hd : ∀ b ∈ s.bus, Q b)
    (ho : optimizeRangeConstraints h rh ch bound s = .ok s') : ∀ b ∈ s'.bus, Q b := by
  obtain ⟨kept, rcs, solver, made, h1, -, h3, -, rfl⟩ := optimizeRangeConstraints_ok ho
  obtain ⟨c1, c2, c3⟩ := collectPure_spec h1
  intro b hb
  rcases List.mem_append.1 hb with hb | hb
  · exact hd b (c1 b hb)
  · exact hrh _ _ h3 b hb

/-! ### Inlining -/

theorem inlineFirst_shape (hQ : ShapeClosed Q) {should : ShouldInline p V} {i : ℕ}
    {cands : List (V × GExpr p V)} {st st' : InlineState p V} (hi : st.ix.Inv)
    (hd : ∀ b ∈ st.ix.sys.bus, Q b) (h : inlineFirst should i st cands = .ok st') :
    st'.ix.Inv ∧ ∀ b ∈ st'.ix.sys.bus, Q b := by
  induction cands with
  | nil => cases h; exact ⟨hi, hd⟩
  | cons x t ih =>
    obtain ⟨x, e⟩ := x
    rw [inlineFirst, Except.bind_ok_iff] at h
    obtain ⟨yes, -, h⟩ := h
    split at h
    · cases h
      refine ⟨Indexed.inv_subst hi x e, fun b hb => ?_⟩
      simp only at hb
      rw [Indexed.subst_sys hi] at hb
      obtain ⟨b', hb', rfl⟩ := List.mem_map.1 hb
      exact hQ b' _ (subst_const x e) (hd b' hb')
    · exact ih h

theorem inlinePass_shape (hQ : ShapeClosed Q) {should : ShouldInline p V} {l : List ℕ}
    {st st' : InlineState p V} (hi : st.ix.Inv)
    (hd : ∀ b ∈ st.ix.sys.bus, Q b) (h : inlinePass should l st = .ok st') :
    st'.ix.Inv ∧ ∀ b ∈ st'.ix.sys.bus, Q b := by
  induction l generalizing st with
  | nil => cases h; exact ⟨hi, hd⟩
  | cons i t ih =>
    rw [inlinePass, Except.bind_ok_iff] at h
    obtain ⟨st1, h1, h⟩ := h
    unfold inlineAt at h1
    split at h1
    · cases h1
    · rw [Except.bind_ok_iff] at h1
      obtain ⟨cands, -, h1⟩ := h1
      obtain ⟨k1, k2⟩ := inlineFirst_shape hQ hi hd h1
      exact ih k1 k2 h

theorem inlineLoop_shape (hQ : ShapeClosed Q) {should : ShouldInline p V} {count fuel : ℕ}
    {st st' : InlineState p V} (hi : st.ix.Inv)
    (hd : ∀ b ∈ st.ix.sys.bus, Q b) (h : inlineLoop should count fuel st = .ok (some st')) :
    ∀ b ∈ st'.ix.sys.bus, Q b := by
  induction fuel generalizing st with
  | zero => cases h
  | succ n ih =>
    rw [inlineLoop, Except.bind_ok_iff] at h
    obtain ⟨st1, h1, h⟩ := h
    obtain ⟨k1, k2⟩ := inlinePass_shape hQ hi hd h1
    split at h
    · cases h; exact k2
    · exact ih k1 k2 h

theorem shape_inline (hQ : ShapeClosed Q) {should : ShouldInline p V} {fuel : ℕ} {ix ix' : Indexed p V}
    {subs : List (V × GExpr p V)} (hi : ix.Inv) (hd : ∀ b ∈ ix.sys.bus, Q b)
    (h : replaceConstrainedWitnessColumns fuel ix should = .ok (some (ix', subs))) :
    ∀ b ∈ ix'.sys.bus, Q b := by
  unfold replaceConstrainedWitnessColumns at h
  rw [Except.bind_ok_iff] at h
  obtain ⟨o, h1, h⟩ := h
  cases o with
  | none => cases h
  | some st =>
    simp only at h
    split at h
    · cases h
      exact inlineLoop_shape hQ (st := ⟨ix, [], []⟩) hi hd h1
    · cases h

end Verif
