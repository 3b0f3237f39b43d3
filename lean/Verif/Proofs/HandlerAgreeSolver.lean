import Verif.Proofs.HandlerAgree

/-! Two handlers that agree on the bus interactions of the solver: the solver does the same. -/

set_option linter.unusedSectionVars false

namespace Verif

open GExpr

variable {p : ℕ} [Fact p.Prime] {V : Type} [LinearOrder V]

namespace Solver

/-- All bus interactions of the solver have the property. -/
def BusAll (s : Solver p V) (B : BusInteraction (GExpr p (SVar V)) → Prop) : Prop := s.cs.ix.sys.BusAll B

variable {B : BusInteraction (GExpr p (SVar V)) → Prop} {s s' : Solver p V}

theorem variableUpdated_bus {x : SVar V} (h : variableUpdated x s = .ok s') : s'.cs.ix = s.cs.ix := by
  unfold variableUpdated at h
  rw [Except.bind_ok_iff] at h
  obtain ⟨cs, h1, h⟩ := h
  cases h
  exact variableUpdated_ix (liftPanic_ok_iff.1 h1)

theorem updateRc_bus {x : SVar V} {r : RangeConstraint p} (h : updateRc x r s = some s') : s'.cs = s.cs := by
  unfold updateRc at h
  simp only at h
  split at h
  · cases h; rfl
  · cases h

theorem constrainBoolean_bus {z : SVar V} (h : constrainBoolean z s = .ok s') : s'.cs.ix = s.cs.ix := by
  unfold constrainBoolean at h
  split at h
  · cases h; rfl
  · rename_i s1 hs1
    split at h
    · cases h
    · rw [variableUpdated_bus h, updateRc_bus hs1]

theorem constrainBooleans_bus {l : List (SVar V)} (h : constrainBooleans l s = .ok s') :
    s'.cs.ix = s.cs.ix := by
  induction l generalizing s with
  | nil => cases h; rfl
  | cons z t ih =>
    rw [constrainBooleans, Except.bind_ok_iff] at h
    obtain ⟨s1, h1, h⟩ := h
    rw [ih h, constrainBoolean_bus h1]

theorem extractBoolean_bus (e : GExpr p (SVar V)) (s : Solver p V) : (extractBoolean e s).2.cs = s.cs := by
  unfold extractBoolean
  split <;> rfl

theorem tryExtractBoolean_bus {e : GExpr p (SVar V)} {o : Option (GExpr p (SVar V))}
    (h : tryExtractBoolean e s = .ok (o, s')) : s'.cs.ix = s.cs.ix := by
  unfold tryExtractBoolean at h
  rw [Except.bind_ok_iff] at h
  obtain ⟨s1, h1, h⟩ := h
  cases h
  rw [constrainBooleans_bus h1, extractBoolean_bus]

theorem extractAll_bus {l : List (GExpr p (SVar V))} {o : List (GExpr p (SVar V))}
    (h : extractAll l s = .ok (o, s')) : s'.cs.ix = s.cs.ix := by
  induction l generalizing s o with
  | nil => cases h; rfl
  | cons e t ih =>
    rw [extractAll, Except.bind_ok_iff] at h
    obtain ⟨⟨r1, s1⟩, h1, h⟩ := h
    rw [Except.bind_ok_iff] at h
    obtain ⟨⟨r2, s2⟩, h2, h⟩ := h
    cases h
    rw [ih h2, tryExtractBoolean_bus h1]

theorem linearizeConstraint_bus (e : GExpr p (SVar V)) (s : Solver p V) :
    (linearizeConstraint e s).2.cs = s.cs := by
  unfold linearizeConstraint
  split <;> rfl

theorem linearizeConstraints_bus (l : List (GExpr p (SVar V))) (s : Solver p V) :
    (linearizeConstraints l s).2.cs = s.cs := by
  induction l generalizing s with
  | nil => rfl
  | cons e t ih =>
    simp only [linearizeConstraints]
    rw [ih, linearizeConstraint_bus]

theorem addAlgebraic_bus {es : List (GExpr p (SVar V))} (h : addAlgebraic es s = .ok s') :
    s'.cs.ix.sys.bus = s.cs.ix.sys.bus := by
  unfold addAlgebraic at h
  rw [Except.bind_ok_iff] at h
  obtain ⟨⟨l, s1⟩, h1, h⟩ := h
  simp only at h
  rw [Except.bind_ok_iff] at h
  obtain ⟨cs, h2, h⟩ := h
  cases h
  replace h2 := liftPanic_ok_iff.1 h2
  unfold Queued.addAlgebraic at h2
  rw [Except.bind_ok_iff] at h2
  obtain ⟨q, -, h2⟩ := h2
  cases h2
  have e1 := extractAll_bus h1
  simp only [Indexed.addAlgebraic, Indexed.extend, ConstraintSystem.extend, List.append_nil]
  rw [linearizeConstraints_bus, e1]

theorem substituteByVar_const (k : ZMod p) (st : LinState p (SVar V)) :
    (substituteByVar SVar.linearized (const k) st).1 = const k := by
  simp [substituteByVar, trySubstituteByExistingVar, const, tryToKnown]

theorem linearizeFields_keeps (l : List (GExpr p (SVar V))) (st : LinState p (SVar V)) :
    List.Forall₂ (fun (e e' : GExpr p (SVar V)) => ∀ k, e = const k → e' = const k) l
      (linearizeFields l st).1 := by
  induction l generalizing st with
  | nil => exact .nil
  | cons e t ih => exact .cons (by rintro k rfl; exact substituteByVar_const k st) (ih _)

theorem linearizeBus_keeps (b : BusInteraction (GExpr p (SVar V))) (st : LinState p (SVar V)) :
    b.Keeps (linearizeBus b st).1 := by
  refine .cons ?_ (.cons ?_ (linearizeFields_keeps _ _))
  · intro k hk
    simp only [linearizeBus]
    rw [hk]
    exact substituteByVar_const k st
  · intro k hk
    simp only [linearizeBus]
    rw [hk]
    exact substituteByVar_const k _

theorem linearizeBuses_bus (hB : BusClosed B) {l : List (BusInteraction (GExpr p (SVar V)))}
    (hl : ∀ b ∈ l, B b) (st : LinState p (SVar V)) : ∀ b ∈ (linearizeBuses l st).1, B b := by
  induction l generalizing st with
  | nil => intro b hb; cases hb
  | cons b t ih =>
    intro x hx
    rcases List.mem_cons.1 hx with rfl | hx
    · exact hB _ _ (linearizeBus_keeps b st) (hl b List.mem_cons_self)
    · exact ih (fun b hb => hl b (List.mem_cons_of_mem _ hb)) _ x hx

theorem addBus_bus (hB : BusClosed B) (hs : s.BusAll B) {l : List (BusInteraction (GExpr p (SVar V)))}
    (hl : ∀ b ∈ l, B b) (h : addBus l s = .ok s') : s'.BusAll B := by
  unfold addBus at h
  simp only at h
  rw [Except.bind_ok_iff] at h
  obtain ⟨s1, h1, h⟩ := h
  rw [Except.bind_ok_iff] at h
  obtain ⟨cs, h2, h⟩ := h
  cases h
  have e1 := addAlgebraic_bus h1
  replace h2 := liftPanic_ok_iff.1 h2
  unfold Queued.addBus at h2
  rw [Except.bind_ok_iff] at h2
  obtain ⟨q, -, h2⟩ := h2
  cases h2
  intro b hb
  simp only [Indexed.addBus, Indexed.extend, ConstraintSystem.extend] at hb
  rcases List.mem_append.1 hb with hb | hb
  · rw [e1] at hb
    exact hs b hb
  · exact linearizeBuses_bus hB hl _ b hb

theorem extractRefs_bus (l : List (GExpr p (SVar V))) (s : Solver p V) :
    (extractRefs l s).2.2.cs = s.cs := by
  induction l generalizing s with
  | nil => rfl
  | cons e t ih =>
    simp only [extractRefs]
    rw [ih, extractBoolean_bus]

theorem applyAssignment_bus (hB : BusClosed B) (hs : s.BusAll B) {x : SVar V} {r : GExpr p (SVar V)}
    (h : applyAssignment x r s = .ok s') : s'.BusAll B := by
  unfold applyAssignment at h
  rw [Except.bind_ok_iff] at h
  obtain ⟨cs, h1, h⟩ := h
  rw [Except.bind_ok_iff] at h
  obtain ⟨refs, h2, h⟩ := h
  simp only at h
  rw [Except.bind_ok_iff] at h
  obtain ⟨s1, h3, h⟩ := h
  rw [Except.bind_ok_iff] at h
  obtain ⟨s2, h4, h⟩ := h
  cases h
  have e1 := constrainBooleans_bus h3
  rw [extractRefs_bus] at e1
  have e2 := addAlgebraic_bus h4
  replace h1 := liftPanic_ok_iff.1 h1
  unfold Queued.subst at h1
  have e3 := variableUpdated_ix h1
  intro b hb
  simp only at hb
  rw [e2, e1] at hb
  simp only at hb
  rw [e3] at hb
  exact busAll_subst hB hs x r b hb

theorem applyRc_bus (hB : BusClosed B) (hs : s.BusAll B) {x : SVar V} {r : RangeConstraint p} {o : Bool}
    (h : applyRc x r s = .ok (o, s')) : s'.BusAll B := by
  unfold applyRc at h
  split at h
  · cases h; exact hs
  · rename_i s1 hs1
    have h0 : s1.BusAll B := by
      unfold BusAll
      rw [updateRc_bus hs1]
      exact hs
    split at h
    · rw [Except.bind_ok_iff] at h
      obtain ⟨s2, h1, h⟩ := h
      cases h
      exact applyAssignment_bus hB h0 h1
    · rw [Except.bind_ok_iff] at h
      obtain ⟨s2, h1, h⟩ := h
      cases h
      unfold BusAll
      rw [variableUpdated_bus h1]
      exact h0

theorem addRange_bus (hB : BusClosed B) (hs : s.BusAll B) {x : SVar V} {r : RangeConstraint p}
    (h : addRange x r s = .ok s') : s'.BusAll B := by
  unfold addRange at h
  rw [Except.bind_ok_iff] at h
  obtain ⟨⟨o, s1⟩, h1, h⟩ := h
  cases h
  exact applyRc_bus hB (s := { s with cache := [] }) hs h1

theorem applyEffect_bus (hB : BusClosed B) (hs : s.BusAll B) {eff : Effect p (SVar V)} {o : Bool}
    (h : applyEffect s eff = .ok (o, s')) : s'.BusAll B := by
  cases eff with
  | assignment v value =>
    rw [applyEffect, Except.bind_ok_iff] at h
    obtain ⟨s1, h1, h⟩ := h
    cases h
    exact applyAssignment_bus hB hs h1
  | rangeConstraint v r => exact applyRc_bus hB hs h
  | assertion _ _ _ => cases h
  | conditionalAssignment _ _ _ _ _ => cases h

theorem applyEffects_bus (hB : BusClosed B) {l : List (Effect p (SVar V))} (hs : s.BusAll B) {o : Bool}
    (h : applyEffects l s = .ok (o, s')) : s'.BusAll B := by
  induction l generalizing s o with
  | nil => cases h; exact hs
  | cons e t ih =>
    rw [applyEffects, Except.bind_ok_iff] at h
    obtain ⟨⟨o1, s1⟩, h1, h⟩ := h
    rw [Except.bind_ok_iff] at h
    obtain ⟨⟨o2, s2⟩, h2, h⟩ := h
    cases h
    exact ih (applyEffect_bus hB hs h1) h2

theorem addAlgebraicIfNew_bus {es : List (GExpr p (SVar V))} {o : Bool} (hs : s.BusAll B)
    (h : addAlgebraicIfNew es s = .ok (o, s')) : s'.BusAll B := by
  unfold addAlgebraicIfNew at h
  rw [Except.bind_ok_iff] at h
  obtain ⟨new, -, h⟩ := h
  split at h
  · cases h; exact hs
  · rw [Except.bind_ok_iff] at h
    obtain ⟨s1, h1, h⟩ := h
    cases h
    intro b hb
    rw [addAlgebraic_bus h1] at hb
    exact hs b hb

theorem processAlgebraic_bus (hB : BusClosed B) (hs : s.BusAll B) {order : Rearrange (Effect p (SVar V))}
    {e : GExpr p (SVar V)} {o : Bool} (h : processAlgebraic order e s = .ok (o, s')) : s'.BusAll B := by
  unfold processAlgebraic at h
  split at h
  · rw [Except.bind_ok_iff] at h
    obtain ⟨s1, h1, h⟩ := h
    cases h
    exact applyAssignment_bus hB hs h1
  · rw [Except.bind_ok_iff] at h
    obtain ⟨res, -, h⟩ := h
    split at h
    · cases h
    · rw [Except.bind_ok_iff] at h
      obtain ⟨split, -, h⟩ := h
      simp only at h
      split at h
      · rw [Except.bind_ok_iff] at h
        obtain ⟨⟨o1, s1⟩, h1, h⟩ := h
        rw [Except.bind_ok_iff] at h
        obtain ⟨⟨o2, s2⟩, h2, h⟩ := h
        cases h
        exact applyEffects_bus hB (addAlgebraicIfNew_bus hs h1) h2
      · rw [Except.bind_ok_iff] at h
        obtain ⟨n, h1, h⟩ := h
        cases h1
        rw [Except.bind_ok_iff] at h
        obtain ⟨⟨o2, s2⟩, h2, h⟩ := h
        cases h
        exact applyEffects_bus hB hs h2

variable {h h' : Handler p}

theorem process_bus (hB : BusClosed B) (hs : s.BusAll B) {order : Rearrange (Effect p (SVar V))}
    {c : ConstraintRef p (SVar V)} {o : Bool} (hr : process h order c s = .ok (o, s')) : s'.BusAll B := by
  cases c with
  | alg e => exact processAlgebraic_bus hB hs hr
  | bus b =>
    simp only [process, processBus] at hr
    rw [Except.bind_ok_iff] at hr
    obtain ⟨res, -, hr⟩ := hr
    split at hr
    · cases hr
    · exact applyEffects_bus hB hs hr

theorem solveInIsolation_bus (hB : BusClosed B) {order : ℕ → Rearrange (Effect p (SVar V))} {fuel : ℕ}
    {progress o : Bool} (hs : s.BusAll B)
    (hr : solveInIsolation h order fuel progress s = .ok (o, s')) : s'.BusAll B := by
  induction fuel generalizing s progress with
  | zero => cases hr
  | succ n ih =>
    rw [solveInIsolation, Except.bind_ok_iff] at hr
    obtain ⟨⟨item, cs⟩, h1, hr⟩ := hr
    have e1 := (popFront_ix (liftPanic_ok_iff.1 h1)).1
    have hs1 : BusAll { s with cs := cs } B := by
      unfold BusAll
      simp only
      rw [e1]
      exact hs
    cases item with
    | none => cases hr; exact hs1
    | some c =>
      simp only at hr
      rw [Except.bind_ok_iff] at hr
      obtain ⟨⟨o1, s1⟩, h2, hr⟩ := hr
      exact ih (process_bus hB hs1 h2) hr

theorem applyRcs_bus (hB : BusClosed B) {l : List (SVar V × RangeConstraint p)} {o : Bool} (hs : s.BusAll B)
    (hr : applyRcs l s = .ok (o, s')) : s'.BusAll B := by
  induction l generalizing s o with
  | nil => cases hr; exact hs
  | cons e t ih =>
    rw [applyRcs, Except.bind_ok_iff] at hr
    obtain ⟨⟨o1, s1⟩, h1, hr⟩ := hr
    rw [Except.bind_ok_iff] at hr
    obtain ⟨⟨o2, s2⟩, h2, hr⟩ := hr
    cases hr
    exact ih (applyRc_bus hB hs h1) h2

theorem searchSets_bus (hB : BusClosed B) {l bad : List (List (SVar V))} {progress o : Bool}
    (hs : s.BusAll B) (hr : searchSets h l bad progress s = .ok (o, s')) : s'.BusAll B := by
  induction l generalizing s bad progress with
  | nil => cases hr; exact hs
  | cons vs t ih =>
    rw [searchSets] at hr
    split at hr
    · exact ih hs hr
    · rw [Except.bind_ok_iff] at hr
      obtain ⟨res, -, hr⟩ := hr
      split at hr
      · cases hr
      · split at hr
        · exact ih hs hr
        · rw [Except.bind_ok_iff] at hr
          obtain ⟨⟨o1, s1⟩, h1, hr⟩ := hr
          exact ih (applyRcs_bus hB hs h1) hr

theorem loop_bus (hB : BusClosed B) {ch : Choices p V} {n : ℕ}
    (hs : s.BusAll B) (hr : loopUntilNoProgress h ch n s = .ok s') : s'.BusAll B := by
  induction n generalizing s with
  | zero => cases hr
  | succ n ih =>
    rw [loopUntilNoProgress, Except.bind_ok_iff] at hr
    obtain ⟨⟨o1, s1⟩, h1, hr⟩ := hr
    have hs1 := solveInIsolation_bus hB hs h1
    simp only at hr
    split at hr
    · rename_i ho
      rw [Except.bind_ok_iff] at hr
      obtain ⟨r, h2, hr⟩ := hr
      cases h2
      rw [if_pos ho] at hr
      exact ih hs1 hr
    · rw [Except.bind_ok_iff] at hr
      obtain ⟨⟨o2, s2⟩, h2, hr⟩ := hr
      have hs2 := searchSets_bus hB hs1 h2
      split at hr
      · exact ih hs2 hr
      · cases hr; exact hs2

theorem solve_bus (hB : BusClosed B) {ch : Choices p V} {l : List (SVar V × GExpr p (SVar V))}
    (hs : s.BusAll B) (hr : solve h ch s = .ok (l, s')) : s'.BusAll B := by
  rw [solve, Except.bind_ok_iff] at hr
  obtain ⟨s1, h1, hr⟩ := hr
  cases hr
  have := loop_bus hB (s := { s with cache := [] }) hs h1
  exact this

theorem retain_bus {keep : List (SVar V)} (hs : s.BusAll B) (hr : retain keep s = .ok s') :
    s'.BusAll B := by
  unfold retain at hr
  split at hr
  · cases hr
  · rw [Except.bind_ok_iff] at hr
    obtain ⟨cs1, h1, hr⟩ := hr
    rw [Except.bind_ok_iff] at hr
    obtain ⟨cs2, h2, hr⟩ := hr
    cases hr
    have e1 := resetQueue_ix (liftPanic_ok_iff.1 h1)
    have e2 := resetQueue_ix (liftPanic_ok_iff.1 h2)
    intro b hb
    simp only at hb
    rw [e2] at hb
    have hb := retainFrom_subset b hb
    rw [e1] at hb
    exact hs b hb

theorem equivalentExpressions_bus {e : GExpr p (SVar V)} {l : List (GExpr p (SVar V))}
    (hr : equivalentExpressions e s = .ok (l, s')) : s'.cs = s.cs := by
  unfold equivalentExpressions at hr
  split at hr
  · cases hr; rfl
  · split at hr
    · cases hr; rfl
    · rw [Except.bind_ok_iff] at hr
      obtain ⟨refs, -, hr⟩ := hr
      rw [Except.bind_ok_iff] at hr
      obtain ⟨r, -, hr⟩ := hr
      cases hr
      rfl

theorem knownDifferent_bus {a b : GExpr p (SVar V)} {o : Bool}
    (hr : knownDifferent a b s = .ok (o, s')) : s'.cs = s.cs := by
  unfold knownDifferent at hr
  split at hr
  · cases hr; rfl
  · rw [Except.bind_ok_iff] at hr
    obtain ⟨⟨l1, s1⟩, h1, hr⟩ := hr
    rw [Except.bind_ok_iff] at hr
    obtain ⟨⟨l2, s2⟩, h2, hr⟩ := hr
    rw [Except.bind_ok_iff] at hr
    obtain ⟨r, -, hr⟩ := hr
    cases hr
    rw [equivalentExpressions_bus h2, equivalentExpressions_bus h1]

/-! ### Agreement -/

theorem process_agree {order : Rearrange (Effect p (SVar V))} {c : ConstraintRef p (SVar V)}
    (hc : ∀ b, c = .bus b → h.AgreeOn h' b) : process h order c s = process h' order c s := by
  cases c with
  | alg e => rfl
  | bus b =>
    simp only [process, processBus]
    rw [solveBus_agree (hc b rfl)]

theorem solveInIsolation_agree {order : ℕ → Rearrange (Effect p (SVar V))} {fuel : ℕ} {progress : Bool}
    (hs : s.BusAll (h.AgreeOn h')) :
    solveInIsolation h order fuel progress s = solveInIsolation h' order fuel progress s := by
  induction fuel generalizing s progress with
  | zero => rfl
  | succ n ih =>
    rw [solveInIsolation, solveInIsolation]
    refine bind_congr_ok rfl ?_
    rintro ⟨item, cs⟩ h1
    obtain ⟨e1, e2⟩ := popFront_ix (liftPanic_ok_iff.1 h1)
    have hs1 : BusAll { s with cs := cs } (h.AgreeOn h') := by
      unfold BusAll
      simp only
      rw [e1]
      exact hs
    cases item with
    | none => rfl
    | some c =>
      refine bind_congr_ok (process_agree ?_) ?_
      · rintro b rfl
        obtain ⟨i, hi⟩ := e2 _ rfl
        exact toRef_bus hs hi
      · rintro ⟨o1, s1⟩ h2
        exact ih (process_bus agreeOn_closed hs1 h2)

theorem searchSets_agree {l bad : List (List (SVar V))} {progress : Bool} (hs : s.BusAll (h.AgreeOn h')) :
    searchSets h l bad progress s = searchSets h' l bad progress s := by
  induction l generalizing s bad progress with
  | nil => rfl
  | cons vs t ih =>
    rw [searchSets, searchSets]
    split
    · exact ih hs
    · rw [exhaustiveSearchOn_agree hs]
      refine bind_congr_ok rfl fun res _ => ?_
      cases res with
      | error _ => rfl
      | ok m =>
        simp only
        split
        · exact ih hs
        · refine bind_congr_ok rfl ?_
          rintro ⟨o1, s1⟩ h1
          exact ih (applyRcs_bus agreeOn_closed hs h1)

theorem loop_agree {ch : Choices p V} {n : ℕ} (hs : s.BusAll (h.AgreeOn h')) :
    loopUntilNoProgress h ch n s = loopUntilNoProgress h' ch n s := by
  induction n generalizing s with
  | zero => rfl
  | succ n ih =>
    rw [loopUntilNoProgress, loopUntilNoProgress]
    refine bind_congr_ok (solveInIsolation_agree hs) ?_
    rintro ⟨o1, s1⟩ h1
    have hs1 := solveInIsolation_bus agreeOn_closed hs h1
    simp only
    split
    · refine bind_congr_ok rfl fun r hr => ?_
      cases hr
      simp only
      split
      · exact ih hs1
      · exact ih hs1
    · refine bind_congr_ok (searchSets_agree hs1) ?_
      rintro ⟨o2, s2⟩ h2
      have hs2 := searchSets_bus agreeOn_closed hs1 h2
      simp only
      split
      · exact ih hs2
      · rfl

theorem solve_agree {ch : Choices p V} (hs : s.BusAll (h.AgreeOn h')) : solve h ch s = solve h' ch s := by
  rw [solve, solve, loop_agree (s := { s with cache := [] }) hs]

end Solver

variable {h h' : Handler p} {s s' : Solver p V} {B : BusInteraction (GExpr p (SVar V)) → Prop}

theorem run_agree (hs : s.BusAll (h.AgreeOn h')) (op : SolverOp p V) :
    SolverOp.run h s op = SolverOp.run h' s op := by
  cases op with
  | solve ch => simp only [SolverOp.run]; rw [Solver.solve_agree hs]
  | _ => rfl

theorem transformExpr_const (k : ZMod p) : transformExpr (V := V) (const k) = const k := by
  simp [transformExpr, const, transformVars, transformVarsQ]

theorem transform_keeps (b : BusInteraction (GExpr p V)) : b.Keeps (b.map transformExpr) :=
  BusInteraction.keeps_map transformExpr_const

theorem run_bus (hB : BusClosed B) {op : SolverOp p V}
    (hop : ∀ bs, op = .addBus bs → ∀ b ∈ bs, B (b.map transformExpr)) {o : SolverOut p V}
    (hs : s.BusAll B) (hr : SolverOp.run h s op = .ok (o, s')) : s'.BusAll B := by
  cases op with
  | addAlgebraic es =>
    rw [SolverOp.run, Except.bind_ok_iff] at hr
    obtain ⟨s1, h1, hr⟩ := hr
    cases hr
    intro b hb
    rw [Solver.addAlgebraic_bus h1] at hb
    exact hs b hb
  | addBus bs =>
    rw [SolverOp.run, Except.bind_ok_iff] at hr
    obtain ⟨s1, h1, hr⟩ := hr
    cases hr
    refine Solver.addBus_bus hB hs (fun b hb => ?_) h1
    obtain ⟨b', hb', rfl⟩ := List.mem_map.1 hb
    exact hop bs rfl b' hb'
  | addRange v r =>
    rw [SolverOp.run, Except.bind_ok_iff] at hr
    obtain ⟨s1, h1, hr⟩ := hr
    cases hr
    exact Solver.addRange_bus hB hs h1
  | retain keep =>
    rw [SolverOp.run, Except.bind_ok_iff] at hr
    obtain ⟨s1, h1, hr⟩ := hr
    cases hr
    exact Solver.retain_bus hs h1
  | solve ch =>
    rw [SolverOp.run, Except.bind_ok_iff] at hr
    obtain ⟨⟨l, s1⟩, h1, hr⟩ := hr
    rw [Except.bind_ok_iff] at hr
    obtain ⟨l', -, hr⟩ := hr
    cases hr
    exact Solver.solve_bus hB hs h1
  | knownDifferent a b =>
    rw [SolverOp.run, Except.bind_ok_iff] at hr
    obtain ⟨⟨l, s1⟩, h1, hr⟩ := hr
    cases hr
    unfold Solver.BusAll
    rw [Solver.knownDifferent_bus h1]
    exact hs

theorem new_bus : (Solver.new : Solver p V).BusAll B := by
  intro b hb
  cases hb

theorem newSolver_bus (hB : BusClosed B) {cs : ConstraintSystem p V}
    (hcs : ∀ b ∈ cs.bus, B (b.map transformExpr)) (hr : newSolver cs = .ok s) : s.BusAll B := by
  rw [newSolver, Except.bind_ok_iff] at hr
  obtain ⟨s1, h1, hr⟩ := hr
  refine Solver.addBus_bus hB ?_ (fun b hb => ?_) hr
  · intro b hb
    rw [Solver.addAlgebraic_bus h1] at hb
    cases hb
  · obtain ⟨b', hb', rfl⟩ := List.mem_map.1 hb
    exact hcs b' hb'

end Verif
