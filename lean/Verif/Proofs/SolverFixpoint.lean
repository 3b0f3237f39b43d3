import Verif.Proofs.SolverLocal
import Verif.Proofs.TerminationLoop
import Verif.Spec.SolverFixpoint

/-!
# What the solver has settled: every constraint is pending or gives nothing new
-/

set_option linter.unusedSectionVars false

namespace Verif

open GExpr

variable {p : ℕ} [Fact p.Prime] {V : Type} [LinearOrder V]

/-- The variables of a constraint. -/
def ConstraintRef.varList : ConstraintRef p V → List V
  | .alg e => vars e
  | .bus b => busVars b

theorem applyAll_append (l l' : List (V × GExpr p V)) (e : GExpr p V) :
    applyAll (l ++ l') e = applyAll l' (applyAll l e) := by
  unfold applyAll
  rw [List.foldl_append]

namespace Solver

variable {s s' s'' : Solver p V} {h : Handler p}

/-- An assignment of a constant or of a smaller variable. -/
def Plain (a : SVar V × GExpr p (SVar V)) : Prop :=
  (∃ c, a.2 = const c) ∨ ∃ y, a.2 = var y ∧ y < a.1

/-- The new assignments are recorded and have been applied to all constraints. -/
abbrev Found (s s' : Solver p V) : Prop :=
  ∃ l, s'.toReturn = s.toReturn ++ l ∧ (∀ a ∈ l, Plain a) ∧
    ∀ (i : ℕ) e, s.cs.ix.sys.algebraic[i]? = some e →
      s'.cs.ix.sys.algebraic[i]? = some (applyAll l e)

theorem Found.trans (h1 : Found s s') (h2 : Found s' s'') : Found s s'' := by
  obtain ⟨l, k1, k2, k3⟩ := h1
  obtain ⟨l', k4, k5, k6⟩ := h2
  refine ⟨l ++ l', by rw [k4, k1, List.append_assoc], fun a ha => ?_, fun i e he => ?_⟩
  · rcases List.mem_append.1 ha with ha | ha
    · exact k2 a ha
    · exact k5 a ha
  · rw [applyAll_append]
    exact k6 i _ (k3 i e he)

/-- What a step that does not take a constraint from the queue does: a constraint is pending, or it
and the ranges of its variables are as before. The assignments found are applied to all
constraints. -/
structure Step (s s' : Solver p V) : Prop where
  inv : s'.cs.Inv
  queue : ∀ y ∈ s.cs.queue.queue, y ∈ s'.cs.queue.queue
  settled : ∀ y c, refAt s'.cs.ix.sys y = some c → y ∈ s'.cs.queue.queue ∨
    (refAt s.cs.ix.sys y = some c ∧ ∀ v ∈ c.varList, s'.rcs v = s.rcs v)
  found : Found s s'

theorem Step.refl (hi : s.cs.Inv) : Step s s :=
  ⟨hi, fun _ h => h, fun _ _ h => Or.inr ⟨h, fun _ _ => rfl⟩, [], by simp, by simp, fun _ _ h => h⟩

theorem Step.trans (h1 : Step s s') (h2 : Step s' s'') : Step s s'' where
  inv := h2.inv
  queue y hy := h2.queue y (h1.queue y hy)
  settled y c hc := by
    rcases h2.settled y c hc with h | ⟨h, hv⟩
    · exact Or.inl h
    · rcases h1.settled y c h with h' | ⟨h', hv'⟩
      · exact Or.inl (h2.queue y h')
      · exact Or.inr ⟨h', fun v hm => (hv v hm).trans (hv' v hm)⟩
  found := h1.found.trans h2.found

/-- Only the constraint system and fields that do not matter change. -/
theorem Step.of_same (h1 : s'.cs = s.cs) (h2 : s'.rcs = s.rcs) (h3 : s'.toReturn = s.toReturn)
    (hi : s.cs.Inv) : Step s s' where
  inv := by rw [h1]; exact hi
  queue y hy := by rw [h1]; exact hy
  settled y c hc := Or.inr ⟨by rw [h1] at hc; exact hc, fun v _ => by rw [h2]⟩
  found := ⟨[], by rw [h3]; simp, by simp, fun i e he => by rw [h1]; exact he⟩

theorem refAt_occurs {t : ConstraintSystem p V} {y : Item} {c : ConstraintRef p V} {v : V}
    (hc : refAt t y = some c) (hv : v ∈ c.varList) : OccursIn t v y ∧ y.isDerived = false := by
  cases y with
  | alg i =>
    simp only [refAt, Option.map_eq_some_iff] at hc
    obtain ⟨e, he, rfl⟩ := hc
    exact ⟨⟨e, he, mem_vars_iff_occurs.1 hv⟩, rfl⟩
  | bus i =>
    simp only [refAt, Option.map_eq_some_iff] at hc
    obtain ⟨b, hb, rfl⟩ := hc
    obtain ⟨e, he, hve⟩ := List.mem_flatMap.1 hv
    exact ⟨⟨b, hb, e, he, mem_vars_iff_occurs.1 hve⟩, rfl⟩
  | derived i => cases hc

/-- Changing the range of a variable, followed by `variable_updated`. -/
theorem variableUpdated_step {x : SVar V} {r : RangeConstraint p} (hi : s.cs.Inv)
    (hr : variableUpdated x (setRc x r s) = .ok s') : Step s s' ∧
    ∀ y c, refAt s.cs.ix.sys y = some c → x ∈ c.varList → y ∈ s'.cs.queue.queue := by
  obtain ⟨cs, k1, k2, k3, k4⟩ := Queued.variableUpdated_ok hi x
  unfold variableUpdated at hr
  have : (setRc x r s).cs = s.cs := rfl
  rw [this, k1, liftPanic_ok, stop_bind, stop_pure] at hr
  cases hr
  have hq : ∀ y c, refAt s.cs.ix.sys y = some c → x ∈ c.varList → y ∈ cs.queue.queue := by
    intro y c hc hx
    obtain ⟨h1, h2⟩ := refAt_occurs hc hx
    exact (k4 y).2 (Or.inl ⟨hi.ix.complete x y h1, h2⟩)
  refine ⟨⟨k3, fun y hy => (k4 y).2 (Or.inr hy), fun y c hc => ?_, [], ?_, by simp, fun i e he => ?_⟩, hq⟩
  · simp only at hc
    rw [k2] at hc
    by_cases hx : x ∈ c.varList
    · exact Or.inl (hq y c hc hx)
    · exact Or.inr ⟨hc, fun v hv => setRc_rcs_ne r s fun hvx => hx (hvx ▸ hv)⟩
  · simp [setRc]
  · simp only
    rw [k2]
    exact he

theorem constrainBoolean_step {z : SVar V} (hi : s.cs.Inv) (hr : constrainBoolean z s = .ok s') :
    Step s s' := by
  unfold constrainBoolean at hr
  have h0 : Step s { s with cache := [] } := Step.of_same rfl rfl rfl hi
  rcases updateRc_cases z (.fromMask 1) { s with cache := [] } with hu | hu
  · rw [hu] at hr
    cases hr
    exact h0
  · rw [hu] at hr
    simp only at hr
    split at hr
    · cases hr
    · exact h0.trans (variableUpdated_step h0.inv hr).1

theorem constrainBooleans_step : ∀ {l : List (SVar V)} {s : Solver p V}, s.cs.Inv →
    constrainBooleans l s = .ok s' → Step s s' := by
  intro l
  induction l with
  | nil =>
    intro s hi hr
    cases hr
    exact .refl hi
  | cons z t ih =>
    intro s hi hr
    rw [constrainBooleans] at hr
    obtain ⟨s1, h1, h2⟩ := stop_bind_ok hr
    have k1 := constrainBoolean_step hi h1
    exact k1.trans (ih k1.inv h2)

theorem constrainBooleans_toReturn : ∀ {l : List (SVar V)} {s : Solver p V},
    constrainBooleans l s = .ok s' → s'.toReturn = s.toReturn := by
  intro l
  induction l with
  | nil =>
    intro s hr
    cases hr
    rfl
  | cons z t ih =>
    intro s hr
    rw [constrainBooleans] at hr
    obtain ⟨s1, h1, h2⟩ := stop_bind_ok hr
    rw [ih h2]
    unfold constrainBoolean at h1
    rcases updateRc_cases z (.fromMask 1) { s with cache := [] } with hu | hu
    · rw [hu] at h1
      cases h1
      rfl
    · rw [hu] at h1
      simp only at h1
      split at h1
      · cases h1
      · unfold variableUpdated at h1
        obtain ⟨cs, -, h3⟩ := stop_bind_ok h1
        cases h3
        rfl

theorem extractAll_toReturn : ∀ {es : List (GExpr p (SVar V))} {s : Solver p V}
    {r : List (GExpr p (SVar V)) × Solver p V}, extractAll es s = .ok r →
    r.2.toReturn = s.toReturn := by
  intro es
  induction es with
  | nil =>
    intro s r hr
    cases hr
    rfl
  | cons e t ih =>
    intro s r hr
    rw [extractAll] at hr
    obtain ⟨r1, h1, h2⟩ := stop_bind_ok hr
    obtain ⟨r2, h3, h4⟩ := stop_bind_ok h2
    cases h4
    simp only
    rw [ih h3]
    unfold tryExtractBoolean at h1
    obtain ⟨s1, h5, h6⟩ := stop_bind_ok h1
    cases h6
    simp only
    rw [constrainBooleans_toReturn h5]
    unfold extractBoolean
    split <;> rfl

theorem extractBoolean_step (e : GExpr p (SVar V)) (hi : s.cs.Inv) :
    Step s (extractBoolean e s).2 := by
  unfold extractBoolean
  split
  · exact .refl hi
  · exact Step.of_same rfl rfl rfl hi

theorem tryExtractBoolean_step {e : GExpr p (SVar V)} {r : Option (GExpr p (SVar V)) × Solver p V}
    (hi : s.cs.Inv) (hr : tryExtractBoolean e s = .ok r) : Step s r.2 := by
  unfold tryExtractBoolean at hr
  obtain ⟨s1, h1, h2⟩ := stop_bind_ok hr
  cases h2
  have k1 := extractBoolean_step e hi
  exact k1.trans (constrainBooleans_step k1.inv h1)

theorem extractAll_step : ∀ {es : List (GExpr p (SVar V))} {s : Solver p V}
    {r : List (GExpr p (SVar V)) × Solver p V}, s.cs.Inv → extractAll es s = .ok r →
    Step s r.2 ∧ ∀ e ∈ es, e ∈ r.1 := by
  intro es
  induction es with
  | nil =>
    intro s r hi hr
    cases hr
    exact ⟨.refl hi, by simp⟩
  | cons e t ih =>
    intro s r hi hr
    rw [extractAll] at hr
    obtain ⟨r1, h1, h2⟩ := stop_bind_ok hr
    obtain ⟨r2, h3, h4⟩ := stop_bind_ok h2
    cases h4
    have k1 := tryExtractBoolean_step hi h1
    obtain ⟨k2, k3⟩ := ih k1.inv h3
    refine ⟨k1.trans k2, fun x hx => ?_⟩
    rcases List.mem_cons.1 hx with rfl | hx
    · simp
    · simp [k3 x hx]

theorem linearizeConstraint_same (e : GExpr p (SVar V)) (s : Solver p V) :
    (linearizeConstraint e s).2.cs = s.cs ∧ (linearizeConstraint e s).2.rcs = s.rcs ∧
    (linearizeConstraint e s).2.toReturn = s.toReturn := by
  unfold linearizeConstraint
  split <;> exact ⟨rfl, rfl, rfl⟩

theorem linearizeConstraints_same : ∀ (es : List (GExpr p (SVar V))) (s : Solver p V),
    (linearizeConstraints es s).2.cs = s.cs ∧ (linearizeConstraints es s).2.rcs = s.rcs ∧
    (linearizeConstraints es s).2.toReturn = s.toReturn := by
  intro es
  induction es with
  | nil => intro s; exact ⟨rfl, rfl, rfl⟩
  | cons e t ih =>
    intro s
    obtain ⟨h1, h2, h3⟩ := linearizeConstraint_same e s
    obtain ⟨k1, k2, k3⟩ := ih (linearizeConstraint e s).2
    rw [linearizeConstraints]
    exact ⟨k1.trans h1, k2.trans h2, k3.trans h3⟩

/-- Adding constraints to the constraint system. -/
theorem addAlgebraic_cs_step {l : List (GExpr p (SVar V))} {cs : Queued p (SVar V)} (hi : s.cs.Inv)
    (hr : s.cs.addAlgebraic l = .ok cs) : Step s { s with cs := cs } ∧
    cs.ix.sys.algebraic = s.cs.ix.sys.algebraic ++ l ∧ cs.ix.sys.bus = s.cs.ix.sys.bus := by
  obtain ⟨cs', k1, k2, k3, k4⟩ := Queued.addAlgebraic_ok hi l
  rw [hr] at k1
  cases k1
  refine ⟨⟨k3, fun y hy => (k4 y).2 (Or.inr hy), fun y c hc => ?_, [], by simp, by simp,
    fun i e he => ?_⟩, by rw [k2]; rfl, by rw [k2]; exact List.append_nil _⟩
  · simp only at hc
    rw [k2] at hc
    rcases refAt_extend hc with h' | ⟨j, hj, rfl⟩ | ⟨j, hj, rfl⟩
    · exact Or.inr ⟨h', fun v _ => rfl⟩
    · exact Or.inl ((k4 _).2 (Or.inl ⟨j, hj, rfl⟩))
    · exact absurd hj (by simp)
  · simp only
    rw [k2]
    change (s.cs.ix.sys.algebraic ++ l)[i]? = some e
    rw [List.getElem?_append_left (List.getElem?_eq_some_iff.1 he).1]
    exact he

theorem addBus_cs_step {l : List (BusInteraction (GExpr p (SVar V)))} {cs : Queued p (SVar V)}
    (hi : s.cs.Inv) (hr : s.cs.addBus l = .ok cs) : Step s { s with cs := cs } := by
  obtain ⟨cs', k1, k2, k3, k4⟩ := Queued.addBus_ok hi l
  rw [hr] at k1
  cases k1
  refine ⟨k3, fun y hy => (k4 y).2 (Or.inr hy), fun y c hc => ?_, [], by simp, by simp,
    fun i e he => ?_⟩
  · simp only at hc
    rw [k2] at hc
    rcases refAt_extend hc with h' | ⟨j, hj, rfl⟩ | ⟨j, hj, rfl⟩
    · exact Or.inr ⟨h', fun v _ => rfl⟩
    · exact absurd hj (by simp)
    · exact Or.inl ((k4 _).2 (Or.inl ⟨j, hj, rfl⟩))
  · simp only
    rw [k2]
    change (s.cs.ix.sys.algebraic ++ [])[i]? = some e
    rw [List.append_nil]
    exact he

theorem mem_linearizeConstraints : ∀ {es : List (GExpr p (SVar V))} {e : GExpr p (SVar V)}
    (s : Solver p V), e ∈ es → e.isAffine = true → e ∈ (linearizeConstraints es s).1 := by
  intro es
  induction es with
  | nil => intro e s he; cases he
  | cons x t ih =>
    intro e s he ha
    rw [linearizeConstraints]
    rcases List.mem_cons.1 he with rfl | he
    · refine List.mem_append_left _ ?_
      unfold linearizeConstraint
      rw [if_pos ha]
      simp
    · exact List.mem_append_right _ (ih _ he ha)

theorem addAlgebraic_step {es : List (GExpr p (SVar V))} (hi : s.cs.Inv)
    (hr : addAlgebraic es s = .ok s') : Step s s' ∧
    ∀ e ∈ es, e.isZero = false → e.isAffine = true → e ∈ s'.cs.ix.sys.algebraic := by
  unfold addAlgebraic at hr
  obtain ⟨r, h1, h2⟩ := stop_bind_ok hr
  obtain ⟨cs, h3, h4⟩ := stop_bind_ok h2
  cases h4
  have h0 : Step s { s with cache := [] } := Step.of_same rfl rfl rfl hi
  obtain ⟨k1, k2⟩ := extractAll_step h0.inv h1
  obtain ⟨g1, g2, g3⟩ := linearizeConstraints_same r.1 r.2
  have k3 : Step r.2 (linearizeConstraints r.1 r.2).2 := Step.of_same g1 g2 g3 k1.inv
  obtain ⟨k4, k5, -⟩ := addAlgebraic_cs_step k3.inv (liftPanic_eq_ok h3)
  refine ⟨((h0.trans k1).trans k3).trans k4, fun e he hz ha => ?_⟩
  simp only
  rw [k5]
  refine List.mem_append_right _ (List.mem_filter.2 ⟨mem_linearizeConstraints _ (k2 e ?_) ha, ?_⟩)
  · exact List.mem_filter.2 ⟨he, by simp [hz]⟩
  · simp [hz]

theorem addAlgebraic_toReturn {es : List (GExpr p (SVar V))} (hr : addAlgebraic es s = .ok s') :
    s'.toReturn = s.toReturn := by
  unfold addAlgebraic at hr
  obtain ⟨r, h1, h2⟩ := stop_bind_ok hr
  obtain ⟨cs, h3, h4⟩ := stop_bind_ok h2
  cases h4
  have h5 := extractAll_toReturn h1
  exact ((linearizeConstraints_same r.1 r.2).2.2).trans h5

theorem addBus_step {bs : List (BusInteraction (GExpr p (SVar V)))} (hi : s.cs.Inv)
    (hr : addBus bs s = .ok s') : Step s s' := by
  unfold addBus at hr
  obtain ⟨s1, h1, h2⟩ := stop_bind_ok hr
  obtain ⟨cs, h3, h4⟩ := stop_bind_ok h2
  cases h4
  have h0 : Step s { s with
      cache := []
      linSubs := (linearizeBuses bs ⟨s.linSubs, s.nextLin, []⟩).2.subs
      nextLin := (linearizeBuses bs ⟨s.linSubs, s.nextLin, []⟩).2.next } :=
    Step.of_same rfl rfl rfl hi
  obtain ⟨k1, -⟩ := addAlgebraic_step h0.inv h1
  exact (h0.trans k1).trans (addBus_cs_step k1.inv (liftPanic_eq_ok h3))

theorem extractRefs_same : ∀ (es : List (GExpr p (SVar V))) (s : Solver p V),
    (extractRefs es s).2.2.cs = s.cs ∧ (extractRefs es s).2.2.rcs = s.rcs ∧
    (extractRefs es s).2.2.toReturn = s.toReturn := by
  intro es
  induction es with
  | nil => intro s; exact ⟨rfl, rfl, rfl⟩
  | cons e t ih =>
    intro s
    have h1 : (extractBoolean e s).2.cs = s.cs ∧ (extractBoolean e s).2.rcs = s.rcs ∧
        (extractBoolean e s).2.toReturn = s.toReturn := by
      unfold extractBoolean
      split <;> exact ⟨rfl, rfl, rfl⟩
    obtain ⟨k1, k2, k3⟩ := ih (extractBoolean e s).2
    rw [extractRefs]
    exact ⟨k1.trans h1.1, k2.trans h1.2.1, k3.trans h1.2.2⟩

/-- Substitution in the constraint system, when the assignment is also recorded. -/
theorem subst_cs_step {x : SVar V} {r : GExpr p (SVar V)} {cs : Queued p (SVar V)} (hi : s.cs.Inv)
    (hp : Plain (x, r)) (hr : s.cs.subst x r = .ok cs) :
    Step s { s with cs := cs, toReturn := s.toReturn ++ [(x, r)] } ∧
    ∀ y c, refAt s.cs.ix.sys y = some c → x ∈ c.varList → y ∈ cs.queue.queue := by
  obtain ⟨cs', k1, k2, k3, k4⟩ := Queued.subst_ok hi x r
  rw [hr] at k1
  cases k1
  refine ⟨⟨k3, fun y hy => k4 y (Or.inr hy), fun y c hc => ?_, [(x, r)], rfl, ?_, fun i e he => ?_⟩,
    fun y c hc hx => ?_⟩
  · simp only at hc
    rw [k2] at hc
    by_cases hm : y ∈ s.cs.ix.occ x
    · exact Or.inl (k4 y (Or.inl ⟨hm, (refAt_inBounds hc).2⟩))
    · rw [refAt_subst hi.ix hm] at hc
      exact Or.inr ⟨hc, fun v _ => rfl⟩
  · intro a ha
    rw [List.mem_singleton] at ha
    subst ha
    exact hp
  · simp only
    rw [k2, Indexed.subst_sys hi.ix]
    change (s.cs.ix.sys.algebraic.map (GExpr.subst x r))[i]? = _
    rw [List.getElem?_map, he]
    rfl
  · obtain ⟨h1, h2⟩ := refAt_occurs hc hx
    exact k4 y (Or.inl ⟨hi.ix.complete x y h1, h2⟩)

/-- A step does not depend on the assignments recorded before. -/
theorem Step.shift (h1 : Step s s') (l : List (SVar V × GExpr p (SVar V)))
    (l' : List (SVar V × GExpr p (SVar V))) (hl : s.toReturn = l) :
    Step { s with toReturn := l' } { s' with toReturn := l' ++ s'.toReturn.drop l.length } where
  inv := h1.inv
  queue := h1.queue
  settled := h1.settled
  found := by
    obtain ⟨m, k1, k2, k3⟩ := h1.found
    refine ⟨m, ?_, k2, k3⟩
    simp only
    rw [k1, hl, List.drop_left]

theorem applyAssignment_step {x : SVar V} {r : GExpr p (SVar V)} (hi : s.cs.Inv)
    (hp : Plain (x, r)) (hr : applyAssignment x r s = .ok s') : Step s s' ∧
    ∀ y c, refAt s.cs.ix.sys y = some c → x ∈ c.varList → y ∈ s'.cs.queue.queue := by
  unfold applyAssignment at hr
  obtain ⟨cs, h1, h2⟩ := stop_bind_ok hr
  obtain ⟨refs, h3, h4⟩ := stop_bind_ok h2
  obtain ⟨s1, h5, h6⟩ := stop_bind_ok h4
  obtain ⟨s2, h7, h8⟩ := stop_bind_ok h6
  cases h8
  obtain ⟨k1, k2⟩ := subst_cs_step hi hp (liftPanic_eq_ok h1)
  obtain ⟨g1, g2, g3⟩ := extractRefs_same (algebraicRefs refs) { s with cs := cs }
  have m1 : Step { s with cs := cs } (extractRefs (algebraicRefs refs) { s with cs := cs }).2.2 :=
    Step.of_same g1 g2 g3 k1.inv
  have m2 := constrainBooleans_step m1.inv h5
  obtain ⟨m3, -⟩ := addAlgebraic_step m2.inv h7
  have m4 := (m1.trans m2).trans m3
  have ht : s2.toReturn = s.toReturn := by
    have e1 := Solver.constrainBooleans_toReturn h5
    have e2 := Solver.addAlgebraic_toReturn h7
    rw [e2, e1, g3]
  have m5 := m4.shift s.toReturn (s.toReturn ++ [(x, r)]) rfl
  rw [ht, List.drop_length, List.append_nil] at m5
  have m6 := k1.trans m5
  rw [ht]
  exact ⟨m6, fun y c hc hx => m5.queue y (k2 y c hc hx)⟩

theorem applyRc_step {x : SVar V} {r : RangeConstraint p} {o : Bool × Solver p V} (hi : s.cs.Inv)
    (hr : applyRc x r s = .ok o) : Step s o.2 ∧
    ((o = (false, s) ∧ (s.rcs x).conjunction r = s.rcs x) ∨
      (o.1 = true ∧
        ∀ y c, refAt s.cs.ix.sys y = some c → x ∈ c.varList → y ∈ o.2.cs.queue.queue)) := by
  unfold applyRc at hr
  cases hu : updateRc x r s with
  | none =>
    rw [hu] at hr
    cases hr
    refine ⟨.refl hi, Or.inl ⟨rfl, ?_⟩⟩
    unfold updateRc at hu
    simp only at hu
    split at hu
    · cases hu
    · rename_i hn
      simpa using hn
  | some s1 =>
    have hs1 : s1 = setRc x r s := by
      rcases updateRc_cases x r s with h' | h' <;> rw [hu] at h'
      · cases h'
      · exact Option.some.inj h'
    subst hs1
    rw [hu] at hr
    simp only at hr
    split at hr
    · rename_i value hv
      obtain ⟨s2, h1, h2⟩ := stop_bind_ok hr
      cases h2
      have hi' : (setRc x r s).cs.Inv := hi
      obtain ⟨k1, k2⟩ := applyAssignment_step hi' (Or.inl ⟨value, rfl⟩) h1
      have hocc : ∀ y c, refAt s.cs.ix.sys y = some c → x ∈ c.varList →
          y ∈ s2.cs.queue.queue := k2
      refine ⟨⟨k1.inv, k1.queue, fun y c hc => ?_, k1.found⟩, Or.inr ⟨rfl, hocc⟩⟩
      rcases k1.settled y c hc with h' | ⟨h', hv'⟩
      · exact Or.inl h'
      · by_cases hx : x ∈ c.varList
        · exact Or.inl (hocc y c h' hx)
        · exact Or.inr ⟨h', fun v hv => (hv' v hv).trans
            (setRc_rcs_ne r s fun hvx => hx (hvx ▸ hv))⟩
    · obtain ⟨s2, h1, h2⟩ := stop_bind_ok hr
      cases h2
      obtain ⟨k1, k2⟩ := variableUpdated_step hi h1
      exact ⟨k1, Or.inr ⟨rfl, k2⟩⟩

/-- The variable of an assignment or range constraint. -/
def newsVar : Effect p V → List V
  | .assignment v _ => [v]
  | .rangeConstraint v _ => [v]
  | _ => []

theorem applyEffects_step : ∀ {l : List (Effect p (SVar V))} {s : Solver p V}
    {o : Bool × Solver p V}, s.cs.Inv → applyEffects l s = .ok o → Step s o.2 ∧
    ((o.2 = s ∧ ∀ eff ∈ l, NoNews s.rcs eff) ∨
      ∃ eff ∈ l, ∃ x ∈ newsVar eff,
        ∀ y c, refAt s.cs.ix.sys y = some c → x ∈ c.varList → y ∈ o.2.cs.queue.queue) := by
  intro l
  induction l with
  | nil =>
    intro s o hi hr
    cases hr
    exact ⟨.refl hi, Or.inl ⟨rfl, by simp⟩⟩
  | cons eff t ih =>
    intro s o hi hr
    rw [applyEffects] at hr
    obtain ⟨r1, h1, h2⟩ := stop_bind_ok hr
    obtain ⟨r2, h3, h4⟩ := stop_bind_ok h2
    cases h4
    cases eff with
    | assignment v value =>
      obtain ⟨s1, h5, h6⟩ := stop_bind_ok h1
      cases h6
      obtain ⟨k1, k2⟩ := applyAssignment_step hi (Or.inl ⟨value, rfl⟩) h5
      obtain ⟨k3, -⟩ := ih k1.inv h3
      exact ⟨k1.trans k3, Or.inr ⟨_, List.mem_cons_self, v, by simp [newsVar],
        fun y c hc hx => k3.queue y (k2 y c hc hx)⟩⟩
    | rangeConstraint v r =>
      obtain ⟨k1, k2⟩ := applyRc_step hi h1
      obtain ⟨k3, k4⟩ := ih k1.inv h3
      refine ⟨k1.trans k3, ?_⟩
      rcases k2 with ⟨rfl, hn⟩ | ⟨-, k2⟩
      · rcases k4 with ⟨g1, g2⟩ | ⟨eff, he, x, hx, g⟩
        · refine Or.inl ⟨g1, fun eff he => ?_⟩
          rcases List.mem_cons.1 he with rfl | he
          · exact hn
          · exact g2 eff he
        · exact Or.inr ⟨eff, List.mem_cons_of_mem _ he, x, hx, g⟩
      · exact Or.inr ⟨_, List.mem_cons_self, v, by simp [newsVar],
          fun y c hc hx => k3.queue y (k2 y c hc hx)⟩
    | assertion a b c => cases h1
    | conditionalAssignment a b c d e => cases h1

/-- The constraint alone gives nothing new. -/
def Stable (h : Handler p) (rc : SVar V → RangeConstraint p) : ConstraintRef p (SVar V) → Prop
  | .alg e => trySimpleEquivalence e = none ∧
      ∃ r, GExpr.solve rc e = .ok (.ok r) ∧ ∀ eff ∈ r.effects, NoNews rc eff
  | .bus b => ∃ effects, solveBus rc h b = .ok (.ok effects) ∧ ∀ eff ∈ effects, NoNews rc eff

/-- The expressions of the constraint were built through the API. -/
def RefWF : ConstraintRef p (SVar V) → Prop
  | .alg e => WF e
  | .bus b => b.WF

theorem _root_.Verif.NoNews.congr {rc rc' : SVar V → RangeConstraint p} {eff : Effect p (SVar V)}
    (hv : ∀ v ∈ newsVar eff, rc' v = rc v) (hn : NoNews rc eff) : NoNews rc' eff := by
  cases eff with
  | rangeConstraint v r =>
    simp only [NoNews] at *
    rw [hv v (by simp [newsVar])]
    exact hn
  | assignment v r => exact hn
  | assertion a b c => exact hn
  | conditionalAssignment a b c d e => exact hn

/-- What is deduced from a constraint is about its variables. -/
theorem solve_newsVar {rc : SVar V → RangeConstraint p} {e : GExpr p (SVar V)} (hw : WF e)
    {r : ProcessResult p (SVar V)} (ho : GExpr.solve rc e = .ok (.ok r)) :
    ∀ eff ∈ r.effects, ∀ v ∈ newsVar eff, v ∈ vars e := by
  obtain ⟨o, h1, h2⟩ := GExpr.solve_spec (rc := rc) hw
  rw [ho] at h1
  cases h1
  have h2 : GExpr.Good rc e r := h2
  intro eff he v hv
  cases eff with
  | assignment w a =>
    rw [newsVar, List.mem_singleton] at hv
    subst hv
    exact h2.inVars _ he _ _ rfl
  | rangeConstraint w a =>
    rw [newsVar, List.mem_singleton] at hv
    subst hv
    exact h2.inVars _ he _ _ rfl
  | assertion a b c => cases hv
  | conditionalAssignment a b c d e => cases hv

theorem solveBus_newsVar {rc : SVar V → RangeConstraint p} {b : BusInteraction (GExpr p (SVar V))}
    {effects : List (Effect p (SVar V))} (ho : solveBus rc h b = .ok (.ok effects)) :
    ∀ eff ∈ effects, ∀ v ∈ newsVar eff, v ∈ busVars b := by
  intro eff he v hv
  obtain ⟨w, r, rfl, hw⟩ := solveBus_simple ho eff he
  rw [newsVar, List.mem_singleton] at hv
  subst hv
  exact hw

theorem Stable.congr {rc rc' : SVar V → RangeConstraint p} {c : ConstraintRef p (SVar V)}
    (hw : RefWF c) (hv : ∀ v ∈ c.varList, rc' v = rc v) (hs : Stable h rc c) : Stable h rc' c := by
  cases c with
  | alg e =>
    obtain ⟨h1, r, h2, h3⟩ := hs
    refine ⟨h1, r, ?_, fun eff he => (h3 eff he).congr fun v hm =>
      hv v (solve_newsVar hw h2 eff he v hm)⟩
    rw [← h2]
    exact solve_local hw fun v hm => hv v hm
  | bus b =>
    obtain ⟨r, h2, h3⟩ := hs
    refine ⟨r, ?_, fun eff he => (h3 eff he).congr fun v hm =>
      hv v (solveBus_newsVar h2 eff he v hm)⟩
    rw [← h2]
    exact solveBus_local hw fun v hm => hv v hm

theorem addAlgebraicIfNew_step {es : List (GExpr p (SVar V))} {o : Bool × Solver p V}
    (hi : s.cs.Inv) (hr : addAlgebraicIfNew es s = .ok o) : Step s o.2 := by
  unfold addAlgebraicIfNew at hr
  obtain ⟨new, h1, h2⟩ := stop_bind_ok hr
  split at h2
  · cases h2
    exact .refl hi
  · obtain ⟨s1, h3, h4⟩ := stop_bind_ok h2
    cases h4
    exact (addAlgebraic_step hi h3).1

/-- Applying what was deduced from a constraint: it becomes pending again, or nothing was new. -/
theorem effects_settle {l : List (Effect p (SVar V))} {o : Bool × Solver p V} {s1 : Solver p V}
    {x : Item} {c : ConstraintRef p (SVar V)} (hx : refAt s.cs.ix.sys x = some c)
    (h1 : Step s s1) (hr : applyEffects l s1 = .ok o)
    (hv : ∀ eff ∈ l, ∀ v ∈ newsVar eff, v ∈ c.varList) : Step s o.2 ∧
    ∀ d, refAt o.2.cs.ix.sys x = some d → x ∉ o.2.cs.queue.queue →
      d = c ∧ (∀ v ∈ c.varList, o.2.rcs v = s.rcs v) ∧ ∀ eff ∈ l, NoNews o.2.rcs eff := by
  obtain ⟨k1, k2⟩ := applyEffects_step h1.inv hr
  have k3 := h1.trans k1
  refine ⟨k3, fun d hd hq => ?_⟩
  rcases k3.settled x d hd with h' | ⟨h', h''⟩
  · exact absurd h' hq
  rw [hx] at h'
  cases h'
  refine ⟨rfl, h'', ?_⟩
  rcases k2 with ⟨g1, g2⟩ | ⟨eff, he, v, hm, g⟩
  · rw [g1]
    exact g2
  · exfalso
    apply hq
    rcases k1.settled x c hd with h' | ⟨h', -⟩
    · exact absurd h' hq
    · exact g x c h' (hv eff he v hm)

theorem process_step {order : Rearrange (Effect p (SVar V))} {x : Item}
    {c : ConstraintRef p (SVar V)} {o : Bool × Solver p V} (hi : s.cs.Inv) (hw : RefWF c)
    (hx : refAt s.cs.ix.sys x = some c) (hr : process h order c s = .ok o) : Step s o.2 ∧
    ∀ d, refAt o.2.cs.ix.sys x = some d → x ∉ o.2.cs.queue.queue → Stable h o.2.rcs d := by
  cases c with
  | bus b =>
    simp only [process, processBus] at hr
    obtain ⟨r, h1, h2⟩ := stop_bind_ok hr
    have h1 := liftPanic_eq_ok h1
    cases r with
    | error y => cases h2
    | ok effects =>
      simp only at h2
      have hmem : ∀ eff, eff ∈ order.1 effects ↔ eff ∈ effects := fun eff =>
        (order.2 effects).mem_iff
      obtain ⟨k1, k2⟩ := effects_settle hx (.refl hi) h2 fun eff he =>
        solveBus_newsVar h1 eff ((hmem eff).1 he)
      refine ⟨k1, fun d hd hq => ?_⟩
      obtain ⟨rfl, g1, g2⟩ := k2 d hd hq
      refine ⟨effects, ?_, fun eff he => g2 eff ((hmem eff).2 he)⟩
      rw [← h1]
      exact solveBus_local hw g1
  | alg e =>
    simp only [process, processAlgebraic] at hr
    split at hr
    · rename_i v r ht
      obtain ⟨s1, h1, h2⟩ := stop_bind_ok hr
      cases h2
      obtain ⟨v1, rfl, hv, -, hlt⟩ := trySimpleEquivalence_lt hw ht
      obtain ⟨k1, k2⟩ := applyAssignment_step hi (Or.inr ⟨v1, rfl, hlt⟩) h1
      exact ⟨k1, fun d hd hq => absurd (k2 x _ hx hv) hq⟩
    · rename_i ht
      obtain ⟨r, h1, h2⟩ := stop_bind_ok hr
      have h1 := liftPanic_eq_ok h1
      cases r with
      | error y => cases h2
      | ok result =>
        simp only at h2
        obtain ⟨split, h3, h4⟩ := stop_bind_ok h2
        have hn : ∃ n : Bool × Solver p V, Step s n.2 ∧ ∃ r,
            applyEffects (order.1 result.effects) n.2 = .ok r ∧ o = (n.1 || r.1, r.2) := by
          cases split with
          | none =>
            obtain ⟨n, h5, h6⟩ := stop_bind_ok h4
            obtain ⟨r, h7, h8⟩ := stop_bind_ok h6
            cases h5
            cases h8
            exact ⟨(false, s), .refl hi, r, h7, rfl⟩
          | some parts =>
            obtain ⟨n, h5, h6⟩ := stop_bind_ok h4
            obtain ⟨r, h7, h8⟩ := stop_bind_ok h6
            cases h8
            exact ⟨n, addAlgebraicIfNew_step hi h5, r, h7, rfl⟩
        obtain ⟨n, hn, r, h7, rfl⟩ := hn
        have hmem : ∀ eff, eff ∈ order.1 result.effects ↔ eff ∈ result.effects := fun eff =>
          (order.2 result.effects).mem_iff
        obtain ⟨k1, k2⟩ := effects_settle hx hn h7 fun eff he =>
          solve_newsVar hw h1 eff ((hmem eff).1 he)
        refine ⟨k1, fun d hd hq => ?_⟩
        obtain ⟨rfl, g1, g2⟩ := k2 d hd hq
        refine ⟨ht, result, ?_, fun eff he => g2 eff ((hmem eff).2 he)⟩
        rw [← h1]
        exact solve_local hw g1

/-! ### The invariant -/

/-- Every constraint is pending or gives nothing new. -/
def Settled (h : Handler p) (s : Solver p V) : Prop :=
  ∀ y c, refAt s.cs.ix.sys y = some c → y ∈ s.cs.queue.queue ∨ Stable h s.rcs c

theorem refWF (hi : s.Inv) {y : Item} {c : ConstraintRef p (SVar V)}
    (hc : refAt s.cs.ix.sys y = some c) : RefWF c := by
  cases y with
  | alg i =>
    simp only [refAt, Option.map_eq_some_iff] at hc
    obtain ⟨e, he, rfl⟩ := hc
    exact hi.wf.1 e (List.mem_of_getElem? he)
  | bus i =>
    simp only [refAt, Option.map_eq_some_iff] at hc
    obtain ⟨b, hb, rfl⟩ := hc
    exact hi.wf.2 b (List.mem_of_getElem? hb)
  | derived i => cases hc

theorem Settled.step (hs : Settled h s) (hi : s.Inv) (hst : Step s s') : Settled h s' := by
  intro y c hc
  rcases hst.settled y c hc with h' | ⟨h', hv⟩
  · exact Or.inl h'
  · rcases hs y c h' with h'' | h''
    · exact Or.inl (hst.queue y h'')
    · exact Or.inr (h''.congr (refWF hi h') hv)

theorem solveInIsolation_settled {bus : Bus p} (hsd : h.Sound bus)
    (order : ℕ → Rearrange (Effect p (SVar V))) : ∀ (fuel : ℕ) (progress : Bool)
    {s : Solver p V} {o : Bool × Solver p V}, s.Inv → Settled h s →
    solveInIsolation h order fuel progress s = .ok o →
    o.2.Inv ∧ Settled h o.2 ∧ o.2.cs.queue.queue = [] ∧ Found s o.2 := by
  intro fuel
  induction fuel with
  | zero => intro progress s o _ _ hr; cases hr
  | succ n ih =>
    intro progress s o hi hs hr
    rw [solveInIsolation] at hr
    obtain ⟨item, h1, h2⟩ := stop_bind_ok hr
    have h1 := liftPanic_eq_ok h1
    rcases Queued.popFront_ok hi.cs with ⟨k1, k2⟩ | ⟨x, c, cs, k1, k2, k3, k4, k5⟩
    · rw [k2] at h1
      cases h1
      cases h2
      exact ⟨hi, hs, k1, [], by simp, by simp, fun i e he => he⟩
    · rw [k1] at h1
      cases h1
      simp only at h2
      obtain ⟨r, h3, h4⟩ := stop_bind_ok h2
      have hi1 : ({ s with cs := cs } : Solver p V).Inv := hi.sameIx k5 k4
      have hc : refAt cs.ix.sys x = some c := by rw [k4]; exact k2
      obtain ⟨g1, g2⟩ := process_step (s := { s with cs := cs }) k5 (refWF hi k2) hc h3
      have hi2 : r.2.Inv := by
        cases c with
        | alg e =>
          have hm : e ∈ s.cs.ix.sys.algebraic := by
            cases x with
            | alg i =>
              simp only [refAt, Option.map_eq_some_iff] at k2
              obtain ⟨e', he', hee⟩ := k2
              cases hee
              exact List.mem_of_getElem? he'
            | bus i => simp [refAt] at k2
            | derived i => cases k2
          have := processAlgebraic_spec (bus := bus) (h := h) (order := order n) hi1
            (hi.wf.1 e hm) (hi.algBelow hm)
          simp only [process] at h3
          rw [h3] at this
          exact this.1.inv
        | bus b =>
          have hm : b ∈ s.cs.ix.sys.bus := by
            cases x with
            | bus i =>
              simp only [refAt, Option.map_eq_some_iff] at k2
              obtain ⟨e', he', hee⟩ := k2
              cases hee
              exact List.mem_of_getElem? he'
            | alg i => simp [refAt] at k2
            | derived i => cases k2
          have := processBus_spec (bus := bus) (h := h) hsd (order := order n) hi1
            (hi.wf.2 b hm) (fun e he => hi.busBelow hm he)
          simp only [process] at h3
          rw [h3] at this
          exact this.1.inv
      have hs2 : Settled h r.2 := by
        intro y d hd
        by_cases hyx : y = x
        · subst hyx
          by_cases hq : y ∈ r.2.cs.queue.queue
          · exact Or.inl hq
          · exact Or.inr (g2 d hd hq)
        · rcases g1.settled y d hd with h' | ⟨h', hv⟩
          · exact Or.inl h'
          · simp only at h'
            rw [k4] at h'
            rcases hs y d h' with h'' | h''
            · rw [k3] at h''
              rcases List.mem_cons.1 h'' with h'' | h''
              · exact absurd h'' hyx
              · exact Or.inl (g1.queue y h'')
            · exact Or.inr (h''.congr (refWF hi h') hv)
      obtain ⟨m1, m2, m3, m4⟩ := ih _ hi2 hs2 h4
      have hf : Found s r.2 := by
        obtain ⟨l, f1, f2, f3⟩ := g1.found
        refine ⟨l, f1, f2, fun i e he => f3 i e ?_⟩
        simp only
        rw [k4]
        exact he
      exact ⟨m1, m2, m3, hf.trans m4⟩

/-! ### The exhaustive search -/

theorem applyRcs_step : ∀ {l : List (SVar V × RangeConstraint p)} {s : Solver p V}
    {o : Bool × Solver p V}, s.cs.Inv → applyRcs l s = .ok o →
    Step s o.2 ∧ (o.1 = false → o.2 = s) := by
  intro l
  induction l with
  | nil =>
    intro s o hi hr
    cases hr
    exact ⟨.refl hi, fun _ => rfl⟩
  | cons x t ih =>
    intro s o hi hr
    rw [applyRcs] at hr
    obtain ⟨r1, h1, h2⟩ := stop_bind_ok hr
    obtain ⟨r2, h3, h4⟩ := stop_bind_ok h2
    cases h4
    obtain ⟨k1, k2⟩ := applyRc_step hi h1
    obtain ⟨k3, k4⟩ := ih k1.inv h3
    refine ⟨k1.trans k3, fun hf => ?_⟩
    rw [Bool.or_eq_false_iff] at hf
    rcases k2 with ⟨rfl, -⟩ | ⟨k2, -⟩
    · exact k4 hf.2
    · rw [k2] at hf
      exact absurd hf.1 (by simp)

theorem searchSets_step : ∀ {sets : List (List (SVar V))} {bad : List (List (SVar V))}
    {progress : Bool} {s : Solver p V} {o : Bool × Solver p V}, s.cs.Inv →
    searchSets h sets bad progress s = .ok o →
    Step s o.2 ∧ (o.1 = false → progress = false ∧ o.2 = s) := by
  intro sets
  induction sets with
  | nil =>
    intro bad progress s o hi hr
    cases hr
    exact ⟨.refl hi, fun hf => ⟨hf, rfl⟩⟩
  | cons vs t ih =>
    intro bad progress s o hi hr
    rw [searchSets] at hr
    split at hr
    · exact ih hi hr
    · obtain ⟨m, h1, h2⟩ := stop_bind_ok hr
      cases m with
      | error x => cases h2
      | ok m =>
        simp only at h2
        split at h2
        · exact ih hi h2
        · obtain ⟨r, h3, h4⟩ := stop_bind_ok h2
          obtain ⟨k1, k2⟩ := applyRcs_step hi h3
          obtain ⟨k3, k4⟩ := ih k1.inv h4
          refine ⟨k1.trans k3, fun hf => ?_⟩
          obtain ⟨g1, g2⟩ := k4 hf
          rw [Bool.or_eq_false_iff] at g1
          exact ⟨g1.1, g2.trans (k2 g1.2)⟩

/-- A search that finds nothing finds nothing in every solver with the same constraints and ranges. -/
theorem applyRcs_again {s1 : Solver p V} (h2 : s1.rcs = s.rcs) : ∀ {l : List (SVar V × RangeConstraint p)},
    s.cs.Inv → applyRcs l s = .ok (false, s) → applyRcs l s1 = .ok (false, s1) := by
  intro l
  induction l with
  | nil => intro _ _; rfl
  | cons x t ih =>
    intro hi hr
    rw [applyRcs] at hr
    obtain ⟨r1, g1, g2⟩ := stop_bind_ok hr
    obtain ⟨r2, g3, g4⟩ := stop_bind_ok g2
    have g5 : (r1.1 || r2.1, r2.2) = (false, s) := Except.ok.inj g4
    simp only [Prod.mk.injEq, Bool.or_eq_false_iff] at g5
    obtain ⟨-, k2⟩ := applyRc_step hi g1
    rcases k2 with ⟨rfl, k2⟩ | ⟨k2, -⟩
    · have g6 : applyRcs t s = .ok (false, s) := by
        rw [g3]
        congr 1
        exact Prod.ext g5.1.2 g5.2
      have g7 : applyRc x.1 x.2 s1 = .ok (false, s1) := by
        unfold applyRc updateRc
        simp only [h2, k2, ne_eq, not_true_eq_false, if_false]
      rw [applyRcs, g7, stop_bind, ih hi g6]
      rfl
    · rw [k2] at g5
      exact absurd g5.1.1 (by simp)

theorem searchSets_again {s1 : Solver p V} (h1 : s1.cs = s.cs) (h2 : s1.rcs = s.rcs) :
    ∀ {sets : List (List (SVar V))} {bad : List (List (SVar V))},
    s.cs.Inv → searchSets h sets bad false s = .ok (false, s) →
    searchSets h sets bad false s1 = .ok (false, s1) := by
  intro sets
  induction sets with
  | nil => intro bad _ _; rfl
  | cons vs t ih =>
    intro bad hi hr
    rw [searchSets] at hr
    rw [searchSets]
    rw [h2]
    split at hr
    · rename_i hb
      rw [if_pos hb]
      exact ih hi hr
    · rename_i hb
      rw [if_neg hb, h1]
      obtain ⟨m, g1, g2⟩ := stop_bind_ok hr
      rw [g1, stop_bind]
      cases m with
      | error x => cases g2
      | ok m =>
        simp only at g2 ⊢
        split at g2
        · rename_i hm
          rw [if_pos hm]
          exact ih hi g2
        · rename_i hm
          rw [if_neg hm]
          obtain ⟨r, g3, g4⟩ := stop_bind_ok g2
          obtain ⟨k1, k2⟩ := applyRcs_step hi g3
          obtain ⟨k3, k4⟩ := searchSets_step k1.inv g4
          obtain ⟨k5, k6⟩ := k4 rfl
          rw [Bool.false_or] at k5
          have k7 := k2 k5
          have g5 : applyRcs m s = .ok (false, s) := by
            rw [g3]
            congr 1
            exact Prod.ext k5 k7
          rw [applyRcs_again h2 hi g5, stop_bind]
          refine ih hi ?_
          rw [k7, k5] at g4
          exact g4

theorem loopUntilNoProgress_settled {bus : Bus p} (hsd : h.Sound bus) (ch : Choices p V) :
    ∀ (n : ℕ) {s s' : Solver p V}, s.Inv → Settled h s → loopUntilNoProgress h ch n s = .ok s' →
    s'.Inv ∧ Settled h s' ∧ s'.cs.queue.queue = [] ∧ Found s s' ∧
      exhaustiveSearch h s' = .ok (false, s') := by
  intro n
  induction n with
  | zero => intro s s' _ _ hr; cases hr
  | succ n ih =>
    intro s s' hi hs hr
    rw [loopUntilNoProgress] at hr
    obtain ⟨r, h1, h2⟩ := stop_bind_ok hr
    obtain ⟨k1, k2, k3, k4⟩ := solveInIsolation_settled hsd _ _ _ hi hs h1
    split at h2
    · rename_i hp
      obtain ⟨r2, h3, h4⟩ := stop_bind_ok h2
      cases h3
      simp only at h4
      rw [if_pos hp] at h4
      obtain ⟨m1, m2, m3, m4, m5⟩ := ih k1 k2 h4
      exact ⟨m1, m2, m3, k4.trans m4, m5⟩
    · obtain ⟨r2, h3, h4⟩ := stop_bind_ok h2
      obtain ⟨g1, g2⟩ := searchSets_step k1.cs h3
      simp only at h4
      split at h4
      · have hi2 : r2.2.Inv := by
          have := exhaustiveSearch_spec (bus := bus) hsd k1
          rw [h3] at this
          exact this.1.inv
        obtain ⟨m1, m2, m3, m4, m5⟩ := ih hi2 (k2.step k1 g1) h4
        exact ⟨m1, m2, m3, (k4.trans g1.found).trans m4, m5⟩
      · rename_i hp
        cases h4
        have hp : r2.1 = false := by simpa using hp
        have g3 := (g2 hp).2
        rw [g3]
        refine ⟨k1, k2, k3, k4, ?_⟩
        rw [h3]
        congr 1
        exact Prod.ext hp g3

end Solver

end Verif
