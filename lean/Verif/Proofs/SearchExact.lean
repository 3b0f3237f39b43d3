import Verif.Proofs.SolverBase
import Verif.Proofs.HandlerAgree
import Verif.Proofs.RangeExact
import Verif.Spec.Search

/-!
# Exhaustive search finds the tightest ranges of the searched variables (C106)
-/

namespace Verif
namespace SearchExact

open GExpr RangeConstraint

set_option linter.unusedSectionVars false

variable {p : ℕ} [Fact p.Prime] {V : Type} [LinearOrder V]
variable {rc : V → RangeConstraint p} {h : Handler p} {bus : Bus p} {s : Indexed p V}

/-! ### The map for one assignment -/

/-- Effects are never about variables of the assignment. -/
theorem under_fresh {a : List (V × ZMod p)} {c : ConstraintRef p V} {effects : List (Effect p V)}
    (hw : c.WF) (ho : solveUnder rc h a c = .ok (some effects)) :
    ∀ eff ∈ effects, ∀ v r, effectToRangeConstraint eff = some (v, r) → v ∉ a.map (·.1) := by
  intro eff he v r hv
  cases c with
  | alg e =>
    rw [solveUnder] at ho
    obtain ⟨o, h1, h2⟩ := solve_spec (rc := rc) (wf_substAssignment a (e := e) hw)
    rw [h1, ok_bind] at ho
    cases o with
    | error x => cases ho
    | ok q =>
      cases ho
      exact (vars_substAssignment (h2.inVars eff he v r hv)).2
  | bus b =>
    rw [solveUnder] at ho
    cases h1 : solveBus rc h (b.map (substAssignment a)) with
    | error x => rw [h1] at ho; cases ho
    | ok o =>
      rw [h1, ok_bind] at ho
      cases o with
      | error x => cases ho
      | ok q =>
        cases ho
        obtain ⟨v', r', h2, h3⟩ := solveBus_simple h1 eff he
        subst h2
        cases hv
        unfold busVars at h3
        obtain ⟨e, he', h4⟩ := List.mem_flatMap.1 h3
        have : ∃ e', e = substAssignment a e' := by
          simp only [BusInteraction.fields, BusInteraction.map, List.mem_cons, List.mem_map] at he'
          rcases he' with rfl | rfl | ⟨e', h5, rfl⟩
          · exact ⟨_, rfl⟩
          · exact ⟨_, rfl⟩
          · exact ⟨e', rfl⟩
        obtain ⟨e', rfl⟩ := this
        exact (vars_substAssignment h4).2

/-- Each constraint was solved without contradiction. -/
theorem all_under {a : List (V × ZMod p)} {cs : List (ConstraintRef p V)}
    {effects : List (Effect p V)} (ho : solveAllUnder rc h a cs = .ok (some effects)) :
    (∀ c ∈ cs, ∃ es, solveUnder rc h a c = .ok (some es)) ∧
    ∀ eff ∈ effects, ∃ c ∈ cs, ∃ es, solveUnder rc h a c = .ok (some es) ∧ eff ∈ es := by
  induction cs generalizing effects with
  | nil => cases ho; simp
  | cons c t ih =>
    rw [solveAllUnder] at ho
    cases h1 : solveUnder rc h a c with
    | error x => rw [h1] at ho; cases ho
    | ok o =>
      rw [h1, ok_bind] at ho
      cases o with
      | none => cases ho
      | some e1 =>
        simp only at ho
        cases h2 : solveAllUnder rc h a t with
        | error x => rw [h2] at ho; cases ho
        | ok o2 =>
          rw [h2, ok_bind] at ho
          cases o2 with
          | none => cases ho
          | some e2 =>
            cases ho
            obtain ⟨i1, i2⟩ := ih h2
            refine ⟨fun c' hc => ?_, fun eff he => ?_⟩
            · rcases List.mem_cons.1 hc with rfl | hc
              · exact ⟨e1, h1⟩
              · exact i1 c' hc
            · rcases List.mem_append.1 he with he | he
              · exact ⟨c, by simp, e1, h1, he⟩
              · obtain ⟨c', hc', es, h3, h4⟩ := i2 eff he
                exact ⟨c', by simp [hc'], es, h3, h4⟩

theorem insertRc_get {v : V} {r : RangeConstraint p} {m m' : List (V × RangeConstraint p)}
    (hm : insertRc v r m = some m') :
    (∀ w, w ≠ v → getConstraint w m' = getConstraint w m) ∧
    (getConstraint v m = none → getConstraint v m' = some r) := by
  induction m generalizing m' with
  | nil => cases hm; simp +contextual [getConstraint]
  | cons x t ih =>
    obtain ⟨u, q⟩ := x
    rw [insertRc] at hm
    split at hm
    · rename_i hv
      subst hv
      split at hm
      · cases hm
      · cases hm
        refine ⟨fun w hw => by simp [getConstraint, hw], fun hn => ?_⟩
        simp [getConstraint] at hn
    · rename_i hv
      split at hm
      · cases hm
        exact ⟨fun w hw => by simp [getConstraint, hw], fun _ => by simp [getConstraint]⟩
      · obtain ⟨t', ht, rfl⟩ := Option.map_eq_some_iff.1 hm
        obtain ⟨i1, i2⟩ := ih ht
        refine ⟨fun w hw => ?_, fun hn => ?_⟩
        · simp only [getConstraint, i1 w hw]
        · simp only [getConstraint, if_neg hv] at hn ⊢
          exact i2 hn

theorem insertRcs_get_other {l m m' : List (V × RangeConstraint p)} (hm : insertRcs l m = some m')
    {w : V} (hw : w ∉ l.map (·.1)) : getConstraint w m' = getConstraint w m := by
  induction l generalizing m with
  | nil => cases hm; rfl
  | cons x t ih =>
    rw [insertRcs] at hm
    obtain ⟨m1, h1, h2⟩ := Option.bind_eq_some_iff.1 hm
    simp only [List.map_cons, List.mem_cons, not_or] at hw
    rw [ih h2 hw.2, (insertRc_get h1).1 w hw.1]

theorem insertRcs_get {l m m' : List (V × RangeConstraint p)} (hm : insertRcs l m = some m')
    (hn : (l.map (·.1)).Nodup) {w : V} {r : RangeConstraint p} (hw : (w, r) ∈ l)
    (h0 : getConstraint w m = none) : getConstraint w m' = some r := by
  induction l generalizing m with
  | nil => cases hw
  | cons x t ih =>
    rw [insertRcs] at hm
    obtain ⟨m1, h1, h2⟩ := Option.bind_eq_some_iff.1 hm
    simp only [List.map_cons, List.nodup_cons] at hn
    rcases List.mem_cons.1 hw with rfl | hw
    · rw [insertRcs_get_other h2 hn.1]
      exact (insertRc_get h1).2 h0
    · refine ih h2 hn.2 hw ?_
      rw [(insertRc_get h1).1 w ?_, h0]
      rintro rfl
      exact hn.1 (List.mem_map.2 ⟨_, hw, rfl⟩)

theorem insertRcs_append {l l' m : List (V × RangeConstraint p)} :
    insertRcs (l ++ l') m = (insertRcs l m).bind (insertRcs l') := by
  induction l generalizing m with
  | nil => rfl
  | cons x t ih =>
    rw [List.cons_append, insertRcs, insertRcs, Option.bind_assoc]
    congr 1
    funext m
    exact ih

/-- The assignment as a function. -/
def valueOf (a : List (V × ZMod p)) (v : V) : ZMod p := (Linear.lookup v a).getD 0

theorem valueOf_mem {a : List (V × ZMod p)} (hsort : a.Pairwise fun e f => e.1 < f.1)
    {y : V × ZMod p} (hy : y ∈ a) : valueOf a y.1 = y.2 := by
  unfold valueOf
  rw [lookup_of_mem hsort (show (y.1, y.2) ∈ a from hy)]
  rfl

theorem derived_get (hi : s.Inv) (hw : s.sys.WF) {a : List (V × ZMod p)}
    (hsort : a.Pairwise fun e f => e.1 < f.1) {m : List (V × RangeConstraint p)}
    (ho : deriveNewRangeConstraints s a rc h = .ok (some m)) {x : V} (hx : x ∈ a.map (·.1)) :
    getConstraint x m = some (fromValue (valueOf a x)) := by
  unfold deriveNewRangeConstraints at ho
  rw [Indexed.constraintsReferencing_ok hi, ok_bind] at ho
  cases h1 : solveAllUnder rc h a
      ((s.itemsReferencing (a.map (·.1))).filterMap (refAt s.sys)) with
  | error x => rw [h1] at ho; cases ho
  | ok o1 =>
    rw [h1, ok_bind] at ho
    cases o1 with
    | none => cases ho
    | some effects =>
      have ho : insertRcs (effects.filterMap effectToRangeConstraint ++
        a.map fun x => (x.1, RangeConstraint.fromValue x.2)) [] = some m := by
        injection ho
      rw [insertRcs_append] at ho
      obtain ⟨m1, h2, h3⟩ := Option.bind_eq_some_iff.1 ho
      have h4 : getConstraint x m1 = none := by
        rw [insertRcs_get_other h2]
        · rfl
        · intro hm
          obtain ⟨y, hy, rfl⟩ := List.mem_map.1 hm
          obtain ⟨eff, he, hy⟩ := List.mem_filterMap.1 hy
          obtain ⟨c, hc, es, h5, h6⟩ := (all_under h1).2 eff he
          obtain ⟨z, -, hz⟩ := List.mem_filterMap.1 hc
          exact under_fresh (refAt_wf hw hz) h5 eff h6 y.1 y.2 hy hx
      obtain ⟨y, hy, rfl⟩ := List.mem_map.1 hx
      refine insertRcs_get h3 ?_ (List.mem_map.2 ⟨y, hy, ?_⟩) h4
      · rw [List.map_map]
        show (a.map (·.1)).Nodup
        exact (List.pairwise_map.2 (hsort.imp fun hlt => ne_of_lt hlt))
      · rw [valueOf_mem hsort hy]

/-! ### The assignments that are not contradictory -/

theorem mem_refs_alg (hi : s.Inv) {e : GExpr p V} (he : e ∈ s.sys.algebraic) {v : V}
    (hv : Occurs v e) {l : List V} (hl : v ∈ l) :
    ConstraintRef.alg e ∈ (s.itemsReferencing l).filterMap (refAt s.sys) := by
  obtain ⟨i, hi', hei⟩ := List.getElem_of_mem he
  rw [List.mem_filterMap]
  refine ⟨.alg i, Indexed.mem_itemsReferencing.2 ⟨v, hl, hi.complete v (.alg i) ⟨e, ?_, hv⟩⟩, ?_⟩
  · rw [List.getElem?_eq_getElem hi', hei]
  · simp [refAt, List.getElem?_eq_getElem hi', hei]

theorem mem_refs_bus (hi : s.Inv) {b : BusInteraction (GExpr p V)} (hb : b ∈ s.sys.bus) {v : V}
    {e : GExpr p V} (he : e ∈ b.fields) (hv : Occurs v e) {l : List V} (hl : v ∈ l) :
    ConstraintRef.bus b ∈ (s.itemsReferencing l).filterMap (refAt s.sys) := by
  obtain ⟨i, hi', hei⟩ := List.getElem_of_mem hb
  rw [List.mem_filterMap]
  refine ⟨.bus i, Indexed.mem_itemsReferencing.2 ⟨v, hl,
    hi.complete v (.bus i) ⟨b, ?_, e, he, hv⟩⟩, ?_⟩
  · rw [List.getElem?_eq_getElem hi', hei]
  · simp [refAt, List.getElem?_eq_getElem hi', hei]

theorem subst_known {a : List (V × ZMod p)} (hsort : a.Pairwise fun e f => e.1 < f.1)
    {e : GExpr p V} (hw : WF e) (hv : ∀ v, Occurs v e → v ∈ a.map (·.1)) :
    substAssignment a e = const (eval (valueOf a) e) := by
  obtain ⟨k, hk⟩ := known_of_no_vars (wf_substAssignment a hw) (fun v hv' => by
    obtain ⟨h6, h7⟩ := vars_substAssignment hv'
    exact h7 (hv v (mem_vars_iff_occurs.1 h6)))
  have h1 : eval (valueOf a) (substAssignment a e) = eval (valueOf a) e :=
    eval_substAssignment (fun y hy => valueOf_mem hsort hy) hw
  rw [eval_known _ hk] at h1
  rw [← h1]
  exact tryToKnown_eq_some.1 hk

theorem consistent (hrej : h.Rejects bus) (hi : s.Inv) (hw : s.sys.WF) {vs : List V}
    {as : List (List (V × ZMod p))} (has : allPossibleAssignments rc vs = .ok as)
    {a : List (V × ZMod p)} (ha : a ∈ as) {m : List (V × RangeConstraint p)}
    (ho : deriveNewRangeConstraints s a rc h = .ok (some m)) :
    SearchConsistent s.sys bus rc vs (valueOf a) := by
  have hsort := allPossibleAssignments_sorted has ha
  obtain ⟨h4, h5⟩ := allPossibleAssignments_sound has ha
  have hall : ∀ c ∈ (s.itemsReferencing (a.map (·.1))).filterMap (refAt s.sys),
      ∃ es, solveUnder rc h a c = .ok (some es) := by
    unfold deriveNewRangeConstraints at ho
    rw [Indexed.constraintsReferencing_ok hi, ok_bind] at ho
    cases h1 : solveAllUnder rc h a
        ((s.itemsReferencing (a.map (·.1))).filterMap (refAt s.sys)) with
    | error x => rw [h1] at ho; cases ho
    | ok o1 =>
      rw [h1, ok_bind] at ho
      cases o1 with
      | none => cases ho
      | some effects => exact (all_under h1).1
  refine ⟨fun v hv => ?_, fun e he hne hsub => ?_, fun b hb hne hsub => ?_⟩
  · obtain ⟨y, hy, rfl⟩ := List.mem_map.1 ((h5 v).2 hv)
    rw [valueOf_mem hsort hy, allowsValue_iff]
    exact h4 y hy
  · obtain ⟨v, hv⟩ := hne
    obtain ⟨es, hes⟩ := hall _ (mem_refs_alg hi he hv ((h5 v).2 (hsub v hv)))
    by_contra h0
    rw [solveUnder, subst_known hsort (hw.1 e he) fun v hv => (h5 v).2 (hsub v hv)] at hes
    have hk : solve rc (const (eval (valueOf a) e)) = .ok (.error .constraintUnsatisfiable) ∨
        solve rc (const (eval (valueOf a) e) : GExpr p V) = .error .assertion := by
      unfold const
      rw [solve]
      split
      · exact Or.inl rfl
      · exact Or.inr rfl
    rcases hk with hk | hk <;> rw [hk] at hes <;> cases hes
  · obtain ⟨e, he, v, hv⟩ := hne
    obtain ⟨es, hes⟩ := hall _ (mem_refs_bus hi hb he hv ((h5 v).2 (hsub e he v hv)))
    by_contra h0
    have hf : ∀ f ∈ b.fields, substAssignment a f = const (eval (valueOf a) f) := fun f hf =>
      subst_known hsort (hw.2 b hb f hf) fun v hv => (h5 v).2 (hsub f hf v hv)
    have hr : toRangeConstraints rc (b.map (substAssignment a)) =
        (b.evalAt (valueOf a)).map RangeConstraint.fromValue := by
      simp only [BusInteraction.fields, List.mem_cons] at hf
      simp only [toRangeConstraints, BusInteraction.map, BusInteraction.evalAt,
        BusInteraction.mk.injEq, List.map_map]
      refine ⟨?_, ?_, List.map_congr_left fun f hm => ?_⟩
      · rw [hf _ (by simp), rangeConstraint_const]
      · rw [hf _ (by simp), rangeConstraint_const]
      · simp only [Function.comp]
        rw [hf f (by simp [hm]), rangeConstraint_const]
    rw [solveUnder] at hes
    unfold solveBus at hes
    rw [hr] at hes
    cases hc : handleChecked h ((b.evalAt (valueOf a)).map RangeConstraint.fromValue) with
    | error x => rw [hc] at hes; cases hes
    | ok o =>
      cases o with
      | error x => rw [hc] at hes; cases hes
      | ok r => exact hrej _ h0 r hc

/-! ### The disjunction -/

/-- The ends and the bits of the range come from elements of `S`. -/
structure From (S : ZMod p → Prop) (D : RangeConstraint p) : Prop where
  le : D.min.val ≤ D.max.val
  min : S D.min
  max : S D.max
  mask : ∀ i, D.mask.testBit i = true → ∃ c, S c ∧ c.val.testBit i = true

theorem From.single {S : ZMod p → Prop} {c : ZMod p} (hc : S c) : From S (fromValue c) :=
  ⟨le_rfl, hc, hc, fun _ hi => ⟨c, hc, hi⟩⟩

theorem From.step {S : ZMod p → Prop} {D : RangeConstraint p} (hD : From S D) {c : ZMod p}
    (hc : S c) : From S (D.disjunction (fromValue c)) := by
  have h1 : fle D.min D.max := hD.le
  have h2 : fle (fromValue c).min (fromValue c : RangeConstraint p).max := le_rfl
  unfold disjunction
  simp only [h1, h2, if_true]
  refine ⟨?_, ?_, ?_, ?_⟩
  · simp only [val_fmin, val_fmax]
    exact (min_le_left _ _).trans (hD.le.trans (le_max_left _ _))
  · simp only [fmin]
    split
    · exact hD.min
    · exact hc
  · simp only [fmax]
    split
    all_goals first | exact hc | exact hD.max
  · intro i hi
    simp only [Nat.testBit_or, Bool.or_eq_true] at hi
    rcases hi with hi | hi
    · exact hD.mask i hi
    · exact ⟨c, hc, hi⟩

theorem fold_disjunction {S : ZMod p → Prop} {x : V} :
    ∀ (ms : List (List (V × RangeConstraint p)))
    (_ : ∀ m ∈ ms, ∃ c, S c ∧ getConstraint x m = some (fromValue c))
    (acc : List (V × RangeConstraint p)) (D : RangeConstraint p) (_ : From S D)
    (_ : (x, D) ∈ acc ∨ D = rc x),
    ∃ D', From S D' ∧ ((x, D') ∈ disjunctionFold rc ms acc ∨ D' = rc x) := by
  intro ms
  induction ms with
  | nil => intro _ acc D hD hm; exact ⟨D, hD, hm⟩
  | cons new t ih =>
    intro hms acc D hD hm
    obtain ⟨c, hc, hg⟩ := hms new List.mem_cons_self
    have hms' := fun m hm => hms m (List.mem_cons_of_mem _ hm)
    by_cases hDrc : D = rc x
    · rw [disjunctionFold]
      cases hs : disjunctionStep rc acc new with
      | none => exact ⟨D, hD, Or.inr hDrc⟩
      | some acc' => exact ih hms' acc' D hD (Or.inr hDrc)
    · have hm : (x, D) ∈ acc := hm.resolve_right hDrc
      have hD' := hD.step hc
      rw [disjunctionFold]
      by_cases hd : D.disjunction (fromValue c) = rc x
      · cases hs : disjunctionStep rc acc new with
        | none => exact ⟨_, hD', Or.inr hd⟩
        | some acc' => exact ih hms' acc' _ hD' (Or.inr hd)
      · have hmem : (x, D.disjunction (fromValue c)) ∈
            (acc.map fun y => (y.1, y.2.disjunction ((getConstraint y.1 new).getD
              .unconstrained))).filter fun y => rc y.1 ≠ y.2 := by
          refine List.mem_filter.2 ⟨List.mem_map.2 ⟨(x, D), hm, ?_⟩, ?_⟩
          · simp only [hg, Option.getD_some]
          · simpa using fun hh => hd hh.symm
        cases hs : disjunctionStep rc acc new with
        | none =>
          unfold disjunctionStep at hs
          simp only at hs
          split at hs
          · rename_i he
            rw [List.isEmpty_iff] at he
            rw [he] at hmem
            cases hmem
          · cases hs
        | some acc' =>
          unfold disjunctionStep at hs
          simp only at hs
          split at hs
          · cases hs
          · cases hs
            exact ih hms' _ _ hD' (Or.inl hmem)

theorem tight (hrej : h.Rejects bus) (hi : s.Inv) (hw : s.sys.WF) {vs : List V}
    {m : List (V × RangeConstraint p)} (ho : exhaustiveSearchOn s vs rc h = .ok (.ok m)) :
    (∃ σ, SearchConsistent s.sys bus rc vs σ) ∧ ∀ x ∈ vs,
    ∃ D, From (fun c => ∃ σ, SearchConsistent s.sys bus rc vs σ ∧ σ x = c) D ∧
      ((x, D) ∈ m ∨ D = rc x) := by
  unfold exhaustiveSearchOn at ho
  cases h1 : allPossibleAssignments rc vs with
  | error x => rw [h1] at ho; cases ho
  | ok as =>
    rw [h1, ok_bind] at ho
    cases h2 : deriveAll s rc h as with
    | error x => rw [h2] at ho; cases ho
    | ok ms =>
      rw [h2, ok_bind] at ho
      cases ms with
      | nil => cases ho
      | cons first rest =>
        have ho : disjunctionFold rc rest first = m := by
          injection ho with ho
          injection ho
        subst ho
        have hall : ∀ m ∈ first :: rest, ∃ σ, SearchConsistent s.sys bus rc vs σ ∧
            ∀ x ∈ vs, getConstraint x m = some (fromValue (σ x)) := by
          intro m hm
          obtain ⟨a, ha, h3⟩ := deriveAll_sound h2 hm
          refine ⟨valueOf a, consistent hrej hi hw h1 ha h3, fun x hx => ?_⟩
          exact derived_get hi hw (allPossibleAssignments_sorted h1 ha) h3
            (((allPossibleAssignments_sound h1 ha).2 x).2 hx)
        obtain ⟨σ, hσ, hg⟩ := hall first List.mem_cons_self
        refine ⟨⟨σ, hσ⟩, fun x hx => ?_⟩
        refine fold_disjunction rest (fun m hm => ?_) first (fromValue (σ x))
          (From.single ⟨σ, hσ, rfl⟩) (Or.inl (getConstraint_mem (hg x hx)))
        obtain ⟨τ, hτ, hg'⟩ := hall m (List.mem_cons_of_mem _ hm)
        exact ⟨τ x, ⟨τ, hτ, rfl⟩, hg' x hx⟩

end SearchExact
end Verif
