import Verif.Proofs.SolverSteps

/-!
# Solving one constraint uses only the ranges of its variables
-/

set_option linter.unusedSectionVars false

namespace Verif

open GExpr

variable {p : ℕ} [Fact p.Prime] {V : Type} [LinearOrder V]

namespace GExpr

variable {rc rc' : V → RangeConstraint p}

theorem rangeConstraint_local {e : GExpr p V} (h : ∀ v ∈ vars e, rc v = rc' v) :
    rangeConstraint rc e = rangeConstraint rc' e := by
  induction e using ind with
  | h q l c ih =>
    have h1 : rangeConstraintQ rc q = rangeConstraintQ rc' q := by
      have hq : ∀ ab ∈ q, (∀ v ∈ vars ab.1, rc v = rc' v) ∧ ∀ v ∈ vars ab.2, rc v = rc' v :=
        fun ab hab => ⟨fun v hv => h v (mem_vars_mk.2 (Or.inl ⟨ab, hab, Or.inl hv⟩)),
          fun v hv => h v (mem_vars_mk.2 (Or.inl ⟨ab, hab, Or.inr hv⟩))⟩
      clear h
      induction q with
      | nil => rfl
      | cons ab t ihq =>
        obtain ⟨a, b⟩ := ab
        rw [rangeConstraintQ, rangeConstraintQ, (ih (a, b) (by simp)).1 (hq (a, b) (by simp)).1,
          (ih (a, b) (by simp)).2 (hq (a, b) (by simp)).2,
          ihq (fun x hx => ih x (by simp [hx])) fun x hx => hq x (by simp [hx])]
    have h2 : (l.map fun (v, k) => (rc v).combineProduct (RangeConstraint.fromValue k)) =
        l.map fun (v, k) => (rc' v).combineProduct (RangeConstraint.fromValue k) := by
      refine List.map_congr_left fun x hx => ?_
      obtain ⟨v, k⟩ := x
      simp only
      rw [h v (mem_vars_mk.2 (Or.inr ⟨k, hx⟩))]
    rw [rangeConstraint, rangeConstraint, h1, h2]

theorem transferLoop_local {e : GExpr p V} (hw : WF e) (h : ∀ v ∈ vars e, rc v = rc' v) :
    ∀ l : List (V × ZMod p), transferLoop rc e l = transferLoop rc' e l := by
  intro l
  induction l with
  | nil => rfl
  | cons x t ih =>
    obtain ⟨v, k⟩ := x
    obtain ⟨o, ho, hs⟩ := trySolveFor_spec hw v
    rw [transferLoop, transferLoop, ho, ih]
    cases o with
    | none => cases transferLoop rc' e t <;> rfl
    | some s =>
      cases transferLoop rc' e t with
      | error x => rfl
      | ok l =>
        simp only
        rw [rangeConstraint_local (e := s) fun v hv => h v ((hs s rfl).2.2.2.1 v hv)]

theorem solveAffine_local {e : GExpr p V} (hw : WF e) (h : ∀ v ∈ vars e, rc v = rc' v) :
    solveAffine rc e = solveAffine rc' e := by
  obtain ⟨q, l, c⟩ := e
  unfold solveAffine
  split
  · rename_i v k hl
    have hl : l = [(v, k)] := hl
    unfold assignmentIfSatisfies
    rw [h v (mem_vars_mk.2 (Or.inr ⟨k, by simp [hl]⟩))]
  · unfold transferConstraints
    rw [transferLoop_local hw h]

/-- The combination of the results for the two factors of a product. -/
def combineBoth (l r : Except SolveError (ProcessResult p V)) :
    Except SolveError (ProcessResult p V) :=
  match l, r with
  | .error _, o => o
  | o, .error _ => o
  | .ok left, .ok right => .ok (combineRangeConstraints left right)

/-- The branches of a product never give a conditional assignment. -/
theorem combineSolutions_eq {a b : GExpr p V} {l r : Except SolveError (ProcessResult p V)}
    (ha : solve rc a = .ok l) (hb : solve rc b = .ok r) :
    combineSolutions rc l r = combineBoth l r := by
  cases l with
  | error x => rfl
  | ok left =>
    cases r with
    | error x => rfl
    | ok right =>
      unfold combineSolutions
      simp only
      cases hc : combineToConditionalAssignment rc left right with
      | none => rfl
      | some r' =>
        exfalso
        unfold combineToConditionalAssignment at hc
        split at hc
        · rename_i v a' w b' hl hr
          split at hc
          · cases hc
          rename_i hvw
          simp only [ne_eq, not_not] at hvw
          subst hvw
          have hL := solve_simple ha
          have hR := solve_simple hb
          rw [hl] at hL
          rw [hr] at hR
          have h5 : (rc v).isDisjoint (.fromValue a') = false :=
            hL (.assignment v a') (by simp)
          have h6 : (rc v).isDisjoint (.fromValue b') = false :=
            hR (.assignment v b') (by simp)
          have := RangeConstraint.not_disjoint_shift h5 h6
          simp only [this, Bool.not_false, ↓reduceIte] at hc
          cases hc
        · cases hc

theorem solve_local {e : GExpr p V} (hw : WF e) (h : ∀ v ∈ vars e, rc v = rc' v) :
    solve rc e = solve rc' e := by
  induction e using ind with
  | h q l c ih =>
    have hu : unsatisfiable rc (mk q l c) = unsatisfiable rc' (mk q l c) := by
      unfold unsatisfiable
      rw [rangeConstraint_local h]
    rcases q with _ | ⟨⟨a, b⟩, _ | ⟨cd, q⟩⟩
    · rcases l with _ | ⟨x, l⟩
      · rw [solve, solve, hu]
      · rw [solve, solve, hu, solveAffine_local hw h]
    · rcases l with _ | ⟨x, l⟩
      · have hq := (wf_inv hw).1 (a, b) (by simp)
        have h1 := (ih (a, b) (by simp)).1 hq.1
          fun v hv => h v (mem_vars_mk.2 (Or.inl ⟨(a, b), by simp, Or.inl hv⟩))
        have h2 := (ih (a, b) (by simp)).2 hq.2.1
          fun v hv => h v (mem_vars_mk.2 (Or.inl ⟨(a, b), by simp, Or.inr hv⟩))
        simp only at h1 h2
        rw [solve, solve, hu]
        cases ha : solve rc a with
        | error x => rw [← h1, ha]
        | ok ra =>
          cases hb : solve rc b with
          | error x => rw [← h1, ← h2, ha, hb]
          | ok rb =>
            rw [← h1, ← h2, ha, hb]
            simp only
            rw [combineSolutions_eq ha hb, combineSolutions_eq (h1 ▸ ha) (h2 ▸ hb)]
      · rw [solve, solve, hu] <;> simp
    · rw [solve, solve, hu] <;> simp

theorem solveFieldVars_local {e : GExpr p V} (hw : WF e) (r : RangeConstraint p)
    (h : ∀ v ∈ vars e, rc v = rc' v) : ∀ vs : List V,
    solveFieldVars rc e r vs = solveFieldVars rc' e r vs := by
  intro vs
  induction vs with
  | nil => rfl
  | cons v t ih =>
    have : solveFieldVar rc e r v = solveFieldVar rc' e r v := by
      obtain ⟨o, ho, hs⟩ := trySolveFor_spec hw v
      unfold solveFieldVar
      rw [ho]
      cases o with
      | none => rfl
      | some s =>
        simp only
        rw [rangeConstraint_local (e := s) fun v hv => h v ((hs s rfl).2.2.2.1 v hv)]
    rw [solveFieldVars, solveFieldVars, this, ih]

theorem solveFields_local : ∀ {l : List (GExpr p V × RangeConstraint p)},
    (∀ x ∈ l, WF x.1 ∧ ∀ v ∈ vars x.1, rc v = rc' v) → solveFields rc l = solveFields rc' l := by
  intro l
  induction l with
  | nil => intro _; rfl
  | cons x t ih =>
    intro h
    obtain ⟨e, r⟩ := x
    have h1 := h (e, r) (by simp)
    rw [solveFields, solveFields, ih fun x hx => h x (by simp [hx]),
      solveFieldVars_local h1.1 r h1.2]

theorem solveBus_local {hd : Handler p} {b : BusInteraction (GExpr p V)} (hw : b.WF)
    (h : ∀ v ∈ busVars b, rc v = rc' v) : solveBus rc hd b = solveBus rc' hd b := by
  have hv : ∀ e ∈ b.fields, ∀ v ∈ vars e, rc v = rc' v := fun e he v hv =>
    h v (List.mem_flatMap.2 ⟨e, he, hv⟩)
  have h1 : toRangeConstraints rc b = toRangeConstraints rc' b := by
    unfold toRangeConstraints BusInteraction.map
    have hi : b.busId ∈ b.fields := by simp [BusInteraction.fields]
    have hm : b.multiplicity ∈ b.fields := by simp [BusInteraction.fields]
    rw [rangeConstraint_local (hv _ hi), rangeConstraint_local (hv _ hm)]
    congr 1
    exact List.map_congr_left fun e he =>
      rangeConstraint_local (hv e (by simp [BusInteraction.fields, he]))
  unfold solveBus
  rw [h1]
  refine congrArg _ (funext fun o => ?_)
  cases o with
  | error x => rfl
  | ok new =>
    have h2 : ∀ pairs, zipEq b.fields new.fields = .ok pairs →
        solveFields rc pairs = solveFields rc' pairs := by
      intro pairs hp
      unfold zipEq at hp
      split at hp
      · cases hp
        refine solveFields_local fun x hx => ?_
        have := List.of_mem_zip hx
        exact ⟨hw _ this.1, hv _ this.1⟩
      · cases hp
    simp only
    generalize zipEq b.fields new.fields = z at h2
    cases z with
    | error x => rfl
    | ok pairs =>
      have := h2 pairs rfl
      simp only [ok_bind]
      rw [this]

end GExpr

end Verif
