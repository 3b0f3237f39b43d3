import Verif.Proofs.RuleTerminationRounds
import Verif.Proofs.RuleFiniteDerives
import Verif.Props.RuleDriver

/-!
# C93: the rule driver ends
-/

namespace Verif

open RangeConstraint GExpr

variable {p : ℕ} [Fact p.Prime] {V : Type} [LinearOrder V]

/-- The number of rounds is bounded, whatever bus interaction handler, degree bound, new variables and
identifiers are used, and whatever requested actions and replacements are applied, in any order. -/
theorem C93_rounds_bounded {s : ConstraintSystem p V} (hs : s.WF) (rc : V → RangeConstraint p) :
    ∃ N, ∀ (h : Handler p) (intBits : ℕ) (bound : Option DegreeBound) (n : ℕ)
      (st : DriverState p V), DriverGoesOn rc h intBits bound n (driverStart rc s) st → n ≤ N := by
  obtain ⟨N, hN⟩ := goesOn_bound (st := driverStart rc s) hs
  exact ⟨N, fun h intBits bound n st run => hN rc h intBits bound n st run⟩

/-- There is no infinite sequence of states in which each follows from the one before by a round that
makes progress. -/
theorem C93_no_infinite_run {s : ConstraintSystem p V} (hs : s.WF) (rc : V → RangeConstraint p)
    (h : Handler p) (intBits : ℕ) (bound : Option DegreeBound) :
    ¬ ∃ states : ℕ → DriverState p V, states 0 = driverStart rc s ∧
      ∀ i, DriverGoesOn rc h intBits bound 1 (states i) (states (i + 1)) := by
  rintro ⟨states, h0, hstep⟩
  obtain ⟨N, hN⟩ := C93_rounds_bounded hs rc
  have key : ∀ i, DriverGoesOn rc h intBits bound i (driverStart rc s) (states i) := by
    intro i
    induction i with
    | zero => rw [h0]; exact .start _
    | succ i ih =>
      have := hstep i
      generalize states i = a at *
      generalize states (i + 1) = b at *
      cases this with
      | round run lt hlt new inp hinp actions hactions rs hrs hprogress =>
        cases run
        exact .round ih lt hlt new inp hinp actions hactions rs hrs hprogress
  have := hN h intBits bound (N + 1) _ (key (N + 1))
  omega

omit [Fact p.Prime] in
/-- A round without progress changes neither the constraints nor the ranges: the state at the end of
the loop is the one at the beginning of the last round, apart from computation methods of new
variables. -/
theorem C93_last_round (st : DriverState p V) (actions : List (RuleAction p V))
    (new : List (DerivedVariable p V)) (rs : List (ReplacementAction p V))
    (bound : Option DegreeBound) (h : roundProgress st actions new rs bound = false) :
    driverRound st actions new rs bound = { st with system := st.system.addDerived new } := by
  simp only [roundProgress, Bool.or_eq_false_iff] at h
  have key : ∀ (as : List (RuleAction p V)) (st : DriverState p V),
      actionsProgress st as = false → as.foldl applyAction st = st := by
    intro as st h
    induction as generalizing st with
    | nil => rfl
    | cons a as ih =>
      simp only [actionsProgress, Bool.or_eq_false_iff] at h
      have : applyAction st a = st := by
        cases a with
        | updateRange v rc =>
          have h1 := h.1
          simp only [actionProgress, decide_eq_false_iff_not, not_not] at h1
          simp only [applyAction, h1, ne_eq, not_true_eq_false, if_false]
        | substituteByConstant v k => simp [actionProgress] at h
        | substituteByVariable v w => simp [actionProgress] at h
      rw [List.foldl_cons, this]
      rw [this] at h
      exact ih _ h.2
  have e := key actions st h.1
  have h2 := (C30_rest_unchanged (beforeBatch st actions new) rs bound).2.2 h.2
  rw [driverRound, h2, e, beforeBatch, e]

/-- In every round only finitely many facts can be derived, so that the rule system reaches its fixed
point: in the state after any number of rounds, for every order of identifiers, if each request for a
new variable is answered by one of finitely many. -/
theorem C93_facts_finite {s : ConstraintSystem p V} (hs : s.WF) {rc : V → RangeConstraint p}
    {h : Handler p} {intBits n : ℕ} {bound : Option DegreeBound} {st : DriverState p V}
    (run : DriverGoesOn rc h intBits bound n (driverStart rc s) st)
    {lt : GExpr p V → GExpr p V → Prop} {fresh : V → ComputationMethod p (GExpr p V) → Prop}
    (hfresh : ∀ m, {w | fresh w m}.Finite) {inp : RuleInput p V}
    (hinp : driverInput rc h lt fresh intBits st = .ok inp) : {f | Derives inp f}.Finite := by
  have hw : st.system.WF := by
    clear hinp
    generalize hst : driverStart rc s = st0 at run
    induction run with
    | start => subst hst; exact hs
    | round run lt hlt new inp hinp actions hactions rs hrs hprogress ih =>
      exact wf_batchReplace (fun r hr => wf_requested (wf_driverInput (ih hst) hinp) (hrs r hr))
        (wf_addDerived (wf_foldl_applyAction (ih hst) actions) _)
  refine derives_finite (wf_driverInput hw hinp) ?_
  have : inp.fresh = fresh := by
    rw [driverInput] at hinp
    cases hb : busRanges rc h st.system.bus with
    | error x => rw [hb] at hinp; cases hinp
    | ok r => rw [hb] at hinp; cases hinp; rfl
  rw [this]
  exact hfresh

/-! ## A run with two rounds -/

/-- The input of the rules for a system without ranges and bus interactions. -/
def plainInput (s : ConstraintSystem 17 (Fin 2)) : RuleInput 17 (Fin 2) where
  constraints := s.algebraic
  exprRanges := []
  varRanges := []
  single := singleOccurrence s
  lt := fun _ _ => False
  fresh := fun w m => (⟨w, m⟩ : DerivedVariable 17 (Fin 2)) ∈ []
  intBits := 32

/-- A constraint with one variable is solved. -/
theorem plainInput_assignment {s : ConstraintSystem 17 (Fin 2)} {e : GExpr 17 (Fin 2)}
    {c o k : ZMod 17} {v : Fin 2} (he : e ∈ s.algebraic) (ha : tryToAffine e = some (c, v, o))
    (hk : -o * c⁻¹ = k) : Derives (plainInput s) (.assignment v k) := by
  have e0 : Derives (plainInput s) (.algebraicConstraint e) := .initial he
  rw [← hk]
  exact .assignment (.zeroConstraint e0) (.solvable (.affine (.exprConstraint e0) ha))

/-- The first round replaces `x` by three, which leaves `3 * y = 6`; the second one replaces `y` by
two. -/
theorem driverSample_goesOn : ∃ st, DriverGoesOn (fun _ => unconstrained) defaultHandler 32 none 2
    (driverStart (fun _ => unconstrained) driverSample) st ∧
      st.finish.system.algebraic = [] ∧ st.assignments = [(0, const 3), (1, const 2)] := by
  refine ⟨_, .round (.round (.start _) (fun _ _ => False) (fun _ h => h) []
    (plainInput driverSample) rfl [.substituteByConstant 0 3] ?_ [] (by simp) rfl)
    (fun _ _ => False) (fun _ h => h) []
    (plainInput (driverRound (driverStart (fun _ => unconstrained) driverSample)
      [.substituteByConstant 0 3] [] [] none).system) rfl
    [.substituteByConstant 1 2] ?_ [] (by simp) rfl, by decide +kernel, by decide +kernel⟩
  · simp only [List.mem_singleton, forall_eq]
    exact plainInput_assignment (e := mk [] [(0, 1)] (-3)) (c := 1) (o := -3) (by simp [driverSample])
      (by decide +kernel) (by decide +kernel)
  · simp only [List.mem_singleton, forall_eq]
    exact plainInput_assignment (e := mk [] [(1, 3)] (-6)) (c := 3) (o := -6) (by decide +kernel)
      (by decide +kernel) (by decide +kernel)

end Verif
