import Verif.Proofs.Supported
import Verif.Props.RangeExact
import Verif.Props.SolverFixpoint

/-! # Property C101: what is deduced from a single linear constraint is all that its ranges imply -/

set_option linter.unusedSectionVars false

namespace Verif

open GExpr RangeConstraint Spec

variable {p : ℕ} [Fact p.Prime] {V : Type} [LinearOrder V]

/-- C101: a linear constraint with coefficients 1 and -1 that cannot be satisfied with values in the intervals of its
variables is reported as a contradiction; and if the ranges are intervals, exactly then. -/
theorem C101_contradiction (rc : V → RangeConstraint p) {l : List (V × ZMod p)} {c : ZMod p} (hw : WF (mk [] l c))
    (hk : ∀ e ∈ l, e.2 = 1 ∨ e.2 = -1) :
    ((¬ ∃ σ : V → ZMod p, (∀ v, Between (rc v).min (rc v).max (σ v)) ∧ eval σ (mk [] l c) = 0) →
      ∃ err, GExpr.solve rc (mk [] l c) = .ok (.error err)) ∧
    ((∀ v x, Between (rc v).min (rc v).max x → (rc v).allowsValue x = true) →
      ((∃ err, GExpr.solve rc (mk [] l c) = .ok (.error err)) ↔
        ¬ ∃ σ : V → ZMod p, (∀ v, (rc v).allowsValue (σ v) = true) ∧ eval σ (mk [] l c) = 0)) := by
  have h1 : (¬ ∃ σ : V → ZMod p, (∀ v, Between (rc v).min (rc v).max (σ v)) ∧ eval σ (mk [] l c) = 0) →
      ∃ err, GExpr.solve rc (mk [] l c) = .ok (.error err) := by
    intro h
    have hn : (l.map (·.1)).Nodup :=
      List.pairwise_map.2 ((wf_inv hw).2.1.imp fun h => ne_of_lt h)
    have hu : unsatisfiable rc (mk [] l c) = true := by
      unfold unsatisfiable
      rw [Bool.not_eq_true', Bool.eq_false_iff]
      intro ha
      apply h
      have h2 := ((allowsValue_iff _ _).1 ha).1
      rw [inCyc_iff_between] at h2
      exact (C100_expression rc l c hn hk 0).1 h2
    cases l with
    | nil => rw [GExpr.solve, if_pos hu]; exact ⟨_, rfl⟩
    | cons a t => rw [GExpr.solve, if_pos hu]; exact ⟨_, rfl⟩
  refine ⟨h1, fun hr => ⟨?_, fun h => h1 ?_⟩⟩
  · rintro ⟨err, he⟩ ⟨σ, h2, h3⟩
    exact C14_contradiction_real rc _ hw err he σ (fun v _ => h2 v) h3
  · rintro ⟨σ, h2, h3⟩
    exact h ⟨σ, fun v => hr v _ (h2 v), h3⟩

/-- C101: what is deduced from a linear constraint of at least two variables whose coefficients are equal up to sign. For
each variable either a range constraint is deduced whose interval consists exactly of the values of the variable for
which the constraint can be satisfied with the others in their intervals, or nothing, and then every value is such; and
nothing else is deduced. -/
theorem C101_transfer (rc : V → RangeConstraint p) {l : List (V × ZMod p)} {c a : ZMod p} (hw : WF (mk [] l c))
    (hl : 2 ≤ l.length) (hk : ∀ e ∈ l, e.2 = a ∨ e.2 = -a) {r : ProcessResult p V}
    (h : GExpr.solve rc (mk [] l c) = .ok (.ok r)) :
    (∀ x ∈ l.map (·.1),
      (∃ rg, Effect.rangeConstraint x rg ∈ r.effects ∧
        ∀ v, Between rg.min rg.max v ↔ Supported rc (mk [] l c) x v) ∨
      ((∀ rg, Effect.rangeConstraint x rg ∉ r.effects) ∧ ∀ v, Supported rc (mk [] l c) x v)) ∧
    ∀ eff ∈ r.effects, ∃ x ∈ l.map (·.1), ∃ rg, eff = .rangeConstraint x rg ∧
      ∀ v, Between rg.min rg.max v ↔ Supported rc (mk [] l c) x v := by
  obtain ⟨-, h2, h3⟩ := wf_inv hw
  have hn : (l.map (·.1)).Nodup := List.pairwise_map.2 (h2.imp fun h => ne_of_lt h)
  obtain ⟨effects, t1, t2, t3⟩ := transferLoop_spec (rc := rc) hw l (fun _ he => he) hn
  have hr : r.effects = effects := by
    obtain ⟨e1, e2, t, rfl⟩ : ∃ e1 e2 t, l = e1 :: e2 :: t := by
      match l, hl with
      | e1 :: e2 :: t, _ => exact ⟨e1, e2, t, rfl⟩
    rw [GExpr.solve] at h
    split at h
    · simp at h
    · unfold solveAffine transferConstraints at h
      simp only [isQuadratic, GExpr.quadratic, GExpr.linear] at h
      rw [t1] at h
      simp only [List.isEmpty_nil, Bool.not_true, Bool.false_eq_true, if_false, Except.map, Except.ok.injEq] at h
      rw [← h]
  rw [hr]
  have key : ∀ x k, (x, k) ∈ l → ∀ v,
      Between (rangeConstraint rc (mk [] (restTerms x k l) (-k⁻¹ * c))).min
        (rangeConstraint rc (mk [] (restTerms x k l) (-k⁻¹ * c))).max v ↔ Supported rc (mk [] l c) x v := by
    intro x k hx v
    rw [← inCyc_iff_between]
    exact supported_iff hw hk hx v
  refine ⟨?_, ?_⟩
  · intro x hx
    obtain ⟨⟨x, k⟩, hxl, rfl⟩ := List.mem_map.1 hx
    simp only
    cases hu : (rangeConstraint rc (mk [] (restTerms x k l) (-k⁻¹ * c))).isUnconstrained with
    | true =>
      right
      refine ⟨?_, ?_⟩
      · intro rg hrg
        obtain ⟨y, d, g1, g2, g3⟩ := t2 _ hrg
        cases g3
        have : (x, k) = (x, d) := by
          have e1 := lookup_of_mem h2 hxl
          have e2 := lookup_of_mem h2 g1
          rw [e1] at e2
          simpa using e2
        cases this
        rw [hu] at g2
        cases g2
      · intro v
        rw [← key x k hxl v]
        have := C01_isUnconstrained_sound _ hu v
        exact ((C01_allowsValue_exact _ _).1 this).1
    | false =>
      left
      exact ⟨_, t3 x k hxl hu, key x k hxl⟩
  · intro eff heff
    obtain ⟨x, k, g1, -, g3⟩ := t2 eff heff
    exact ⟨x, List.mem_map.2 ⟨_, g1, rfl⟩, _, g3, key x k g1⟩

/-- C101: after `solve`, in every history. Consider a linear constraint the solver has, of at least two variables and with
coefficients that are equal up to sign, that has a solution in the known ranges. If the values of the interval of one of
its variables that the constraint supports form an interval, then all values the solver allows for the variable are
supported. -/
theorem C101_settled (bus : Bus p) (h : Handler p) (hs : h.Sound bus)
    (ops : List (SolverOp p V)) (ch : Choices p V) (hw : ∀ op ∈ ops, op.WF)
    (outs : List (SolverOut p V)) (s : Solver p V)
    (ho : runOps h (ops ++ [.solve ch]) Solver.new = .ok (outs, s))
    {l : List (SVar V × ZMod p)} {c a : ZMod p} (he : mk [] l c ∈ s.cs.ix.sys.algebraic)
    (hl : 2 ≤ l.length) (hk : ∀ e ∈ l, e.2 = a ∨ e.2 = -a)
    {σ : SVar V → ZMod p} (hσ : ∀ v, (s.rcs v).allowsValue (σ v) = true) (h0 : eval σ (mk [] l c) = 0)
    {x : SVar V} (hx : x ∈ l.map (·.1))
    (hi : ∃ m M, ∀ v, Between m M v ↔ Between (s.rcs x).min (s.rcs x).max v ∧ Supported s.rcs (mk [] l c) x v)
    {v : ZMod p} (hv : (s.rcs x).allowsValue v = true) : Supported s.rcs (mk [] l c) x v := by
  have hwf : WF (mk [] l c) := by
    refine (Solver.runOps_settled hs Solver.inv_new Solver.settled_new ?_ ho).1.wf.1 _ he
    intro op hop
    rcases List.mem_append.1 hop with hop | hop
    · exact hw op hop
    · rw [List.mem_singleton.1 hop]
      trivial
  obtain ⟨-, r, hr, hnews⟩ := (C99_fixpoint bus h hs ops ch hw outs s ho).1 _ he
  rcases (C101_transfer s.rcs hwf hl hk hr).1 x hx with ⟨rg, h1, h2⟩ | ⟨-, h2⟩
  · have hn : (s.rcs x).conjunction rg = s.rcs x := hnews _ h1
    have hx0 : rg.allowsValue (σ x) = true := by
      have := C13_effects_hold s.rcs _ hwf r hr σ (fun v _ => hσ v) h0 _ h1
      exact this
    have hc := (C100_conjunction (s.rcs x) rg (hσ x) hx0).2 (by
      obtain ⟨m, M, hm⟩ := hi
      exact ⟨m, M, fun v => by rw [hm, h2]⟩) v
    rw [hn] at hc
    exact (h2 v).1 ((C01_allowsValue_exact _ _).1 (hc.1 hv).2).1
  · exact h2 v

/-! ### Concrete instances -/

/-- `x0` is at most 3, and `x1` is anything. -/
def supportedSample : ℕ → RangeConstraint 17 := fun v => if v = 0 then .fromRange 0 3 else .unconstrained

/-- `x0 + x1 - 10 = 0`. -/
def supportedExpr : GExpr 17 ℕ := mk [] [(0, 1), (1, 1)] (-10)

example : supportedExpr = var 0 + var 1 - const 10 := by decide +kernel
/-- `x1` is between 7 and 10. Nothing is said about `x0`. -/
example : (GExpr.solve supportedSample supportedExpr).toOption.bind (fun r => r.toOption.map (·.effects)) =
    some [.rangeConstraint 1 (.fromRange 7 10)] := by decide +kernel
/-- `x0 - x1 - 10 = 0` with both at most 3 has no solution. -/
example : (GExpr.solve (fun _ => .fromRange 0 3) (mk [] [(0, 1), (1, -1)] (-10) : GExpr 17 ℕ)) =
    .ok (.error .constraintUnsatisfiable) := by decide +kernel

/-- A history in which such a constraint remains. -/
def supportedHistory : List (SolverOp 17 ℕ) :=
  [.addRange 0 (.fromRange 0 3), .addAlgebraic [supportedExpr], .solve (plainChoices 17 ℕ)]

/-- The constraints of a solver, and the ranges of `x0` and `x1`. -/
def solverState : Except Stop (List (SolverOut 17 ℕ) × Solver 17 ℕ) →
    Option (List (GExpr 17 (SVar ℕ)) × RangeConstraint 17 × RangeConstraint 17)
  | .ok (_, s) => some (s.cs.ix.sys.algebraic, s.get 0, s.get 1)
  | .error _ => none

example : solverState (runOps defaultHandler supportedHistory Solver.new) =
    some ([mk [] [(.original 0, 1), (.original 1, 1)] (-10)], .fromRange 0 3, .fromRange 7 10) := by decide +kernel

end Verif
