import Verif.Proofs.EqualZero
import Verif.Proofs.RuleReplacements
import Verif.Props.GroupedExpression
import Verif.Props.Goldilocks

/-!
# C25–C29: the rule system

`Derives inp f` says that the rule system derives the fact `f` from the input `inp`, by a derivation
of any depth.
-/

namespace Verif

open RangeConstraint GExpr

variable {p : ℕ} {V : Type} [LinearOrder V] [Fact p.Prime] {inp : RuleInput p V}

/-! ## C25 -/

section C25

variable (hwf : inp.WF) (hint : 2 * (p - 1) < 2 ^ inp.intBits)
  (hlen : ∀ e ∈ inp.constraints, e.linear.length ≤ p) {σ : V → ZMod p} (hσ : inp.SolvedBy σ)
include hwf hint hlen hσ

/-- An expression that the rules find to be zero is zero in every solution. -/
theorem C25_equal_zero {e : GExpr p V} (h : Derives inp (.equalZero e)) : eval σ e = 0 :=
  holds_of_derives hwf hint hlen hσ h

/-- A range constraint that the rules find for an expression holds in every solution. -/
theorem C25_expression_range {e : GExpr p V} {rc : RangeConstraint p}
    (h : Derives inp (.rangeConstraintOnExpression e rc)) : rc.allowsValue (eval σ e) = true :=
  holds_of_derives hwf hint hlen hσ h

/-- A range constraint that the rules find for a variable holds in every solution. -/
theorem C25_variable_range {v : V} {rc : RangeConstraint p}
    (h : Derives inp (.updateRangeConstraintOnVar v rc)) : rc.allowsValue (σ v) = true :=
  holds_of_derives hwf hint hlen hσ h

/-- A value that the rules assign to a variable is its value in every solution. -/
theorem C25_assignment {v : V} {value : ZMod p} (h : Derives inp (.assignment v value)) :
    σ v = value :=
  holds_of_derives hwf hint hlen hσ h

/-- Variables that the rules find to be equivalent, or that they replace by each other, are equal in
every solution. -/
theorem C25_equivalence {v w : V}
    (h : Derives inp (.equivalence v w) ∨ Derives inp (.substituteByVariable v w)) : σ v = σ w := by
  rcases h with h | h
  · exact holds_of_derives hwf hint hlen hσ h
  · exact holds_of_derives hwf hint hlen hσ h

/-- Of the variables of an expression that the rules find to be a one-hot flag, exactly one is one,
and the others are zero. -/
theorem C25_exactly_one {e : GExpr p V} (h : Derives inp (.exactlyOneSet e)) :
    ∃ v, Occurs v e ∧ σ v = 1 ∧ ∀ w, Occurs w e → w ≠ v → σ w = 0 :=
  holds_of_derives hwf hint hlen hσ h

end C25

/-- Example: `x + y = 0` with `x` and `y` at most three. -/
def sumInput : RuleInput 17 ℕ where
  constraints := [mk [] [(0, 1), (1, 1)] 0]
  exprRanges := []
  varRanges := [(0, fromRange 0 3), (1, fromRange 0 3)]
  single := []
  lt := fun _ _ => True
  fresh := fun v _ => v = 9
  intBits := 32

theorem sumInput_wf : sumInput.WF := by
  refine ⟨?_, by simp [sumInput]⟩
  intro e he
  simp only [sumInput, List.mem_singleton] at he
  subst he
  exact wf_intro (by simp) (by simp) (by simp)

theorem sumInput_range (v : ℕ) (hv : v = 0 ∨ v = 1)
    (hd : Derives sumInput (.expression (mk [] [(v, 1)] 0))) :
    Derives sumInput (.rangeConstraintOnExpression (mk [] [(v, 1)] 0)
      ((fromRange 0 3 : RangeConstraint 17).multiple 1)) := by
  refine .rangeLinear (.linear (.affine hd rfl)) (.varRange ?_)
  rcases hv with rfl | rfl <;> simp [sumInput]

theorem sumInput_derives : Derives sumInput (.assignment 0 0) := by
  have e0 : Derives sumInput (.algebraicConstraint (mk [] [(0, 1), (1, 1)] 0)) :=
    .initial (by simp [sumInput])
  have hs : Derives sumInput (.sumHeadTail (mk [] [(0, 1), (1, 1)] 0) (mk [] [(0, 1)] 0)
      (mk [] [(1, 1)] 0)) := .headTail (.exprConstraint e0) (by decide +kernel)
  have h := Derives.entailsZero (.zeroConstraint e0) hs
    (sumInput_range 0 (Or.inl rfl) (.exprHead hs)) (sumInput_range 1 (Or.inr rfl) (.exprTail hs))
    (by decide +kernel) (by decide +kernel) (by decide +kernel)
  have : Derives sumInput (.assignment 0 (-0 * (1 : ZMod 17)⁻¹)) :=
    .assignment (.zeroHead h) (.solvable (.affine (.exprHead hs) rfl))
  simpa using this

example : sumInput.WF ∧ 2 * (17 - 1) < 2 ^ sumInput.intBits ∧
    (∀ e ∈ sumInput.constraints, e.linear.length ≤ 17) ∧ sumInput.SolvedBy (fun _ => 0) ∧
    Derives sumInput (.assignment 0 0) := by
  refine ⟨sumInput_wf, by decide, by decide, ⟨?_, ?_, ?_⟩, sumInput_derives⟩
  · decide +kernel
  · simp [sumInput]
  · decide +kernel

/-! ## C26 -/

/-- Two constraints that are merged are equivalent to their replacement for every assignment that
respects the ranges given to the rule system. -/
theorem C26_equivalent_within_ranges (hwf : inp.WF) {e₁ e₂ : GExpr p V}
    {replacement : List (GExpr p V)} (h : Derives inp (.replaceManyBy [e₁, e₂] replacement))
    {σ : V → ZMod p} (hσ : inp.RangesHold σ) :
    (eval σ e₁ = 0 ∧ eval σ e₂ = 0) ↔ ∀ e ∈ replacement, eval σ e = 0 :=
  replaceProducts_iff hwf h hσ

/-- Example: `(v - 1) * v = 0` and `(v - 1) * b = 0`. -/
def booleanInput : RuleInput 17 ℕ where
  constraints := [mk [(mk [] [(0, 1)] (-1), mk [] [(0, 1)] 0)] [] 0,
    mk [(mk [] [(0, 1)] (-1), mk [] [(1, 1)] 0)] [] 0]
  exprRanges := []
  varRanges := [(0, fromMask 1), (1, fromRange 0 5)]
  single := []
  lt := fun _ _ => True
  fresh := fun v _ => v = 9
  intBits := 32

theorem booleanInput_wf : booleanInput.WF := by
  refine ⟨?_, by simp [booleanInput]⟩
  have l : ∀ (v : ℕ) (c : ZMod 17), GExpr.WF (mk [] [(v, 1)] c : GExpr 17 ℕ) := fun v c =>
    wf_intro (by simp) (by simp) (by simp)
  intro e he
  simp only [booleanInput, List.mem_cons, List.not_mem_nil, or_false] at he
  rcases he with rfl | rfl
  · exact wf_intro (by simp [l]; decide +kernel) (by simp) (by simp)
  · exact wf_intro (by simp [l]; decide +kernel) (by simp) (by simp)

theorem booleanInput_derives : Derives booleanInput (.replaceManyBy
    [mk [(mk [] [(0, 1)] (-1), mk [] [(0, 1)] 0)] [] 0,
      mk [(mk [] [(0, 1)] (-1), mk [] [(1, 1)] 0)] [] 0]
    [mul (mk [] [(0, 1)] (-1)) (add (mk [] [(0, 1)] 0) (mk [] [(1, 1)] 0))]) := by
  have a1 : Derives booleanInput (.algebraicConstraint
    (mk [(mk [] [(0, 1)] (-1), mk [] [(0, 1)] 0)] [] 0)) := .initial (by simp [booleanInput])
  have a2 : Derives booleanInput (.algebraicConstraint
    (mk [(mk [] [(0, 1)] (-1), mk [] [(1, 1)] 0)] [] 0)) := .initial (by simp [booleanInput])
  have p1 := Derives.product (.exprConstraint a1) (by rfl :
    (mk [(mk [] [(0, 1)] (-1), mk [] [(0, 1)] 0)] [] 0 : GExpr 17 ℕ).tryAsSingleProduct =
      some (mk [] [(0, 1)] (-1), mk [] [(0, 1)] 0))
  have p2 := Derives.product (.exprConstraint a2) (by rfl :
    (mk [(mk [] [(0, 1)] (-1), mk [] [(1, 1)] 0)] [] 0 : GExpr 17 ℕ).tryAsSingleProduct =
      some (mk [] [(0, 1)] (-1), mk [] [(1, 1)] 0))
  refine .replaceProducts (.productConstraint a1 p1) (.productConstraint a2 p2) trivial
    (.rangeLinear (.linear (.affine (.exprRight p1) rfl))
      (.varRange (rc := fromMask 1) (by simp [booleanInput])))
    (.rangeLinear (.linear (.affine (.exprRight p2) rfl))
      (.varRange (rc := fromRange 0 5) (by simp [booleanInput]))) ?_ ?_ ?_
  · decide +kernel
  · decide +kernel
  · decide +kernel

/-- The ranges matter: if the range of `v` is only known because of a constraint that is removed,
the replacement has additional solutions. In the example, the range of `v` follows from
`(v - 1) * v = 0`, the rules replace both constraints by `(v - 1) * (v + b) = 0`, and this has a
solution that respects the range of `b` and violates `(v - 1) * v = 0`. -/
theorem C26_unsound_if_range_is_implied_by_removed :
    ∃ (inp : RuleInput 17 ℕ) (v b : ℕ) (e₁ e₂ e : GExpr 17 ℕ), inp.WF ∧ inp.constraints = [e₁, e₂] ∧
      (∀ x ∈ inp.varRanges, x.1 = v ∨ x = (b, fromRange 0 5)) ∧ inp.exprRanges = [] ∧
      (∀ σ : ℕ → ZMod 17, eval σ e₁ = 0 → ∀ x ∈ inp.varRanges, x.1 = v →
        x.2.allowsValue (σ v) = true) ∧
      Derives inp (.replaceManyBy [e₁, e₂] [e]) ∧
      ∃ σ : ℕ → ZMod 17, eval σ e = 0 ∧
        (fromRange 0 5 : RangeConstraint 17).allowsValue (σ b) = true ∧ eval σ e₁ ≠ 0 := by
  refine ⟨booleanInput, 0, 1, _, _, _, booleanInput_wf, rfl, ?_, rfl, ?_, booleanInput_derives,
    fun v => if v = 0 then -5 else 5, ?_, ?_, ?_⟩
  · decide +kernel
  · intro σ h x hx hx0
    simp only [booleanInput, List.mem_cons, List.not_mem_nil, or_false] at hx
    rcases hx with rfl | rfl
    · have h' : (σ 0 - 1) * σ 0 = 0 := by
        rw [eval_mk] at h
        simp [eval_mk_single] at h
        rcases h with h | h
        · linear_combination σ 0 * h
        · rw [h]; ring
      rcases mul_eq_zero.1 h' with h | h
      · rw [sub_eq_zero.1 h]; decide +kernel
      · rw [h]; decide +kernel
    · simp at hx0
  · decide +kernel
  · decide +kernel
  · decide +kernel

/-! ## C27 -/

/-- For every field of the library except Goldilocks, the two parts of a sum that the rules find to
be zero are zero in every solution. -/
theorem C27_zero_sum (F : ShippedField) (hF : F ∈ [babyBear, koalaBear, mersenne31, bn254])
    [Fact F.modulus.Prime] {inp : RuleInput F.modulus V} (hbits : inp.intBits = F.intBits)
    (hwf : inp.WF) (hlen : ∀ e ∈ inp.constraints, e.linear.length ≤ F.modulus)
    {head tail : GExpr F.modulus V} (h : Derives inp (.entailsZeroHeadAndTail head tail))
    {σ : V → ZMod F.modulus} (hσ : inp.SolvedBy σ) : eval σ head = 0 ∧ eval σ tail = 0 := by
  have hint : 2 * (F.modulus - 1) < 2 ^ inp.intBits := by
    rw [hbits]
    simp only [List.mem_cons, List.not_mem_nil, or_false] at hF
    rcases hF with rfl | rfl | rfl | rfl <;>
      norm_num [babyBear, koalaBear, mersenne31, bn254]
  exact holds_of_derives hwf hint hlen hσ h

/-- Goldilocks: `x + y = 0` where both variables are at most `2 ^ 63`. -/
def wideInput : RuleInput goldilocks.modulus ℕ where
  constraints := [mk [] [(0, 1), (1, 1)] 0]
  exprRanges := []
  varRanges := [(0, fromRange 0 ((2 ^ 63 : ℕ) : ZMod goldilocks.modulus)),
    (1, fromRange 0 ((2 ^ 63 : ℕ) : ZMod goldilocks.modulus))]
  single := []
  lt := fun _ _ => True
  fresh := fun v _ => v = 9
  intBits := goldilocks.intBits

/-- For Goldilocks the sum of the two maxima can wrap around in the 64-bit integer type, and the
rule then claims that two nonzero expressions are zero. -/
theorem C27_unsound_for_goldilocks :
    ∃ (inp : RuleInput goldilocks.modulus ℕ) (head tail : GExpr goldilocks.modulus ℕ),
      inp.intBits = goldilocks.intBits ∧ inp.WF ∧
      Derives inp (.entailsZeroHeadAndTail head tail) ∧
      ∃ σ : ℕ → ZMod goldilocks.modulus, inp.SolvedBy σ ∧ eval σ head ≠ 0 ∧ eval σ tail ≠ 0 := by
  have e0 : Derives wideInput (.algebraicConstraint (mk [] [(0, 1), (1, 1)] 0)) :=
    .initial (by simp [wideInput])
  have hs : Derives wideInput (.sumHeadTail (mk [] [(0, 1), (1, 1)] 0) (mk [] [(0, 1)] 0)
      (mk [] [(1, 1)] 0)) := .headTail (.exprConstraint e0) (by decide +kernel)
  have hr : ∀ v : ℕ, v = 0 ∨ v = 1 → Derives wideInput (.expression (mk [] [(v, 1)] 0)) →
      Derives wideInput (.rangeConstraintOnExpression (mk [] [(v, 1)] 0)
      ((fromRange 0 ((2 ^ 63 : ℕ) : ZMod goldilocks.modulus)).multiple 1)) := by
    intro v hv hd
    refine .rangeLinear (.linear (.affine hd rfl)) (.varRange ?_)
    rcases hv with rfl | rfl <;> simp [wideInput]
  refine ⟨wideInput, mk [] [(0, 1)] 0, mk [] [(1, 1)] 0, rfl, ?_,
    .entailsZero (.zeroConstraint e0) hs (hr 0 (Or.inl rfl) (.exprHead hs))
      (hr 1 (Or.inr rfl) (.exprTail hs)) ?_ ?_ ?_,
    fun v => if v = 0 then ((2 ^ 63 : ℕ) : ZMod goldilocks.modulus)
      else ((2 ^ 63 - 2 ^ 32 + 1 : ℕ) : ZMod goldilocks.modulus), ⟨?_, ?_, ?_⟩, ?_, ?_⟩
  · refine ⟨?_, by simp [wideInput]⟩
    intro e he
    simp only [wideInput, List.mem_singleton] at he
    subst he
    exact wf_intro (by simp) (by simp) (by decide +kernel)
  · decide +kernel
  · decide +kernel
  · decide +kernel
  · decide +kernel
  · simp [wideInput]
  · decide +kernel
  · decide +kernel
  · decide +kernel

/-! ## C28 -/

/-- Merging two variables that occur nowhere else into one new variable preserves the solutions up
to the values of the merged and of the new variable, and all bus interaction fields: every solution
of the old system becomes one of the new system if the new variable is set to the value of its
computation method, and every solution of the new system becomes one of the old system by changing
the once-occurring variables.

`bus` are the fields of the bus interactions of the system, `inp.single` the variables that occur
exactly once (environment.rs:32, driver.rs:85-101), `inp.fresh` the unused variables with their
computation methods. -/
theorem C28_conservative (hwf : inp.WF) (hint : 2 * (p - 1) < 2 ^ inp.intBits)
    (hlen : ∀ e ∈ inp.constraints, e.linear.length ≤ p) {bus : List (GExpr p V)}
    (hsingle : ∀ v ∈ inp.single, (inp.constraints.flatMap vars ++ bus.flatMap vars).count v = 1)
    (hfresh : ∀ w m, inp.fresh w m → w ∉ inp.constraints.flatMap vars ++ bus.flatMap vars)
    {e replacement : GExpr p V} (h : Derives inp (.replaceBy e replacement)) :
    e ∈ inp.constraints ∧
    (∃ w m, inp.fresh w m ∧ ∀ σ, inp.SolvedBy σ →
      (∀ c ∈ inp.constraints, eval (Function.update σ w (m.value σ)) c = 0) ∧
      eval (Function.update σ w (m.value σ)) replacement = 0 ∧
      ∀ f ∈ bus, eval (Function.update σ w (m.value σ)) f = eval σ f) ∧
    ∀ σ' : V → ZMod p, (∀ c ∈ inp.constraints, c ≠ e → eval σ' c = 0) → eval σ' replacement = 0 →
      ∃ σ : V → ZMod p, (∀ v ∉ inp.single, σ v = σ' v) ∧
      (∀ c ∈ inp.constraints, eval σ c = 0) ∧ ∀ f ∈ bus, eval σ f = eval σ' f :=
  replaceFreeVariables_spec hwf hint hlen hsingle hfresh h

/-- A solution of the old system in which all new variables have the values of their computation
methods solves the replacement. -/
theorem C28_computed (hwf : inp.WF) (hint : 2 * (p - 1) < 2 ^ inp.intBits)
    (hlen : ∀ e ∈ inp.constraints, e.linear.length ≤ p)
    (hsingle : ∀ v ∈ inp.single, ∀ e ∈ inp.constraints, e.vars.count v ≤ 1)
    {e replacement : GExpr p V} (h : Derives inp (.replaceBy e replacement))
    {σ : V → ZMod p} (hσ : inp.SolvedBy σ) (hnew : ∀ w m, inp.fresh w m → σ w = m.value σ) :
    eval σ replacement = 0 :=
  replaceBy_keeps hwf hint hlen hsingle hσ hnew h

/-- Example: `x * v + y * w - r = 0` -/
def inverseConstraint : GExpr 17 (Fin 10) :=
  mk [(mk [] [(0, 1)] 0, mk [] [(3, 1)] 0), (mk [] [(1, 1)] 0, mk [] [(4, 1)] 0)] [(2, -1)] 0

/-- The constraint with one new variable. -/
def inverseReplacement : GExpr 17 (Fin 10) :=
  mk [(mk [] [(9, 1)] 0, mk [] [(0, 1), (1, 1)] 0)] [(2, -1)] 0

/-- The computation method of the new variable: `r / (x + y)`, or zero. -/
def inverseMethod : ComputationMethod 17 (GExpr 17 (Fin 10)) :=
  .quotientOrZero (neg (mk [] [(2, -1)] 0)) (mk [] [(0, 1), (1, 1)] 0)

/-- The input with small `x` and `y`. -/
def inverseInput : RuleInput 17 (Fin 10) where
  constraints := [inverseConstraint]
  exprRanges := []
  varRanges := [(0, fromRange 0 3), (1, fromRange 0 3)]
  single := [3, 4]
  lt := fun _ _ => True
  fresh := fun v m => v = 9 ∧ m = inverseMethod
  intBits := 32

theorem inverse_derives {inp : RuleInput 17 (Fin 10)} (hc : inp.constraints = [inverseConstraint])
    (hs : inp.single = [3, 4]) (h0 : (0, fromRange 0 3) ∈ inp.varRanges)
    (h1 : (1, fromRange 0 3) ∈ inp.varRanges) (hf : inp.fresh 9 inverseMethod) :
    MethodRequested inp inverseMethod ∧
      Derives inp (.replaceBy inverseConstraint inverseReplacement) := by
  have a : Derives inp (.algebraicConstraint (mk [(mk [] [(0, 1)] 0, mk [] [(3, 1)] 0),
    (mk [] [(1, 1)] 0, mk [] [(4, 1)] 0)] [(2, -1)] 0)) :=
    .initial (by rw [hc]; simp [inverseConstraint])
  have s1 : Derives inp (.sumHeadTail _ (mk [(mk [] [(0, 1)] 0, mk [] [(3, 1)] 0)] [] 0)
    (mk [(mk [] [(1, 1)] 0, mk [] [(4, 1)] 0)] [(2, -1)] 0)) :=
    .headTail (.exprConstraint a) (by decide +kernel)
  have s2 : Derives inp (.sumHeadTail _ (mk [(mk [] [(1, 1)] 0, mk [] [(4, 1)] 0)] [] 0)
    (mk [] [(2, -1)] 0)) := .headTail (.exprTail s1) (by decide +kernel)
  have p1 : Derives inp (.product _ (mk [] [(0, 1)] 0) (mk [] [(3, 1)] 0)) :=
    .product (.exprHead s1) rfl
  have p2 : Derives inp (.product _ (mk [] [(1, 1)] 0) (mk [] [(4, 1)] 0)) :=
    .product (.exprHead s2) rfl
  have occ : ∀ v ∈ inp.single, Derives inp (.singleOccurrenceVariableInExpr
      (mk [(mk [] [(0, 1)] 0, mk [] [(3, 1)] 0), (mk [] [(1, 1)] 0, mk [] [(4, 1)] 0)]
        [(2, -1)] 0) v) := by
    intro v hv
    refine .singleIn (.single hv) (.contains (.exprConstraint a) ?_) a
    rw [hs] at hv
    revert v
    decide +kernel
  have pair : Derives inp (.largestPair _ 3 4) :=
    .largestPair (occ 3 (by simp [hs])) (occ 4 (by simp [hs])) (by decide)
      (by rw [hs]; decide +kernel)
  have cand : Derives inp (.freeVariableCandidate _ 1 3 (mk [] [(0, 1)] 0) 1 4
      (mk [] [(1, 1)] 0)) :=
    .freeVariableCandidate pair a
      (.hasProductSummand (.hasSummandHead s1) p1) (.linear (.affine (.exprRight p1) rfl))
      (.hasProductSummand (.hasSummandTail s1 (.hasSummandHead s2)) p2) (by decide +kernel)
      (by decide +kernel) (.linear (.affine (.exprRight p2) rfl))
  have r1 : Derives inp (.rangeConstraintOnExpression (mk [] [(0, 1)] 0)
      ((fromRange 0 3 : RangeConstraint 17).multiple 1)) :=
    .rangeLinear (.linear (.affine (.exprLeft p1) rfl)) (.varRange h0)
  have r2 : Derives inp (.rangeConstraintOnExpression (mk [] [(1, 1)] 0)
      ((fromRange 0 3 : RangeConstraint 17).multiple 1)) :=
    .rangeLinear (.linear (.affine (.exprLeft p2) rfl)) (.varRange h1)
  refine ⟨.freeVariables (factor := mk [] [(0, 1), (1, 1)] 0)
    (r := mk [] [(2, -1)] 0) cand r1 r2 (by decide +kernel), ?_⟩
  have := Derives.replaceFreeVariables (w := 9) (factor := mk [] [(0, 1), (1, 1)] 0)
    (r := mk [] [(2, -1)] 0) cand r1 r2 (by decide +kernel) hf
  exact (by decide +kernel : freeVariableReplacement 9 (mk [] [(0, 1), (1, 1)] 0)
    (mk [] [(2, -1)] 0) = inverseReplacement) ▸ this

/-- A solution of the example, with the value of the new variable. -/
def inverseSolution : Fin 10 → ZMod 17 := fun v =>
  if v = 0 then 2 else if v = 3 then 3 else if v = 2 then 6 else if v = 9 then 3 else 0

theorem inverseConstraint_wf : GExpr.WF inverseConstraint := by
  have l : ∀ (v : Fin 10) (c : ZMod 17), GExpr.WF (mk [] [(v, 1)] c : GExpr 17 (Fin 10)) :=
    fun v c => wf_intro (by simp) (by simp) (by simp)
  exact wf_intro (by simp [l]; decide +kernel) (by simp) (by decide +kernel)

example : inverseInput.WF ∧ 2 * (17 - 1) < 2 ^ inverseInput.intBits ∧
    (∀ e ∈ inverseInput.constraints, e.linear.length ≤ 17) ∧
    (∀ v ∈ inverseInput.single, (inverseInput.constraints.flatMap vars ++
      [var 0, var 2].flatMap (vars (p := 17))).count v = 1) ∧
    (∀ w m, inverseInput.fresh w m → w ∉ inverseInput.constraints.flatMap vars ++
      [var 0, var 2].flatMap (vars (p := 17))) ∧
    (∀ v ∈ inverseInput.single, ∀ e ∈ inverseInput.constraints, e.vars.count v ≤ 1) ∧
    inverseInput.SolvedBy inverseSolution ∧
    (∀ w m, inverseInput.fresh w m → inverseSolution w = m.value inverseSolution) ∧
    ∃ e r, Derives inverseInput (.replaceBy e r) := by
  refine ⟨⟨?_, by simp [inverseInput]⟩, by decide, by decide +kernel, by decide +kernel, ?_,
    by decide +kernel, ⟨?_, ?_, ?_⟩, ?_, _, _, (inverse_derives (inp := inverseInput) rfl rfl
      (by simp [inverseInput]) (by simp [inverseInput]) ⟨rfl, rfl⟩).2⟩
  · intro e he
    simp only [inverseInput, List.mem_singleton] at he
    subst he
    exact inverseConstraint_wf
  · intro w m hw
    obtain ⟨rfl, -⟩ := hw
    decide +kernel
  · decide +kernel
  · simp [inverseInput]
  · decide +kernel
  · rintro w m ⟨rfl, rfl⟩
    decide +kernel

/-! ## C29 -/

/-- The ten constraints that the rule system finds are a comparison `a < 1` of a number of four
limbs: there are markers `m`, a difference `d` and nonzero factors `k` so that an assignment solves
the ten constraints exactly if `m`, `d` and the result describe the comparison. -/
theorem C29_pattern (hwf : inp.WF) {constrs : List (GExpr p V)} {result : V} {vs : List V}
    (hone : inp.OneComparisonPerResult result)
    (h : Derives inp (.equalZeroCheck constrs result vs)) :
    ∃ (a m : Fin 4 → V) (d : V) (k : Fin 4 → ZMod p), vs = [a 0, a 1, a 2, a 3] ∧
      (∀ i, k i ≠ 0) ∧ (∀ c ∈ constrs, c ∈ inp.constraints) ∧
      ∀ σ, (∀ c ∈ constrs, eval σ c = 0) ↔ ComparesWithOne σ a m result d k := by
  obtain ⟨a, m, d, k, h1, h2, -, -, h3, h4, -⟩ := equalZero_link hwf hone h
  exact ⟨a, m, d, k, h1, h2, h3, h4⟩

/-- Replacing the ten constraints preserves solutions: let an assignment respect the given ranges
and solve the ten constraints, and let the difference at the marked limb be checked to be in range.
Then for some value of the new variable it solves the two constraints of the replacement; the result
is one exactly if all limbs are zero. -/
theorem C29_complete (hwf : inp.WF) {constrs : List (GExpr p V)} {result : V} {vs : List V}
    (hone : inp.OneComparisonPerResult result)
    (h : Derives inp (.equalZeroCheck constrs result vs)) :
    ∃ (a m : Fin 4 → V) (d : V) (k : Fin 4 → ZMod p), vs = [a 0, a 1, a 2, a 3] ∧
      (∀ σ, (∀ c ∈ constrs, eval σ c = 0) ↔ ComparesWithOne σ a m result d k) ∧
      ∀ σ, inp.RangesHold σ → (∀ c ∈ constrs, eval σ c = 0) → DifferenceInRange σ a m d k →
        (σ result = 1 ↔ ∀ v ∈ vs, σ v = 0) ∧
        ∀ inv, inv ≠ result → inv ∉ vs → ∃ z, ∀ c ∈ equalZeroReplacement result inv vs,
          eval (Function.update σ inv z) c = 0 := by
  obtain ⟨a, m, d, k, rfl, hk, hm, hres, -, hiff, hzero⟩ := equalZero_link hwf hone h
  refine ⟨a, m, d, k, rfl, hiff, fun σ hσ hc hd => ?_⟩
  have bool : ∀ v, inp.Bool v → σ v = 0 ∨ σ v = 1 := fun v hv => boolean_of_mask (hσ.2 _ hv)
  have key := result_of_comparison ((hiff σ).1 hc) (bool _ hres) (fun i => bool _ (hm i)) hd
  have all : (∀ i, σ (a i) = 0) ↔ ∀ v ∈ [a 0, a 1, a 2, a 3], σ v = 0 := by
    constructor
    · intro h v hv
      simp only [List.mem_cons, List.not_mem_nil, or_false] at hv
      rcases hv with rfl | rfl | rfl | rfl <;> exact h _
    · intro h i
      apply h
      fin_cases i <;> simp
  refine ⟨key.trans all, fun inv hir hiv => ?_⟩
  set s := σ (a 0) + σ (a 1) + σ (a 2) + σ (a 3) with hs
  have ha : ∀ i z, Function.update σ inv z (a i) = σ (a i) := by
    intro i z
    apply Function.update_of_ne
    rintro rfl
    apply hiv
    fin_cases i <;> simp
  have hr : ∀ z, Function.update σ inv z result = σ result := fun z =>
    Function.update_of_ne (Ne.symm hir) _ _
  rcases bool _ hres with h0 | h1
  · have hsne : s ≠ 0 := by
      intro h
      have := key.2 (hzero σ hσ h)
      rw [h0] at this
      exact zero_ne_one this
    refine ⟨s⁻¹, (equalZeroReplacement_iff _ a result inv).2 ?_⟩
    rw [ha, ha, ha, ha, hr, h0, Function.update_self, ← hs, inv_mul_cancel₀ hsne]
    simp
  · have h := key.1 h1
    refine ⟨0, (equalZeroReplacement_iff _ a result inv).2 ?_⟩
    rw [ha, ha, ha, ha, hr, h1, Function.update_self, h 0, h 1, h 2, h 3]
    simp

/-- If the result is right and the new variable has the value of its computation method, one divided by
the sum of the limbs or zero, then the replacement holds. -/
theorem C29_computed (hwf : inp.WF) {constrs : List (GExpr p V)} {result w : V} {vs : List V}
    (h : Derives inp (.equalZeroCheck constrs result vs)) {σ : V → ZMod p} (hσ : inp.RangesHold σ)
    (hright : σ result = 1 ↔ ∀ v ∈ vs, σ v = 0)
    (hw : σ w = if (vs.map σ).sum = 0 then 0 else 1 / (vs.map σ).sum) :
    ∀ e ∈ equalZeroReplacement result w vs, eval σ e = 0 := by
  refine equalZero_computed hwf h hσ hright ?_
  rw [hw, ComputationMethod.value, eval_sum, eval_one, List.map_map]
  have : eval σ ∘ (var : V → GExpr p V) = σ := by
    funext v; exact eval_var σ v
  rw [this]

/-- The replacement adds no solutions: if the markers and the difference are variables of their
own, every assignment that respects the given ranges and solves the replacement can be changed at
the markers and the difference so that it solves the ten constraints. The new values of the markers
are boolean, and at the marked limb the difference is nonzero and one, the limb, or the limb minus
one. -/
theorem C29_sound (hwf : inp.WF) {constrs : List (GExpr p V)} {result : V} {vs : List V}
    (hone : inp.OneComparisonPerResult result)
    (h : Derives inp (.equalZeroCheck constrs result vs)) :
    ∃ (a m : Fin 4 → V) (d : V) (k : Fin 4 → ZMod p), vs = [a 0, a 1, a 2, a 3] ∧
      (∀ σ, (∀ c ∈ constrs, eval σ c = 0) ↔ ComparesWithOne σ a m result d k) ∧
      (Function.Injective m → d ∉ Set.range m → (∀ v ∈ result :: vs, v ≠ d ∧ v ∉ Set.range m) →
        ∀ σ inv, inp.RangesHold σ → (∀ c ∈ equalZeroReplacement result inv vs, eval σ c = 0) →
        ∃ σ' : V → ZMod p, (∀ v, v ≠ d → v ∉ Set.range m → σ' v = σ v) ∧
          (∀ c ∈ constrs, eval σ' c = 0) ∧ (∀ i, σ' (m i) = 0 ∨ σ' (m i) = 1) ∧
          ∀ i, σ' (m i) = 1 → k i * σ' d ≠ 0 ∧
            (k i * σ' d = 1 ∨ k i * σ' d = σ (a i) ∨
              (i = 0 ∧ σ (a 0) ≠ 0 ∧ k i * σ' d = σ (a 0) - 1))) := by
  classical
  obtain ⟨a, m, d, k, rfl, hk, hm, hres, -, hiff, hzero⟩ := equalZero_link hwf hone h
  refine ⟨a, m, d, k, rfl, hiff, fun hinj hdm hdist σ inv hσ hc => ?_⟩
  obtain ⟨e1, e2⟩ := (equalZeroReplacement_iff σ a result inv).1 hc
  set s := σ (a 0) + σ (a 1) + σ (a 2) + σ (a 3) with hs
  have hb : σ result = 0 ∨ σ result = 1 := boolean_of_mask (hσ.2 _ hres)
  have hall : σ result = 1 ↔ ∀ i, σ (a i) = 0 := by
    constructor
    · intro h1
      apply hzero σ hσ
      rw [← hs]
      rw [h1] at e1
      simpa using e1
    · intro h0
      have : s = 0 := by rw [hs, h0 0, h0 1, h0 2, h0 3]; simp
      rw [this] at e2
      linear_combination e2
  obtain ⟨M, D, q3, q2, q1, q0, nm, d0, d1, d2, d3, mk, hM, hD⟩ :=
    exists_comparison (a := fun i => σ (a i)) hk hb hall
  let σ' : V → ZMod p := fun v => if v = d then D else
    if h : v ∈ Set.range m then M h.choose else σ v
  have hσm : ∀ i, σ' (m i) = M i := by
    intro i
    have hne : m i ≠ d := fun h => hdm ⟨i, h⟩
    have hr : m i ∈ Set.range m := ⟨i, rfl⟩
    show (if m i = d then D else if h : m i ∈ Set.range m then M h.choose else σ (m i)) = M i
    rw [if_neg hne, dif_pos hr, hinj hr.choose_spec]
  have hσd : σ' d = D := by
    show (if d = d then D else _) = D
    rw [if_pos rfl]
  have hσo : ∀ v, v ≠ d → v ∉ Set.range m → σ' v = σ v := by
    intro v h1 h2
    show (if v = d then D else if h : v ∈ Set.range m then M h.choose else σ v) = σ v
    rw [if_neg h1, dif_neg h2]
  have hσa : ∀ i, σ' (a i) = σ (a i) := by
    intro i
    have := hdist (a i) (by fin_cases i <;> simp)
    exact hσo _ this.1 this.2
  have hσr : σ' result = σ result := by
    have := hdist result (by simp)
    exact hσo _ this.1 this.2
  refine ⟨σ', hσo, (hiff σ').2 ?_, fun i => by rw [hσm]; exact hM i, fun i hi => ?_⟩
  · constructor <;> simp only [hσm, hσa, hσr, hσd] <;> assumption
  · rw [hσm] at hi
    rw [hσd]
    exact hD i hi

/-- Without the range check of the difference the replacement would lose solutions: the comparison
also holds with the result one although the number is not zero. -/
theorem C29_range_check_needed : ∃ σ : ℕ → ZMod 17, ∃ (a m : Fin 4 → ℕ) (r d : ℕ),
    ComparesWithOne σ a m r d (fun _ => 1) ∧ σ r = 1 ∧ (∀ i, σ (m i) = 0 ∨ σ (m i) = 1) ∧
    (∀ i, (σ (a i)).val ≤ 3) ∧ ¬ ∀ i, σ (a i) = 0 := by
  refine ⟨fun v => if v = 3 then 2 else if v = 7 then 1 else if v = 8 then 1 else
    if v = 9 then -2 else 0, fun i => i, fun i => 4 + i, 8, 9, ?_, ?_, ?_, ?_, ?_⟩
  · constructor <;> decide +kernel
  · decide +kernel
  · decide +kernel
  · decide +kernel
  · decide +kernel

/-! ### Example for C29 -/

/-- `1 - m₃ - …`, with the markers from `m` on. -/
def exNegMarkers (m : List ℕ) : GExpr 17 ℕ := mk [] (m.map fun v => (v, -1)) 1

/-- `2 * r - 1` -/
def exSign : GExpr 17 ℕ := mk [] [(8, 2)] (-1)

/-- The limbs are the variables 0 to 3, the markers 4 to 7, the result 8 and the difference 9. -/
def compareInput : RuleInput 17 ℕ where
  constraints := [
    mk [(exNegMarkers [7], mk [(mk [] [(3, -1)] 0, exSign)] [] 0)] [] 0,
    mk [(exNegMarkers [6, 7], mk [(mk [] [(2, -1)] 0, exSign)] [] 0)] [] 0,
    mk [(exNegMarkers [5, 6, 7], mk [(mk [] [(1, -1)] 0, exSign)] [] 0)] [] 0,
    mk [(exNegMarkers [4, 5, 6, 7], mk [] [(8, 1)] 0)] [] 0,
    mk [(exNegMarkers [4, 5, 6, 7], mk [(mk [] [(0, -1)] 1, exSign)] [] 0)] [] 0,
    mk [(mk [] [(4, 1)] 0, mk [(mk [] [(0, 1)] (-1), exSign)] [(9, 1)] 0)] [] 0,
    mk [(mk [] [(5, 1)] 0, mk [(mk [] [(1, 1)] 0, exSign)] [(9, 1)] 0)] [] 0,
    mk [(mk [] [(6, 1)] 0, mk [(mk [] [(2, 1)] 0, exSign)] [(9, 1)] 0)] [] 0,
    mk [(mk [] [(7, 1)] 0, mk [(mk [] [(3, 1)] 0, exSign)] [(9, 1)] 0)] [] 0,
    mk [(mk [] [(4, 1), (5, 1), (6, 1), (7, 1)] (-1), mk [] [(4, 1), (5, 1), (6, 1), (7, 1)] 0)]
      [] 0]
  exprRanges := []
  varRanges := [(0, fromRange 0 3), (1, fromRange 0 3), (2, fromRange 0 3), (3, fromRange 0 3),
    (4, fromMask 1), (5, fromMask 1), (6, fromMask 1), (7, fromMask 1), (8, fromMask 1)]
  single := []
  lt := fun _ _ => True
  fresh := fun v _ => v = 10
  intBits := 32

/-- The factors of the constraints. -/
def compareFactors : List (GExpr 17 ℕ × GExpr 17 ℕ) :=
  compareInput.constraints.flatMap fun e => e.quadratic ++ e.quadratic.map Prod.swap

theorem compareInput_factor {e l f : GExpr 17 ℕ} (he : e ∈ compareInput.constraints)
    (h : IsProduct e l f) : (l, f) ∈ compareFactors := by
  refine List.mem_flatMap.2 ⟨e, he, ?_⟩
  rcases h with rfl | rfl <;> simp [quadratic]

theorem compareInput_wf : compareInput.WF := by
  refine ⟨?_, by simp [compareInput]⟩
  have w1 : ∀ m : List ℕ, m.Pairwise (· < ·) → GExpr.WF (exNegMarkers m) := by
    intro m hm
    refine wf_intro (by simp) ?_ (by simp)
    simpa [List.pairwise_map] using hm
  have w2 : ∀ (v : ℕ) (c o : ZMod 17), c ≠ 0 → GExpr.WF (mk [] [(v, c)] o : GExpr 17 ℕ) :=
    fun v c o h => wf_intro (by simp) (by simp) (by simpa using h)
  have ws : GExpr.WF exSign := w2 8 2 (-1) (by decide +kernel)
  have wq : ∀ (a b : GExpr 17 ℕ) (l : List (ℕ × ZMod 17)), GExpr.WF a → GExpr.WF b →
      a.tryToNumber = none → b.tryToNumber = none → (∃ v, l = [(v, 1)] ∨ l = []) →
      GExpr.WF (mk [(a, b)] l 0) := by
    intro a b l ha hb na nb hl
    obtain ⟨v, rfl | rfl⟩ := hl
    · exact wf_intro (by simp [ha, hb, na, nb]) (by simp) (by simp)
    · exact wf_intro (by simp [ha, hb, na, nb]) (by simp) (by simp)
  intro e he
  simp only [compareInput, List.mem_cons, List.not_mem_nil, or_false] at he
  rcases he with rfl | rfl | rfl | rfl | rfl | rfl | rfl | rfl | rfl | rfl
  all_goals
    refine wq _ _ _ ?_ ?_ (by decide +kernel) (by decide +kernel) ⟨0, Or.inr rfl⟩
  all_goals first
    | exact w1 _ (by decide)
    | exact w2 _ _ _ (by decide +kernel)
    | exact wq _ _ _ (w2 _ _ _ (by decide +kernel)) ws (by decide +kernel) (by decide +kernel)
        ⟨0, Or.inr rfl⟩
    | exact wq _ _ _ (w2 _ _ _ (by decide +kernel)) ws (by decide +kernel) (by decide +kernel)
        ⟨9, Or.inl rfl⟩
    | exact wf_intro (by simp) (by simp) (by simp)

theorem compareInput_unmixed : compareInput.OneComparisonPerResult 8 := by
  have key : ∀ x ∈ compareFactors, ∀ y ∈ compareFactors, x.1.quadratic = [] → x.1.constant = 1 →
      8 ∈ x.2.vars → y.1.quadratic = [] → y.1.constant = 1 → 8 ∈ y.2.vars →
      x.1.linear.length = y.1.linear.length → x.1 = y.1 := by decide +kernel
  intro e₁ e₂ m₁ m₂ l₁ l₂ v₁ v₂ n h₁ h₂
  obtain ⟨i₁, -, ⟨f₁, p₁, r₁⟩, q₁, c₁, n₁, -⟩ := shape_of_derives compareInput_wf h₁
  obtain ⟨i₂, -, ⟨f₂, p₂, r₂⟩, q₂, c₂, n₂, -⟩ := shape_of_derives compareInput_wf h₂
  exact key _ (compareInput_factor i₁ p₁) _ (compareInput_factor i₂ p₂) q₁ c₁ r₁ q₂ c₂ r₂
    (by rw [n₁, n₂])

theorem compareInput_derives :
    Derives compareInput (.equalZeroCheck compareInput.constraints 8 [0, 1, 2, 3]) := by
  have ac : ∀ e ∈ compareInput.constraints, Derives compareInput (.algebraicConstraint e) :=
    fun e he => .initial he
  have pc : ∀ l r : GExpr 17 ℕ, mk [(l, r)] [] 0 ∈ compareInput.constraints →
      Derives compareInput (.product (mk [(l, r)] [] 0) l r) ∧
      Derives compareInput (.productConstraint (mk [(l, r)] [] 0) l r) := by
    intro l r h
    have := Derives.product (.exprConstraint (ac _ h)) (by rfl :
      (mk [(l, r)] [] 0 : GExpr 17 ℕ).tryAsSingleProduct = some (l, r))
    exact ⟨this, .productConstraint (ac _ h) this⟩
  have aff : ∀ (v : ℕ) (c o : ZMod 17), Derives compareInput (.expression (mk [] [(v, c)] o)) →
      Derives compareInput (.affineExpression (mk [] [(v, c)] o) c v o) :=
    fun v c o h => .affine h rfl
  have lin : ∀ (v : ℕ) (c : ZMod 17), Derives compareInput (.expression (mk [] [(v, c)] 0)) →
      Derives compareInput (.linearExpression (mk [] [(v, c)] 0) v c) :=
    fun v c h => .linear (aff v c 0 h)
  have pm : ∀ x : GExpr 17 ℕ, Derives compareInput (.expression (mk [(x, exSign)] [] 0)) →
      Derives compareInput (.plusMinusResult (mk [(x, exSign)] [] 0) x 8) ∧
      Derives compareInput (.expression x) := by
    intro x h
    have hp := Derives.product h (by rfl :
      (mk [(x, exSign)] [] 0 : GExpr 17 ℕ).tryAsSingleProduct = some (x, exSign))
    exact ⟨.plusMinus hp (aff 8 2 (-1) (.exprRight hp)) rfl rfl, .exprLeft hp⟩
  have bool : ∀ v, (v, fromMask 1) ∈ compareInput.varRanges →
      Derives compareInput (.booleanVar v) := fun v h => .booleanVar (.varRange h)
  -- the chain
  have q0 := pc (exNegMarkers [7]) (mk [(mk [] [(3, -1)] 0, exSign)] [] 0) (by simp [compareInput])
  have q1 := pc (exNegMarkers [6, 7]) (mk [(mk [] [(2, -1)] 0, exSign)] [] 0)
    (by simp [compareInput])
  have q2 := pc (exNegMarkers [5, 6, 7]) (mk [(mk [] [(1, -1)] 0, exSign)] [] 0)
    (by simp [compareInput])
  have q3 := pc (exNegMarkers [4, 5, 6, 7]) (mk [] [(8, 1)] 0) (by simp [compareInput])
  have q4 := pc (exNegMarkers [4, 5, 6, 7]) (mk [(mk [] [(0, -1)] 1, exSign)] [] 0)
    (by simp [compareInput])
  have dif : ∀ (v : ℕ) (m : List ℕ),
      (exNegMarkers (v :: m)).trySplitHeadTail = some (mk [] [(v, -1)] 0, exNegMarkers m) →
      Derives compareInput (.expression (exNegMarkers (v :: m))) →
      Derives compareInput (.differBySummand (exNegMarkers (v :: m)) (exNegMarkers m)
        (mk [] [(v, -1)] 0)) ∧
      Derives compareInput (.linearExpression (mk [] [(v, -1)] 0) v (-1)) := by
    intro v m hs he
    have := Derives.headTail he hs
    exact ⟨.differHead this, lin v (-1) (.exprHead this)⟩
  have n0 : Derives compareInput (.negatedDiffMarkerConstraint _ 7 (exNegMarkers [7]) 3 8 0) :=
    .negatedBase q0.2 (aff 7 (-1) 1 (.exprLeft q0.1)) (pm _ (.exprRight q0.1)).1
      (lin 3 (-1) (pm _ (.exprRight q0.1)).2)
  have d1 := dif 6 [7] (by decide +kernel) (.exprLeft q1.1)
  have n1 : Derives compareInput (.negatedDiffMarkerConstraint _ 6 (exNegMarkers [6, 7]) 2 8 1) :=
    .negatedStep q1.2 n0 d1.1 d1.2 (pm _ (.exprRight q1.1)).1
      (lin 2 (-1) (pm _ (.exprRight q1.1)).2)
  have d2 := dif 5 [6, 7] (by decide +kernel) (.exprLeft q2.1)
  have n2 : Derives compareInput
      (.negatedDiffMarkerConstraint _ 5 (exNegMarkers [5, 6, 7]) 1 8 2) :=
    .negatedStep q2.2 n1 d2.1 d2.2 (pm _ (.exprRight q2.1)).1
      (lin 1 (-1) (pm _ (.exprRight q2.1)).2)
  have d3 := dif 4 [5, 6, 7] (by decide +kernel) (.exprLeft q3.1)
  have n3 : Derives compareInput
      (.negatedDiffMarkerConstraintFinal _ 4 (exNegMarkers [4, 5, 6, 7]) 8 3) :=
    .negatedFinal q3.2 n2 d3.1 d3.2 (lin 8 1 (.exprRight q3.1))
  have n4 : Derives compareInput (.negatedDiffMarkerConstraintFinalNegated _ 4 0 8 3) :=
    .negatedFinalNegated q4.2 n2 d3.1 d3.2 (pm _ (.exprRight q4.1)).1
      (aff 0 (-1) 1 (pm _ (.exprRight q4.1)).2)
  -- the differences
  have diff : ∀ (m : ℕ) (x : GExpr 17 ℕ),
      mk [(mk [] [(m, 1)] 0, mk [(x, exSign)] [(9, 1)] 0)] [] 0 ∈ compareInput.constraints →
      (mk [(x, exSign)] [(9, 1)] 0).trySplitHeadTail =
        some (mk [(x, exSign)] [] 0, mk [] [(9, 1)] 0) →
      Derives compareInput (.diffMarkerConstraint
        (mk [(mk [] [(m, 1)] 0, mk [(x, exSign)] [(9, 1)] 0)] [] 0) m x 8 9) ∧
      Derives compareInput (.expression x) := by
    intro m x hm hs
    have h := pc _ _ hm
    have ht := Derives.headTail (.exprRight h.1) hs
    exact ⟨.diffMarker h.2 (lin m 1 (.exprLeft h.1)) ht (pm x (.exprHead ht)).1
      (lin 9 1 (.exprTail ht)), (pm x (.exprHead ht)).2⟩
  have f0 := diff 4 (mk [] [(0, 1)] (-1)) (by simp [compareInput]) (by decide +kernel)
  have f1 := diff 5 (mk [] [(1, 1)] 0) (by simp [compareInput]) (by decide +kernel)
  have f2 := diff 6 (mk [] [(2, 1)] 0) (by simp [compareInput]) (by decide +kernel)
  have f3 := diff 7 (mk [] [(3, 1)] 0) (by simp [compareInput]) (by decide +kernel)
  -- the sum of the markers
  have q9 := pc (mk [] [(4, 1), (5, 1), (6, 1), (7, 1)] (-1))
    (mk [] [(4, 1), (5, 1), (6, 1), (7, 1)] 0) (by simp [compareInput])
  have rel : ∀ (m : List ℕ) (a b f o oa ob : ZMod 17), f = a * b⁻¹ → b = a * f⁻¹ →
      o = oa - ob * (a * b⁻¹) → (∀ v ∈ m, ofLinear v a = mk [] [(v, a)] 0 ∧
        ofLinear v b = (mk [] [(v, b)] 0 : GExpr 17 ℕ)) → ∀ v : ℕ,
      Derives compareInput (.expression (mk [] ((m ++ [v]).map fun v => (v, a)) oa)) →
      Derives compareInput (.expression (mk [] ((m ++ [v]).map fun v => (v, b)) ob)) →
      Derives compareInput (.affinelyRelated (mk [] ((m ++ [v]).map fun v => (v, a)) oa) f
        (mk [] ((m ++ [v]).map fun v => (v, b)) ob) o) := by
    intro m a b f o oa ob hf hb ho hm v
    induction m with
    | nil =>
      intro h1 h2
      rw [hf, ho]
      exact .affinelyRelated (aff v a oa h1) (aff v b ob h2)
    | cons x m ih =>
      intro h1 h2
      have s1 : Derives compareInput (.sumHeadTail _ (mk [] [(x, a)] 0)
          (mk [] ((m ++ [v]).map fun v => (v, a)) oa)) :=
        .headTail h1 (by rw [List.cons_append, List.map_cons, trySplitHeadTail, (hm x (by simp)).1])
      have s2 : Derives compareInput (.sumHeadTail _ (mk [] [(x, b)] 0)
          (mk [] ((m ++ [v]).map fun v => (v, b)) ob)) :=
        .headTail h2 (by rw [List.cons_append, List.map_cons, trySplitHeadTail, (hm x (by simp)).2])
      have l2 := lin x b (.exprHead s2)
      rw [hb] at l2
      refine .affinelyRelatedCons (ih (fun v hv => hm v (List.mem_cons_of_mem _ hv))
        (.exprTail s1) (.exprTail s2)) s1 (lin x a (.exprHead s1)) s2 ?_
      rw [← hb] at l2 ⊢
      exact l2
  have r1 := rel [4, 5, 6] 1 1 1 (-1) (-1) 0 (by decide +kernel) (by decide +kernel)
    (by decide +kernel) (by decide +kernel) 7 (.exprLeft q9.1) (.exprRight q9.1)
  have r2 := rel [4, 5, 6] 1 (-1) (-1) 1 0 1 (by decide +kernel) (by decide +kernel)
    (by decide +kernel) (by decide +kernel) 7 (.exprRight q9.1) (.exprLeft q3.1)
  exact .equalZeroCheck n0 n1 n2 n3 n4 f0.1 (aff 0 1 (-1) f0.2) rfl rfl f1.1 (lin 1 1 f1.2) f2.1
    (lin 2 1 f2.2) f3.1 (lin 3 1 f3.2) (bool 8 (by simp [compareInput]))
    (bool 4 (by simp [compareInput])) (bool 5 (by simp [compareInput]))
    (bool 6 (by simp [compareInput])) (bool 7 (by simp [compareInput]))
    (.varRange (rc := fromRange 0 3) (by simp [compareInput]))
    (.varRange (rc := fromRange 0 3) (by simp [compareInput]))
    (.varRange (rc := fromRange 0 3) (by simp [compareInput]))
    (.varRange (rc := fromRange 0 3) (by simp [compareInput])) rfl rfl rfl rfl
    (by decide +kernel) (.booleanExpr q9.2 r1 rfl) r2

/-- The hypotheses of C29 hold in the example, and the number 2 in the second limb is compared. -/
example : compareInput.WF ∧ compareInput.OneComparisonPerResult 8 ∧
    Derives compareInput (.equalZeroCheck compareInput.constraints 8 [0, 1, 2, 3]) ∧
    ∃ σ : ℕ → ZMod 17, compareInput.RangesHold σ ∧
      (∀ c ∈ compareInput.constraints, eval σ c = 0) ∧
      DifferenceInRange σ (fun i => (i : ℕ)) (fun i => 4 + i) 9 (fun _ => 1) ∧
      (σ 8 = 1 ↔ ∀ v ∈ [0, 1, 2, 3], σ v = 0) ∧
      σ 10 = if ([0, 1, 2, 3].map σ).sum = 0 then 0 else 1 / ([0, 1, 2, 3].map σ).sum := by
  refine ⟨compareInput_wf, compareInput_unmixed, compareInput_derives,
    fun v => if v = 1 then 2 else if v = 5 then 1 else if v = 9 then 2 else
      if v = 10 then 9 else 0, ⟨?_, ?_⟩, ?_, ?_, by decide +kernel, by decide +kernel⟩
  · simp [compareInput]
  · decide +kernel
  · decide +kernel
  · unfold DifferenceInRange
    decide +kernel

end Verif
