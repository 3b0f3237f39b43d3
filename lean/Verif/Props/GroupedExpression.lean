import Verif.Proofs.TransformVars
import Mathlib.Algebra.MvPolynomial.Degrees
import Mathlib.Algebra.MvPolynomial.Variables
import Mathlib.Tactic.NormNum.Prime

/-! # Properties C07 to C12: grouped expressions -/

namespace Verif

open GExpr

set_option linter.unusedSectionVars false

variable {p : ℕ} [Fact p.Prime] {V : Type} [LinearOrder V]

/-! ## C07: arithmetic -/

/-- C07: all arithmetic operations on expressions mean the field operations on values. -/
theorem C07_arithmetic (σ : V → ZMod p) (a b : GExpr p V) (k : ZMod p) (v : V)
    (l : List (GExpr p V)) :
    eval σ (a + b) = eval σ a + eval σ b ∧
    eval σ (a - b) = eval σ a - eval σ b ∧
    eval σ (a * b) = eval σ a * eval σ b ∧
    eval σ (-a) = - eval σ a ∧
    eval σ (scale k a) = k * eval σ a ∧
    eval σ (sum l) = (l.map (eval σ)).sum ∧
    eval σ (const k) = k ∧ eval σ zero = 0 ∧ eval σ one = 1 ∧
    eval σ (var v) = σ v :=
  ⟨eval_add σ a b, eval_sub σ a b, eval_mul σ a b, eval_neg σ a, eval_scale σ k a, eval_sum σ l,
    eval_const σ k, eval_zero σ, eval_one σ, eval_var σ v⟩

/-- The polynomial an expression denotes. -/
noncomputable def toPoly (e : GExpr p V) : MvPolynomial V (ZMod p) :=
  evalIn MvPolynomial.C MvPolynomial.X e

/-- C07, as formal polynomials (so independently of the values of the variables). -/
theorem C07_arithmetic_polynomial (a b : GExpr p V) (k : ZMod p) (v : V) :
    toPoly (a + b) = toPoly a + toPoly b ∧
    toPoly (a - b) = toPoly a - toPoly b ∧
    toPoly (a * b) = toPoly a * toPoly b ∧
    toPoly (-a) = - toPoly a ∧
    toPoly (scale k a) = MvPolynomial.C k * toPoly a ∧
    toPoly (const k : GExpr p V) = MvPolynomial.C k ∧
    toPoly (var v : GExpr p V) = MvPolynomial.X v :=
  ⟨evalIn_add _ _ a b, evalIn_sub _ _ a b, evalIn_mul _ _ a b, evalIn_neg _ _ a,
    evalIn_scale _ _ k a, evalIn_const _ _ k, evalIn_var _ _ v⟩

/-- C07: splitting into head and tail, and extracting a variable, decompose the value. -/
theorem C07_decompositions (σ : V → ZMod p) (e : GExpr p V) (hw : WF e) :
    (∀ h t, e.trySplitHeadTail = some (h, t) → eval σ e = eval σ h + eval σ t) ∧
    (∀ x k r, e.tryExtractAffineVar x = some (k, r) →
      eval σ e = k * σ x + eval σ r ∧ ¬ Occurs x r) ∧
    (∀ k, e.tryToNumber = some k → eval σ e = k) ∧
    (∀ v, e.tryToSimpleUnknown = some v → eval σ e = σ v) ∧
    (∀ l r, e.tryAsSingleProduct = some (l, r) → eval σ e = eval σ l * eval σ r) := by
  refine ⟨fun h t => eval_split σ, fun x k r h => ⟨eval_extract σ hw h, ?_⟩,
    fun k => eval_known σ, ?_, ?_⟩
  · rw [← mem_vars_iff_occurs]; exact (vars_extract hw h).1
  · intro v h
    unfold tryToSimpleUnknown at h
    rcases e with ⟨q, l, c⟩
    split at h
    · cases h
    · rename_i hc
      simp only [isQuadratic, quadratic, constant, ne_eq, not_or, Bool.not_eq_true,
        Bool.not_eq_false', not_not, List.isEmpty_iff] at hc
      obtain ⟨rfl, rfl⟩ := hc
      simp only [linear] at h
      split at h
      · split at h
        · rename_i hk
          simp only [Option.some.injEq] at h
          subst h
          subst hk
          exact eval_var σ _
        · cases h
      · cases h
  · intro a b h
    unfold tryAsSingleProduct at h
    rcases e with ⟨q, l, c⟩
    split at h
    · rename_i hc
      simp only [linear, constant, List.isEmpty_iff] at hc
      obtain ⟨rfl, rfl⟩ := hc
      simp only [quadratic] at h
      split at h
      · simp only [Option.some.injEq] at h
        subst h
        exact eval_ofQuadratic σ a b
      · cases h
    · cases h

/-- C07: changing the variable type by an injective renaming keeps the value (and the
structural invariant of C09). -/
theorem C07_transformVars {W : Type} [LinearOrder W] (f : V → Option W)
    (hinj : ∀ v v' w, f v = some w → f v' = some w → v = v')
    (σ : V → ZMod p) (τ : W → ZMod p) (hστ : ∀ v w, f v = some w → σ v = τ w)
    (e : GExpr p V) (e' : GExpr p W) (hw : WF e) (h : transformVars f e = some e') :
    eval τ e' = eval σ e ∧ WF e' := eval_transformVars hinj σ τ hστ hw h

/-- A non-trivial expression over `ZMod 17`: `(x0 + 3) * (2 * x1) - 5 * x0 + 1`. -/
def sampleExpr : GExpr 17 ℕ :=
  (var 0 + const 3) * (scale 2 (var 1)) - scale 5 (var 0) + const 1

instance fact17 : Fact (Nat.Prime 17) := ⟨by norm_num⟩

theorem sampleExpr_wf : WF sampleExpr :=
  wf_add (wf_sub (wf_mul (wf_add (wf_var 0) (wf_const 3)) (wf_scale 2 (wf_var 1)))
    (wf_scale 5 (wf_var 0))) (wf_const 1)

example : eval (fun v => if v = 0 then 4 else 6) sampleExpr = 14 := by decide
example : sampleExpr.tryToNumber = none ∧ sampleExpr.isQuadratic = true := by decide
example : (transformVars (fun v => some (7 - v)) sampleExpr).isSome = true := by decide
-- Cancellation of quadratic terms really happens.
example : ((var 0 * var 1 : GExpr 17 ℕ) - var 1 * var 0) = zero := by decide

/-! ## C08: substitution -/

/-- C08: substituting a constant (`substitute_by_known`). -/
theorem C08_substKnown (σ : V → ZMod p) (x : V) (s : ZMod p) (e : GExpr p V) (hw : WF e) :
    eval σ (substKnown x s e) = eval (Function.update σ x s) e ∧ ¬ Occurs x (substKnown x s e) := by
  refine ⟨eval_substKnown σ x s hw, ?_⟩
  rw [← mem_vars_iff_occurs]
  exact fun h => (vars_substKnown x s h).2 rfl

/-- C08: substituting a constant (`substitute_simple`). -/
theorem C08_substSimple (σ : V → ZMod p) (x : V) (s : ZMod p) (e : GExpr p V) (hw : WF e) :
    eval σ (substSimple x s e) = eval (Function.update σ x s) e ∧
      ¬ Occurs x (substSimple x s e) := by
  refine ⟨eval_substSimple σ x s hw, ?_⟩
  rw [← mem_vars_iff_occurs]
  exact fun h => (vars_substSimple x s h).2 rfl

/-- C08: substituting several constants (`substitute_by_known_multi`), one after the other. -/
theorem C08_substKnownMulti (σ : V → ZMod p) (as : List (V × ZMod p)) (e : GExpr p V)
    (hw : WF e) :
    eval σ (substKnownMulti as e) =
      eval (as.foldr (fun a τ => Function.update τ a.1 a.2) σ) e := by
  unfold substKnownMulti
  induction as generalizing e with
  | nil => rfl
  | cons a t ih =>
    rw [List.foldl_cons, ih _ (wf_substKnown a.1 a.2 hw), List.foldr_cons,
      eval_substKnown _ _ _ hw]

/-- C08: substituting an expression (`substitute_by_unknown`). -/
theorem C08_subst (σ : V → ZMod p) (x : V) (s e : GExpr p V) :
    eval σ (subst x s e) = eval (Function.update σ x (eval σ s)) e ∧
      (¬ Occurs x s → ¬ Occurs x (subst x s e)) ∧
      ∀ v, Occurs v (subst x s e) → Occurs v e ∨ (Occurs v s ∧ Occurs x e) := by
  simp only [← mem_vars_iff_occurs]
  refine ⟨eval_subst σ x s e, fun hx h => ?_, fun v h => ?_⟩
  · rcases vars_subst x s h with h | h
    · exact h.2 rfl
    · exact hx h.1
  · exact (vars_subst x s h).imp (·.1) id

/-- C08: no substitution introduces other variables. -/
theorem C08_no_new_variables (x : V) (s : ZMod p) (e : GExpr p V) (v : V) :
    (Occurs v (substKnown x s e) → Occurs v e) ∧ (Occurs v (substSimple x s e) → Occurs v e) := by
  simp only [← mem_vars_iff_occurs]
  exact ⟨fun h => (vars_substKnown x s h).1, fun h => (vars_substSimple x s h).1⟩

example : substKnown 0 4 sampleExpr = scale 14 (var 1) + const 15 - const 0 + const 0 - const 17 := by
  decide
example : WF sampleExpr := sampleExpr_wf
example : subst 1 (var 0 + const 3) sampleExpr ≠ sampleExpr := by decide

/-! ## C09: structural invariant -/

/-- Expressions that can be built through the public API. -/
inductive Built : GExpr p V → Prop
  | number (k) : Built (const k)
  | variable (v) : Built (var v)
  | add (a b) : Built a → Built b → Built (a + b)
  | sub (a b) : Built a → Built b → Built (a - b)
  | mul (a b) : Built a → Built b → Built (a * b)
  | neg (a) : Built a → Built (-a)
  | scale (k a) : Built a → Built (scale k a)
  | substSimple (x s e) : Built e → Built (substSimple x s e)
  | substKnown (x s e) : Built e → Built (substKnown x s e)
  | subst (x s e) : Built s → Built e → Built (subst x s e)
  | head (e h t) : Built e → e.trySplitHeadTail = some (h, t) → Built h
  | tail (e h t) : Built e → e.trySplitHeadTail = some (h, t) → Built t
  | rest (e x k r) : Built e → e.tryExtractAffineVar x = some (k, r) → Built r
  | factor (e f) : Built e → f ∈ toFactors e → Built f
  | leftFactor (e ab) : Built e → ab ∈ e.quadratic → Built ab.1
  | rightFactor (e ab) : Built e → ab ∈ e.quadratic → Built ab.2

/-- C09: every expression built through the API, in any order, is well-formed. -/
theorem C09_wf_invariant (e : GExpr p V) (h : Built e) : WF e := by
  induction h with
  | number k => exact wf_const k
  | «variable» v => exact wf_var v
  | add a b _ _ ha hb => exact wf_add ha hb
  | sub a b _ _ ha hb => exact wf_sub ha hb
  | mul a b _ _ ha hb => exact wf_mul ha hb
  | neg a _ ha => exact wf_neg ha
  | scale k a _ ha => exact wf_scale k ha
  | substSimple x s e _ ih => exact wf_substSimple x s ih
  | substKnown x s e _ ih => exact wf_substKnown x s ih
  | subst x s e _ _ hs he => exact wf_subst x hs he
  | head e h t _ hs ih => exact (wf_split ih hs).1
  | tail e h t _ hs ih => exact (wf_split ih hs).2
  | rest e x k r _ hs ih => exact (wf_extract ih hs).1
  | factor e f _ hf ih => exact wf_toFactors ih hf
  | leftFactor e ab _ hab ih =>
    rcases e with ⟨q, l, c⟩; exact ((wf_inv ih).1 ab hab).1
  | rightFactor e ab _ hab ih =>
    rcases e with ⟨q, l, c⟩; exact ((wf_inv ih).1 ab hab).2.1

/-- C09: for an affine expression built through the API, `try_to_number` returns a number
exactly if the value does not depend on the assignment, and `is_zero` answers exactly whether
the value is always zero. -/
theorem C09_queries_exact (e : GExpr p V) (h : Built e) (ha : e.isAffine = true) (k : ZMod p) :
    (e.tryToNumber = some k ↔ ∀ σ, eval σ e = k) ∧ (e.isZero = true ↔ ∀ σ, eval σ e = 0) := by
  have hw := C09_wf_invariant e h
  have key : ∀ k, e.tryToKnown = some k ↔ ∀ σ, eval σ e = k := by
    intro k
    refine ⟨fun h σ => eval_known σ h, fun h => ?_⟩
    cases hn : e.tryToKnown with
    | none => obtain ⟨σ, hσ⟩ := affine_not_constant hw ha hn k; exact absurd (h σ) hσ
    | some c =>
      have := eval_known (fun _ => 0) hn
      rw [h] at this
      rw [this]
  refine ⟨key k, ?_⟩
  rw [← key 0]
  unfold isZero
  cases e.tryToKnown <;> simp

/-- C09: `is_zero` and `try_to_number` are right about every expression, affine or not,
whenever they give a positive answer. -/
theorem C09_queries_sound (e : GExpr p V) (σ : V → ZMod p) :
    (∀ k, e.tryToNumber = some k → eval σ e = k) ∧ (e.isZero = true → eval σ e = 0) ∧
      (e.isOne = true → eval σ e = 1) := by
  refine ⟨fun k => eval_known σ, fun h => ?_, fun h => ?_⟩
  · unfold isZero at h
    split at h
    · rename_i k hk
      simp only [decide_eq_true_eq] at h
      rw [eval_known σ hk, h]
    · cases h
  · unfold isOne at h
    split at h
    · rename_i k hk
      simp only [decide_eq_true_eq] at h
      rw [eval_known σ hk, h]
    · cases h

example : Built sampleExpr :=
  .add _ _ (.sub _ _ (.mul _ _ (.add _ _ (.variable 0) (.number 3)) (.scale 2 _ (.variable 1)))
    (.scale 5 _ (.variable 0))) (.number 1)

/-! ## C10: range constraint of an expression -/

/-- C10. -/
theorem C10_rangeConstraint_sound (rc : V → RangeConstraint p) (σ : V → ZMod p) (e : GExpr p V)
    (h : ∀ v, Occurs v e → (rc v).allowsValue (σ v) = true) :
    (rangeConstraint rc e).allowsValue (eval σ e) = true := by
  rw [RangeConstraint.allowsValue_iff]
  apply rangeConstraint_allows
  intro v hv
  rw [← RangeConstraint.allowsValue_iff]
  exact h v (mem_vars_iff_occurs.1 hv)

example : (rangeConstraint (fun _ => RangeConstraint.fromRange (0 : ZMod 17) 1)
    (var 0 + scale 2 (var 1) : GExpr 17 ℕ)).allowsValue 4 = false ∧
    (rangeConstraint (fun _ => RangeConstraint.fromRange (0 : ZMod 17) 1)
    (var 0 + scale 2 (var 1) : GExpr 17 ℕ)).allowsValue 3 = true := by decide
example : (RangeConstraint.fromRange (0 : ZMod 17) 1).allowsValue 1 = true := by decide

/-! ## C11: degree -/

/-- C11: `degree` bounds the total degree of the polynomial. -/
theorem C11_degree_bounds_totalDegree (e : GExpr p V) : (toPoly e).totalDegree ≤ degree e := by
  induction e using GExpr.ind with
  | h q l c ih =>
    obtain ⟨h1, h2⟩ := degree_le_iff.1 (Nat.le_refl (degree (mk q l c)))
    unfold toPoly
    rw [evalIn_mk]
    refine le_trans (MvPolynomial.totalDegree_add _ _) (max_le ?_ (by simp))
    refine le_trans (MvPolynomial.totalDegree_add _ _) (max_le ?_ ?_)
    · generalize degree (mk q l c) = D at h1
      clear h2
      induction q with
      | nil => simp [evalInQ_nil]
      | cons ab t iht =>
        rw [evalInQ_cons]
        refine le_trans (MvPolynomial.totalDegree_add _ _) (max_le ?_ ?_)
        · refine le_trans (MvPolynomial.totalDegree_mul _ _) ?_
          have i1 := (ih ab List.mem_cons_self).1
          have i2 := (ih ab List.mem_cons_self).2
          have i3 := h1 ab List.mem_cons_self
          unfold toPoly at i1 i2
          omega
        · exact iht (fun ab hab => ih ab (List.mem_cons_of_mem _ hab))
            (fun ab hab => h1 ab (List.mem_cons_of_mem _ hab))
    · generalize degree (mk q l c) = D at h2
      clear h1 ih
      induction l with
      | nil => simp [evalL_nil]
      | cons e t iht =>
        rw [evalL_cons]
        refine le_trans (MvPolynomial.totalDegree_add _ _) (max_le ?_ ?_)
        · refine le_trans (MvPolynomial.totalDegree_mul _ _) ?_
          rw [MvPolynomial.totalDegree_C, MvPolynomial.totalDegree_X, zero_add]
          exact h2 (by simp)
        · exact iht fun _ => h2 (by simp)

/-- C11: `degree_of_variable` bounds the degree of the polynomial in that variable. -/
theorem C11_degreeOf_bounds_degreeOf (x : V) (e : GExpr p V) :
    (toPoly e).degreeOf x ≤ degreeOf x e := by
  induction e using GExpr.ind with
  | h q l c ih =>
    unfold toPoly
    rw [evalIn_mk, degreeOf]
    refine le_trans (MvPolynomial.degreeOf_add_le _ _ _) (max_le ?_ (by simp))
    refine le_trans (MvPolynomial.degreeOf_add_le _ _ _) (max_le ?_ ?_)
    · refine le_trans ?_ (Nat.le_max_left _ _)
      induction q with
      | nil => simp [evalInQ_nil]
      | cons ab t iht =>
        obtain ⟨a, b⟩ := ab
        rw [evalInQ_cons, degreeOfQ]
        refine le_trans (MvPolynomial.degreeOf_add_le _ _ _) (max_le ?_ ?_)
        · refine le_trans (MvPolynomial.degreeOf_mul_le _ _ _) ?_
          refine le_trans ?_ (Nat.le_max_left _ _)
          have i1 := (ih (a, b) List.mem_cons_self).1
          have i2 := (ih (a, b) List.mem_cons_self).2
          unfold toPoly at i1 i2
          simp only at i1 i2 ⊢
          omega
        · exact le_trans (iht fun ab hab => ih ab (List.mem_cons_of_mem _ hab))
            (Nat.le_max_right _ _)
    · refine le_trans ?_ (Nat.le_max_right _ _)
      clear ih
      induction l with
      | nil => simp [evalL_nil]
      | cons e t iht =>
        obtain ⟨w, d⟩ := e
        rw [evalL_cons]
        refine le_trans (MvPolynomial.degreeOf_add_le _ _ _) (max_le ?_ ?_)
        · refine le_trans (MvPolynomial.degreeOf_C_mul_le _ _ _) ?_
          rw [MvPolynomial.degreeOf_X]
          unfold Linear.lookup
          by_cases h : x = w <;> simp [h]
        · refine le_trans iht ?_
          conv_rhs => unfold Linear.lookup
          by_cases h : x = w
          · simp only [h, if_true, Option.isSome_some]; split <;> omega
          · simp [h]

/-- C11: the degree of sums, products and substitutions. -/
theorem C11_degree_operations (a b s : GExpr p V) (x : V) (k : ZMod p) :
    degree (a + b) ≤ max (degree a) (degree b) ∧
    degree (a - b) ≤ max (degree a) (degree b) ∧
    degree (a * b) ≤ degree a + degree b ∧
    degree (-a) = degree a ∧
    degree (scale k a) ≤ degree a ∧
    degree (substKnown x k a) ≤ degree a ∧
    degree (substSimple x k a) ≤ degree a ∧
    degree (subst x s a) ≤ degree a * max 1 (degree s) := by
  refine ⟨degree_add_le a b, ?_, degree_mul_le a b, degree_neg a, degree_scale_le k a,
    degree_substKnown_le x k a, degree_substSimple_le x k a, degree_subst_le x s a⟩
  have := degree_add_le a (neg b)
  rw [degree_neg] at this
  exact this

/-- C11: substituting an affine expression does not raise the degree. -/
theorem C11_affine_substitution (x : V) (s e : GExpr p V) (hs : degree s ≤ 1) :
    degree (subst x s e) ≤ degree e := by
  have := degree_subst_le x s e
  have h1 : Nat.max 1 (degree s) = 1 := Nat.max_eq_left hs
  rwa [h1, Nat.mul_one] at this

/-- C11: `degree_of_variable` is zero exactly if the variable does not occur. -/
theorem C11_degreeOf_zero (x : V) (e : GExpr p V) : degreeOf x e = 0 ↔ ¬ Occurs x e := by
  rw [degreeOf_eq_zero_iff, mem_vars_iff_occurs]

/-- C11: a well-formed expression has degree zero exactly if it is a constant, and degree at
most one exactly if it is affine. -/
theorem C11_degree_zero_one (e : GExpr p V) (hw : WF e) :
    (degree e = 0 ↔ ∃ k, e.tryToNumber = some k) ∧ (degree e ≤ 1 ↔ e.isAffine = true) := by
  have pos : ∀ e : GExpr p V, e.tryToKnown = none → WF e → 1 ≤ degree e := by
    intro e
    induction e using GExpr.ind with
    | h q l c ih =>
      intro hn hw
      obtain ⟨h1, h2⟩ := degree_le_iff.1 (Nat.le_refl (degree (mk q l c)))
      rw [tryToKnown_none_iff] at hn
      rcases hn with hn | hn
      · obtain ⟨ab, hab⟩ := List.exists_mem_of_ne_nil _ hn
        have w := (wf_inv hw).1 ab hab
        have := (ih ab hab).1 w.2.2.1 w.1
        have := h1 ab hab
        omega
      · exact h2 hn
  constructor
  · constructor
    · intro h
      cases hn : e.tryToKnown with
      | none => have := pos e hn hw; omega
      | some k => exact ⟨k, hn⟩
    · rintro ⟨k, hk⟩
      rw [tryToKnown_eq_some] at hk
      subst hk; exact degree_const k
  · rcases e with ⟨q, l, c⟩
    constructor
    · intro h
      cases q with
      | nil => rfl
      | cons ab t =>
        obtain ⟨h1, h2⟩ := degree_le_iff.1 h
        have w := (wf_inv hw).1 ab List.mem_cons_self
        have d1 := pos _ w.2.2.1 w.1
        have d2 := pos _ w.2.2.2 w.2.1
        have := h1 ab List.mem_cons_self
        omega
    · intro h
      cases q with
      | nil => rw [degree_le_iff]; simp
      | cons ab t => simp [isAffine, isQuadratic, quadratic] at h

example : degree sampleExpr = 2 ∧ degreeOf 1 sampleExpr = 1 ∧ degreeOf 2 sampleExpr = 0 := by decide
example : degree (var 0 + const 3 : GExpr 17 ℕ) ≤ 1 := by decide

/-! ## C12: factors -/

/-- C12: an expression is a non-zero constant times the product of its factors. -/
theorem C12_toFactors_product (e : GExpr p V) (hw : WF e) :
    ∃ k : ZMod p, k ≠ 0 ∧ ∀ σ : V → ZMod p,
      eval σ e = k * ((toFactors e).map (eval σ)).prod := toFactors_spec hw

/-- C12: the expression is zero exactly if one of its factors is. -/
theorem C12_toFactors_zero (e : GExpr p V) (hw : WF e) (σ : V → ZMod p) :
    eval σ e = 0 ↔ ∃ f ∈ toFactors e, eval σ f = 0 := by
  obtain ⟨k, hk, h⟩ := toFactors_spec hw
  rw [h σ, mul_eq_zero, List.prod_eq_zero_iff, List.mem_map]
  simp [hk]

example : (toFactors (scale 3 (var 0 * (var 1 + const 2)) : GExpr 17 ℕ)).length = 2 := by decide
example : WF (scale 3 (var 0 * (var 1 + const 2)) : GExpr 17 ℕ) :=
  wf_scale _ (wf_mul (wf_var 0) (wf_add (wf_var 1) (wf_const 2)))

end Verif
