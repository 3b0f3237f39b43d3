import Verif.Proofs.RangeExact
import Verif.Props.RangeConstraint
import Verif.Proofs.GroupedExpression
import Verif.Spec.Eval

/-! # Property C100: range constraints lose nothing that an interval can express -/

namespace Verif

set_option linter.unusedSectionVars false

open RangeConstraint Spec

variable {p : ℕ} [Fact p.Prime]

/-- C100: the interval of a sum consists exactly of the sums of values in the two intervals; also if it is the whole
field. -/
theorem C100_sum (a b : RangeConstraint p) (v : ZMod p) :
    Between (a.combineSum b).min (a.combineSum b).max v ↔
      ∃ x y, Between a.min a.max x ∧ Between b.min b.max y ∧ x + y = v := by
  simp only [← inCyc_iff_between]
  exact combineSum_exact a b v

/-- C100: for constraints made by `from_range`, the sum allows exactly the sums of allowed values. -/
theorem C100_sum_ranges (a b c d v : ZMod p) :
    ((fromRange a b).combineSum (fromRange c d)).allowsValue v = true ↔
      ∃ x y, (fromRange a b).allowsValue x = true ∧ (fromRange c d).allowsValue y = true ∧ x + y = v := by
  constructor
  · intro h
    rw [allowsValue_iff] at h
    obtain ⟨x, y, hx, hy, e⟩ := (combineSum_exact _ _ _).1 h.1
    exact ⟨x, y, (allowsValue_iff _ _).2 ((fromRange_allows _ _ _).2 hx),
      (allowsValue_iff _ _).2 ((fromRange_allows _ _ _).2 hy), e⟩
  · rintro ⟨x, y, hx, hy, rfl⟩
    exact C02_combineSum_sound _ _ _ _ hx hy

/-- C100: the interval of the negation consists exactly of the negated values. -/
theorem C100_neg (r : RangeConstraint p) (v : ZMod p) :
    Between r.neg.min r.neg.max v ↔ Between r.min r.max (-v) := by
  simp only [← inCyc_iff_between]
  exact inCyc_neg_iff _ _ _

/-- C100: a multiple, unless the multiples of the interval can go once around the field: both ends of the interval of the
multiple are multiples of ends, and it is no longer than the distance between them, counted in the shorter direction of
the factor. In particular for the factors 1 and -1 the interval consists exactly of the multiples. -/
theorem C100_multiple (r : RangeConstraint p) (f : ZMod p) :
    (r.width * Nat.min f.val (-f).val ≤ p →
      (∃ x, (x = r.min ∨ x = r.max) ∧ (r.multiple f).min = x * f) ∧
      (∃ x, (x = r.min ∨ x = r.max) ∧ (r.multiple f).max = x * f) ∧
      (r.multiple f).width = (r.width - 1) * Nat.min f.val (-f).val + 1) ∧
    (f = 1 ∨ f = -1 → ∀ v, Between (r.multiple f).min (r.multiple f).max v ↔
      ∃ x, Between r.min r.max x ∧ x * f = v) := by
  refine ⟨?_, ?_⟩
  · intro h
    obtain ⟨h1, h2⟩ := multiple_exact r f h
    rcases h1 with h1 | h1
    · exact ⟨⟨_, Or.inl rfl, h1.1⟩, ⟨_, Or.inr rfl, h1.2⟩, h2⟩
    · exact ⟨⟨_, Or.inr rfl, h1.1⟩, ⟨_, Or.inl rfl, h1.2⟩, h2⟩
  · intro hf v
    simp only [← inCyc_iff_between]
    exact multiple_unit_exact r hf v

/-- C100: a product of two constraints that do not wrap and are not single values, with products below the modulus: the
ends are products of ends. -/
theorem C100_product (a b : RangeConstraint p) (ha : a.min.val ≤ a.max.val) (hb : b.min.val ≤ b.max.val)
    (ha1 : a.min ≠ a.max) (hb1 : b.min ≠ b.max) (h : a.max.val * b.max.val < p) :
    (a.combineProduct b).min = a.min * b.min ∧ (a.combineProduct b).max = a.max * b.max ∧
    ∀ v, (a.combineProduct b).allowsValue v = true ↔
      (a.min.val * b.min.val ≤ v.val ∧ v.val ≤ a.max.val * b.max.val) := by
  have e : a.combineProduct b = fromRange (a.min * b.min) (a.max * b.max) := by
    unfold combineProduct tryToSingleValue
    rw [if_neg (fun hh => hb1 hh.1), if_neg (fun hh => ha1 hh.1)]
    simp only
    rw [if_pos ⟨ha, hb, h⟩]
  rw [e]
  refine ⟨rfl, rfl, fun v => ?_⟩
  have h0 : a.min.val * b.min.val ≤ a.max.val * b.max.val := Nat.mul_le_mul ha hb
  rw [C01_fromRange_exact_values, val_mul_of_lt' _ _ (lt_of_le_of_lt h0 h), val_mul_of_lt' _ _ h]
  exact ⟨fun hh => hh.1 h0, fun hh => ⟨fun _ => hh, fun hlt => absurd hlt (by omega)⟩⟩

/-- C100: the square of a constraint that wraps, with squares below the modulus: exactly the values from zero to the
largest square, and both ends are squares of values in the interval. -/
theorem C100_square (r : RangeConstraint p) (h : r.max.val < r.min.val)
    (h1 : r.max.val * r.max.val < p) (h2 : (-r.min).val * (-r.min).val < p) :
    (r.square.min = 0 ∧ Between r.min r.max 0) ∧
    (∃ x, Between r.min r.max x ∧ r.square.max = x * x) ∧
    ∀ v, r.square.allowsValue v = true ↔
      v.val ≤ Nat.max (r.max.val * r.max.val) ((-r.min).val * (-r.min).val) := by
  have e : r.square = fromRange 0 (fmax (-r.min) r.max * fmax (-r.min) r.max) ∧
      (fmax (-r.min) r.max * fmax (-r.min) r.max).val =
        Nat.max (r.max.val * r.max.val) ((-r.min).val * (-r.min).val) ∧
      (fmax (-r.min) r.max = -r.min ∨ fmax (-r.min) r.max = r.max) := by
    have hc : fmax (-r.min) r.max = -r.min ∧ r.max.val ≤ (-r.min).val ∨
        fmax (-r.min) r.max = r.max ∧ (-r.min).val ≤ r.max.val := by
      unfold fmax
      split
      · rename_i hle; exact Or.inr ⟨rfl, hle⟩
      · rename_i hle; exact Or.inl ⟨rfl, by omega⟩
    have hw : ¬ fle r.min r.max := by unfold fle; omega
    unfold square
    simp only
    rcases hc with ⟨hc, hle⟩ | ⟨hc, hle⟩
    · rw [hc, if_pos ⟨hw, h2⟩]
      refine ⟨rfl, ?_, Or.inl rfl⟩
      rw [val_mul_of_lt' _ _ h2]
      exact (Nat.max_eq_right (Nat.mul_le_mul hle hle)).symm
    · rw [hc, if_pos ⟨hw, h1⟩]
      refine ⟨rfl, ?_, Or.inr rfl⟩
      rw [val_mul_of_lt' _ _ h1]
      exact (Nat.max_eq_left (Nat.mul_le_mul hle hle)).symm
  obtain ⟨e1, e2, e3⟩ := e
  refine ⟨⟨by rw [e1]; rfl, ?_⟩, ?_, ?_⟩
  · rw [← inCyc_iff_between, inCyc_iff, if_neg (by omega)]
    right; simp
  · rcases e3 with e3 | e3
    · refine ⟨r.min, (inCyc_iff_between _ _ _).1 (inCyc_left _ _), ?_⟩
      rw [e1, e3]
      show -r.min * -r.min = _
      ring
    · refine ⟨r.max, (inCyc_iff_between _ _ _).1 (inCyc_right _ _), ?_⟩
      rw [e1, e3]; rfl
  · intro v
    rw [e1, C01_fromRange_exact_values, e2]
    simp

/-- C100: the conjunction, if some value is allowed by both. It allows only values whose bits are in both masks and that
are in one of the two intervals; and if the common values of the two intervals form an interval, exactly the values
allowed by both. -/
theorem C100_conjunction (a b : RangeConstraint p) {v0 : ZMod p} (ha : a.allowsValue v0 = true)
    (hb : b.allowsValue v0 = true) :
    (∀ v, (a.conjunction b).allowsValue v = true →
      BitsWithin a.mask v.val ∧ BitsWithin b.mask v.val ∧ (Between a.min a.max v ∨ Between b.min b.max v)) ∧
    ((∃ m M, ∀ v, Between m M v ↔ Between a.min a.max v ∧ Between b.min b.max v) →
      ∀ v, (a.conjunction b).allowsValue v = true ↔ a.allowsValue v = true ∧ b.allowsValue v = true) := by
  rw [allowsValue_iff] at ha hb
  obtain ⟨i, hi, hv⟩ := conjunction_values ha hb
  simp only [← inCyc_iff_between, allowsValue_iff]
  refine ⟨?_, ?_⟩
  · intro v h
    obtain ⟨h1, h2, h3⟩ := (hv v).1 h
    refine ⟨h2, h3, ?_⟩
    rcases intersection_cases (a.min, a.max) (b.min, b.max) with ⟨j, hj, hc⟩ | ⟨hc, -⟩ | ⟨hc, -, -⟩
    · rw [hi] at hj
      simp only [Option.some.injEq] at hj
      subst hj
      exact Or.inl ((hc v).1 h1).1
    · rw [hi] at hc; cases hc
    · rw [hi] at hc
      simp only [Option.some.injEq] at hc
      subst hc
      split at h1
      · exact Or.inl h1
      · exact Or.inr h1
  · rintro ⟨m, M, hmM⟩ v
    obtain ⟨j, hj, hc⟩ := intersection_exact (a := (a.min, a.max)) (b := (b.min, b.max)) hmM
    rw [hi] at hj
    simp only [Option.some.injEq] at hj
    subst hj
    rw [hv, hc]
    unfold Allows
    tauto

/-- C100: two constraints whose intervals have no common value are found to be disjoint, and so are two constraints
without a common bit unless both allow zero. -/
theorem C100_disjoint (a b : RangeConstraint p) :
    ((∀ v, ¬ (Between a.min a.max v ∧ Between b.min b.max v)) → a.isDisjoint b = true) ∧
    ((∀ i, ¬ (a.mask.testBit i = true ∧ b.mask.testBit i = true)) →
      ¬ (a.allowsValue 0 = true ∧ b.allowsValue 0 = true) → a.isDisjoint b = true) := by
  refine ⟨?_, ?_⟩
  · intro h
    simp only [← inCyc_iff_between] at h
    have := (intersection_none (a := (a.min, a.max)) (b := (b.min, b.max))).2 h
    unfold isDisjoint
    simp [this]
  · intro h h0
    have hm : a.mask &&& b.mask = 0 := by
      apply Nat.eq_of_testBit_eq
      intro i
      rw [Nat.testBit_and, Nat.zero_testBit]
      have := h i
      cases ha : a.mask.testBit i <;> cases hb : b.mask.testBit i <;> simp_all
    unfold isDisjoint
    simp only [hm, decide_true, Bool.and_true, Bool.or_eq_true, Bool.not_eq_true', Bool.and_eq_false_iff]
    left
    cases h1 : a.allowsValue 0
    · exact Or.inl rfl
    · cases h2 : b.allowsValue 0
      · exact Or.inr rfl
      · exact absurd ⟨h1, h2⟩ h0

/-- C100: the disjunction of constraints that do not wrap allows only values between the smaller of the lower ends and
the larger of the upper ends, with bits in one of the masks. -/
theorem C100_disjunction (a b : RangeConstraint p) (ha : a.min.val ≤ a.max.val) (hb : b.min.val ≤ b.max.val)
    (v : ZMod p) :
    (a.disjunction b).allowsValue v = true ↔
      (a.min.val ≤ v.val ∨ b.min.val ≤ v.val) ∧ (v.val ≤ a.max.val ∨ v.val ≤ b.max.val) ∧
      BitsWithin (a.mask ||| b.mask) v.val := by
  have ha' : fle a.min a.max := ha
  have hb' : fle b.min b.max := hb
  unfold disjunction
  simp only [ha', hb', if_true]
  rw [allowsValue_iff, allows_mk, inCyc_iff, val_fmin, val_fmax]
  have e1 : Nat.min a.min.val b.min.val ≤ v.val ↔ a.min.val ≤ v.val ∨ b.min.val ≤ v.val := min_le_iff
  have e2 : v.val ≤ Nat.max a.max.val b.max.val ↔ v.val ≤ a.max.val ∨ v.val ≤ b.max.val := le_max_iff
  rw [if_pos (le_trans (Nat.min_le_left _ _) (le_trans ha (Nat.le_max_left _ _))), e1, e2]
  exact and_assoc

/-- C100: a constraint that allows every value is recognised as no constraint, and one of a single value as that value. -/
theorem C100_recognised (r : RangeConstraint p) :
    (r.isUnconstrained = true ↔ ∀ v, r.allowsValue v = true) ∧
    ∀ v, (Between r.min r.max v ∧ ∀ w, Between r.min r.max w → w = v) → BitsWithin r.mask v.val →
      r.tryToSingleValue = some v := by
  refine ⟨⟨C01_isUnconstrained_sound r, fun h => isUnconstrained_complete fun v => (allowsValue_iff _ _).1 (h v)⟩, ?_⟩
  rintro v ⟨-, h⟩ hm
  simp only [← inCyc_iff_between] at h
  have h1 := h _ (inCyc_left r.min r.max)
  have h2 := h _ (inCyc_right r.min r.max)
  unfold tryToSingleValue
  rw [h1, h2, if_pos ⟨rfl, (inMask_iff _ _).2 hm⟩]

/-- C100: for an expression without products in which the coefficients are 1 or -1, the interval of its range constraint
consists exactly of the values the expression takes when its variables take values in their intervals. -/
theorem C100_expression {V : Type} [DecidableEq V] (rc : V → RangeConstraint p) (l : List (V × ZMod p)) (c : ZMod p)
    (hn : (l.map (·.1)).Nodup) (hk : ∀ x ∈ l, x.2 = 1 ∨ x.2 = -1) (v : ZMod p) :
    Between (GExpr.rangeConstraint rc (.mk [] l c)).min (GExpr.rangeConstraint rc (.mk [] l c)).max v ↔
      ∃ σ : V → ZMod p, (∀ x, Between (rc x).min (rc x).max (σ x)) ∧ GExpr.eval σ (.mk [] l c) = v := by
  simp only [← inCyc_iff_between]
  rw [expression_exact rc l c hn hk v]
  simp only [GExpr.eval, GExpr.evalIn_mk, GExpr.evalInQ, GExpr.evalL, zero_add, RingHom.id_apply]

/-! ### Samples -/

local instance fact_prime_31_range : Fact (Nat.Prime 31) := ⟨by norm_num⟩

/-- Sample for `C100_sum`: 11 values plus 5 values are 15 values. -/
example : (fromRange (25 : ZMod 31) 4).combineSum (fromRange 2 6) = ⟨31, 27, 10⟩ := by decide +kernel

/-- Sample for `C100_conjunction`: intervals that have an interval in common, one of them wrapping, and a common value. -/
example : (fromRange (25 : ZMod 31) 4).allowsValue 3 = true ∧ (fromRange (2 : ZMod 31) 9).allowsValue 3 = true ∧
    (∀ v : ZMod 31, ((fromRange (25 : ZMod 31) 4).conjunction (fromRange 2 9)).allowsValue v = true ↔
      v = 2 ∨ v = 3 ∨ v = 4) := by decide +kernel

/-- The condition that the common values form an interval is needed: here they are 5 to 10 and 20 to 25, and the
conjunction is the smaller of the two intervals. -/
example : ((fromRange (20 : ZMod 31) 10).conjunction (fromRange 5 25)).allowsValue 15 = true ∧
    (fromRange (20 : ZMod 31) 10).allowsValue 15 = false := by decide +kernel

/-- Samples for `C100_multiple`, `C100_product` and `C100_square`. -/
example : (fromRange (2 : ZMod 31) 5).multiple (-3) = ⟨31, 16, 25⟩ ∧
    (fromRange (2 : ZMod 31) 5).combineProduct (fromRange 1 6) = ⟨31, 2, 30⟩ ∧
    (fromRange (-3 : ZMod 31) 2).square = ⟨15, 0, 9⟩ := by decide +kernel

/-- The condition of `C100_multiple` is about the number of values, not the largest value: twice the values from 0 to 8 are
at most 16, but in the field with 17 elements the range of the multiple is the whole field. -/
example : ∀ v : ZMod 17, ((fromRange (0 : ZMod 17) 8).multiple 2).allowsValue v = true := by decide +kernel

end Verif
