import Verif.Proofs.RangeConstraint
import Verif.Spec.Range
import Mathlib.Data.ZMod.Basic
import Mathlib.Data.Fintype.Card
import Mathlib.Tactic.NormNum.Prime

/-! # Properties C01 to C06: range constraints -/

namespace Verif

set_option linter.unusedSectionVars false

open RangeConstraint Spec

variable {p : ℕ} [Fact p.Prime]

theorem inCyc_iff_between (min max v : ZMod p) : InCyc min max v ↔ Between min max v := by
  unfold InCyc Between
  constructor
  · intro h
    refine ⟨(v - min).val, ?_, ?_⟩
    · rw [ZMod.natCast_zmod_val]; ring
    · intro j hj heq
      have hlt := ZMod.val_lt (v - min)
      have : (max - min).val = j := by
        rw [← heq, add_sub_cancel_left, val_cast_of_lt (by omega)]
      omega
  · rintro ⟨k, rfl, h⟩
    have hK : ¬ (max - min).val < k := by
      intro hlt
      apply h _ hlt
      rw [ZMod.natCast_zmod_val]; ring
    have hlt := ZMod.val_lt (max - min)
    rw [add_sub_cancel_left, val_cast_of_lt (by omega)]
    omega

/-! ## C01: constructors are exact -/

/-- C01: a range constraint allows a value exactly if it lies in the cyclic
interval `min..=max` and uses only bits of the mask. -/
theorem C01_allowsValue_exact (r : RangeConstraint p) (v : ZMod p) :
    r.allowsValue v = true ↔ Between r.min r.max v ∧ BitsWithin r.mask v.val := by
  rw [allowsValue_iff, ← inCyc_iff_between]; rfl

/-- C01: `from_range` allows exactly `min, min + 1, ..., max`, wrapping or not. -/
theorem C01_fromRange_exact (min max v : ZMod p) :
    (fromRange min max).allowsValue v = true ↔ Between min max v := by
  rw [allowsValue_iff, fromRange_allows, inCyc_iff_between]

/-- C01: `from_range`, in terms of the canonical values. -/
theorem C01_fromRange_exact_values (min max v : ZMod p) :
    (fromRange min max).allowsValue v = true ↔
      (min.val ≤ max.val → min.val ≤ v.val ∧ v.val ≤ max.val) ∧
      (max.val < min.val → min.val ≤ v.val ∨ v.val ≤ max.val) := by
  rw [allowsValue_iff, fromRange_allows, inCyc_iff]
  split <;> rename_i h <;> constructor
  · intro h'; exact ⟨fun _ => h', fun hlt => by omega⟩
  · intro h'; exact h'.1 h
  · intro h'; exact ⟨fun hle => absurd hle h, fun _ => h'⟩
  · intro h'; exact h'.2 (by omega)

/-- C01: `from_value` allows exactly the value. -/
theorem C01_fromValue_exact (a v : ZMod p) : (fromValue a).allowsValue v = true ↔ v = a := by
  rw [allowsValue_iff, fromValue_allows]

/-- C01: `from_mask` allows exactly the values all of whose bits are in the mask. -/
theorem C01_fromMask_exact (mask : ℕ) (v : ZMod p) :
    (fromMask mask : RangeConstraint p).allowsValue v = true ↔ BitsWithin mask v.val := by
  rw [allowsValue_iff, fromMask_allows]; rfl

/-- C01: `from_max_bit(k)` (when it does not panic) allows exactly the values
below `2^(k+1)`. -/
theorem C01_fromMaxBit_exact (width k : ℕ) (r : RangeConstraint p)
    (h : fromMaxBit width k = some r) (v : ZMod p) :
    r.allowsValue v = true ↔ v.val < 2 ^ (k + 1) := by
  unfold fromMaxBit at h
  split at h
  · simp only [Option.some.injEq] at h
    subst h
    rw [allowsValue_iff, fromMask_allows]
    exact inMask_two_pow_sub_one_iff
  · cases h

/-- C01: `from_max_bit(k)` panics only if the machine integer has no bit `k`. -/
theorem C01_fromMaxBit_defined (width k : ℕ) :
    (fromMaxBit width k : Option (RangeConstraint p)).isSome = true ↔ k < width := by
  unfold fromMaxBit
  split <;> simp <;> omega

/-- C01: the unconstrained range constraint allows everything. -/
theorem C01_unconstrained_exact (v : ZMod p) :
    (unconstrained : RangeConstraint p).allowsValue v = true := by
  rw [allowsValue_iff]; exact unconstrained_allows v

/-- C01: what `is_unconstrained` accepts allows everything. -/
theorem C01_isUnconstrained_sound (r : RangeConstraint p) (h : r.isUnconstrained = true)
    (v : ZMod p) : r.allowsValue v = true := by
  unfold isUnconstrained at h
  simp only [Bool.and_eq_true, decide_eq_true_eq] at h
  obtain ⟨h1, h2⟩ := h
  rw [allowsValue_iff]
  refine ⟨?_, ?_⟩
  · rw [unconstrained_width] at h1
    unfold width at h1
    rw [rangeWidth_eq] at h1
    unfold InCyc
    have := ZMod.val_lt (v - r.min)
    omega
  · intro i hi
    have := (unconstrained_allows v).2 i hi
    rw [← h2, Nat.testBit_and] at this
    simp only [Bool.and_eq_true] at this
    exact this.1


example : (fromRange 15 2 : RangeConstraint 17).allowsValue 16 = true ∧
    (fromRange 15 2 : RangeConstraint 17).allowsValue 3 = false := by decide
example : (fromMask 0x1e : RangeConstraint 17).allowsValue 16 = true ∧
    (fromMask 0x1e : RangeConstraint 17).allowsValue 3 = false := by decide
example : ∃ r, fromMaxBit 32 1 = some (r : RangeConstraint 17) ∧ r.allowsValue 3 = true :=
  ⟨_, rfl, by decide⟩
example : ({ mask := 0xff, min := 5, max := 4 } : RangeConstraint 17).isUnconstrained = true := by
  decide

/-! ## C02: sums -/

/-- C02. -/
theorem C02_combineSum_sound (a b : RangeConstraint p) (x y : ZMod p)
    (hx : a.allowsValue x = true) (hy : b.allowsValue y = true) :
    (a.combineSum b).allowsValue (x + y) = true := by
  rw [allowsValue_iff] at *; exact combineSum_allows hx hy

example : (fromRange 15 1 : RangeConstraint 17).allowsValue 16 = true ∧
    (fromMask 5 : RangeConstraint 17).allowsValue 4 = true ∧
    ((fromRange 15 1 : RangeConstraint 17).combineSum (fromMask 5)).allowsValue 12 = false := by
  decide

/-! ## C03: products and squares -/

/-- C03, product. -/
theorem C03_combineProduct_sound (a b : RangeConstraint p) (x y : ZMod p)
    (hx : a.allowsValue x = true) (hy : b.allowsValue y = true) :
    (a.combineProduct b).allowsValue (x * y) = true := by
  rw [allowsValue_iff] at *; exact combineProduct_allows hx hy

/-- C03, square. -/
theorem C03_square_sound (a : RangeConstraint p) (x : ZMod p)
    (hx : a.allowsValue x = true) : a.square.allowsValue (x * x) = true := by
  rw [allowsValue_iff] at *; exact square_allows hx

example : (fromRange 15 2 : RangeConstraint 17).allowsValue 15 = true ∧
    (fromRange 15 2 : RangeConstraint 17).square.allowsValue 4 = true ∧
    (fromRange 15 2 : RangeConstraint 17).square.allowsValue 5 = false := by decide

/-! ## C04: conjunction, disjunction, disjointness -/

/-- C04, conjunction. -/
theorem C04_conjunction_sound (a b : RangeConstraint p) (v : ZMod p)
    (ha : a.allowsValue v = true) (hb : b.allowsValue v = true) :
    (a.conjunction b).allowsValue v = true := by
  rw [allowsValue_iff] at *; exact conjunction_allows ha hb

/-- C04, disjunction. -/
theorem C04_disjunction_sound (a b : RangeConstraint p) (v : ZMod p)
    (h : a.allowsValue v = true ∨ b.allowsValue v = true) :
    (a.disjunction b).allowsValue v = true := by
  rw [allowsValue_iff, allowsValue_iff] at h
  rw [allowsValue_iff]; exact disjunction_allows h

/-- C04, disjointness. -/
theorem C04_isDisjoint_sound (a b : RangeConstraint p) (h : a.isDisjoint b = true) (v : ZMod p) :
    ¬ (a.allowsValue v = true ∧ b.allowsValue v = true) := by
  rw [allowsValue_iff, allowsValue_iff]; exact isDisjoint_sound h v

example : (fromRange 15 2 : RangeConstraint 17).isDisjoint (fromRange 4 7) = true ∧
    (fromMask 8 : RangeConstraint 17).isDisjoint (fromRange 1 7) = true ∧
    (fromRange 15 4 : RangeConstraint 17).isDisjoint (fromRange 4 7) = false := by decide
example : ((fromRange 12 4 : RangeConstraint 17).conjunction (fromRange 3 13)).allowsValue 4 = true ∧
    ((fromRange 15 4 : RangeConstraint 17).conjunction (fromRange 3 13)).allowsValue 5 = false ∧
    ((fromRange 15 1 : RangeConstraint 17).disjunction (fromRange 14 0)).allowsValue 5 = false := by
  decide

/-! ## C05: scaling -/

/-- C05, multiple. -/
theorem C05_multiple_sound (r : RangeConstraint p) (f v : ZMod p) (h : r.allowsValue v = true) :
    (r.multiple f).allowsValue (f * v) = true := by
  rw [allowsValue_iff] at *; rw [mul_comm]; exact multiple_allows h

/-- C05, negation. -/
theorem C05_neg_sound (r : RangeConstraint p) (v : ZMod p) (h : r.allowsValue v = true) :
    r.neg.allowsValue (-v) = true := by
  rw [allowsValue_iff] at *; exact neg_allows h

example : ((fromRange 1 2 : RangeConstraint 17).multiple (-4)).allowsValue (-8) = true ∧
    ((fromRange 1 2 : RangeConstraint 17).multiple (-4)).allowsValue 8 = false ∧
    ((fromMask 3 : RangeConstraint 17).multiple 4).allowsValue 8 = true ∧
    ((fromMask 3 : RangeConstraint 17).multiple 4).allowsValue 9 = false := by decide

/-! ## C06: sizes and enumeration -/

/-- The values enumerated by counting from `min`, before the filter. -/
theorem map_range_nodup (r : RangeConstraint p) :
    ((List.range r.width).map fun (offset : ℕ) => r.min + (offset : ZMod p)).Nodup := by
  refine List.Nodup.map_on ?_ (List.nodup_range)
  intro k hk l hl h
  have := r.width_le
  exact offset_injOn r.min (by simp at hk; omega) (by simp at hl; omega) h

open Classical in
/-- C06: `range_width` is the number of elements of the cyclic interval. -/
theorem C06_width_exact (r : RangeConstraint p) :
    r.width = (Finset.univ.filter fun v => Between r.min r.max v).card := by
  have hnd := map_range_nodup r
  have : (Finset.univ.filter fun v => Between r.min r.max v) =
      ((List.range r.width).map fun (offset : ℕ) => r.min + (offset : ZMod p)).toFinset := by
    ext v
    simp only [Finset.mem_filter, Finset.mem_univ, true_and, List.mem_toFinset, List.mem_map,
      List.mem_range]
    rw [← inCyc_iff_between, inCyc_iff_exists]
    exact ⟨fun ⟨k, h, e⟩ => ⟨k, h, e.symm⟩, fun ⟨k, h, e⟩ => ⟨k, h, e.symm⟩⟩
  rw [this, List.toFinset_card_of_nodup hnd]
  simp

/-- C06: `size_estimate` (which is `range_width`) is an upper bound on the number of allowed
values. -/
theorem C06_width_upper_bound (r : RangeConstraint p) :
    (Finset.univ.filter fun v => r.allowsValue v = true).card ≤ r.width := by
  classical
  rw [C06_width_exact]
  apply Finset.card_le_card
  intro v hv
  simp only [Finset.mem_filter, Finset.mem_univ, true_and] at hv ⊢
  exact ((C01_allowsValue_exact r v).1 hv).1

/-- C06: `try_to_single_value` returns a value only if this is the one and only
allowed value. -/
theorem C06_tryToSingleValue_sound (r : RangeConstraint p) (v : ZMod p)
    (h : r.tryToSingleValue = some v) (x : ZMod p) : r.allowsValue x = true ↔ x = v := by
  rw [allowsValue_iff]; exact tryToSingleValue_eq_some h x

/-- C06: `allowed_values` (when it does not panic) lists exactly the allowed values,
each once. -/
theorem C06_allowedValues_exact (r : RangeConstraint p) (l : List (ZMod p))
    (h : r.allowedValues = some l) : l.Nodup ∧ ∀ v, v ∈ l ↔ r.allowsValue v = true := by
  unfold allowedValues at h
  split at h
  · simp only [Option.some.injEq] at h
    subst h
    refine ⟨(map_range_nodup r).filter _, ?_⟩
    intro v
    rw [List.mem_filter]
    refine ⟨fun h => h.2, fun h => ⟨?_, h⟩⟩
    obtain ⟨k, hk, e⟩ := (inCyc_iff_exists _ _ _).1 ((allowsValue_iff r v).1 h).1
    exact List.mem_map.2 ⟨k, List.mem_range.2 hk, e.symm⟩
  · cases h

/-- C06: `allowed_values` panics only on ranges of at least `2^32` elements. -/
theorem C06_allowedValues_defined (r : RangeConstraint p) :
    r.allowedValues.isSome = true ↔ r.width < 2 ^ 32 := by
  unfold allowedValues
  split <;> simp_all

example : (fromRange 15 2 : RangeConstraint 17).width = 5 ∧
    (unconstrained : RangeConstraint 17).width = 17 := by decide
example : (fromValue 15 : RangeConstraint 17).tryToSingleValue = some 15 := by decide
example : ((fromRange 15 2 : RangeConstraint 17).conjunction (fromMask 0x11)).allowedValues =
    some [16, 0, 1] := by decide

end Verif
