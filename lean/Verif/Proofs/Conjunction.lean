import Verif.Proofs.RangeConstraint

/-! # When the conjunction of range constraints is exact -/

namespace Verif

variable {p : ℕ} [Fact p.Prime]

namespace RangeConstraint

theorem inCyc_zero_iff (max v : ZMod p) : InCyc 0 max v ↔ v.val ≤ max.val := by
  unfold InCyc; simp

theorem inMask_and_iff {m n v : ℕ} : InMask (m &&& n) v ↔ InMask m v ∧ InMask n v := by
  constructor
  · intro h
    refine ⟨fun i hi => ?_, fun i hi => ?_⟩ <;>
    · have := h i hi
      rw [Nat.testBit_and, Bool.and_eq_true] at this
      first | exact this.1 | exact this.2
  · exact fun h => h.1.and h.2

theorem inMask_ite {c : Prop} [Decidable c] {m n v : ℕ} (h : InMask (if c then m &&& n else m) v) :
    InMask m v := by
  split at h
  · exact (inMask_and_iff.1 h).1
  · exact h

/-- For range constraints that start at zero the conjunction is exact. -/
theorem conjunction_zero {a b : RangeConstraint p} (ha : a.min = 0) (hb : b.min = 0) :
    (a.conjunction b).min = 0 ∧ (a.conjunction b).max.val ≤ a.max.val ∧
      (a.conjunction b).max.val ≤ b.max.val ∧
      ∀ v, (a.conjunction b).Allows v ↔ a.Allows v ∧ b.Allows v := by
  have hi : intervalIntersection (a.min, a.max) (b.min, b.max) = some (0, fmin a.max b.max) := by
    unfold intervalIntersection
    simp only [ha, hb, neg_zero, add_zero]
    have h1 : ∀ x : ZMod p, fle 0 x := fun x => by unfold fle; simp
    have h2 : fmax (0 : ZMod p) 0 = 0 := by unfold fmax; simp
    simp only [h1, and_self, if_true, h2, Option.some_or, add_zero]
  unfold conjunction
  rw [hi]
  simp only [Option.getD_some]
  generalize hM : a.mask &&& b.mask = M
  have hx : (if M < p then
        if fle (0 : ZMod p) (fmin a.max b.max) then
          (fmin (M : ZMod p) 0, fmin (M : ZMod p) (fmin a.max b.max))
        else if (0 : ZMod p).val > M then (0, fmin (M : ZMod p) (fmin a.max b.max))
          else (0, fmin a.max b.max)
      else (0, fmin a.max b.max)) =
      (0, if M < p then fmin (M : ZMod p) (fmin a.max b.max) else fmin a.max b.max) := by
    have h1 : fle (0 : ZMod p) (fmin a.max b.max) := by unfold fle; simp
    have h2 : fmin (M : ZMod p) 0 = 0 := by
      apply ZMod.val_injective p; rw [val_fmin]; simp
    by_cases hlt : M < p
    · rw [if_pos hlt, if_pos hlt, if_pos h1, h2]
    · rw [if_neg hlt, if_neg hlt]
  rw [hx]
  simp only
  generalize hm : (if M < p then fmin (M : ZMod p) (fmin a.max b.max) else fmin a.max b.max) = m
  have hmle : m.val ≤ Nat.min a.max.val b.max.val := by
    rw [← hm]
    split
    · rw [val_fmin, val_fmin]; exact Nat.min_le_right _ _
    · rw [val_fmin]
  have h1 : fle (0 : ZMod p) m := by unfold fle; simp
  refine ⟨trivial, hmle.trans (Nat.min_le_left _ _), hmle.trans (Nat.min_le_right _ _), fun v => ?_⟩
  rw [if_pos h1]
  unfold Allows
  simp only [ha, hb, inCyc_zero_iff]
  rw [inMask_and_iff, ← hM, inMask_and_iff]
  constructor
  · rintro ⟨h2, ⟨h3, h4⟩, -⟩
    have := h2.trans hmle
    exact ⟨⟨this.trans (Nat.min_le_left _ _), h3⟩, this.trans (Nat.min_le_right _ _), h4⟩
  · rintro ⟨⟨h2, h3⟩, h4, h5⟩
    have hle : v.val ≤ m.val := by
      rw [← hm]
      split
      · rename_i hlt
        rw [val_fmin, val_fmin, val_cast_of_lt hlt]
        refine Nat.le_min.2 ⟨?_, Nat.le_min.2 ⟨h2, h4⟩⟩
        rw [← hM]
        exact (h3.and h5).le
      · rw [val_fmin]; exact Nat.le_min.2 ⟨h2, h4⟩
    exact ⟨hle, ⟨h3, h5⟩, inMask_fromRange ((inCyc_zero_iff m v).2 hle)⟩

/-- The computed intersection lies in the second interval, if that is at most half the field. -/
theorem intervalIntersection_subset {a b i : ZMod p × ZMod p}
    (hb : 2 * ((b.2 - b.1).val + 1) ≤ p) (h : intervalIntersection a b = some i) {v : ZMod p}
    (hv : InCyc i.1 i.2 v) : InCyc b.1 b.2 v := by
  have main : ∀ (shift : ZMod p), fle (a.1 + -shift) (a.2 + -shift) →
      fle (b.1 + -shift) (b.2 + -shift) →
      (if fle (fmax (a.1 + -shift) (b.1 + -shift)) (fmin (a.2 + -shift) (b.2 + -shift))
        then some (fmax (a.1 + -shift) (b.1 + -shift) + shift,
          fmin (a.2 + -shift) (b.2 + -shift) + shift) else none) = some i → InCyc b.1 b.2 v := by
    intro shift h1 h2 h3
    split at h3
    · rename_i h4
      simp only [Option.some.injEq] at h3
      rw [← h3] at hv
      have h5 := (inCyc_shift _ _ v (-shift)).2 hv
      simp only [add_neg_cancel_right] at h5
      rw [inCyc_iff, if_pos h4, val_fmax, val_fmin] at h5
      refine (inCyc_shift b.1 b.2 v (-shift)).1 ?_
      rw [inCyc_iff, if_pos h2]
      exact ⟨(Nat.le_max_right _ _).trans h5.1, h5.2.trans (Nat.min_le_right _ _)⟩
    · cases h3
  unfold intervalIntersection at h
  simp only at h
  by_cases c1 : fle (a.1 + -a.1) (a.2 + -a.1) ∧ fle (b.1 + -a.1) (b.2 + -a.1)
  · rw [if_pos c1] at h
    exact main a.1 c1.1 c1.2 (by simpa only [Option.some_or] using h)
  · rw [if_neg c1] at h
    by_cases c2 : fle (a.1 + -b.1) (a.2 + -b.1) ∧ fle (b.1 + -b.1) (b.2 + -b.1)
    · rw [if_pos c2] at h
      exact main b.1 c2.1 c2.2 (by simpa only [Option.none_or] using h)
    · rw [if_neg c2] at h
      simp only [Option.none_or] at h
      split at h
      · rename_i hw
        exfalso
        rw [rangeWidth_eq, rangeWidth_eq] at hw
        unfold fle at c1 c2
        simp only [add_neg_cancel, ZMod.val_zero, Nat.zero_le, true_and, and_true, not_le,
          ← sub_eq_add_neg] at c1 c2
        have e1 : a.2 - b.1 = (a.1 - b.1) + (a.2 - a.1) := by ring
        have e2 : b.2 - a.1 = (b.2 - b.1) - (a.1 - b.1) := by ring
        have e3 : b.1 - a.1 = -(a.1 - b.1) := by ring
        rw [e1] at c2
        rw [e2, e3] at c1
        rw [val_add_eq] at c2
        rw [val_sub_eq, val_neg_eq] at c1
        have l1 := ZMod.val_lt (a.1 - b.1)
        have l2 := ZMod.val_lt (a.2 - a.1)
        have l3 := ZMod.val_lt (b.2 - b.1)
        generalize (a.1 - b.1).val = d at *
        generalize (a.2 - a.1).val = wa at *
        generalize (b.2 - b.1).val = wb at *
        split at c2
        · omega
        · split at c1 <;> split at c1 <;> omega
      · simp only [Option.some.injEq] at h
        rw [h]; exact hv

/-- If the conjunction with `r` changes nothing then every allowed value is allowed by `r`, provided
that `r` starts at zero and is at most half the field. -/
theorem allows_of_conjunction_eq {c r : RangeConstraint p} (hr : r.min = 0)
    (hw : 2 * (r.max.val + 1) ≤ p) (h : c = c.conjunction r) {v : ZMod p} (hv : c.Allows v) :
    r.Allows v := by
  have hv' : (c.conjunction r).Allows v := h ▸ hv
  unfold conjunction at hv'
  generalize hM : c.mask &&& r.mask = M at hv'
  have hmask : InMask M v.val := by
    have := hv'.2
    simp only at this
    exact inMask_ite this
  have hcyc := hv'.1
  clear hv'
  simp only at hcyc
  refine ⟨?_, by rw [← hM] at hmask; exact (inMask_and_iff.1 hmask).2⟩
  rw [hr, inCyc_zero_iff]
  cases hi : intervalIntersection (c.min, c.max) (r.min, r.max) with
  | none =>
    rw [hi] at hcyc
    simp only [Option.getD_none] at hcyc
    have h0 : fle (0 : ZMod p) 0 := le_rfl
    have h2 : fmin (M : ZMod p) 0 = 0 := by
      apply ZMod.val_injective p; rw [val_fmin]; simp
    rw [if_pos h0, h2, ite_self] at hcyc
    unfold InCyc at hcyc
    simp only [sub_zero, sub_self, ZMod.val_zero] at hcyc
    omega
  | some i =>
    rw [hi] at hcyc
    simp only [Option.getD_some] at hcyc
    have hsub : ∀ w, InCyc i.1 i.2 w → w.val ≤ r.max.val := by
      intro w hw'
      have := intervalIntersection_subset (a := (c.min, c.max)) (b := (r.min, r.max))
        (by simp only [hr, sub_zero]; exact hw) hi hw'
      simp only [hr] at this
      exact (inCyc_zero_iff _ _).1 this
    split at hcyc
    · rename_i hlt
      have hval : (M : ZMod p).val = M := val_cast_of_lt hlt
      split at hcyc
      · rename_i hle
        rw [inCyc_iff] at hcyc
        simp only [val_fmin, hval] at hcyc
        have hle' : Nat.min M i.1.val ≤ Nat.min M i.2.val := by
          have : i.1.val ≤ i.2.val := hle
          exact Nat.le_min.2 ⟨Nat.min_le_left _ _, (Nat.min_le_right _ _).trans this⟩
        rw [if_pos hle'] at hcyc
        by_cases hM1 : i.1.val ≤ M
        · refine hsub v ?_
          rw [inCyc_iff, if_pos hle]
          refine ⟨?_, hcyc.2.trans (Nat.min_le_right _ _)⟩
          have : Nat.min M i.1.val = i.1.val := Nat.min_eq_right hM1
          omega
        · have h1 := hsub i.1 (by rw [inCyc_iff, if_pos hle]; exact ⟨le_rfl, hle⟩)
          have := hcyc.2.trans (Nat.min_le_left _ _)
          omega
      · rename_i hle
        split at hcyc
        · rename_i hgt
          rw [inCyc_zero_iff, val_fmin] at hcyc
          refine hsub v ?_
          rw [inCyc_iff, if_neg hle]
          exact Or.inr (hcyc.trans (Nat.min_le_right _ _))
        · exact hsub v hcyc
    · exact hsub v hcyc

end RangeConstraint

end Verif
