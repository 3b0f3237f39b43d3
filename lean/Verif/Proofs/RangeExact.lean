import Verif.Proofs.RangeConstraint
import Verif.Model.GroupedExpression

/-! Helper lemmas: the intervals of range constraints are as small as intervals can be. -/

namespace Verif
namespace RangeConstraint

set_option linter.unusedSectionVars false

variable {p : ℕ} [Fact p.Prime]

theorem inCyc_left (a b : ZMod p) : InCyc a b a := by unfold InCyc; simp

theorem inCyc_right (a b : ZMod p) : InCyc a b b := by unfold InCyc; exact le_refl _

/-- A value within the joint widths of two intervals is a sum. -/
theorem exists_sum {a b c d v : ZMod p} (h : (v - (a + c)).val ≤ (b - a).val + (d - c).val) :
    ∃ x y, InCyc a b x ∧ InCyc c d y ∧ x + y = v := by
  have hb := ZMod.val_lt (b - a)
  have hd := ZMod.val_lt (d - c)
  by_cases hk : (v - (a + c)).val ≤ (b - a).val
  · refine ⟨v - c, c, ?_, inCyc_left _ _, by ring⟩
    unfold InCyc
    have e : v - c - a = v - (a + c) := by ring
    rw [e]; exact hk
  · refine ⟨b, v - b, inCyc_right _ _, ?_, by ring⟩
    unfold InCyc
    have e : v - b - c = (v - (a + c)) - (b - a) := by ring
    rw [e, val_sub_eq, if_pos (by omega)]
    omega

theorem combineSum_exact (a b : RangeConstraint p) (v : ZMod p) :
    InCyc (a.combineSum b).min (a.combineSum b).max v ↔
      ∃ x y, InCyc a.min a.max x ∧ InCyc b.min b.max y ∧ x + y = v := by
  have hp := (Fact.out : p.Prime).two_le
  by_cases hw : a.width + b.width ≤ p
  · have e : (a.combineSum b).min = a.min + b.min ∧ (a.combineSum b).max = a.max + b.max := by
      unfold combineSum
      rw [unconstrained_width]
      simp [hw]
    rw [e.1, e.2]
    constructor
    · intro h
      apply exists_sum
      unfold InCyc at h
      have e2 : a.max + b.max - (a.min + b.min) = (a.max - a.min) + (b.max - b.min) := by ring
      rw [e2, val_add_eq] at h
      split at h <;> omega
    · rintro ⟨x, y, hx, hy, rfl⟩
      exact inCyc_add hx hy hw
  · have e : (a.combineSum b).min = 0 ∧ (a.combineSum b).max = -1 := by
      unfold combineSum
      rw [unconstrained_width]
      simp only [hw, if_false]
      exact ⟨rfl, rfl⟩
    rw [e.1, e.2]
    refine ⟨fun _ => ?_, fun _ => inCyc_full v⟩
    apply exists_sum
    unfold width at hw
    rw [rangeWidth_eq, rangeWidth_eq] at hw
    have := ZMod.val_lt (v - (a.min + b.min))
    omega

theorem inCyc_neg_iff (min max v : ZMod p) : InCyc (-max) (-min) v ↔ InCyc min max (-v) := by
  constructor
  · intro h; have := inCyc_neg h; simpa using this
  · intro h; have := inCyc_neg h; simpa using this

theorem rangeMultiple_width {min max f : ZMod p} (h : rangeWidth min max * f.val ≤ p) :
    rangeMultiple min max f = (min * f, max * f) ∧
      rangeWidth (min * f) (max * f) = (rangeWidth min max - 1) * f.val + 1 := by
  refine ⟨by unfold rangeMultiple; rw [if_pos h], ?_⟩
  rw [rangeWidth_eq] at h
  rw [rangeWidth_eq, rangeWidth_eq]
  rw [val_mul_le (a := max - min) (f := f) (w := (max - min).val + 1) (le_refl _) h (by ring)]
  simp

theorem rangeWidth_neg (min max : ZMod p) : rangeWidth (-max) (-min) = rangeWidth min max := by
  rw [rangeWidth_eq, rangeWidth_eq]
  have : -min - -max = max - min := by ring
  rw [this]

/-- The interval of a multiple: the images of the two ends, unless it is longer than the field. -/
theorem multiple_exact (r : RangeConstraint p) (f : ZMod p)
    (h : r.width * Nat.min f.val (-f).val ≤ p) :
    ((r.multiple f).min = r.min * f ∧ (r.multiple f).max = r.max * f ∨
      (r.multiple f).min = r.max * f ∧ (r.multiple f).max = r.min * f) ∧
    (r.multiple f).width = (r.width - 1) * Nat.min f.val (-f).val + 1 := by
  have hp := (Fact.out : p.Prime).two_le
  have hf := ZMod.val_lt f
  have hn := val_neg_eq f
  unfold width at h ⊢
  unfold multiple
  by_cases hl : isInLowerHalf f = true
  · simp only [hl, if_true]
    have hm : Nat.min f.val (-f).val = f.val := by
      unfold isInLowerHalf at hl
      simp only [decide_eq_true_eq] at hl
      apply Nat.min_eq_left
      rw [hn]; split <;> omega
    rw [hm] at h ⊢
    obtain ⟨h1, h2⟩ := rangeMultiple_width h
    rw [h1]
    exact ⟨Or.inl ⟨rfl, rfl⟩, h2⟩
  · simp only [hl]
    have hm : Nat.min f.val (-f).val = (-f).val := by
      unfold isInLowerHalf at hl
      simp only [decide_eq_true_eq] at hl
      apply Nat.min_eq_right
      rw [hn]; split <;> omega
    rw [hm] at h ⊢
    rw [← rangeWidth_neg] at h
    obtain ⟨h1, h2⟩ := rangeMultiple_width h
    simp only [Bool.false_eq_true, if_false]
    rw [h1]
    refine ⟨Or.inr ⟨by ring, by ring⟩, ?_⟩
    rw [h2, rangeWidth_neg]

theorem multiple_unit_exact (r : RangeConstraint p) {f : ZMod p} (hf : f = 1 ∨ f = -1) (v : ZMod p) :
    InCyc (r.multiple f).min (r.multiple f).max v ↔ ∃ x, InCyc r.min r.max x ∧ x * f = v := by
  have hp := (Fact.out : p.Prime).two_le
  have hff : f * f = 1 := by rcases hf with rfl | rfl <;> ring
  have hw := width_le r
  unfold width at hw
  have hx : (∃ x, InCyc r.min r.max x ∧ x * f = v) ↔ InCyc r.min r.max (v * f) := by
    constructor
    · rintro ⟨x, hx, rfl⟩
      rwa [mul_assoc, hff, mul_one]
    · intro h
      exact ⟨_, h, by rw [mul_assoc, hff, mul_one]⟩
  rw [hx]
  unfold multiple
  by_cases hl : isInLowerHalf f = true
  · have hf1 : f = 1 := by
      rcases hf with rfl | rfl
      · rfl
      · unfold isInLowerHalf at hl
        simp only [decide_eq_true_eq, val_neg_one] at hl
        omega
    subst hf1
    simp only [hl, if_true]
    unfold rangeMultiple
    rw [val_one', if_pos (by omega)]
    simp only [mul_one]
  · have hf1 : f = -1 := by
      rcases hf with rfl | rfl
      · unfold isInLowerHalf at hl
        simp only [decide_eq_true_eq, val_one'] at hl
        apply ZMod.val_injective p
        rw [val_one', val_neg_one]
        omega
      · rfl
    subst hf1
    simp only [hl, Bool.false_eq_true, if_false, neg_neg]
    unfold rangeMultiple
    rw [rangeWidth_neg, val_one', if_pos (by omega)]
    simp only [mul_one, mul_neg]
    exact inCyc_neg_iff _ _ _

/-! ### Sums of many -/

/-- The sums of values of the intervals. -/
def Sums : List (RangeConstraint p) → ZMod p → Prop
  | [], v => v = 0
  | r :: rs, v => ∃ y z, InCyc r.min r.max y ∧ Sums rs z ∧ y + z = v

theorem foldl_sums : ∀ (rs : List (RangeConstraint p)) (r : RangeConstraint p) (v : ZMod p),
    InCyc (rs.foldl combineSum r).min (rs.foldl combineSum r).max v ↔ Sums (r :: rs) v
  | [], r, v => by
    simp only [List.foldl_nil, Sums]
    constructor
    · intro h; exact ⟨v, 0, h, rfl, by ring⟩
    · rintro ⟨y, z, hy, rfl, rfl⟩; rwa [add_zero]
  | r1 :: rs, r, v => by
    rw [List.foldl_cons, foldl_sums rs]
    simp only [Sums]
    constructor
    · rintro ⟨y, z, hy, hz, rfl⟩
      obtain ⟨y1, y2, h1, h2, rfl⟩ := (combineSum_exact _ _ _).1 hy
      exact ⟨y1, y2 + z, h1, ⟨y2, z, h2, hz, rfl⟩, by ring⟩
    · rintro ⟨y, z, hy, ⟨y2, z2, h1, h2, rfl⟩, rfl⟩
      exact ⟨y + y2, z2, (combineSum_exact _ _ _).2 ⟨_, _, hy, h1, rfl⟩, h2, by ring⟩

theorem combineProduct_fromValue (r : RangeConstraint p) (k : ZMod p) :
    r.combineProduct (fromValue k) = r.multiple k := by
  unfold combineProduct
  have : (fromValue k).tryToSingleValue = some k := by
    unfold tryToSingleValue fromValue
    simp
  rw [this]

theorem sums_linear {V : Type} [DecidableEq V] (rc : V → RangeConstraint p) (c : ZMod p) :
    ∀ (l : List (V × ZMod p)), (l.map (·.1)).Nodup → (∀ x ∈ l, x.2 = 1 ∨ x.2 = -1) → ∀ v,
    Sums ((l.map fun (x : V × ZMod p) => (rc x.1).combineProduct (fromValue x.2)) ++ [fromValue c]) v ↔
      ∃ σ : V → ZMod p, (∀ x, InCyc (rc x).min (rc x).max (σ x)) ∧
        (l.map fun e => e.2 * σ e.1).sum + c = v
  | [], _, _, v => by
    simp only [List.map_nil, List.nil_append, Sums, List.sum_nil, zero_add]
    constructor
    · rintro ⟨y, z, hy, rfl, rfl⟩
      refine ⟨fun x => (rc x).min, fun x => inCyc_left _ _, ?_⟩
      have := (fromValue_allows c y).1 ((fromRange_allows c c y).2 hy |>.1 |> fun h => by
        refine ⟨h, ?_⟩
        have hy' : y = c := by
          unfold InCyc at h
          have : (y - c).val = 0 := by
            have h' : (y - c).val ≤ (c - c).val := h
            rw [sub_self, ZMod.val_zero] at h'; omega
          exact sub_eq_zero.1 ((ZMod.val_eq_zero _).1 this)
        subst hy'
        exact InMask.refl _)
      rw [this, add_zero]
    · rintro ⟨σ, -, rfl⟩
      exact ⟨c, 0, inCyc_left _ _, rfl, by ring⟩
  | (x, k) :: l, hn, hk, v => by
    rw [List.map_cons, List.nodup_cons] at hn
    have ih := sums_linear rc c l hn.2 (fun y hy => hk y (List.mem_cons_of_mem _ hy))
    have hk0 : k = 1 ∨ k = -1 := hk (x, k) List.mem_cons_self
    simp only [List.map_cons, List.cons_append, Sums, List.sum_cons]
    rw [combineProduct_fromValue]
    constructor
    · rintro ⟨y, z, hy, hz, rfl⟩
      obtain ⟨u, hu, rfl⟩ := (multiple_unit_exact _ hk0 _).1 hy
      obtain ⟨σ, hσ, rfl⟩ := (ih z).1 hz
      refine ⟨Function.update σ x u, ?_, ?_⟩
      · intro w
        by_cases hw : w = x
        · subst hw; rw [Function.update_self]; exact hu
        · rw [Function.update_of_ne hw]; exact hσ w
      · rw [Function.update_self]
        have e : (l.map fun e => e.2 * Function.update σ x u e.1) = l.map fun e => e.2 * σ e.1 := by
          apply List.map_congr_left
          intro e he
          have : e.1 ≠ x := by
            rintro rfl
            exact hn.1 (List.mem_map.2 ⟨e, he, rfl⟩)
          rw [Function.update_of_ne this]
        rw [e]
        ring
    · rintro ⟨σ, hσ, rfl⟩
      refine ⟨σ x * k, _, (multiple_unit_exact _ hk0 _).2 ⟨_, hσ x, rfl⟩, (ih _).2 ⟨σ, hσ, rfl⟩, ?_⟩
      ring

theorem expression_exact {V : Type} [DecidableEq V] (rc : V → RangeConstraint p) (l : List (V × ZMod p))
    (c : ZMod p) (hn : (l.map (·.1)).Nodup) (hk : ∀ x ∈ l, x.2 = 1 ∨ x.2 = -1) (v : ZMod p) :
    InCyc (GExpr.rangeConstraint rc (.mk [] l c)).min (GExpr.rangeConstraint rc (.mk [] l c)).max v ↔
      ∃ σ : V → ZMod p, (∀ x, InCyc (rc x).min (rc x).max (σ x)) ∧
        (l.map fun e => e.2 * σ e.1).sum + c = v := by
  rw [← sums_linear rc c l hn hk v]
  cases l with
  | nil =>
    rw [GExpr.rangeConstraint]
    simp only [GExpr.rangeConstraintQ, List.map_nil, List.nil_append]
    exact foldl_sums _ _ _
  | cons e l =>
    rw [GExpr.rangeConstraint]
    simp only [GExpr.rangeConstraintQ, List.map_cons, List.nil_append, List.cons_append]
    exact foldl_sums _ _ _

/-! ### Intersections -/

theorem inCyc_and_iff {a b c d v : ZMod p} (h1 : fle a b) (h2 : fle c d) (h3 : fle (fmax a c) (fmin b d)) :
    InCyc (fmax a c) (fmin b d) v ↔ InCyc a b v ∧ InCyc c d v := by
  rw [inCyc_iff, inCyc_iff, inCyc_iff, if_pos h1, if_pos h2, if_pos h3, val_fmax, val_fmin]
  have e1 : Nat.max a.val c.val ≤ v.val ↔ a.val ≤ v.val ∧ c.val ≤ v.val := Nat.max_le
  have e2 : v.val ≤ Nat.min b.val d.val ↔ v.val ≤ b.val ∧ v.val ≤ d.val := Nat.le_min
  rw [e1, e2]
  tauto

/-- The three cases of the intersection of two intervals. -/
theorem intersection_cases (a b : ZMod p × ZMod p) :
    (∃ i, intervalIntersection a b = some i ∧ ∀ v, InCyc i.1 i.2 v ↔ InCyc a.1 a.2 v ∧ InCyc b.1 b.2 v) ∨
    (intervalIntersection a b = none ∧ ∀ v, ¬ (InCyc a.1 a.2 v ∧ InCyc b.1 b.2 v)) ∨
    (intervalIntersection a b = some (if rangeWidth a.1 a.2 ≤ rangeWidth b.1 b.2 then a else b) ∧
      ¬ (b.1 - a.1).val ≤ (b.2 - a.1).val ∧ ¬ (a.1 - b.1).val ≤ (a.2 - b.1).val) := by
  unfold intervalIntersection
  simp only
  have main : ∀ (shift : ZMod p), fle (a.1 + -shift) (a.2 + -shift) →
      fle (b.1 + -shift) (b.2 + -shift) →
      (∃ i, (if fle (fmax (a.1 + -shift) (b.1 + -shift)) (fmin (a.2 + -shift) (b.2 + -shift))
        then some (fmax (a.1 + -shift) (b.1 + -shift) + shift,
          fmin (a.2 + -shift) (b.2 + -shift) + shift) else none) = some i ∧
            ∀ v, InCyc i.1 i.2 v ↔ InCyc a.1 a.2 v ∧ InCyc b.1 b.2 v) ∨
      ((if fle (fmax (a.1 + -shift) (b.1 + -shift)) (fmin (a.2 + -shift) (b.2 + -shift))
        then some (fmax (a.1 + -shift) (b.1 + -shift) + shift,
          fmin (a.2 + -shift) (b.2 + -shift) + shift) else none) = none ∧
            ∀ v, ¬ (InCyc a.1 a.2 v ∧ InCyc b.1 b.2 v)) := by
    intro shift h1 h2
    by_cases h3 : fle (fmax (a.1 + -shift) (b.1 + -shift)) (fmin (a.2 + -shift) (b.2 + -shift))
    · left
      rw [if_pos h3]
      refine ⟨_, rfl, ?_⟩
      intro v
      have e := inCyc_and_iff (v := v + -shift) h1 h2 h3
      rw [inCyc_shift, inCyc_shift] at e
      rw [← e]
      have := inCyc_shift (fmax (a.1 + -shift) (b.1 + -shift)) (fmin (a.2 + -shift) (b.2 + -shift))
        (v + -shift) shift
      rw [neg_add_cancel_right] at this
      exact this
    · right
      rw [if_neg h3]
      refine ⟨rfl, ?_⟩
      rintro v ⟨ha, hb⟩
      have ha' := (inCyc_shift a.1 a.2 v (-shift)).2 ha
      have hb' := (inCyc_shift b.1 b.2 v (-shift)).2 hb
      exact h3 (inCyc_fmax_fmin h1 h2 ha' hb').1
  by_cases c1 : fle (a.1 + -a.1) (a.2 + -a.1) ∧ fle (b.1 + -a.1) (b.2 + -a.1)
  · rw [if_pos c1]
    rcases main a.1 c1.1 c1.2 with h | h
    · left; simpa only [Option.some_or] using h
    · right; left; simpa only [Option.some_or] using h
  · rw [if_neg c1]
    by_cases c2 : fle (a.1 + -b.1) (a.2 + -b.1) ∧ fle (b.1 + -b.1) (b.2 + -b.1)
    · rw [if_pos c2]
      rcases main b.1 c2.1 c2.2 with h | h
      · left; simpa only [Option.none_or] using h
      · right; left; simpa only [Option.none_or] using h
    · rw [if_neg c2]
      right; right
      simp only [Option.none_or]
      refine ⟨by split <;> rfl, ?_, ?_⟩
      · intro h
        apply c1
        refine ⟨?_, by unfold fle; rw [← sub_eq_add_neg, ← sub_eq_add_neg]; exact h⟩
        unfold fle
        simp
      · intro h
        apply c2
        refine ⟨by unfold fle; rw [← sub_eq_add_neg, ← sub_eq_add_neg]; exact h, ?_⟩
        unfold fle
        simp

/-- In the third case the lower ends are common values. -/
theorem two_pieces {a1 a2 b1 b2 : ZMod p} (h1 : ¬ (b1 - a1).val ≤ (b2 - a1).val)
    (h2 : ¬ (a1 - b1).val ≤ (a2 - b1).val) : InCyc b1 b2 a1 ∧ InCyc a1 a2 b1 ∧ a1 ≠ b1 := by
  have l1 := ZMod.val_lt a1
  have l2 := ZMod.val_lt a2
  have l3 := ZMod.val_lt b1
  have l4 := ZMod.val_lt b2
  have hne : a1 ≠ b1 := by
    rintro rfl
    simp at h1
  refine ⟨?_, ?_, hne⟩
  · unfold InCyc
    rw [val_sub_eq] at h1 h2 ⊢
    rw [val_sub_eq b2] at h1
    rw [val_sub_eq a2] at h2
    rw [val_sub_eq b2]
    by_cases q1 : a1.val ≤ b1.val <;> by_cases q2 : a1.val ≤ b2.val <;> by_cases q3 : b1.val ≤ b2.val <;>
      by_cases q4 : b1.val ≤ a1.val <;> simp only [q1, q2, q3, q4, if_true, if_false] at h1 h2 ⊢ <;> omega
  · unfold InCyc
    rw [val_sub_eq] at h1 h2 ⊢
    rw [val_sub_eq b2] at h1
    rw [val_sub_eq a2] at h2
    rw [val_sub_eq a2]
    by_cases q1 : b1.val ≤ a1.val <;> by_cases q2 : b1.val ≤ a2.val <;> by_cases q3 : a1.val ≤ a2.val <;>
      by_cases q4 : a1.val ≤ b1.val <;> simp only [q1, q2, q3, q4, if_true, if_false] at h1 h2 ⊢ <;> omega

theorem inCyc_of_full {a b : ZMod p} (h : (b - a).val = p - 1) (v : ZMod p) : InCyc a b v := by
  unfold InCyc
  have := ZMod.val_lt (v - a)
  omega

theorem not_inCyc_pred {a b : ZMod p} (h : (b - a).val ≠ p - 1) : ¬ InCyc a b (a - 1) := by
  unfold InCyc
  have e : a - 1 - a = -1 := by ring
  have := ZMod.val_lt (b - a)
  rw [e, val_neg_one]
  omega

/-- An interval has only one lower end. -/
theorem inCyc_start {m M a : ZMod p} (h1 : InCyc m M a) (h2 : ¬ InCyc m M (a - 1)) : a = m := by
  by_contra hne
  apply h2
  unfold InCyc at *
  have e : a - 1 - m = (a - m) - 1 := by ring
  have hpos : 1 ≤ (a - m).val := by
    rcases Nat.eq_zero_or_pos (a - m).val with h0 | h0
    · exact absurd (sub_eq_zero.1 ((ZMod.val_eq_zero _).1 h0)) hne
    · exact h0
  rw [e, val_sub_eq, val_one', if_pos hpos]
  omega

theorem intersection_exact {a b : ZMod p × ZMod p} {m M : ZMod p}
    (h : ∀ v, InCyc m M v ↔ InCyc a.1 a.2 v ∧ InCyc b.1 b.2 v) :
    ∃ i, intervalIntersection a b = some i ∧ ∀ v, InCyc i.1 i.2 v ↔ InCyc a.1 a.2 v ∧ InCyc b.1 b.2 v := by
  rcases intersection_cases a b with hc | ⟨-, hc⟩ | ⟨hi, h1, h2⟩
  · exact hc
  · exact absurd ((h m).1 (inCyc_left _ _)) (hc m)
  · obtain ⟨hb, ha, hne⟩ := two_pieces h1 h2
    refine ⟨_, hi, ?_⟩
    have la := ZMod.val_lt (a.2 - a.1)
    have lb := ZMod.val_lt (b.2 - b.1)
    rw [rangeWidth_eq, rangeWidth_eq]
    by_cases fa : (a.2 - a.1).val = p - 1
    · by_cases fb : (b.2 - b.1).val = p - 1
      · intro v
        have := inCyc_of_full fa v
        have := inCyc_of_full fb v
        split <;> tauto
      · rw [if_neg (by omega)]
        intro v
        have := inCyc_of_full fa v
        tauto
    · by_cases fb : (b.2 - b.1).val = p - 1
      · rw [if_pos (by omega)]
        intro v
        have := inCyc_of_full fb v
        tauto
      · exfalso
        apply hne
        have s1 := inCyc_start ((h a.1).2 ⟨inCyc_left _ _, hb⟩)
          (fun hh => not_inCyc_pred fa ((h _).1 hh).1)
        have s2 := inCyc_start ((h b.1).2 ⟨ha, inCyc_left _ _⟩)
          (fun hh => not_inCyc_pred fb ((h _).1 hh).2)
        rw [s1, s2]

theorem intersection_none {a b : ZMod p × ZMod p} :
    intervalIntersection a b = none ↔ ∀ v, ¬ (InCyc a.1 a.2 v ∧ InCyc b.1 b.2 v) := by
  constructor
  · rintro h v ⟨ha, hb⟩
    obtain ⟨i, hi, -⟩ := intervalIntersection_sound ha hb
    rw [hi] at h; cases h
  · intro h
    rcases intersection_cases a b with ⟨i, -, hc⟩ | ⟨hc, -⟩ | ⟨-, h1, h2⟩
    · exact absurd ((hc i.1).1 (inCyc_left _ _)) (h _)
    · exact hc
    · obtain ⟨hb, ha, -⟩ := two_pieces h1 h2
      exact absurd ⟨inCyc_left _ _, hb⟩ (h a.1)

/-- The values of the conjunction, if there is a common one. -/
theorem conjunction_values {a b : RangeConstraint p} {v0 : ZMod p} (ha : a.Allows v0) (hb : b.Allows v0) :
    ∃ i, intervalIntersection (a.min, a.max) (b.min, b.max) = some i ∧
      ∀ v, (a.conjunction b).Allows v ↔ InCyc i.1 i.2 v ∧ InMask a.mask v.val ∧ InMask b.mask v.val := by
  obtain ⟨i, hi, hi0⟩ := intervalIntersection_sound (a := (a.min, a.max)) (b := (b.min, b.max)) ha.1 hb.1
  refine ⟨i, hi, ?_⟩
  have hm0 := ha.2.and hb.2
  have hmand : ∀ v : ZMod p, InMask (a.mask &&& b.mask) v.val ↔ InMask a.mask v.val ∧ InMask b.mask v.val := by
    intro v
    refine ⟨fun h => ⟨fun k hk => ?_, fun k hk => ?_⟩, fun h => h.1.and h.2⟩
    · have := h k hk; rw [Nat.testBit_and] at this; simp at this; exact this.1
    · have := h k hk; rw [Nat.testBit_and] at this; simp at this; exact this.2
  unfold conjunction
  rw [hi]
  simp only [Option.getD_some]
  generalize hM : a.mask &&& b.mask = M at hm0 hmand
  have key : ∀ v : ZMod p, InMask M v.val → (InCyc
      (if M < p then
        if fle i.1 i.2 then (fmin (M : ZMod p) i.1, fmin (M : ZMod p) i.2)
        else if i.1.val > M then (0, fmin (M : ZMod p) i.2) else (i.1, i.2)
      else (i.1, i.2)).1
      (if M < p then
        if fle i.1 i.2 then (fmin (M : ZMod p) i.1, fmin (M : ZMod p) i.2)
        else if i.1.val > M then (0, fmin (M : ZMod p) i.2) else (i.1, i.2)
      else (i.1, i.2)).2 v ↔ InCyc i.1 i.2 v) := by
    intro v hv
    split
    · rename_i hlt
      have hval : (M : ZMod p).val = M := val_cast_of_lt hlt
      have hle0 := hm0.le
      have hle := hv.le
      rw [inCyc_iff] at hi0
      rw [inCyc_iff i.1]
      split
      · rename_i h
        rw [if_pos h] at hi0
        have h' : i.1.val ≤ i.2.val := h
        rw [inCyc_iff]
        simp only [val_fmin, hval]
        have e1 : Nat.min M i.1.val = i.1.val := Nat.min_eq_right (by omega)
        have e2 : v.val ≤ Nat.min M i.2.val ↔ v.val ≤ M ∧ v.val ≤ i.2.val := Nat.le_min
        rw [e1, if_pos (show i.1.val ≤ Nat.min M i.2.val from Nat.le_min.2 ⟨by omega, h'⟩), e2]
        omega
      · rename_i h
        rw [if_neg h] at hi0
        split
        · rename_i hgt
          unfold InCyc
          simp only [sub_zero, val_fmin, hval]
          have e2 : v.val ≤ Nat.min M i.2.val ↔ v.val ≤ M ∧ v.val ≤ i.2.val := Nat.le_min
          rw [e2]
          omega
        · rw [inCyc_iff, if_neg h]
    · rfl
  generalize (if M < p then
        if fle i.1 i.2 then (fmin (M : ZMod p) i.1, fmin (M : ZMod p) i.2)
        else if i.1.val > M then (0, fmin (M : ZMod p) i.2) else (i.1, i.2)
      else (i.1, i.2)) = mm at key ⊢
  intro v
  rw [allows_mk, ← hmand v]
  constructor
  · rintro ⟨h1, h2⟩
    have h3 : InMask M v.val := by
      split at h2
      · intro k hk
        have := h2 k hk
        rw [Nat.testBit_and] at this
        simp at this
        exact this.1
      · exact h2
    exact ⟨(key v h3).1 h1, h3⟩
  · rintro ⟨h1, h2⟩
    have h3 := (key v h2).2 h1
    refine ⟨h3, ?_⟩
    split
    · exact h2.and (inMask_fromRange h3)
    · exact h2

theorem isUnconstrained_complete {r : RangeConstraint p} (h : ∀ v, r.Allows v) : r.isUnconstrained = true := by
  have hp := (Fact.out : p.Prime).two_le
  unfold isUnconstrained
  simp only [Bool.and_eq_true, decide_eq_true_eq]
  constructor
  · rw [unconstrained_width]
    unfold width
    rw [rangeWidth_eq]
    have h1 := (h (r.min - 1)).1
    have e : r.min - 1 - r.min = -1 := by ring
    unfold InCyc at h1
    rw [e, val_neg_one] at h1
    have := ZMod.val_lt (r.max - r.min)
    omega
  · have e : (unconstrained : RangeConstraint p).mask = 2 ^ numBits (p - 1) - 1 := by
      unfold unconstrained fromRange
      rw [if_pos (by unfold fle; simp)]
      simp only
      rw [val_neg_one]
      rfl
    rw [e]
    apply Nat.eq_of_testBit_eq
    intro i
    rw [Nat.testBit_and, Nat.testBit_two_pow_sub_one]
    by_cases hi : i < numBits (p - 1)
    · have hlt : 2 ^ i < p := by
        by_contra hc
        have := (numBits_le_iff (p - 1) i).2 (by omega)
        omega
      have h2 := (h ((2 ^ i : ℕ) : ZMod p)).2 i
      rw [val_cast_of_lt hlt] at h2
      rw [h2 (by simp [Nat.testBit_two_pow_self])]
      simp [hi]
    · simp [hi]

end RangeConstraint
end Verif
