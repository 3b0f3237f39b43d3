import Verif.Proofs.SolverBase
import Verif.Proofs.BooleanExtractor
import Mathlib.Data.Multiset.DershowitzManna
import Mathlib.Data.Prod.Lex
import Mathlib.Algebra.BigOperators.Group.Finset.Basic
import Mathlib.Algebra.Order.BigOperators.Group.Finset

/-! Helper lemmas for the termination of the solver: measures of range constraints, expressions and
lists of constraints. -/

set_option linter.unusedSectionVars false

namespace Verif

/-! ### Multisets ordered by Dershowitz and Manna -/

/-- Multisets with the order of Dershowitz and Manna. -/
structure DMSet (α : Type) where
  val : Multiset α

namespace DMSet

variable {α : Type} [Preorder α]

instance instLT : LT (DMSet α) := ⟨fun a b => a.val.IsDershowitzMannaLT b.val⟩

instance instWellFoundedLT [WellFoundedLT α] : WellFoundedLT (DMSet α) :=
  ⟨InvImage.wf DMSet.val Multiset.wellFounded_isDershowitzMannaLT⟩

instance instPreorder [WellFoundedLT α] : Preorder (DMSet α) where
  le a b := a = b ∨ a < b
  lt a b := a < b
  le_refl a := Or.inl rfl
  le_trans a b c := by
    rintro (rfl | h) (rfl | h')
    · exact Or.inl rfl
    · exact Or.inr h'
    · exact Or.inr h
    · exact Or.inr (Multiset.IsDershowitzMannaLT.trans h h')
  lt_iff_le_not_ge a b := by
    constructor
    · intro h
      refine ⟨Or.inr h, ?_⟩
      rintro (rfl | h')
      · exact (wellFounded_lt (α := DMSet α)).irrefl.irrefl _ h
      · exact (wellFounded_lt (α := DMSet α)).irrefl.irrefl _
          (Multiset.IsDershowitzMannaLT.trans h h' : a < a)
    · rintro ⟨rfl | h, h'⟩
      · exact absurd (Or.inl rfl) h'
      · exact h

instance instPartialOrder [WellFoundedLT α] : PartialOrder (DMSet α) where
  le_antisymm a b := by
    rintro (rfl | h) (h' | h')
    · rfl
    · rfl
    · exact h'.symm
    · exact absurd (Multiset.IsDershowitzMannaLT.trans h h' : a < a)
        ((wellFounded_lt (α := DMSet α)).irrefl.irrefl _)

/-- Some elements become smaller or disappear, and new elements are smaller than one of those. -/
theorem lt_or_eq [WellFoundedLT α] {β : Type} (l : List β) (f : β → Option α) (g : β → Option α)
    (extra : List α)
    (h : ∀ b ∈ l, g b = f b ∨ ∃ a, f b = some a ∧ ∀ a', g b = some a' → a' < a)
    (he : ∀ x ∈ extra, ∃ b ∈ l, g b ≠ f b ∧ ∃ a, f b = some a ∧ x < a) :
    (⟨((l.filterMap g) ++ extra : List α)⟩ : DMSet α) < ⟨(l.filterMap f : List α)⟩ ∨
      (extra = [] ∧ (∀ b ∈ l, g b = f b)) := by
  classical
  have key : ∃ X Y Z : Multiset α, ((l.filterMap f : List α) : Multiset α) = X + Z ∧
      ((l.filterMap g : List α) : Multiset α) = X + Y ∧ (∀ y ∈ Y, ∃ z ∈ Z, y < z) ∧
      ∀ b ∈ l, g b ≠ f b → ∀ a, f b = some a → a ∈ Z := by
    clear he
    induction l with
    | nil => exact ⟨0, 0, 0, by simp⟩
    | cons b t ih =>
      obtain ⟨X, Y, Z, h1, h2, h3, h4⟩ := ih fun c hc => h c (by simp [hc])
      rcases h b (by simp) with hb | ⟨a, ha, hlt⟩
      · refine ⟨(f b).toList + X, Y, Z, ?_, ?_, h3, ?_⟩
        · cases hf : f b with
          | none => simp [hf, h1]
          | some a =>
            simp only [List.filterMap_cons, hf, Option.toList_some]
            rw [← Multiset.cons_coe, h1]
            simp [← Multiset.cons_coe]
        · rw [List.filterMap_cons]
          cases hf : f b with
          | none => simp [hb, hf, h2]
          | some a =>
            simp only [hb, hf, Option.toList_some]
            rw [← Multiset.cons_coe, h2]
            simp [← Multiset.cons_coe]
        · intro c hc hne
          rcases List.mem_cons.1 hc with rfl | hc
          · exact absurd hb hne
          · exact h4 c hc hne
      · refine ⟨X, (g b).toList + Y, a ::ₘ Z, ?_, ?_, ?_, ?_⟩
        · rw [List.filterMap_cons, ha]
          simp only
          rw [← Multiset.cons_coe, h1]
          simp
        · rw [List.filterMap_cons]
          cases hg : g b with
          | none => simp [h2]
          | some a' =>
            simp only [Option.toList_some]
            rw [← Multiset.cons_coe, h2]
            simp [← Multiset.cons_coe]
        · intro y hy
          rw [Multiset.mem_add] at hy
          rcases hy with hy | hy
          · refine ⟨a, by simp, hlt y ?_⟩
            simpa using hy
          · obtain ⟨z, hz, hyz⟩ := h3 y hy
            exact ⟨z, by simp [hz], hyz⟩
        · intro c hc hne a' ha'
          rcases List.mem_cons.1 hc with rfl | hc
          · rw [ha] at ha'; cases ha'; simp
          · exact Multiset.mem_cons_of_mem (h4 c hc hne a' ha')
  by_cases hall : ∀ b ∈ l, g b = f b
  · right
    refine ⟨?_, hall⟩
    rcases extra with _ | ⟨x, t⟩
    · rfl
    · obtain ⟨b, hb, hne, -⟩ := he x (by simp)
      exact absurd (hall b hb) hne
  · left
    obtain ⟨X, Y, Z, h1, h2, h3, h4⟩ := key
    refine ⟨X, Y + extra, Z, ?_, ?_, h1, ?_⟩
    · push Not at hall
      obtain ⟨b, hb, hne⟩ := hall
      rcases h b hb with h' | ⟨a, ha, -⟩
      · exact absurd h' hne
      · intro hZ
        have := h4 b hb hne a ha
        rw [hZ] at this
        exact absurd this (Multiset.notMem_zero a)
    · show ((l.filterMap g ++ extra : List α) : Multiset α) = _
      rw [← Multiset.coe_add, h2, add_assoc]
    · intro y hy
      rw [Multiset.mem_add] at hy
      rcases hy with hy | hy
      · exact h3 y hy
      · obtain ⟨b, hb, hne, a, ha, hlt⟩ := he y (by simpa using hy)
        exact ⟨a, h4 b hb hne a ha, hlt⟩

/-- A set in which one element is replaced by smaller ones. -/
theorem map_lt [WellFoundedLT α] {β : Type} [DecidableEq β] (rank : β → α) {S S' : Finset β} {x : β}
    (hx : x ∈ S) (hx' : x ∉ S') (h : ∀ y ∈ S', y ∉ S → rank y < rank x) :
    (⟨S'.val.map rank⟩ : DMSet α) < ⟨S.val.map rank⟩ := by
  refine ⟨(S ∩ S').val.map rank, (S' \ S).val.map rank, (S \ S').val.map rank, ?_, ?_, ?_, ?_⟩
  · intro h0
    have : rank x ∈ (S \ S').val.map rank :=
      Multiset.mem_map.2 ⟨x, (Finset.mem_sdiff.2 ⟨hx, hx'⟩ : x ∈ S \ S'), rfl⟩
    rw [h0] at this
    exact absurd this (Multiset.notMem_zero _)
  · show S'.val.map rank = _
    rw [← Multiset.map_add]
    congr 1
    have hd : Disjoint (S ∩ S') (S' \ S) := by
      rw [Finset.disjoint_left]
      intro a ha hb
      simp only [Finset.mem_inter, Finset.mem_sdiff] at ha hb
      exact hb.2 ha.1
    have : S' = (S ∩ S').disjUnion (S' \ S) hd := by
      ext a
      simp only [Finset.mem_disjUnion, Finset.mem_inter, Finset.mem_sdiff]
      tauto
    conv_lhs => rw [this]
    rfl
  · show S.val.map rank = _
    rw [← Multiset.map_add]
    congr 1
    have hd : Disjoint (S ∩ S') (S \ S') := by
      rw [Finset.disjoint_left]
      intro a ha hb
      simp only [Finset.mem_inter, Finset.mem_sdiff] at ha hb
      exact hb.2 ha.2
    have : S = (S ∩ S').disjUnion (S \ S') hd := by
      ext a
      simp only [Finset.mem_disjUnion, Finset.mem_inter, Finset.mem_sdiff]
      tauto
    conv_lhs => rw [this]
    rfl
  · intro y hy
    obtain ⟨b, hb, rfl⟩ := Multiset.mem_map.1 hy
    simp only [Finset.mem_val, Finset.mem_sdiff] at hb
    exact ⟨rank x, Multiset.mem_map.2 ⟨x, (Finset.mem_sdiff.2 ⟨hx, hx'⟩ : x ∈ S \ S'), rfl⟩, h b hb.1 hb.2⟩

end DMSet

/-! ### Range constraints -/

namespace RangeConstraint

variable {p : ℕ} [Fact p.Prime]

/-- If the intersection is not smaller, it is the first interval. -/
theorem intervalIntersection_eq {a b i : ZMod p × ZMod p}
    (h : intervalIntersection a b = some i) (hw : rangeWidth i.1 i.2 = rangeWidth a.1 a.2) :
    i = a := by
  have key : ∀ s : ZMod p, fle (a.1 + -s) (a.2 + -s) →
      fle (fmax (a.1 + -s) (b.1 + -s)) (fmin (a.2 + -s) (b.2 + -s)) →
      rangeWidth (fmax (a.1 + -s) (b.1 + -s) + s) (fmin (a.2 + -s) (b.2 + -s) + s) =
        rangeWidth a.1 a.2 →
      (fmax (a.1 + -s) (b.1 + -s) + s, fmin (a.2 + -s) (b.2 + -s) + s) = a := by
    intro s h1 h2 h3
    rw [rangeWidth_shift, ← rangeWidth_shift a.1 a.2 (-s), rangeWidth_val, rangeWidth_val] at h3
    unfold fle at h1 h2
    rw [if_pos h1, if_pos h2] at h3
    have e1 : (fmax (a.1 + -s) (b.1 + -s)).val = (a.1 + -s).val := by
      rw [val_fmax, val_fmin] at h2 h3
      rw [val_fmax]
      have := Nat.le_max_left (a.1 + -s).val (b.1 + -s).val
      have := Nat.min_le_left (a.2 + -s).val (b.2 + -s).val
      simp only [Nat.max_def, Nat.min_def] at *
      omega
    have e2 : (fmin (a.2 + -s) (b.2 + -s)).val = (a.2 + -s).val := by
      rw [val_fmax, val_fmin] at h2 h3
      rw [val_fmin]
      have := Nat.le_max_left (a.1 + -s).val (b.1 + -s).val
      have := Nat.min_le_left (a.2 + -s).val (b.2 + -s).val
      simp only [Nat.max_def, Nat.min_def] at *
      omega
    rw [ZMod.val_injective p e1, ZMod.val_injective p e2]
    ext <;> simp
  unfold intervalIntersection at h
  simp only at h
  split at h
  · rename_i shift aS bS hm
    split at h
    · rename_i hle
      cases h
      rw [Option.or_eq_some_iff] at hm
      rcases hm with hm | ⟨-, hm⟩
      · split at hm
        · rename_i hh
          simp only [Option.some.injEq, Prod.mk.injEq] at hm
          obtain ⟨rfl, rfl, rfl⟩ := hm
          exact key _ hh.1 hle hw
        · cases hm
      · split at hm
        · rename_i hh
          simp only [Option.some.injEq, Prod.mk.injEq] at hm
          obtain ⟨rfl, rfl, rfl⟩ := hm
          exact key _ hh.1 hle hw
        · cases hm
    · cases h
  · split at h
    · cases h; rfl
    · cases h; omega

theorem conjunction_mask (a b : RangeConstraint p) : (a.conjunction b).mask ≤ a.mask := by
  have : ∀ (c : Prop) [Decidable c] (n m : ℕ), (if c then n &&& m else n) ≤ n := by
    intro c _ n m
    split
    · exact Nat.and_le_left
    · exact le_refl _
  exact le_trans (this _ _ _) Nat.and_le_left

/-- A conjunction that changes the range constraint makes it smaller: the width decreases, or the
mask at the same width, or the minimum at the same width and mask. -/
theorem conjunction_decreases (a b : RangeConstraint p) (h : a.conjunction b ≠ a) :
    (a.conjunction b).width < a.width ∨
    ((a.conjunction b).width = a.width ∧ (a.conjunction b).mask < a.mask) ∨
    ((a.conjunction b).width = a.width ∧ (a.conjunction b).mask = a.mask ∧
      (a.conjunction b).min.val < a.min.val) := by
  rcases (conjunction_width a b).lt_or_eq with hw | hw
  · exact Or.inl hw
  rcases (conjunction_mask a b).lt_or_eq with hm | hm
  · exact Or.inr (Or.inl ⟨hw, hm⟩)
  refine Or.inr (Or.inr ⟨hw, hm, ?_⟩)
  have hi : ((a.conjunction b).min = a.min ∧ (a.conjunction b).max = a.max) ∨
      (a.conjunction b).min.val < a.min.val := by
    have h0 : rangeWidth ((intervalIntersection (a.min, a.max) (b.min, b.max)).getD (0, 0)).1
        ((intervalIntersection (a.min, a.max) (b.min, b.max)).getD (0, 0)).2 ≤ a.width := by
      cases h : intervalIntersection (a.min, a.max) (b.min, b.max) with
      | none =>
        have := a.width_pos
        simp only [Option.getD_none]
        rw [rangeWidth_eq]
        simpa using Nat.succ_le_of_lt this
      | some i => exact intervalIntersection_width h
    have h1 : rangeWidth ((intervalIntersection (a.min, a.max) (b.min, b.max)).getD (0, 0)).1
        ((intervalIntersection (a.min, a.max) (b.min, b.max)).getD (0, 0)).2 = a.width →
        (intervalIntersection (a.min, a.max) (b.min, b.max)).getD (0, 0) = (a.min, a.max) ∨
        (a.min = a.max ∧ (intervalIntersection (a.min, a.max) (b.min, b.max)).getD (0, 0) = (0, 0))
          := by
      intro hw0
      cases h : intervalIntersection (a.min, a.max) (b.min, b.max) with
      | none =>
        right
        refine ⟨?_, rfl⟩
        rw [h] at hw0
        simp only [Option.getD_none] at hw0
        unfold width at hw0
        rw [rangeWidth_val, rangeWidth_val] at hw0
        have := ZMod.val_lt a.min
        have := ZMod.val_lt a.max
        simp only [ZMod.val_zero, le_refl, if_true] at hw0
        apply ZMod.val_injective p
        split at hw0 <;> omega
      | some i =>
        left
        rw [h] at hw0
        exact intervalIntersection_eq h hw0
    unfold conjunction at hw ⊢
    simp only at hw ⊢
    generalize (intervalIntersection (a.min, a.max) (b.min, b.max)).getD (0, 0) = i at *
    obtain ⟨min, max⟩ := i
    simp only at h0 h1 hw ⊢
    unfold width at hw h0 h1
    simp only at hw h0 h1
    -- the interval from the intersection, unless the mask changes it
    have plain : rangeWidth min max = rangeWidth a.min a.max → (min = a.min ∧ max = a.max) ∨
        min.val < a.min.val := by
      intro h'
      rcases h1 h' with h2 | ⟨h2, h3⟩
      · left; simpa using h2
      · simp only [Prod.mk.injEq] at h3
        obtain ⟨rfl, rfl⟩ := h3
        by_cases h4 : a.min = 0
        · left; rw [← h2, h4]; simp
        · right
          rw [ZMod.val_zero]
          exact Nat.pos_of_ne_zero fun h5 => h4 ((ZMod.val_eq_zero _).1 h5)
    have lmin := ZMod.val_lt min
    have lmax := ZMod.val_lt max
    by_cases hmp : a.mask &&& b.mask < p
    · have hv : (((a.mask &&& b.mask : ℕ) : ZMod p)).val = a.mask &&& b.mask := val_cast_of_lt hmp
      simp only [if_pos hmp] at hw ⊢
      by_cases hle : fle min max
      · simp only [if_pos hle] at hw ⊢
        have hle' := hle
        unfold fle at hle'
        by_cases hc : max.val ≤ a.mask &&& b.mask
        · have e1 : fmin ((a.mask &&& b.mask : ℕ) : ZMod p) min = min := by
            apply ZMod.val_injective p
            rw [val_fmin, hv]
            exact Nat.min_eq_right (by omega)
          have e2 : fmin ((a.mask &&& b.mask : ℕ) : ZMod p) max = max := by
            apply ZMod.val_injective p
            rw [val_fmin, hv]
            exact Nat.min_eq_right hc
          rw [e1, e2] at hw ⊢
          exact plain hw
        · -- the maximum is cut off
          rw [rangeWidth_val _ _, val_fmin, val_fmin, hv] at hw
          rw [rangeWidth_val min max, if_pos hle'] at h0 plain
          have hmm : Nat.min (a.mask &&& b.mask) max.val = a.mask &&& b.mask :=
            Nat.min_eq_left (by omega)
          rw [hmm] at hw
          by_cases hc2 : min.val ≤ a.mask &&& b.mask
          · have hmn : Nat.min (a.mask &&& b.mask) min.val = min.val := Nat.min_eq_right hc2
            rw [hmn, if_pos hc2] at hw
            omega
          · have hmn : Nat.min (a.mask &&& b.mask) min.val = a.mask &&& b.mask :=
              Nat.min_eq_left (by omega)
            rw [hmn] at hw
            simp only [le_refl, if_true, Nat.sub_self, zero_add] at hw
            right
            rw [val_fmin, hv, hmn]
            rcases plain (by omega) with ⟨h5, h6⟩ | h5
            · rw [← h5]; omega
            · omega
      · simp only [if_neg hle] at hw ⊢
        have hle' := hle
        unfold fle at hle'
        by_cases hc : min.val > a.mask &&& b.mask
        · simp only [if_pos hc] at hw ⊢
          rw [rangeWidth_val _ _, val_fmin, hv, ZMod.val_zero] at hw
          rw [rangeWidth_val min max, if_neg hle'] at h0
          simp only [Nat.zero_le, if_true, Nat.sub_zero] at hw
          have : Nat.min (a.mask &&& b.mask) max.val ≤ max.val := Nat.min_le_right _ _
          omega
        · simp only [if_neg hc] at hw ⊢
          exact plain hw
    · simp only [if_neg hmp] at hw ⊢
      exact plain hw
  rcases hi with ⟨h1, h2⟩ | hi
  · exfalso
    apply h
    cases hab : a.conjunction b with
    | mk m lo hi =>
      rw [hab] at h1 h2 hm
      cases a
      simp_all
  · exact hi

end RangeConstraint

end Verif
