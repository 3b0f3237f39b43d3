import Verif.Spec.Roots
import Verif.Proofs.Solve
import Verif.Proofs.RangeExact
import Verif.Props.RangeExact

/-! # Solving a product of linear factors in one variable -/

set_option linter.unusedSectionVars false

namespace Verif

open GExpr RangeConstraint Spec

variable {p : ℕ} [Fact p.Prime] {V : Type} [LinearOrder V]

/-- The value of a product of factors is zero at the roots only. -/
theorem product_eval {x : V} {S : List (ZMod p)} {e : GExpr p V} (h : ProductOf x S e) (σ : V → ZMod p) :
    eval σ e = 0 ↔ σ x ∈ S := by
  induction h with
  | @factor k c s hk hs =>
    simp only [eval_mk, List.map_nil, List.sum_nil, List.map_cons, List.sum_cons, List.mem_singleton]
    constructor
    · intro h
      have : k * (σ x - s) = 0 := by linear_combination h - hs
      rcases mul_eq_zero.1 this with h | h
      · exact absurd h hk
      · exact sub_eq_zero.1 h
    · intro h; rw [h]; linear_combination hs
  | product ha hb iha ihb =>
    simp only [eval_mk, List.map_nil, List.sum_nil, List.map_cons, List.sum_cons, List.mem_append]
    simp [iha, ihb]

theorem product_vars {x : V} {S : List (ZMod p)} {e : GExpr p V} (h : ProductOf x S e) : ∀ v ∈ vars e, v = x := by
  induction h with
  | factor hk hs =>
    intro v hv
    rw [mem_vars_mk] at hv
    rcases hv with ⟨ab, hab, -⟩ | ⟨d, hd⟩
    · simp at hab
    · simp at hd; exact hd.1
  | product ha hb iha ihb =>
    intro v hv
    rw [mem_vars_mk] at hv
    rcases hv with ⟨ab, hab, h⟩ | ⟨d, hd⟩
    · simp only [List.mem_singleton] at hab
      subst hab
      rcases h with h | h
      · exact iha v h
      · exact ihb v h
    · simp at hd

/-- The range constraint is the hull of the values in a list. -/
structure Hull (K : List (ZMod p)) (r : RangeConstraint p) : Prop where
  minMem : r.min ∈ K
  maxMem : r.max ∈ K
  bounds : ∀ s ∈ K, r.min.val ≤ s.val ∧ s.val ≤ r.max.val
  bits : ∀ i, r.mask.testBit i = true ↔ ∃ s ∈ K, s.val.testBit i = true

theorem hull_fromValue (s : ZMod p) : Hull [s] (fromValue s) :=
  ⟨by simp [fromValue], by simp [fromValue], by simp [fromValue], by simp [fromValue]⟩

theorem Hull.le {K : List (ZMod p)} {r : RangeConstraint p} (h : Hull K r) : r.min.val ≤ r.max.val :=
  (h.bounds _ h.maxMem).1

theorem hull_disjunction {K L : List (ZMod p)} {a b : RangeConstraint p} (ha : Hull K a) (hb : Hull L b) :
    Hull (K ++ L) (a.disjunction b) := by
  have h1 : fle a.min a.max := ha.le
  have h2 : fle b.min b.max := hb.le
  unfold disjunction
  simp only [h1, h2, if_true]
  have e1 : (fmin a.min b.min).val = min a.min.val b.min.val := val_fmin _ _
  have e2 : (fmax a.max b.max).val = max a.max.val b.max.val := val_fmax _ _
  refine ⟨?_, ?_, ?_, ?_⟩
  · simp only [fmin, List.mem_append]
    split
    · exact .inl ha.minMem
    · exact .inr hb.minMem
  · simp only [fmax, List.mem_append]
    split
    · exact .inr hb.maxMem
    · exact .inl ha.maxMem
  · intro s hs
    simp only [e1, e2]
    rcases List.mem_append.1 hs with hs | hs
    · have := ha.bounds s hs; omega
    · have := hb.bounds s hs; omega
  · intro i
    simp only [Nat.testBit_or, Bool.or_eq_true, ha.bits, hb.bits, List.mem_append]
    constructor
    · rintro (⟨s, h, h'⟩ | ⟨s, h, h'⟩)
      · exact ⟨s, .inl h, h'⟩
      · exact ⟨s, .inr h, h'⟩
    · rintro ⟨s, h | h, h'⟩
      · exact .inl ⟨s, h, h'⟩
      · exact .inr ⟨s, h, h'⟩

theorem hull_allows {K : List (ZMod p)} {r : RangeConstraint p} (h : Hull K r) (v : ZMod p) :
    r.allowsValue v = true ↔ (∃ s ∈ K, ∃ t ∈ K, s.val ≤ v.val ∧ v.val ≤ t.val) ∧
      ∀ i, v.val.testBit i = true → ∃ s ∈ K, s.val.testBit i = true := by
  rw [allowsValue_iff]
  unfold Allows
  rw [inCyc_iff, if_pos h.le]
  constructor
  · rintro ⟨h1, h2⟩
    exact ⟨⟨_, h.minMem, _, h.maxMem, h1⟩, fun i hi => (h.bits i).1 (h2 i hi)⟩
  · rintro ⟨⟨s, hs, t, ht, h1, h2⟩, h3⟩
    exact ⟨⟨(h.bounds s hs).1.trans h1, h2.trans (h.bounds t ht).2⟩, fun i hi => (h.bits i).2 (h3 i hi)⟩

/-- What is required of the mask: it does not cut a root of the interval in pieces. -/
def MaskFits (r : RangeConstraint p) (s : ZMod p) : Prop :=
  Between r.min r.max s → BitsWithin r.mask s.val ∨
    (s ≠ 0 ∧ ∀ i, ¬ (r.mask.testBit i = true ∧ s.val.testBit i = true))

theorem isDisjoint_root {r : RangeConstraint p} {s : ZMod p} (h : MaskFits r s) :
    r.isDisjoint (fromValue s) = true ↔ ¬ r.allowsValue s = true := by
  have hself : (fromValue s : RangeConstraint p).allowsValue s = true := by
    rw [C01_fromValue_exact]
  constructor
  · intro hd ha
    exact C04_isDisjoint_sound _ _ hd s ⟨ha, hself⟩
  · intro ha
    by_cases hb : Between r.min r.max s
    · rcases h hb with h | ⟨h0, h⟩
      · exact absurd ((C01_allowsValue_exact _ _).2 ⟨hb, h⟩) ha
      · refine (C100_disjoint _ _).2 h ?_
        rintro ⟨-, h1⟩
        rw [C01_fromValue_exact] at h1
        exact h0 h1.symm
    · refine (C100_disjoint _ _).1 ?_
      rintro v ⟨h1, h2⟩
      have : (fromValue s : RangeConstraint p).min = s := rfl
      rw [← inCyc_iff_between, inCyc_iff] at h2
      simp only [fromValue, le_refl, if_true] at h2
      have : v = s := ZMod.val_injective p (by omega)
      exact hb (this ▸ h1)

/-- The effect says that the variable is in the range. -/
def Says (x : V) (r : RangeConstraint p) (eff : Effect p V) : Prop := effectToRangeConstraint eff = some (x, r)

theorem combine_one {rc : V → RangeConstraint p} {x : V} {a b : RangeConstraint p} {l r : ProcessResult p V}
    {e1 e2 : Effect p V} (hl : l.effects = [e1]) (hr : r.effects = [e2]) (h1 : Says x a e1) (h2 : Says x b e2)
    (hn : combineToConditionalAssignment rc l r = none) :
    ∃ o, combineSolutions rc (.ok l) (.ok r) = .ok o ∧ o.effects = [.rangeConstraint x (a.disjunction b)] := by
  refine ⟨_, rfl, ?_⟩
  rw [hn]
  unfold Says at h1 h2
  simp [combineRangeConstraints, groupConstraints, hl, hr, h1, h2, groupInsert, combinedConstraints, getConstraint]

theorem product_solve (rc : V → RangeConstraint p) {x : V} {S : List (ZMod p)} {e : GExpr p V} (h : ProductOf x S e)
    (hm : ∀ s ∈ S, MaskFits (rc x) s) (hw : WF e) :
    ((∀ s ∈ S, ¬ (rc x).allowsValue s = true) ∧ ∃ err, solve rc e = .ok (.error err)) ∨
    ∃ r eff R, solve rc e = .ok (.ok r) ∧ r.effects = [eff] ∧ Says x R eff ∧
      ((eff = .rangeConstraint x R) ∨ ∃ s, eff = .assignment x s ∧ R = fromValue s) ∧
      Hull (S.filter fun s => (rc x).allowsValue s) R := by
  induction h with
  | @factor k c s hk hs =>
    have hv : c * (-k)⁻¹ = s := by
      have : c = s * -k := by linear_combination hs
      rw [this, mul_assoc, mul_inv_cancel₀ (neg_ne_zero.2 hk), mul_one]
    have hv' : -(c * k⁻¹) = s := by rw [← hv, inv_neg, mul_neg]
    simp only [List.mem_singleton, forall_eq] at hm ⊢
    have hd := isDisjoint_root hm
    by_cases ha : (rc x).allowsValue (s) = true
    · right
      have hu : unsatisfiable rc (mk [] [(x, k)] c) = false := by
        rw [Bool.eq_false_iff]
        intro hu
        refine unsatisfiable_sound hu (fun _ => s) (inRange_of_vars ?_)
          ((product_eval (.factor hk hs) _).2 (by simp))
        intro v hv
        rw [product_vars (.factor hk hs) v hv]
        exact (allowsValue_iff _ _).1 ha
      have hd' : (rc x).isDisjoint (fromValue (s)) = false := by
        rw [Bool.eq_false_iff]; exact fun h => (hd.1 h) ha
      refine ⟨⟨[.assignment x (s)], true⟩, .assignment x (s), fromValue (s), ?_, rfl, rfl,
        .inr ⟨_, rfl, rfl⟩, ?_⟩
      · rw [GExpr.solve, hu]
        simp [solveAffine, GExpr.linear, hk, assignmentIfSatisfies, GExpr.constant, hv', hd', Except.map]
      · simp only [List.filter_cons, ha, if_true, List.filter_nil]
        exact hull_fromValue _
    · left
      refine ⟨ha, ?_⟩
      rw [GExpr.solve]
      split
      · exact ⟨_, rfl⟩
      · refine ⟨.conflictingRangeConstraints, ?_⟩
        simp [solveAffine, GExpr.linear, hk, assignmentIfSatisfies, GExpr.constant, hv', hd.2 ha, Except.map]
  | @product S T a b ha hb iha ihb =>
    have hwf := (wf_inv hw).1 (a, b) (by simp)
    have hma : ∀ s ∈ S, MaskFits (rc x) s := fun s hs => hm s (List.mem_append_left _ hs)
    have hmb : ∀ s ∈ T, MaskFits (rc x) s := fun s hs => hm s (List.mem_append_right _ hs)
    have ia := iha hma hwf.1
    have ib := ihb hmb hwf.2.1
    rw [GExpr.solve]
    by_cases hu : unsatisfiable rc (mk [(a, b)] [] 0) = true
    · left
      refine ⟨?_, ?_⟩
      · intro s hs hal
        refine unsatisfiable_sound hu (fun _ => s) (inRange_of_vars ?_)
          ((product_eval (.product ha hb) _).2 hs)
        intro v hv
        rw [product_vars (.product ha hb) v hv]
        exact (allowsValue_iff _ _).1 hal
      · rw [if_pos hu]; exact ⟨_, rfl⟩
    · rw [if_neg hu, if_neg (by simp)]
      rcases ia with ⟨na, ea, sa⟩ | ⟨ra, fa, Ra, sa, ca, ya, oa, ha'⟩
      · rcases ib with ⟨nb, eb, sb⟩ | ⟨rb, fb, Rb, sb, cb, yb, ob, hb'⟩
        · left
          refine ⟨?_, ?_⟩
          · intro s hs
            rcases List.mem_append.1 hs with hs | hs
            · exact na s hs
            · exact nb s hs
          · rw [sa, sb]; exact ⟨_, rfl⟩
        · right
          refine ⟨rb, fb, Rb, ?_, cb, yb, ob, ?_⟩
          · rw [sa, sb]; rfl
          · rw [List.filter_append, List.filter_eq_nil_iff.2 na, List.nil_append]
            exact hb'
      · rcases ib with ⟨nb, eb, sb⟩ | ⟨rb, fb, Rb, sb, cb, yb, ob, hb'⟩
        · right
          refine ⟨ra, fa, Ra, ?_, ca, ya, oa, ?_⟩
          · rw [sa, sb]; rfl
          · rw [List.filter_append, List.filter_eq_nil_iff.2 nb, List.append_nil]
            exact ha'
        · right
          have hn : combineToConditionalAssignment rc ra rb = none := by
            unfold combineToConditionalAssignment
            rw [ca, cb]
            rcases oa with rfl | ⟨s, rfl, rfl⟩
            · rfl
            rcases ob with rfl | ⟨t, rfl, rfl⟩
            · rfl
            simp only [ne_eq, not_true_eq_false, if_false]
            have hs : (rc x).allowsValue s = true := by
              have := ha'.minMem
              rw [List.mem_filter] at this
              exact this.2
            have ht : (rc x).allowsValue t = true := by
              have := hb'.minMem
              rw [List.mem_filter] at this
              exact this.2
            have h3 := C02_combineSum_sound (rc x) (fromValue (s + -t)) t (s + -t) ht (by rw [C01_fromValue_exact])
            have h4 : t + (s + -t) = s := by ring
            rw [h4] at h3
            have h5 : ((rc x).combineSum (fromValue (s + -t))).isDisjoint (rc x) = false := by
              rw [Bool.eq_false_iff]
              intro h
              exact C04_isDisjoint_sound _ _ h s ⟨h3, hs⟩
            rw [h5]
            rfl
          obtain ⟨o, ho, ho'⟩ := combine_one (rc := rc) ca cb ya yb hn
          refine ⟨o, _, Ra.disjunction Rb, ?_, ho', rfl, .inl rfl, ?_⟩
          · rw [sa, sb]; simp only; rw [ho]
          · rw [List.filter_append]
            exact hull_disjunction ha' hb'

end Verif
