import Verif.Proofs.RulesReplace
import Mathlib.Data.Fin.VecNotation

set_option linter.unusedSectionVars false

namespace Verif

open RangeConstraint GExpr

variable {p : ℕ} {V : Type} [LinearOrder V] [Fact p.Prime] {inp : RuleInput p V}

/-! ### The sum of the limbs does not wrap around -/

theorem narrow_of_max {A B : RangeConstraint p}
    (h : (A.combineSum B).max.val < (-1 : ZMod p).val) : A.width + B.width ≤ p := by
  by_contra hw
  rw [(combineSum_of_wide hw).2.1] at h
  omega

theorem inner_narrow {A B C : RangeConstraint p}
    (h : (A.combineSum B).width + C.width ≤ p) : A.width + B.width ≤ p := by
  by_contra hw
  have hp2 := (Fact.out : p.Prime).two_le
  have w := combineSum_of_wide hw
  have w1 : (A.combineSum B).width = p := by
    rw [width, w.1, w.2.1, rangeWidth_eq, sub_zero, neg_one_val]; omega
  have w2 : 1 ≤ C.width := by rw [width, rangeWidth_eq]; omega
  omega

theorem sum_zero {A B : RangeConstraint p} {x y : ZMod p} (hA : A.min = 0) (hB : B.min = 0)
    (hx : A.allowsValue x = true) (hy : B.allowsValue y = true) (hw : A.width + B.width ≤ p)
    (h : x + y = 0) : x = 0 ∧ y = 0 := by
  have h1 := allows_min_zero hx hA
  have h2 := allows_min_zero hy hB
  rw [width, width, rangeWidth_eq, rangeWidth_eq, hA, hB, sub_zero, sub_zero] at hw
  exact both_zero (by omega) h

theorem sum4_zero {r0 r1 r2 r3 : RangeConstraint p} {a0 a1 a2 a3 : ZMod p} (hr0 : r0.min = 0)
    (hr1 : r1.min = 0) (hr2 : r2.min = 0) (hr3 : r3.min = 0)
    (hsum : (((r0.combineSum r1).combineSum r2).combineSum r3).max.val < (-1 : ZMod p).val)
    (h0 : r0.allowsValue a0 = true) (h1 : r1.allowsValue a1 = true) (h2 : r2.allowsValue a2 = true)
    (h3 : r3.allowsValue a3 = true) (h : a0 + a1 + a2 + a3 = 0) :
    a0 = 0 ∧ a1 = 0 ∧ a2 = 0 ∧ a3 = 0 := by
  have n3 := narrow_of_max hsum
  have n2 := inner_narrow n3
  have n1 := inner_narrow n2
  have m1 : (r0.combineSum r1).min = 0 := by rw [(combineSum_of_narrow n1).1, hr0, hr1, add_zero]
  have m2 : ((r0.combineSum r1).combineSum r2).min = 0 := by
    rw [(combineSum_of_narrow n2).1, m1, hr2, add_zero]
  have s1 : (r0.combineSum r1).allowsValue (a0 + a1) = true :=
    (allowsValue_iff _ _).2 (combineSum_allows ((allowsValue_iff _ _).1 h0)
      ((allowsValue_iff _ _).1 h1))
  have s2 : ((r0.combineSum r1).combineSum r2).allowsValue (a0 + a1 + a2) = true :=
    (allowsValue_iff _ _).2 (combineSum_allows ((allowsValue_iff _ _).1 s1)
      ((allowsValue_iff _ _).1 h2))
  obtain ⟨z, z3⟩ := sum_zero m2 hr3 s2 h3 n3 h
  obtain ⟨z, z2⟩ := sum_zero m1 hr2 s1 h2 n2 z
  obtain ⟨z0, z1⟩ := sum_zero hr0 hr1 h0 h1 n1 z
  exact ⟨z0, z1, z2, z3⟩

/-! ### The comparison gadget -/

theorem result_of_comparison {σ : V → ZMod p} {a m : Fin 4 → V} {r d : V} {k : Fin 4 → ZMod p}
    (h : ComparesWithOne σ a m r d k) (hr : σ r = 0 ∨ σ r = 1) (hm : ∀ i, σ (m i) = 0 ∨ σ (m i) = 1)
    (hd : DifferenceInRange σ a m d k) : σ r = 1 ↔ ∀ i, σ (a i) = 0 := by
  have hp2 := (Fact.out : p.Prime).two_le
  obtain ⟨q3, q2, q1, q0, nm, d0, d1, d2, d3, mk⟩ := h
  have pos : ∀ i, σ (m i) = 1 → k i * σ d ≠ 0 := by
    intro i hi h0
    have := (hd i hi).1
    rw [h0, ZMod.val_zero] at this
    omega
  have noadd : ∀ i, σ (m i) = 1 → σ (a i) + k i * σ d ≠ 0 := by
    intro i hi h0
    have := (hd i hi).2
    exact pos i hi (both_zero (by omega) h0).2
  constructor
  · intro hr1
    rw [hr1] at q3 q2 q1 q0 nm d0 d1 d2 d3
    have z3 : σ (m 3) = 0 := by
      rcases hm 3 with h | h
      · exact h
      · exact absurd (by rw [h] at d3; linear_combination d3) (noadd 3 h)
    have z2 : σ (m 2) = 0 := by
      rcases hm 2 with h | h
      · exact h
      · exact absurd (by rw [h] at d2; linear_combination d2) (noadd 2 h)
    have z1 : σ (m 1) = 0 := by
      rcases hm 1 with h | h
      · exact h
      · exact absurd (by rw [h] at d1; linear_combination d1) (noadd 1 h)
    rw [z3, z2, z1] at nm
    have z0 : σ (m 0) = 1 := by linear_combination -nm
    rw [z0] at d0
    rw [z3, z2, z1] at q1
    rw [z3, z2] at q2
    rw [z3] at q3
    have hs : σ (a 0) + k 0 * σ d = 1 := by linear_combination d0
    have h0 := hd 0 z0
    have hv : (σ (a 0) + k 0 * σ d).val = (σ (a 0)).val + (k 0 * σ d).val :=
      ZMod.val_add_of_lt (by omega)
    have : Fact (1 < p) := ⟨by omega⟩
    rw [hs, ZMod.val_one] at hv
    have a0 : σ (a 0) = 0 := (ZMod.val_eq_zero _).1 (by omega)
    intro i
    fin_cases i
    · exact a0
    · show σ (a 1) = 0
      linear_combination q1
    · show σ (a 2) = 0
      linear_combination q2
    · show σ (a 3) = 0
      linear_combination q3
  · intro ha
    rcases hr with hr0 | hr1
    · exfalso
      rw [hr0] at q3 q2 q1 q0 nm d0 d1 d2 d3
      have z3 : σ (m 3) = 0 := by
        rcases hm 3 with h | h
        · exact h
        · exact absurd (by rw [h, ha 3] at d3; linear_combination d3) (pos 3 h)
      have z2 : σ (m 2) = 0 := by
        rcases hm 2 with h | h
        · exact h
        · exact absurd (by rw [h, ha 2] at d2; linear_combination d2) (pos 2 h)
      have z1 : σ (m 1) = 0 := by
        rcases hm 1 with h | h
        · exact h
        · exact absurd (by rw [h, ha 1] at d1; linear_combination d1) (pos 1 h)
      rcases hm 0 with z0 | z0
      · rw [z3, z2, z1, z0, ha 0] at q0
        have : (1 : ZMod p) = 0 := by linear_combination -q0
        exact one_ne_zero this
      · rw [z0, ha 0] at d0
        have h0 := (hd 0 z0).2
        have : k 0 * σ d = -1 := by linear_combination d0
        rw [this, neg_one_val, ha 0, ZMod.val_zero] at h0
        omega
    · exact hr1

/-- The markers and the difference can be recomputed from the limbs and the result. -/
theorem exists_comparison {a : Fin 4 → ZMod p} {r : ZMod p} {k : Fin 4 → ZMod p}
    (hk : ∀ i, k i ≠ 0) (hr : r = 0 ∨ r = 1) (h : r = 1 ↔ ∀ i, a i = 0) :
    ∃ (M : Fin 4 → ZMod p) (D : ZMod p),
      (1 - M 3) * (a 3 * (2 * r - 1)) = 0 ∧ (1 - M 3 - M 2) * (a 2 * (2 * r - 1)) = 0 ∧
      (1 - M 3 - M 2 - M 1) * (a 1 * (2 * r - 1)) = 0 ∧
      (1 - M 3 - M 2 - M 1 - M 0) * ((1 - a 0) * (2 * r - 1)) = 0 ∧
      (1 - M 3 - M 2 - M 1 - M 0) * r = 0 ∧
      M 0 * ((a 0 - 1) * (2 * r - 1) + k 0 * D) = 0 ∧ M 1 * (a 1 * (2 * r - 1) + k 1 * D) = 0 ∧
      M 2 * (a 2 * (2 * r - 1) + k 2 * D) = 0 ∧ M 3 * (a 3 * (2 * r - 1) + k 3 * D) = 0 ∧
      (M 0 + M 1 + M 2 + M 3 = 0 ∨ M 0 + M 1 + M 2 + M 3 = 1) ∧
      (∀ i, M i = 0 ∨ M i = 1) ∧ (∀ i, M i = 1 → k i * D ≠ 0 ∧ (k i * D = 1 ∨ k i * D = a i ∨
        (i = 0 ∧ a 0 ≠ 0 ∧ k i * D = a 0 - 1))) := by
  have bool : ∀ x : Fin 4, ∀ i, (fun j : Fin 4 => if j = x then (1 : ZMod p) else 0) i = 0 ∨
      (fun j : Fin 4 => if j = x then (1 : ZMod p) else 0) i = 1 := by
    intro x i
    show (if i = x then (1 : ZMod p) else 0) = 0 ∨ (if i = x then (1 : ZMod p) else 0) = 1
    by_cases h : i = x <;> simp [h]
  have only : ∀ x i : Fin 4, (fun j : Fin 4 => if j = x then (1 : ZMod p) else 0) i = 1 → i = x := by
    intro x i h
    by_contra hne
    simp [hne] at h
  have e01 : ((0 : Fin 4) = 1) = False := by decide
  rcases hr with rfl | rfl
  · have hn : ¬ ∀ i, a i = 0 := fun hall => zero_ne_one (h.2 hall)
    by_cases h3 : a 3 = 0
    · by_cases h2 : a 2 = 0
      · by_cases h1 : a 1 = 0
        · have h0 : a 0 ≠ 0 := by
            intro h0
            apply hn
            intro i
            fin_cases i <;> assumption
          by_cases h01 : a 0 = 1
          · refine ⟨fun _ => 0, 0, ?_⟩
            simp [h1, h2, h3, h01]
          · refine ⟨fun j => if j = 0 then 1 else 0, (a 0 - 1) * (k 0)⁻¹, ?_⟩
            have hkk : k 0 * ((a 0 - 1) * (k 0)⁻¹) = a 0 - 1 := by
              have := hk 0; field_simp
            refine ⟨by simp [h3], by simp [h2], by simp [h1], by simp, by simp, ?_, by simp,
              by simp, by simp, by simp, bool 0, fun i hi => ?_⟩
            · rw [hkk]; simp
            · obtain rfl := only 0 i hi
              rw [hkk]
              exact ⟨sub_ne_zero.2 h01, Or.inr (Or.inr ⟨rfl, h0, rfl⟩)⟩
        · refine ⟨fun j => if j = 1 then 1 else 0, a 1 * (k 1)⁻¹, ?_⟩
          have hkk : k 1 * (a 1 * (k 1)⁻¹) = a 1 := by have := hk 1; field_simp
          refine ⟨by simp [h3], by simp [h2], by simp, by simp, by simp, by simp, ?_,
              by simp, by simp, by simp, bool 1, fun i hi => ?_⟩
          · rw [hkk]; simp
          · obtain rfl := only 1 i hi
            rw [hkk]
            exact ⟨h1, Or.inr (Or.inl rfl)⟩
      · refine ⟨fun j => if j = 2 then 1 else 0, a 2 * (k 2)⁻¹, ?_⟩
        have hkk : k 2 * (a 2 * (k 2)⁻¹) = a 2 := by have := hk 2; field_simp
        refine ⟨by simp [h3], by simp, by simp, by simp, by simp, by simp, by simp, ?_,
            by simp, by simp, bool 2, fun i hi => ?_⟩
        · rw [hkk]; simp
        · obtain rfl := only 2 i hi
          rw [hkk]
          exact ⟨h2, Or.inr (Or.inl rfl)⟩
    · refine ⟨fun j => if j = 3 then 1 else 0, a 3 * (k 3)⁻¹, ?_⟩
      have hkk : k 3 * (a 3 * (k 3)⁻¹) = a 3 := by have := hk 3; field_simp
      refine ⟨by simp, by simp, by simp, by simp, by simp, by simp, by simp, by simp, ?_,
          by simp, bool 3, fun i hi => ?_⟩
      · rw [hkk]; simp
      · obtain rfl := only 3 i hi
        rw [hkk]
        exact ⟨h3, Or.inr (Or.inl rfl)⟩
  · have ha := h.1 rfl
    refine ⟨fun j => if j = 0 then 1 else 0, (k 0)⁻¹, ?_⟩
    have hkk : k 0 * (k 0)⁻¹ = 1 := by have := hk 0; field_simp
    refine ⟨by simp [ha 3], by simp [ha 2], by simp [ha 1], by simp, by simp, ?_, by simp,
        by simp, by simp, by simp, bool 0, fun i hi => ?_⟩
    · rw [hkk, ha 0]; simp; ring
    · obtain rfl := only 0 i hi
      rw [hkk]
      exact ⟨one_ne_zero, Or.inl rfl⟩

/-! ### The link to the rule -/

theorem equalZero_link (hwf : inp.WF) {constrs : List (GExpr p V)} {res : V} {vs : List V}
    (huni : inp.OneComparisonPerResult res)
    (h : Derives inp (.equalZeroCheck constrs res vs)) :
    ∃ (a m : Fin 4 → V) (d : V) (k : Fin 4 → ZMod p), vs = [a 0, a 1, a 2, a 3] ∧
      (∀ i, k i ≠ 0) ∧ (∀ i, inp.Bool (m i)) ∧ inp.Bool res ∧
      (∀ c ∈ constrs, c ∈ inp.constraints) ∧
      (∀ σ, (∀ c ∈ constrs, eval σ c = 0) ↔ ComparesWithOne σ a m res d k) ∧
      ∀ σ, inp.RangesHold σ → σ (a 0) + σ (a 1) + σ (a 2) + σ (a 3) = 0 → ∀ i, σ (a i) = 0 := by
  cases h with
  | equalZeroCheck h0 h1 h2 h3 h4 h5 h5' hk0 ho0 h6 h6' h7 h7' h8 h8' hres hm0 hm1 hm2 hm3 ha0 ha1
      ha2 ha3 hr0 hr1 hr2 hr3 hsum h9 h9' =>
  rename_i c0 c1 c2 c3 c4 c5 c6 c7 c8 c9 m0 m1 m2 m3 a0 a1 a2 a3 dv l0 l1 l2 om e0 e1 e2 e3 sm k0 o0
    r0 r1 r2 r3
  obtain ⟨i0, -, -, -, -, -, v0, w0⟩ := shape_of_derives hwf h0
  obtain ⟨i1, -, -, -, -, -, v1, w1⟩ := shape_of_derives hwf h1
  obtain ⟨i2, -, -, -, -, -, v2, w2⟩ := shape_of_derives hwf h2
  obtain ⟨i3, -, -, -, -, -, v3, w3⟩ := shape_of_derives hwf h3
  obtain ⟨i4, l4, -, -, -, -, -, v4, w4⟩ := shape_of_derives hwf h4
  obtain ⟨i5, f5, k5, hf5, hk5, v5⟩ := shape_of_derives hwf h5
  obtain ⟨i6, f6, k6, hf6, hk6, v6⟩ := shape_of_derives hwf h6
  obtain ⟨i7, f7, k7, hf7, hk7, v7⟩ := shape_of_derives hwf h7
  obtain ⟨i8, f8, k8, hf8, hk8, v8⟩ := shape_of_derives hwf h8
  obtain ⟨i9, l9, f9, hf9, p9, v9⟩ := shape_of_derives hwf h9
  obtain ⟨-, v9'⟩ := shape_of_derives hwf h9'
  obtain ⟨rfl, -⟩ := shape_of_derives hwf h5'
  obtain ⟨rfl, -⟩ := shape_of_derives hwf h6'
  obtain ⟨rfl, -⟩ := shape_of_derives hwf h7'
  obtain ⟨rfl, -⟩ := shape_of_derives hwf h8'
  have L0 : ∀ σ, eval σ l0 = 1 - σ m3 := by
    rcases w0 with ⟨-, h⟩ | ⟨n', _, _, _, _, h, -⟩
    · exact h
    · omega
  have L1 : ∀ σ, eval σ l1 = 1 - σ m3 - σ m2 := by
    rcases w1 with ⟨h, -⟩ | ⟨n', _, _, l', _, hn, hd, h⟩
    · omega
    · obtain rfl : n' = 0 := by omega
      intro σ
      rw [h σ, huni _ _ _ _ _ _ _ _ _ hd h0, L0 σ]
  have L2 : ∀ σ, eval σ l2 = 1 - σ m3 - σ m2 - σ m1 := by
    rcases w2 with ⟨h, -⟩ | ⟨n', _, _, l', _, hn, hd, h⟩
    · omega
    · obtain rfl : n' = 1 := by omega
      intro σ
      rw [h σ, huni _ _ _ _ _ _ _ _ _ hd h1, L1 σ]
  have L3 : ∀ σ, eval σ om = 1 - σ m3 - σ m2 - σ m1 - σ m0 := by
    obtain ⟨n', _, _, l', _, hn, hd, h⟩ := w3
    obtain rfl : n' = 2 := by omega
    intro σ
    rw [h σ, huni _ _ _ _ _ _ _ _ _ hd h2, L2 σ]
  have L4 : ∀ σ, eval σ l4 = 1 - σ m3 - σ m2 - σ m1 - σ m0 := by
    obtain ⟨n', _, _, l', _, hn, hd, h⟩ := w4
    obtain rfl : n' = 2 := by omega
    intro σ
    rw [h σ, huni _ _ _ _ _ _ _ _ _ hd h2, L2 σ]
  refine ⟨![a0, a1, a2, a3], ![m0, m1, m2, m3], dv, ![k5, k6, k7, k8], by simp, ?_, ?_,
    shape_of_derives hwf hres, ?_, ?_, ?_⟩
  · intro i; fin_cases i <;> assumption
  · intro i
    fin_cases i
    · exact shape_of_derives hwf hm0
    · exact shape_of_derives hwf hm1
    · exact shape_of_derives hwf hm2
    · exact shape_of_derives hwf hm3
  · intro c hc
    simp only [List.mem_cons, List.not_mem_nil, or_false] at hc
    rcases hc with rfl | rfl | rfl | rfl | rfl | rfl | rfl | rfl | rfl | rfl <;> assumption
  · intro σ
    have E9 : eval σ c9 = 0 ↔
        (σ m0 + σ m1 + σ m2 + σ m3 = 0 ∨ σ m0 + σ m1 + σ m2 + σ m3 = 1) := by
      have hs : eval σ sm = σ m0 + σ m1 + σ m2 + σ m3 := by rw [v9' σ, L3 σ]; ring
      rw [p9.eval σ, v9 σ, hs, mul_eq_zero, or_comm]
      apply or_congr Iff.rfl
      constructor
      · intro h
        have : f9 * (σ m0 + σ m1 + σ m2 + σ m3 - 1) = 0 := by linear_combination h
        linear_combination (mul_eq_zero.1 this).resolve_left hf9
      · intro h
        rw [h]; ring
    have fac : ∀ {k m x y : ZMod p}, k ≠ 0 → x = y → (k * m * x = 0 ↔ m * y = 0) := by
      intro k m x y hk hxy
      rw [hxy, mul_assoc, mul_eq_zero]
      exact or_iff_right hk
    have E5 := (fac (k := f5) (m := σ m0) (x := eval σ (mk [] [(a0, k0)] o0) * (2 * σ res - 1) +
      k5 * σ dv) (y := (σ a0 - 1) * (2 * σ res - 1) + k5 * σ dv) hf5
      (by rw [eval_mk_single, hk0, ho0]; ring))
    have E6 := (fac (k := f6) (m := σ m1) (x := eval σ (mk [] [(a1, 1)] 0) * (2 * σ res - 1) +
      k6 * σ dv) (y := σ a1 * (2 * σ res - 1) + k6 * σ dv) hf6
      (by rw [eval_mk_single]; ring))
    have E7 := (fac (k := f7) (m := σ m2) (x := eval σ (mk [] [(a2, 1)] 0) * (2 * σ res - 1) +
      k7 * σ dv) (y := σ a2 * (2 * σ res - 1) + k7 * σ dv) hf7
      (by rw [eval_mk_single]; ring))
    have E8 := (fac (k := f8) (m := σ m3) (x := eval σ (mk [] [(a3, 1)] 0) * (2 * σ res - 1) +
      k8 * σ dv) (y := σ a3 * (2 * σ res - 1) + k8 * σ dv) hf8
      (by rw [eval_mk_single]; ring))
    simp only [List.mem_cons, List.not_mem_nil, or_false, forall_eq_or_imp, forall_eq, v0 σ, v1 σ,
      v2 σ, v3 σ, v4 σ, v5 σ, v6 σ, v7 σ, v8 σ, L0 σ, L1 σ, L2 σ, L3 σ, L4 σ, E9, E5, E6, E7, E8]
    constructor
    · rintro ⟨q0, q1, q2, q3, q4, q5, q6, q7, q8, q9⟩
      exact ⟨by simpa using (by linear_combination -q0 : (1 - σ m3) * (σ a3 * (2 * σ res - 1)) = 0),
        (by linear_combination -q1 : (1 - σ m3 - σ m2) * (σ a2 * (2 * σ res - 1)) = 0),
        (by linear_combination -q2 : (1 - σ m3 - σ m2 - σ m1) * (σ a1 * (2 * σ res - 1)) = 0),
        (by linear_combination q4 :
          (1 - σ m3 - σ m2 - σ m1 - σ m0) * ((1 - σ a0) * (2 * σ res - 1)) = 0),
        q3, q5, q6, q7, q8, q9⟩
    · rintro ⟨q0, q1, q2, q4, q3, q5, q6, q7, q8, q9⟩
      have q0' : (1 - σ m3) * (σ a3 * (2 * σ res - 1)) = 0 := q0
      have q1' : (1 - σ m3 - σ m2) * (σ a2 * (2 * σ res - 1)) = 0 := q1
      have q2' : (1 - σ m3 - σ m2 - σ m1) * (σ a1 * (2 * σ res - 1)) = 0 := q2
      have q4' : (1 - σ m3 - σ m2 - σ m1 - σ m0) * ((1 - σ a0) * (2 * σ res - 1)) = 0 := q4
      exact ⟨by linear_combination -q0', by linear_combination -q1', by linear_combination -q2',
        q3, by linear_combination q4', q5, q6, q7, q8, q9⟩
  · intro σ hσ hs
    have z := sum4_zero (a0 := σ a0) (a1 := σ a1) (a2 := σ a2) (a3 := σ a3) hr0 hr1 hr2 hr3 hsum
      (hσ.2 _ (shape_of_derives hwf ha0)) (hσ.2 _ (shape_of_derives hwf ha1))
      (hσ.2 _ (shape_of_derives hwf ha2)) (hσ.2 _ (shape_of_derives hwf ha3)) hs
    intro i
    fin_cases i
    · exact z.1
    · exact z.2.1
    · exact z.2.2.1
    · exact z.2.2.2

theorem eval_sum4 (σ : V → ZMod p) (a : Fin 4 → V) :
    eval σ (sum ([a 0, a 1, a 2, a 3].map var) : GExpr p V) =
      σ (a 0) + σ (a 1) + σ (a 2) + σ (a 3) := by
  rw [eval_sum]; simp [eval_var]; ring

/-- Meaning of the replacement. -/
theorem equalZeroReplacement_iff (σ : V → ZMod p) (a : Fin 4 → V) (r inv : V) :
    (∀ c ∈ equalZeroReplacement r inv [a 0, a 1, a 2, a 3], eval σ c = 0) ↔
      σ r * (σ (a 0) + σ (a 1) + σ (a 2) + σ (a 3)) = 0 ∧
      σ r + σ inv * (σ (a 0) + σ (a 1) + σ (a 2) + σ (a 3)) - 1 = 0 := by
  unfold equalZeroReplacement
  simp only [List.mem_cons, List.not_mem_nil, or_false, forall_eq_or_imp, forall_eq, eval_mul,
    eval_sub, eval_add, eval_var, eval_one, eval_sum4]

end Verif
