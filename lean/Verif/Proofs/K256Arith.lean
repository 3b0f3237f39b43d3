import Mathlib.Data.Nat.Bitwise
import Verif.Proofs.K256Field

/-!
# Normalization, powers, inverses and square roots of k256 field elements
-/

namespace Verif

namespace FieldElement10x26

/-- Every limb but the last has 26 bits. -/
def Carried (a : FieldElement10x26) : Prop :=
  a.l0 < 2 ^ 26 ∧ a.l1 < 2 ^ 26 ∧ a.l2 < 2 ^ 26 ∧ a.l3 < 2 ^ 26 ∧ a.l4 < 2 ^ 26 ∧
  a.l5 < 2 ^ 26 ∧ a.l6 < 2 ^ 26 ∧ a.l7 < 2 ^ 26 ∧ a.l8 < 2 ^ 26

theorem addModulusCorrection_spec {a : FieldElement10x26} {x : ℕ} (hx : x < 2 ^ 10)
    (h0 : a.l0 < 2 ^ 32 - 2 ^ 20) (h1 : a.l1 < 2 ^ 32 - 2 ^ 20) (h2 : a.l2 < 2 ^ 32 - 2 ^ 20)
    (h3 : a.l3 < 2 ^ 32 - 2 ^ 20) (h4 : a.l4 < 2 ^ 32 - 2 ^ 20) (h5 : a.l5 < 2 ^ 32 - 2 ^ 20)
    (h6 : a.l6 < 2 ^ 32 - 2 ^ 20) (h7 : a.l7 < 2 ^ 32 - 2 ^ 20) (h8 : a.l8 < 2 ^ 32 - 2 ^ 20)
    (h9 : a.l9 < 2 ^ 32 - 2 ^ 20) :
    ∃ r, a.addModulusCorrection x = some r ∧ r.Carried ∧ r.l9 ≤ a.l9 + 63 ∧
      r.val = a.val + x * (2 ^ 32 + 977) := by
  have hx' : x * 64 % 2 ^ 32 = x * 64 := Nat.mod_eq_of_lt (by omega)
  have key : ∀ {l c : ℕ}, l < 2 ^ 32 - 2 ^ 20 → c < 2 ^ 20 → ∃ t k m : ℕ, l + c = t ∧ t < 2 ^ 32 ∧
      t / 2 ^ 26 = k ∧ t % 2 ^ 26 = m ∧ m < 2 ^ 26 ∧ k ≤ 63 ∧ t = m + 2 ^ 26 * k := by
    intro l c h h'
    exact ⟨_, _, _, rfl, by omega, rfl, rfl, by omega, by omega, by omega⟩
  obtain ⟨t0, k0, m0, e0, b0, f0, g0, i0, j0, d0⟩ := key h0 (c := x * 0x3D1) (by omega)
  obtain ⟨t1, k1, m1, e1, b1, f1, g1, i1, j1, d1⟩ := key h1 (c := x * 64 + k0) (by omega)
  obtain ⟨t2, k2, m2, e2, b2, f2, g2, i2, j2, d2⟩ := key h2 (c := k1) (by omega)
  obtain ⟨t3, k3, m3, e3, b3, f3, g3, i3, j3, d3⟩ := key h3 (c := k2) (by omega)
  obtain ⟨t4, k4, m4, e4, b4, f4, g4, i4, j4, d4⟩ := key h4 (c := k3) (by omega)
  obtain ⟨t5, k5, m5, e5, b5, f5, g5, i5, j5, d5⟩ := key h5 (c := k4) (by omega)
  obtain ⟨t6, k6, m6, e6, b6, f6, g6, i6, j6, d6⟩ := key h6 (c := k5) (by omega)
  obtain ⟨t7, k7, m7, e7, b7, f7, g7, i7, j7, d7⟩ := key h7 (c := k6) (by omega)
  obtain ⟨t8, k8, m8, e8, b8, f8, g8, i8, j8, d8⟩ := key h8 (c := k7) (by omega)
  obtain ⟨t9, k9, m9, e9, b9, f9, g9, i9, j9, d9⟩ := key h9 (c := k8) (by omega)
  refine ⟨⟨m0, m1, m2, m3, m4, m5, m6, m7, m8, t9⟩, ?_,
    ⟨i0, i1, i2, i3, i4, i5, i6, i7, i8⟩, by simp only; omega, ?_⟩
  · rw [addModulusCorrection]
    simp only [hx', e0, f0, show a.l1 + x * 64 + k0 = t1 by omega, f1, e2, f2, e3, f3, e4, f4, e5,
      f5, e6, f6, e7, f7, e8, f8, e9, g0, g1, g2, g3, g4, g5, g6, g7, g8, check_of b0, check_of b1,
      check_of b2, check_of b3, check_of b4, check_of b5, check_of b6, check_of b7, check_of b8,
      check_of b9]
    rfl
  · simp only [val]
    clear key
    omega

theorem carried_val_lt {a : FieldElement10x26} (h : a.Carried) :
    a.val < (a.l9 + 1) * 2 ^ 234 ∧ a.l9 * 2 ^ 234 ≤ a.val := by
  obtain ⟨h0, h1, h2, h3, h4, h5, h6, h7, h8⟩ := h
  simp only [val]
  omega

theorem k256P_eq : k256P = 115792089237316195423570985008687907853269984665640564039457584007908834671663 := by
  decide +kernel

/-- Limbs that can be normalized. -/
theorem normalizeWeak_spec {a : FieldElement10x26} (ha : a.Magnitude 31) :
    ∃ r x, a.normalizeWeak = some r ∧ r.Carried ∧ r.l9 ≤ 2 ^ 22 + 62 ∧
      a.val = r.val + x * k256P := by
  obtain ⟨h0, h1, h2, h3, h4, h5, h6, h7, h8, h9⟩ := ha
  obtain ⟨r, hr, hc, h9', hv⟩ := addModulusCorrection_spec
    (a := ⟨a.l0, a.l1, a.l2, a.l3, a.l4, a.l5, a.l6, a.l7, a.l8, a.l9 % 2 ^ 22⟩)
    (x := a.l9 / 2 ^ 22) (by omega) (by simp only; omega) (by simp only; omega)
    (by simp only; omega) (by simp only; omega) (by simp only; omega) (by simp only; omega)
    (by simp only; omega) (by simp only; omega) (by simp only; omega) (by simp only; omega)
  simp only at h9'
  have h9'' : r.l9 ≤ 2 ^ 22 + 62 := by omega
  refine ⟨r, a.l9 / 2 ^ 22, ?_, hc, h9'', ?_⟩
  · simp only [normalizeWeak, subtractModulusApproximation, hr, bind, Option.bind,
      check_of (show r.l9 / 2 ^ 23 = 0 by omega)]
  · rw [hv, k256P_eq]
    simp only [val]
    omega

theorem and_eq_max {n x y : ℕ} (hx : x ≤ n) (hy : y ≤ n) : x &&& y = n ↔ x = n ∧ y = n := by
  constructor
  · intro h
    have h1 : x &&& y ≤ x := Nat.and_le_left
    have h2 : x &&& y ≤ y := Nat.and_le_right
    omega
  · rintro ⟨rfl, rfl⟩
    exact Nat.and_self _

theorem getOverflow_spec {a : FieldElement10x26} (h : a.Carried) (h9 : a.l9 < 2 ^ 23) :
    a.getOverflow = some (decide (k256P ≤ a.val)) := by
  obtain ⟨h0, h1, h2, h3, h4, h5, h6, h7, h8⟩ := h
  have hm : a.l2 &&& a.l3 &&& a.l4 &&& a.l5 &&& a.l6 &&& a.l7 &&& a.l8 = 0x3FFFFFF ↔
      a.l2 = 0x3FFFFFF ∧ a.l3 = 0x3FFFFFF ∧ a.l4 = 0x3FFFFFF ∧ a.l5 = 0x3FFFFFF ∧
      a.l6 = 0x3FFFFFF ∧ a.l7 = 0x3FFFFFF ∧ a.l8 = 0x3FFFFFF := by
    have le : ∀ {x y : ℕ}, x ≤ 0x3FFFFFF → x &&& y ≤ 0x3FFFFFF := fun h =>
      le_trans Nat.and_le_left h
    have g2 : a.l2 ≤ 0x3FFFFFF := by omega
    rw [and_eq_max (le (le (le (le (le g2))))) (by omega),
      and_eq_max (le (le (le (le g2)))) (by omega), and_eq_max (le (le (le g2))) (by omega),
      and_eq_max (le (le g2)) (by omega), and_eq_max (le g2) (by omega),
      and_eq_max g2 (by omega)]
    tauto
  simp only [getOverflow, bind, Option.bind, check_of (show a.l0 + 0x3D1 < 2 ^ 32 by omega),
    check_of (show a.l1 + 0x40 + (a.l0 + 0x3D1) / 2 ^ 26 < 2 ^ 32 by omega)]
  rw [Option.some_inj, Bool.eq_iff_iff]
  simp only [Bool.or_eq_true, bne_iff_ne, Bool.and_eq_true, beq_iff_eq, decide_eq_true_eq, hm]
  rw [k256P_eq]
  simp only [val]
  constructor
  · rintro (h | ⟨⟨h, e2, e3, e4, e5, e6, e7, e8⟩, hs⟩) <;> omega
  · intro hv
    by_cases h9' : a.l9 / 2 ^ 22 = 0
    · right
      have e9 : a.l9 = 0x3FFFFF := by omega
      have e8 : a.l8 = 0x3FFFFFF := by omega
      have e7 : a.l7 = 0x3FFFFFF := by omega
      have e6 : a.l6 = 0x3FFFFFF := by omega
      have e5 : a.l5 = 0x3FFFFFF := by omega
      have e4 : a.l4 = 0x3FFFFFF := by omega
      have e3 : a.l3 = 0x3FFFFFF := by omega
      have e2 : a.l2 = 0x3FFFFFF := by omega
      refine ⟨⟨e9, e2, e3, e4, e5, e6, e7, e8⟩, ?_⟩
      omega
    · exact Or.inl h9'

theorem normalize_spec {a : FieldElement10x26} (ha : a.Magnitude 31) :
    ∃ r, a.normalize = some r ∧ r.Normalized ∧ r.val = a.val % k256P := by
  obtain ⟨r, x, hr, hc, h9, hv⟩ := normalizeWeak_spec ha
  have ho := getOverflow_spec hc (by omega)
  obtain ⟨h0, h1, h2, h3, h4, h5, h6, h7, h8⟩ := id hc
  obtain ⟨s, hs, hsc, hs9, hsv⟩ := addModulusCorrection_spec (a := r) (x := 1) (by omega)
    (by omega) (by omega) (by omega) (by omega) (by omega) (by omega) (by omega) (by omega)
    (by omega) (by omega)
  have hp := k256P_eq
  have b1 := carried_val_lt hc
  have b2 := carried_val_lt hsc
  have hov : s.l9 / 2 ^ 22 = (decide (k256P ≤ r.val)).toNat := by
    by_cases h : k256P ≤ r.val
    · simp only [h, decide_true, Bool.toNat_true]; omega
    · simp only [h, decide_false, Bool.toNat_false]; omega
  have hmod : a.val % k256P = r.val % k256P := by rw [hv, Nat.add_mul_mod_self_right]
  obtain ⟨g0, g1, g2, g3, g4, g5, g6, g7, g8⟩ := id hsc
  refine ⟨if k256P ≤ r.val then ⟨s.l0, s.l1, s.l2, s.l3, s.l4, s.l5, s.l6, s.l7, s.l8,
    s.l9 % 2 ^ 22⟩ else r, ?_, ?_⟩
  · have hk : check (s.subtractModulusApproximation.2 = (decide (k256P ≤ r.val)).toNat) = some () :=
      check_of hov
    simp only [normalize, hr, ho, hs, bind, Option.bind, hk]
    simp only [subtractModulusApproximation, conditionalSelect, decide_eq_true_eq]
  by_cases h : k256P ≤ r.val
  · rw [if_pos h]
    have hs9' : s.l9 / 2 ^ 22 = 1 := by rw [hov]; simp [h]
    have hval : (⟨s.l0, s.l1, s.l2, s.l3, s.l4, s.l5, s.l6, s.l7, s.l8, s.l9 % 2 ^ 22⟩ :
        FieldElement10x26).val = r.val - k256P := by
      have : s.val = (⟨s.l0, s.l1, s.l2, s.l3, s.l4, s.l5, s.l6, s.l7, s.l8, s.l9 % 2 ^ 22⟩ :
        FieldElement10x26).val + 2 ^ 256 := by
        simp only [val]; omega
      omega
    have hlt : r.val - k256P < k256P := by omega
    refine ⟨⟨⟨g0, g1, g2, g3, g4, g5, g6, g7, g8, by simp only; omega⟩, by rw [hval]; exact hlt⟩, ?_⟩
    rw [hval, hmod, Nat.mod_eq_sub_mod h, Nat.mod_eq_of_lt hlt]
  · rw [if_neg h]
    refine ⟨⟨⟨h0, h1, h2, h3, h4, h5, h6, h7, h8, by omega⟩, by omega⟩, ?_⟩
    rw [hmod, Nat.mod_eq_of_lt (by omega)]

theorem xor_eq_iff {x c d : ℕ} : x ^^^ c = d ↔ x = d ^^^ c := by
  constructor
  · rintro rfl; simp
  · rintro rfl; simp

theorem or_eq_zero_iff' {x y : ℕ} : x ||| y = 0 ↔ x = 0 ∧ y = 0 := by
  simp

theorem normalizesToZero_spec {a : FieldElement10x26} (ha : a.Magnitude 31) :
    a.normalizesToZero = some (decide (a.elem = 0)) := by
  obtain ⟨r, x, hr, hc, h9, hv⟩ := normalizeWeak_spec ha
  have b1 := carried_val_lt hc
  obtain ⟨h0, h1, h2, h3, h4, h5, h6, h7, h8⟩ := id hc
  have hz : a.elem = 0 ↔ r.val = 0 ∨ r.val = k256P := by
    rw [elem, ZMod.natCast_eq_zero_iff, hv, Nat.dvd_add_left (Dvd.intro_left x rfl)]
    constructor
    · rintro ⟨k, hk⟩
      have hk2 : k < 2 := by
        by_contra hge
        have : k256P * 2 ≤ k256P * k := Nat.mul_le_mul_left _ (by omega)
        have hp := k256P_eq
        omega
      interval_cases k
      · left; omega
      · right; omega
    · rintro (h | h) <;> rw [h]
      exact dvd_zero _
  have x0 : r.l0 ^^^ 0x3D0 ≤ 0x3FFFFFF := Nat.le_of_lt_succ (Nat.xor_lt_two_pow (n := 26) h0 (by norm_num))
  have x1 : r.l1 ^^^ 0x40 ≤ 0x3FFFFFF := Nat.le_of_lt_succ (Nat.xor_lt_two_pow (n := 26) h1 (by norm_num))
  have x9 : r.l9 ^^^ 0x3C00000 ≤ 0x3FFFFFF :=
    Nat.le_of_lt_succ (Nat.xor_lt_two_pow (n := 26) (by omega) (by norm_num))
  have le : ∀ {x y : ℕ}, x ≤ 0x3FFFFFF → x &&& y ≤ 0x3FFFFFF := fun h =>
    le_trans Nat.and_le_left h
  simp only [normalizesToZero, hr, bind, Option.bind]
  rw [Option.some_inj, Bool.eq_iff_iff]
  simp only [Bool.or_eq_true, beq_iff_eq, decide_eq_true_eq, hz, Nat.or_eq_zero_iff]
  rw [and_eq_max (le (le (le (le (le (le (le (le x0)))))))) x9,
    and_eq_max (le (le (le (le (le (le (le x0))))))) (by omega),
    and_eq_max (le (le (le (le (le (le x0)))))) (by omega),
    and_eq_max (le (le (le (le (le x0))))) (by omega), and_eq_max (le (le (le (le x0)))) (by omega),
    and_eq_max (le (le (le x0))) (by omega), and_eq_max (le (le x0)) (by omega),
    and_eq_max (le x0) (by omega), and_eq_max x0 x1, xor_eq_iff, xor_eq_iff, xor_eq_iff]
  simp only [show (0x3FFFFFF ^^^ 0x3D0 : ℕ) = 0x3FFFC2F from rfl,
    show (0x3FFFFFF ^^^ 0x40 : ℕ) = 0x3FFFFBF from rfl,
    show (0x3FFFFFF ^^^ 0x3C00000 : ℕ) = 0x3FFFFF from rfl, val, k256P_eq]
  constructor
  · rintro (h | h) <;> omega
  · rintro (h | h)
    · left; omega
    · right; omega

theorem negate_spec {a : FieldElement10x26} {m : ℕ} (ha : a.Magnitude m) (hm : m ≤ 31) :
    ∃ r, a.negate m = some r ∧ r.Magnitude (m + 1) ∧ r.elem = - a.elem := by
  obtain ⟨h0, h1, h2, h3, h4, h5, h6, h7, h8, h9⟩ := ha
  have key : ∀ {x y : ℕ}, y ≤ x → x < 2 ^ 32 → sub32 x y = some (x - y) :=
    fun h h' => if_pos ⟨h, h'⟩
  simp only [negate, key (show a.l0 ≤ 0x3FFFC2F * 2 * (m + 1) by omega) (by omega),
    key (show a.l1 ≤ 0x3FFFFBF * 2 * (m + 1) by omega) (by omega),
    key (show a.l2 ≤ 0x3FFFFFF * 2 * (m + 1) by omega) (by omega),
    key (show a.l3 ≤ 0x3FFFFFF * 2 * (m + 1) by omega) (by omega),
    key (show a.l4 ≤ 0x3FFFFFF * 2 * (m + 1) by omega) (by omega),
    key (show a.l5 ≤ 0x3FFFFFF * 2 * (m + 1) by omega) (by omega),
    key (show a.l6 ≤ 0x3FFFFFF * 2 * (m + 1) by omega) (by omega),
    key (show a.l7 ≤ 0x3FFFFFF * 2 * (m + 1) by omega) (by omega),
    key (show a.l8 ≤ 0x3FFFFFF * 2 * (m + 1) by omega) (by omega),
    key (show a.l9 ≤ 0x3FFFFF * 2 * (m + 1) by omega) (by omega), bind, Option.bind]
  refine ⟨_, rfl, ?_, ?_⟩
  · simp only [Magnitude]
    omega
  · rw [eq_neg_iff_add_eq_zero, elem, elem, ← Nat.cast_add, ZMod.natCast_eq_zero_iff]
    refine ⟨2 * (m + 1), ?_⟩
    rw [k256P_eq]
    simp only [val]
    omega

theorem add_spec {a b : FieldElement10x26} {m n : ℕ} (ha : a.Magnitude m) (hb : b.Magnitude n)
    (h : m + n ≤ 32) :
    ∃ r, a.add b = some r ∧ r.Magnitude (m + n) ∧ r.elem = a.elem + b.elem := by
  obtain ⟨h0, h1, h2, h3, h4, h5, h6, h7, h8, h9⟩ := ha
  obtain ⟨g0, g1, g2, g3, g4, g5, g6, g7, g8, g9⟩ := hb
  have key : ∀ {x y : ℕ}, x + y < 2 ^ 32 → add32 x y = some (x + y) := fun h => if_pos h
  simp only [add, key (show a.l0 + b.l0 < 2 ^ 32 by omega),
    key (show a.l1 + b.l1 < 2 ^ 32 by omega), key (show a.l2 + b.l2 < 2 ^ 32 by omega),
    key (show a.l3 + b.l3 < 2 ^ 32 by omega), key (show a.l4 + b.l4 < 2 ^ 32 by omega),
    key (show a.l5 + b.l5 < 2 ^ 32 by omega), key (show a.l6 + b.l6 < 2 ^ 32 by omega),
    key (show a.l7 + b.l7 < 2 ^ 32 by omega), key (show a.l8 + b.l8 < 2 ^ 32 by omega),
    key (show a.l9 + b.l9 < 2 ^ 32 by omega), bind, Option.bind]
  refine ⟨_, rfl, ?_, ?_⟩
  · simp only [Magnitude]
    omega
  · rw [elem, elem, elem, ← Nat.cast_add]
    congr 1
    simp only [val]
    omega

theorem mulSingle_spec {a : FieldElement10x26} {m n : ℕ} (ha : a.Magnitude m) (h : m * n ≤ 32) :
    ∃ r, a.mulSingle n = some r ∧ r.Magnitude (m * n) ∧ r.elem = a.elem * n := by
  obtain ⟨h0, h1, h2, h3, h4, h5, h6, h7, h8, h9⟩ := ha
  have key : ∀ {x k : ℕ}, k ≤ 0x3FFFFFF → x ≤ 2 * m * k → mul32 x n = some (x * n) ∧
      x * n ≤ 2 * (m * n) * k := by
    intro x k hk hx
    have h1 : x * n ≤ 2 * m * k * n := Nat.mul_le_mul_right _ hx
    have h2 : 2 * m * k * n = 2 * (m * n) * k := by ring
    have h3 : 2 * (m * n) * k ≤ 2 * 32 * 0x3FFFFFF := Nat.mul_le_mul (by omega) hk
    exact ⟨if_pos (by omega), by omega⟩
  have k0 := key (k := 0x3FFFFFF) (by omega) h0
  have k1 := key (k := 0x3FFFFFF) (by omega) h1
  have k2 := key (k := 0x3FFFFFF) (by omega) h2
  have k3 := key (k := 0x3FFFFFF) (by omega) h3
  have k4 := key (k := 0x3FFFFFF) (by omega) h4
  have k5 := key (k := 0x3FFFFFF) (by omega) h5
  have k6 := key (k := 0x3FFFFFF) (by omega) h6
  have k7 := key (k := 0x3FFFFFF) (by omega) h7
  have k8 := key (k := 0x3FFFFFF) (by omega) h8
  have k9 := key (k := 0x3FFFFF) (by omega) h9
  simp only [mulSingle, k0.1, k1.1, k2.1, k3.1, k4.1, k5.1, k6.1, k7.1, k8.1, k9.1, bind,
    Option.bind]
  refine ⟨_, rfl, ⟨k0.2, k1.2, k2.2, k3.2, k4.2, k5.2, k6.2, k7.2, k8.2, k9.2⟩, ?_⟩
  rw [elem, elem, ← Nat.cast_mul]
  congr 1
  simp only [val]
  ring

theorem Magnitude.small {a : FieldElement10x26} (h : a.Magnitude 8) : a.Small := by
  simp only [Magnitude, Small] at *
  omega

theorem Product.magnitude {a : FieldElement10x26} (h : a.Product) : a.Magnitude 1 := by
  simp only [Magnitude, Product] at *
  omega

theorem Product.small {a : FieldElement10x26} (h : a.Product) : a.Small := by
  simp only [Small, Product] at *
  omega

theorem mul_spec {a b : FieldElement10x26} (ha : a.Small) (hb : b.Small) :
    ∃ r, a.mul b = some r ∧ r.Product ∧ r.elem = a.elem * b.elem := mulInner_spec ha hb

theorem pow2k_spec : ∀ (k : ℕ) {a : FieldElement10x26}, a.Small →
    ∃ r, a.pow2k k = some r ∧ r.Small ∧ (0 < k → r.Product) ∧ r.elem = a.elem ^ 2 ^ k
  | 0, a, h => ⟨a, rfl, h, by simp, by simp⟩
  | k + 1, a, h => by
    obtain ⟨s, hs, hp, he⟩ := mulInner_spec h h
    obtain ⟨r, hr, hsm, hp', he'⟩ := pow2k_spec k hp.small
    refine ⟨r, ?_, hsm, ?_, ?_⟩
    · simp only [pow2k, square, hs, bind, Option.bind, hr]
    · intro _
      cases k with
      | zero =>
        obtain rfl : s = r := by simpa [pow2k] using hr
        exact hp
      | succ k => exact hp' (by omega)
    · rw [he', he, pow_succ', ← pow_two, ← pow_mul]

theorem pow2kMul_spec {a b : FieldElement10x26} (k : ℕ) (ha : a.Small) (hb : b.Small) :
    ∃ r, a.pow2kMul k b = some r ∧ r.Product ∧ r.elem = a.elem ^ 2 ^ k * b.elem := by
  obtain ⟨s, hs, hsm, -, he⟩ := pow2k_spec k ha
  obtain ⟨r, hr, hp, he'⟩ := mul_spec hsm hb
  exact ⟨r, by simp only [pow2kMul, hs, bind, Option.bind, hr], hp, by rw [he', he]⟩

theorem powerChain_spec {a : FieldElement10x26} (ha : a.Small) :
    ∃ x2 x22 x223, a.powerChain = some (x2, x22, x223) ∧ x2.Product ∧ x22.Product ∧
      x223.Product ∧ x2.elem = a.elem ^ (2 ^ 2 - 1) ∧ x22.elem = a.elem ^ (2 ^ 22 - 1) ∧
      x223.elem = a.elem ^ (2 ^ 223 - 1) := by
  obtain ⟨x2, h2, p2, e2⟩ := pow2kMul_spec 1 ha ha
  obtain ⟨x3, h3, p3, e3⟩ := pow2kMul_spec 1 p2.small ha
  obtain ⟨x6, h6, p6, e6⟩ := pow2kMul_spec 3 p3.small p3.small
  obtain ⟨x9, h9, p9, e9⟩ := pow2kMul_spec 3 p6.small p3.small
  obtain ⟨x11, h11, p11, e11⟩ := pow2kMul_spec 2 p9.small p2.small
  obtain ⟨x22, h22, p22, e22⟩ := pow2kMul_spec 11 p11.small p11.small
  obtain ⟨x44, h44, p44, e44⟩ := pow2kMul_spec 22 p22.small p22.small
  obtain ⟨x88, h88, p88, e88⟩ := pow2kMul_spec 44 p44.small p44.small
  obtain ⟨x176, h176, p176, e176⟩ := pow2kMul_spec 88 p88.small p88.small
  obtain ⟨x220, h220, p220, e220⟩ := pow2kMul_spec 44 p176.small p44.small
  obtain ⟨x223, h223, p223, e223⟩ := pow2kMul_spec 3 p220.small p3.small
  have key : ∀ {i j k l : ℕ} {x y : ZMod k256P} (z : ZMod k256P), x = z ^ i → y = z ^ j →
      i * 2 ^ k + j = l → x ^ 2 ^ k * y = z ^ l := by
    rintro i j k l x y z rfl rfl h
    rw [← pow_mul, ← pow_add, h]
  have g1 : a.elem = a.elem ^ 1 := (pow_one _).symm
  rw [key (l := 2 ^ 2 - 1) a.elem g1 g1 (by norm_num)] at e2
  rw [key (l := 2 ^ 3 - 1) a.elem e2 g1 (by norm_num)] at e3
  rw [key (l := 2 ^ 6 - 1) a.elem e3 e3 (by norm_num)] at e6
  rw [key (l := 2 ^ 9 - 1) a.elem e6 e3 (by norm_num)] at e9
  rw [key (l := 2 ^ 11 - 1) a.elem e9 e2 (by norm_num)] at e11
  rw [key (l := 2 ^ 22 - 1) a.elem e11 e11 (by norm_num)] at e22
  rw [key (l := 2 ^ 44 - 1) a.elem e22 e22 (by norm_num)] at e44
  rw [key (l := 2 ^ 88 - 1) a.elem e44 e44 (by norm_num)] at e88
  rw [key (l := 2 ^ 176 - 1) a.elem e88 e88 (by norm_num)] at e176
  rw [key (l := 2 ^ 220 - 1) a.elem e176 e44 (by norm_num)] at e220
  rw [key (l := 2 ^ 223 - 1) a.elem e220 e3 (by norm_num)] at e223
  refine ⟨x2, x22, x223, ?_, p2, p22, p223, e2, e22, e223⟩
  simp only [powerChain, h2, h3, h6, h9, h11, h22, h44, h88, h176, h220, h223, bind, Option.bind]

theorem invert_spec {a : FieldElement10x26} (ha : a.Small) :
    ∃ r, a.invert = some r ∧ r.Product ∧ r.elem = a.elem⁻¹ := by
  obtain ⟨x2, x22, x223, h, p2, p22, p223, e2, e22, e223⟩ := powerChain_spec ha
  obtain ⟨y1, h1, q1, f1⟩ := pow2kMul_spec 23 p223.small p22.small
  obtain ⟨y2, h2, q2, f2⟩ := pow2kMul_spec 5 q1.small ha
  obtain ⟨y3, h3, q3, f3⟩ := pow2kMul_spec 3 q2.small p2.small
  obtain ⟨y4, h4, q4, f4⟩ := pow2kMul_spec 2 q3.small ha
  refine ⟨y4, ?_, q4, ?_⟩
  · simp only [invert, h, h1, h2, h3, h4, bind, Option.bind]
  · rw [f4, f3, f2, f1, e223, e22, e2]
    have : ∀ z : ZMod k256P, ((((z ^ (2 ^ 223 - 1)) ^ 2 ^ 23 * z ^ (2 ^ 22 - 1)) ^ 2 ^ 5 * z) ^ 2 ^ 3 *
        z ^ (2 ^ 2 - 1)) ^ 2 ^ 2 * z = z ^ (k256P - 2) := by
      intro z
      simp only [← pow_mul, ← pow_add, ← pow_succ]
      congr 1
    rw [this]
    by_cases h0 : a.elem = 0
    · rw [h0, inv_zero, zero_pow (by decide +kernel)]
    · apply eq_inv_of_mul_eq_one_left
      rw [← pow_succ, show k256P - 2 + 1 = k256P - 1 by decide +kernel]
      exact ZMod.pow_card_sub_one_eq_one h0

theorem sqrtCandidate_spec {a : FieldElement10x26} (ha : a.Small) :
    ∃ r, a.sqrtCandidate = some r ∧ r.Product ∧ r.elem = a.elem ^ ((k256P + 1) / 4) := by
  obtain ⟨x2, x22, x223, h, p2, p22, p223, e2, e22, e223⟩ := powerChain_spec ha
  obtain ⟨y1, h1, q1, f1⟩ := pow2kMul_spec 23 p223.small p22.small
  obtain ⟨y2, h2, q2, f2⟩ := pow2kMul_spec 6 q1.small p2.small
  obtain ⟨y3, h3, -, q3, f3⟩ := pow2k_spec 2 q2.small
  refine ⟨y3, ?_, q3 (by norm_num), ?_⟩
  · simp only [sqrtCandidate, h, h1, h2, h3, bind, Option.bind]
  · rw [f3, f2, f1, e223, e22, e2]
    simp only [← pow_mul, ← pow_add]
    congr 1

/-- The candidate is a root when there is one. -/
theorem root_of_isSquare {z : ZMod k256P} (h : IsSquare z) :
    (z ^ ((k256P + 1) / 4)) ^ 2 = z := by
  obtain ⟨y, rfl⟩ := h
  by_cases h0 : y = 0
  · subst h0
    rw [mul_zero, zero_pow (by decide +kernel), zero_pow (by norm_num)]
  · rw [← pow_mul, ← pow_two, ← pow_mul,
      show 2 * ((k256P + 1) / 4 * 2) = (k256P - 1) + 2 by decide +kernel, pow_add,
      ZMod.pow_card_sub_one_eq_one h0, one_mul]

theorem sqrt_spec {a : FieldElement10x26} (ha : a.Magnitude 8) :
    ∃ r, a.sqrtCandidate = some r ∧ r.Product ∧ (IsSquare a.elem → r.elem ^ 2 = a.elem) ∧
      (IsSquare a.elem → a.sqrt = some (some r)) ∧ (¬ IsSquare a.elem → a.sqrt = some none) := by
  obtain ⟨r, hr, hp, he⟩ := sqrtCandidate_spec ha.small
  obtain ⟨s, hs, hps, hes⟩ := mul_spec hp.small hp.small
  obtain ⟨n, hn, hmn, hen⟩ := negate_spec hps.magnitude (by norm_num)
  obtain ⟨t, ht, hmt, het⟩ := add_spec hmn ha (by norm_num)
  have hz := normalizesToZero_spec (a := t) (by simp only [Magnitude] at hmt ⊢; omega)
  have hroot : IsSquare a.elem → r.elem ^ 2 = a.elem := by
    intro h; rw [he]; exact root_of_isSquare h
  have : t.elem = 0 ↔ IsSquare a.elem := by
    rw [het, hen, hes, neg_add_eq_zero]
    constructor
    · intro h; exact ⟨r.elem, h.symm⟩
    · intro h; rw [← pow_two]; exact hroot h
  refine ⟨r, hr, hp, hroot, fun h => ?_, fun h => ?_⟩
  · rw [decide_eq_true (this.2 h)] at hz
    simp only [sqrt, hr, hs, hn, ht, hz, bind, Option.bind, if_true]
  · rw [decide_eq_false (fun h' => h (this.1 h'))] at hz
    simp only [sqrt, hr, hs, hn, ht, hz, bind, Option.bind, Bool.false_eq_true, if_false]

/-- Three has no square root, so the product of three and an element that has none has one. -/
theorem isSquare_three_mul {z : ZMod k256P} (h : ¬ IsSquare z) : IsSquare (z * 3) := by
  have h3 : ¬ IsSquare (3 : ZMod k256P) := by
    intro hs
    have h1 : (3 : ZMod k256P) ^ (k256P / 2) = 1 := by
      refine (ZMod.euler_criterion k256P ?_).1 hs
      have : ((3 : ℕ) : ZMod k256P) ≠ 0 := by
        rw [Ne, ZMod.natCast_eq_zero_iff]; decide +kernel
      exact_mod_cast this
    have h2 : ((3 : ℕ) : ZMod k256P) ^ (k256P / 2) = ((powModFuel k256P 260 3 (k256P / 2) : ℕ) : ZMod k256P) :=
      powModFuel_pow (by decide +kernel) rfl
    refine zmod_ne_one (n := k256P) (v := powModFuel k256P 260 3 (k256P / 2)) (by decide +kernel)
      (by decide +kernel) (by decide +kernel) ?_
    rw [← h2]
    exact_mod_cast h1
  have hz0 : z ≠ 0 := by rintro rfl; exact h ⟨0, by simp⟩
  have h30 : (3 : ZMod k256P) ≠ 0 := by intro h0; rw [h0] at h3; exact h3 ⟨0, by simp⟩
  rw [ZMod.euler_criterion k256P hz0] at h
  rw [ZMod.euler_criterion k256P h30] at h3
  rw [ZMod.euler_criterion k256P (mul_ne_zero hz0 h30), mul_pow]
  have e1 := (ZMod.pow_div_two_eq_neg_one_or_one k256P hz0).resolve_left h
  have e2 := (ZMod.pow_div_two_eq_neg_one_or_one k256P h30).resolve_left h3
  rw [e1, e2]; ring

end FieldElement10x26

end Verif
