import Mathlib.Tactic.LinearCombination
import Mathlib.Tactic.Ring
import Verif.Proofs.K256Prime

/-!
# The arithmetic of the k256 field element
-/

namespace Verif

namespace FieldElement10x26

theorem check_of {P : Prop} [Decidable P] (h : P) : check P = some () := if_pos h

theorem mulColumn_spec {c d pc pd cb db db' cb' cb'' : ℕ} (hc : c + pc < cb) (hd : d + pd < db)
    (h1 : db ≤ 2 ^ 26 * db') (h2 : cb + (2 ^ 26 - 1) * 0x3D10 ≤ cb')
    (h3 : (cb' - 1) / 2 ^ 26 + (2 ^ 26 - 1) * 0x400 < cb'') :
    ∃ u t c' d' : ℕ, mulColumn c d pc pd cb db db' cb' cb'' = some (t, c', d') ∧
      t < 2 ^ 26 ∧ c' < cb'' ∧ d' < db' ∧ d + pd = u + 2 ^ 26 * d' ∧
      c + pc + 0x3D10 * u + 2 ^ 26 * 0x400 * u = t + 2 ^ 26 * c' := by
  refine ⟨(d + pd) % 2 ^ 26, (c + pc + (d + pd) % 2 ^ 26 * 0x3D10) % 2 ^ 26,
    (c + pc + (d + pd) % 2 ^ 26 * 0x3D10) / 2 ^ 26 + (d + pd) % 2 ^ 26 * 0x400,
    (d + pd) / 2 ^ 26, ?_, ?_, ?_, ?_, ?_, ?_⟩
  · have a1 : (d + pd) / 2 ^ 26 < db' := by omega
    have a2 : c + pc + (d + pd) % 2 ^ 26 * 0x3D10 < cb' := by omega
    have a3 : (c + pc + (d + pd) % 2 ^ 26 * 0x3D10) / 2 ^ 26 + (d + pd) % 2 ^ 26 * 0x400 < cb'' := by
      have : (d + pd) % 2 ^ 26 ≤ 2 ^ 26 - 1 := by omega
      omega
    simp only [mulColumn, check_of hc, check_of hd, check_of a1, check_of a2, check_of a3]
    rfl
  all_goals omega

theorem mulFinish_spec {c d t0 t1 t2 r3 r4 r5 r6 r7 r8 t9 : ℕ} (hc : c < 2 ^ 39)
    (hd : d < 2 ^ 31) (h0 : t0 < 2 ^ 26) (h1 : t1 < 2 ^ 26) (h2 : t2 < 2 ^ 26) (h9 : t9 < 2 ^ 26) :
    ∃ e f r0 r1 r2 r9 : ℕ, mulFinish c d t0 t1 t2 r3 r4 r5 r6 r7 r8 t9 =
        some ⟨r0, r1, r2, r3, r4, r5, r6, r7, r8, r9⟩ ∧
      r0 < 2 ^ 26 ∧ r1 < 2 ^ 26 ∧ r2 < 2 ^ 26 + 2 ^ 25 + 2 ^ 6 ∧ r9 < 2 ^ 22 ∧
      c + d * 0x3D10 + t9 + 2 ^ 36 * d = r9 + 2 ^ 22 * e ∧
      e * 0x3D1 + t0 = r0 + 2 ^ 26 * f ∧
      f + e * 0x40 + t1 + 2 ^ 26 * t2 = r1 + 2 ^ 26 * r2 := by
  have a1 : c + d * 0x3D10 + t9 < 2 ^ 45 := by omega
  have hd' : d % 2 ^ 32 = d := Nat.mod_eq_of_lt (by omega)
  obtain ⟨x, hx⟩ : ∃ x, c + d * 0x3D10 + t9 = x := ⟨_, rfl⟩
  have hx' : x < 2 ^ 45 := hx ▸ a1
  obtain ⟨e, he⟩ : ∃ e, x / 2 ^ 22 + d * (0x400 * 16) = e := ⟨_, rfl⟩
  have a2 : e ≤ 2 ^ 45 + 2 ^ 23 := by omega
  obtain ⟨y, hy⟩ : ∃ y, e * 0x3D1 + t0 = y := ⟨_, rfl⟩
  have a3 : y < 2 ^ 56 := by omega
  obtain ⟨f, hf⟩ : ∃ f, y / 2 ^ 26 = f := ⟨_, rfl⟩
  have a4 : f < 2 ^ 30 := by omega
  have a5 : f % 2 ^ 32 = f := Nat.mod_eq_of_lt (by omega)
  obtain ⟨z, hz⟩ : ∃ z, f + e * 0x40 + t1 = z := ⟨_, rfl⟩
  have a6 : z ≤ 0x10000003FFFFBF := by omega
  obtain ⟨g, hg⟩ : ∃ g, z / 2 ^ 26 = g := ⟨_, rfl⟩
  have a7 : g ≤ 0x4000000 := by omega
  have a8 : g % 2 ^ 32 = g := Nat.mod_eq_of_lt (by omega)
  have a9 : (g + t2) % 2 ^ 32 = g + t2 := Nat.mod_eq_of_lt (by omega)
  refine ⟨e, f, y % 2 ^ 26, z % 2 ^ 26, g + t2, x % 2 ^ 22, ?_, ?_, ?_, ?_, ?_, ?_, ?_, ?_⟩
  · simp only [mulFinish, hd', hx, he, hy, hf, a5, hz, hg, a8, a9, check_of hx',
      check_of (show e < 2 ^ 46 by omega), check_of a3, check_of a4,
      check_of (show z < 2 ^ 53 by omega), check_of a6, check_of (show g < 2 ^ 27 by omega),
      check_of a7, check_of (show g + t2 < 2 ^ 27 by omega)]
    rfl
  all_goals omega

/-- Limbs as `mul_inner` expects them. -/
def Small (a : FieldElement10x26) : Prop :=
  a.l0 < 2 ^ 30 ∧ a.l1 < 2 ^ 30 ∧ a.l2 < 2 ^ 30 ∧ a.l3 < 2 ^ 30 ∧ a.l4 < 2 ^ 30 ∧
  a.l5 < 2 ^ 30 ∧ a.l6 < 2 ^ 30 ∧ a.l7 < 2 ^ 30 ∧ a.l8 < 2 ^ 30 ∧ a.l9 < 2 ^ 26

theorem mul_le_bound {x y m n : ℕ} (hx : x < m) (hy : y < n) : x * y ≤ (m - 1) * (n - 1) :=
  Nat.mul_le_mul (by omega) (by omega)

/-- The limbs of a product. -/
def Product (r : FieldElement10x26) : Prop :=
  r.l0 < 2 ^ 26 ∧ r.l1 < 2 ^ 26 ∧ r.l2 < 2 ^ 26 + 2 ^ 25 + 2 ^ 6 ∧ r.l3 < 2 ^ 26 ∧ r.l4 < 2 ^ 26 ∧
  r.l5 < 2 ^ 26 ∧ r.l6 < 2 ^ 26 ∧ r.l7 < 2 ^ 26 ∧ r.l8 < 2 ^ 26 ∧ r.l9 < 2 ^ 22

/-- What 2^260 and 2^256 are in the field. -/
theorem base_pow : ((2 ^ 26 : ℕ) : ZMod k256P) ^ 10 = 0x3D10 + 0x400 * ((2 ^ 26 : ℕ) : ZMod k256P) ∧
    2 ^ 22 * ((2 ^ 26 : ℕ) : ZMod k256P) ^ 9 = 0x3D1 + 0x40 * ((2 ^ 26 : ℕ) : ZMod k256P) := by
  constructor
  · have : (((2 ^ 26) ^ 10 : ℕ) : ZMod k256P) = ((0x3D10 + 0x400 * 2 ^ 26 : ℕ) : ZMod k256P) := by
      rw [ZMod.natCast_eq_natCast_iff']; decide +kernel
    exact_mod_cast this
  · have : ((2 ^ 22 * (2 ^ 26) ^ 9 : ℕ) : ZMod k256P) = ((0x3D1 + 0x40 * 2 ^ 26 : ℕ) : ZMod k256P) := by
      rw [ZMod.natCast_eq_natCast_iff']; decide +kernel
    exact_mod_cast this

/-- The value in terms of the powers of the base. -/
theorem elem_eq (a : FieldElement10x26) : a.elem =
    a.l0 + a.l1 * ((2 ^ 26 : ℕ) : ZMod k256P) + a.l2 * ((2 ^ 26 : ℕ) : ZMod k256P) ^ 2 +
    a.l3 * ((2 ^ 26 : ℕ) : ZMod k256P) ^ 3 + a.l4 * ((2 ^ 26 : ℕ) : ZMod k256P) ^ 4 +
    a.l5 * ((2 ^ 26 : ℕ) : ZMod k256P) ^ 5 + a.l6 * ((2 ^ 26 : ℕ) : ZMod k256P) ^ 6 +
    a.l7 * ((2 ^ 26 : ℕ) : ZMod k256P) ^ 7 + a.l8 * ((2 ^ 26 : ℕ) : ZMod k256P) ^ 8 +
    a.l9 * ((2 ^ 26 : ℕ) : ZMod k256P) ^ 9 := by
  have : a.val = a.l0 + a.l1 * (2 ^ 26) + a.l2 * (2 ^ 26) ^ 2 + a.l3 * (2 ^ 26) ^ 3 +
      a.l4 * (2 ^ 26) ^ 4 + a.l5 * (2 ^ 26) ^ 5 + a.l6 * (2 ^ 26) ^ 6 + a.l7 * (2 ^ 26) ^ 7 +
      a.l8 * (2 ^ 26) ^ 8 + a.l9 * (2 ^ 26) ^ 9 := by
    simp only [val, ← pow_mul]
  rw [elem, this]
  generalize (2 ^ 26 : ℕ) = B
  push_cast
  rfl

theorem mulInner_spec {a b : FieldElement10x26} (ha : a.Small) (hb : b.Small) :
    ∃ r, a.mulInner b = some r ∧ r.Product ∧ r.elem = a.elem * b.elem := by
  obtain ⟨ha0, ha1, ha2, ha3, ha4, ha5, ha6, ha7, ha8, ha9⟩ := ha
  obtain ⟨hb0, hb1, hb2, hb3, hb4, hb5, hb6, hb7, hb8, hb9⟩ := hb
  have p0 : a.l0 * b.l0 ≤
      1152921502459363329 := by
    have m0 := mul_le_bound ha0 hb0
    omega
  have p1 : a.l0 * b.l1 + a.l1 * b.l0 ≤
      2305843004918726658 := by
    have m0 := mul_le_bound ha0 hb1
    have m1 := mul_le_bound ha1 hb0
    omega
  have p2 : a.l0 * b.l2 + a.l1 * b.l1 + a.l2 * b.l0 ≤
      3458764507378089987 := by
    have m0 := mul_le_bound ha0 hb2
    have m1 := mul_le_bound ha1 hb1
    have m2 := mul_le_bound ha2 hb0
    omega
  have p3 : a.l0 * b.l3 + a.l1 * b.l2 + a.l2 * b.l1 + a.l3 * b.l0 ≤
      4611686009837453316 := by
    have m0 := mul_le_bound ha0 hb3
    have m1 := mul_le_bound ha1 hb2
    have m2 := mul_le_bound ha2 hb1
    have m3 := mul_le_bound ha3 hb0
    omega
  have p4 : a.l0 * b.l4 + a.l1 * b.l3 + a.l2 * b.l2 + a.l3 * b.l1 + a.l4 * b.l0 ≤
      5764607512296816645 := by
    have m0 := mul_le_bound ha0 hb4
    have m1 := mul_le_bound ha1 hb3
    have m2 := mul_le_bound ha2 hb2
    have m3 := mul_le_bound ha3 hb1
    have m4 := mul_le_bound ha4 hb0
    omega
  have p5 : a.l0 * b.l5 + a.l1 * b.l4 + a.l2 * b.l3 + a.l3 * b.l2 + a.l4 * b.l1 +
      a.l5 * b.l0 ≤
      6917529014756179974 := by
    have m0 := mul_le_bound ha0 hb5
    have m1 := mul_le_bound ha1 hb4
    have m2 := mul_le_bound ha2 hb3
    have m3 := mul_le_bound ha3 hb2
    have m4 := mul_le_bound ha4 hb1
    have m5 := mul_le_bound ha5 hb0
    omega
  have p6 : a.l0 * b.l6 + a.l1 * b.l5 + a.l2 * b.l4 + a.l3 * b.l3 + a.l4 * b.l2 +
      a.l5 * b.l1 + a.l6 * b.l0 ≤
      8070450517215543303 := by
    have m0 := mul_le_bound ha0 hb6
    have m1 := mul_le_bound ha1 hb5
    have m2 := mul_le_bound ha2 hb4
    have m3 := mul_le_bound ha3 hb3
    have m4 := mul_le_bound ha4 hb2
    have m5 := mul_le_bound ha5 hb1
    have m6 := mul_le_bound ha6 hb0
    omega
  have p7 : a.l0 * b.l7 + a.l1 * b.l6 + a.l2 * b.l5 + a.l3 * b.l4 + a.l4 * b.l3 +
      a.l5 * b.l2 + a.l6 * b.l1 + a.l7 * b.l0 ≤
      9223372019674906632 := by
    have m0 := mul_le_bound ha0 hb7
    have m1 := mul_le_bound ha1 hb6
    have m2 := mul_le_bound ha2 hb5
    have m3 := mul_le_bound ha3 hb4
    have m4 := mul_le_bound ha4 hb3
    have m5 := mul_le_bound ha5 hb2
    have m6 := mul_le_bound ha6 hb1
    have m7 := mul_le_bound ha7 hb0
    omega
  have p8 : a.l0 * b.l8 + a.l1 * b.l7 + a.l2 * b.l6 + a.l3 * b.l5 + a.l4 * b.l4 +
      a.l5 * b.l3 + a.l6 * b.l2 + a.l7 * b.l1 + a.l8 * b.l0 ≤
      10376293522134269961 := by
    have m0 := mul_le_bound ha0 hb8
    have m1 := mul_le_bound ha1 hb7
    have m2 := mul_le_bound ha2 hb6
    have m3 := mul_le_bound ha3 hb5
    have m4 := mul_le_bound ha4 hb4
    have m5 := mul_le_bound ha5 hb3
    have m6 := mul_le_bound ha6 hb2
    have m7 := mul_le_bound ha7 hb1
    have m8 := mul_le_bound ha8 hb0
    omega
  have p9 : a.l0 * b.l9 + a.l1 * b.l8 + a.l2 * b.l7 + a.l3 * b.l6 + a.l4 * b.l5 +
      a.l5 * b.l4 + a.l6 * b.l3 + a.l7 * b.l2 + a.l8 * b.l1 + a.l9 * b.l0 ≤
      9367487205469061130 := by
    have m0 := mul_le_bound ha0 hb9
    have m1 := mul_le_bound ha1 hb8
    have m2 := mul_le_bound ha2 hb7
    have m3 := mul_le_bound ha3 hb6
    have m4 := mul_le_bound ha4 hb5
    have m5 := mul_le_bound ha5 hb4
    have m6 := mul_le_bound ha6 hb3
    have m7 := mul_le_bound ha7 hb2
    have m8 := mul_le_bound ha8 hb1
    have m9 := mul_le_bound ha9 hb0
    omega
  have p10 : a.l1 * b.l9 + a.l2 * b.l8 + a.l3 * b.l7 + a.l4 * b.l6 + a.l5 * b.l5 +
      a.l6 * b.l4 + a.l7 * b.l3 + a.l8 * b.l2 + a.l9 * b.l1 ≤
      8214565703009697801 := by
    have m1 := mul_le_bound ha1 hb9
    have m2 := mul_le_bound ha2 hb8
    have m3 := mul_le_bound ha3 hb7
    have m4 := mul_le_bound ha4 hb6
    have m5 := mul_le_bound ha5 hb5
    have m6 := mul_le_bound ha6 hb4
    have m7 := mul_le_bound ha7 hb3
    have m8 := mul_le_bound ha8 hb2
    have m9 := mul_le_bound ha9 hb1
    omega
  have p11 : a.l2 * b.l9 + a.l3 * b.l8 + a.l4 * b.l7 + a.l5 * b.l6 + a.l6 * b.l5 +
      a.l7 * b.l4 + a.l8 * b.l3 + a.l9 * b.l2 ≤
      7061644200550334472 := by
    have m2 := mul_le_bound ha2 hb9
    have m3 := mul_le_bound ha3 hb8
    have m4 := mul_le_bound ha4 hb7
    have m5 := mul_le_bound ha5 hb6
    have m6 := mul_le_bound ha6 hb5
    have m7 := mul_le_bound ha7 hb4
    have m8 := mul_le_bound ha8 hb3
    have m9 := mul_le_bound ha9 hb2
    omega
  have p12 : a.l3 * b.l9 + a.l4 * b.l8 + a.l5 * b.l7 + a.l6 * b.l6 + a.l7 * b.l5 +
      a.l8 * b.l4 + a.l9 * b.l3 ≤
      5908722698090971143 := by
    have m3 := mul_le_bound ha3 hb9
    have m4 := mul_le_bound ha4 hb8
    have m5 := mul_le_bound ha5 hb7
    have m6 := mul_le_bound ha6 hb6
    have m7 := mul_le_bound ha7 hb5
    have m8 := mul_le_bound ha8 hb4
    have m9 := mul_le_bound ha9 hb3
    omega
  have p13 : a.l4 * b.l9 + a.l5 * b.l8 + a.l6 * b.l7 + a.l7 * b.l6 + a.l8 * b.l5 +
      a.l9 * b.l4 ≤
      4755801195631607814 := by
    have m4 := mul_le_bound ha4 hb9
    have m5 := mul_le_bound ha5 hb8
    have m6 := mul_le_bound ha6 hb7
    have m7 := mul_le_bound ha7 hb6
    have m8 := mul_le_bound ha8 hb5
    have m9 := mul_le_bound ha9 hb4
    omega
  have p14 : a.l5 * b.l9 + a.l6 * b.l8 + a.l7 * b.l7 + a.l8 * b.l6 + a.l9 * b.l5 ≤
      3602879693172244485 := by
    have m5 := mul_le_bound ha5 hb9
    have m6 := mul_le_bound ha6 hb8
    have m7 := mul_le_bound ha7 hb7
    have m8 := mul_le_bound ha8 hb6
    have m9 := mul_le_bound ha9 hb5
    omega
  have p15 : a.l6 * b.l9 + a.l7 * b.l8 + a.l8 * b.l7 + a.l9 * b.l6 ≤
      2449958190712881156 := by
    have m6 := mul_le_bound ha6 hb9
    have m7 := mul_le_bound ha7 hb8
    have m8 := mul_le_bound ha8 hb7
    have m9 := mul_le_bound ha9 hb6
    omega
  have p16 : a.l7 * b.l9 + a.l8 * b.l8 + a.l9 * b.l7 ≤
      1297036688253517827 := by
    have m7 := mul_le_bound ha7 hb9
    have m8 := mul_le_bound ha8 hb8
    have m9 := mul_le_bound ha9 hb7
    omega
  have p17 : a.l8 * b.l9 + a.l9 * b.l8 ≤
      144115185794154498 := by
    have m8 := mul_le_bound ha8 hb9
    have m9 := mul_le_bound ha9 hb8
    omega
  have p18 : a.l9 * b.l9 ≤
      4503599493152769 := by
    have m9 := mul_le_bound ha9 hb9
    omega
  obtain ⟨q0, e0⟩ : ∃ q : ℕ, a.l0 * b.l0 = q :=
    ⟨_, rfl⟩
  rw [e0] at p0
  obtain ⟨q1, e1⟩ : ∃ q : ℕ, a.l0 * b.l1 + a.l1 * b.l0 = q :=
    ⟨_, rfl⟩
  rw [e1] at p1
  obtain ⟨q2, e2⟩ : ∃ q : ℕ, a.l0 * b.l2 + a.l1 * b.l1 + a.l2 * b.l0 = q :=
    ⟨_, rfl⟩
  rw [e2] at p2
  obtain ⟨q3, e3⟩ : ∃ q : ℕ, a.l0 * b.l3 + a.l1 * b.l2 + a.l2 * b.l1 + a.l3 * b.l0 = q :=
    ⟨_, rfl⟩
  rw [e3] at p3
  obtain ⟨q4, e4⟩ : ∃ q : ℕ, a.l0 * b.l4 + a.l1 * b.l3 + a.l2 * b.l2 + a.l3 * b.l1 +
      a.l4 * b.l0 = q :=
    ⟨_, rfl⟩
  rw [e4] at p4
  obtain ⟨q5, e5⟩ : ∃ q : ℕ, a.l0 * b.l5 + a.l1 * b.l4 + a.l2 * b.l3 + a.l3 * b.l2 +
      a.l4 * b.l1 + a.l5 * b.l0 = q :=
    ⟨_, rfl⟩
  rw [e5] at p5
  obtain ⟨q6, e6⟩ : ∃ q : ℕ, a.l0 * b.l6 + a.l1 * b.l5 + a.l2 * b.l4 + a.l3 * b.l3 +
      a.l4 * b.l2 + a.l5 * b.l1 + a.l6 * b.l0 = q :=
    ⟨_, rfl⟩
  rw [e6] at p6
  obtain ⟨q7, e7⟩ : ∃ q : ℕ, a.l0 * b.l7 + a.l1 * b.l6 + a.l2 * b.l5 + a.l3 * b.l4 +
      a.l4 * b.l3 + a.l5 * b.l2 + a.l6 * b.l1 + a.l7 * b.l0 = q :=
    ⟨_, rfl⟩
  rw [e7] at p7
  obtain ⟨q8, e8⟩ : ∃ q : ℕ, a.l0 * b.l8 + a.l1 * b.l7 + a.l2 * b.l6 + a.l3 * b.l5 +
      a.l4 * b.l4 + a.l5 * b.l3 + a.l6 * b.l2 + a.l7 * b.l1 + a.l8 * b.l0 = q :=
    ⟨_, rfl⟩
  rw [e8] at p8
  obtain ⟨q9, e9⟩ : ∃ q : ℕ, a.l0 * b.l9 + a.l1 * b.l8 + a.l2 * b.l7 + a.l3 * b.l6 +
      a.l4 * b.l5 + a.l5 * b.l4 + a.l6 * b.l3 + a.l7 * b.l2 + a.l8 * b.l1 + a.l9 * b.l0 = q :=
    ⟨_, rfl⟩
  rw [e9] at p9
  obtain ⟨q10, e10⟩ : ∃ q : ℕ, a.l1 * b.l9 + a.l2 * b.l8 + a.l3 * b.l7 + a.l4 * b.l6 +
      a.l5 * b.l5 + a.l6 * b.l4 + a.l7 * b.l3 + a.l8 * b.l2 + a.l9 * b.l1 = q :=
    ⟨_, rfl⟩
  rw [e10] at p10
  obtain ⟨q11, e11⟩ : ∃ q : ℕ, a.l2 * b.l9 + a.l3 * b.l8 + a.l4 * b.l7 + a.l5 * b.l6 +
      a.l6 * b.l5 + a.l7 * b.l4 + a.l8 * b.l3 + a.l9 * b.l2 = q :=
    ⟨_, rfl⟩
  rw [e11] at p11
  obtain ⟨q12, e12⟩ : ∃ q : ℕ, a.l3 * b.l9 + a.l4 * b.l8 + a.l5 * b.l7 + a.l6 * b.l6 +
      a.l7 * b.l5 + a.l8 * b.l4 + a.l9 * b.l3 = q :=
    ⟨_, rfl⟩
  rw [e12] at p12
  obtain ⟨q13, e13⟩ : ∃ q : ℕ, a.l4 * b.l9 + a.l5 * b.l8 + a.l6 * b.l7 + a.l7 * b.l6 +
      a.l8 * b.l5 + a.l9 * b.l4 = q :=
    ⟨_, rfl⟩
  rw [e13] at p13
  obtain ⟨q14, e14⟩ : ∃ q : ℕ, a.l5 * b.l9 + a.l6 * b.l8 + a.l7 * b.l7 + a.l8 * b.l6 +
      a.l9 * b.l5 = q :=
    ⟨_, rfl⟩
  rw [e14] at p14
  obtain ⟨q15, e15⟩ : ∃ q : ℕ, a.l6 * b.l9 + a.l7 * b.l8 + a.l8 * b.l7 + a.l9 * b.l6 = q :=
    ⟨_, rfl⟩
  rw [e15] at p15
  obtain ⟨q16, e16⟩ : ∃ q : ℕ, a.l7 * b.l9 + a.l8 * b.l8 + a.l9 * b.l7 = q :=
    ⟨_, rfl⟩
  rw [e16] at p16
  obtain ⟨q17, e17⟩ : ∃ q : ℕ, a.l8 * b.l9 + a.l9 * b.l8 = q :=
    ⟨_, rfl⟩
  rw [e17] at p17
  obtain ⟨q18, e18⟩ : ∃ q : ℕ, a.l9 * b.l9 = q :=
    ⟨_, rfl⟩
  rw [e18] at p18
  obtain ⟨d, hd⟩ : ∃ d : ℕ, q9 / 2 ^ 26 = d := ⟨_, rfl⟩
  obtain ⟨t9, ht9⟩ : ∃ t : ℕ, q9 % 2 ^ 26 = t := ⟨_, rfl⟩
  have hq9 : q9 = t9 + 2 ^ 26 * d := by omega
  have hdb : d < 2 ^ 38 := by omega
  have ht9b : t9 < 2 ^ 26 := by omega
  obtain ⟨u0, t0, c0, d0, hs0, ht0, hc0, hd0', hD0, hC0⟩ :=
    mulColumn_spec (c := 0) (d := d) (pc := q0) (pd := q10)
      (cb := 2 ^ 60) (db := 2 ^ 63) (db' := 2 ^ 37) (cb' := 2 ^ 61) (cb'' := 2 ^ 37)
      (by clear * - p0; omega)
      (by clear * - p10 hdb; omega)
      (by norm_num) (by norm_num) (by norm_num)
  obtain ⟨u1, t1, c1, d1, hs1, ht1, hc1, hd1', hD1, hC1⟩ :=
    mulColumn_spec (c := c0) (d := d0) (pc := q1) (pd := q11)
      (cb := 2 ^ 62) (db := 2 ^ 63) (db' := 2 ^ 37) (cb' := 2 ^ 63) (cb'' := 2 ^ 38)
      (by clear * - p1 hc0; omega)
      (by clear * - p11 hd0'; omega)
      (by norm_num) (by norm_num) (by norm_num)
  obtain ⟨u2, t2, c2, d2, hs2, ht2, hc2, hd2', hD2, hC2⟩ :=
    mulColumn_spec (c := c1) (d := d1) (pc := q2) (pd := q12)
      (cb := 2 ^ 62) (db := 2 ^ 63) (db' := 2 ^ 37) (cb' := 2 ^ 63) (cb'' := 2 ^ 38)
      (by clear * - p2 hc1; omega)
      (by clear * - p12 hd1'; omega)
      (by norm_num) (by norm_num) (by norm_num)
  obtain ⟨u3, t3, c3, d3, hs3, ht3, hc3, hd3', hD3, hC3⟩ :=
    mulColumn_spec (c := c2) (d := d2) (pc := q3) (pd := q13)
      (cb := 2 ^ 63) (db := 2 ^ 63) (db' := 2 ^ 37) (cb' := 2 ^ 64) (cb'' := 2 ^ 39)
      (by clear * - p3 hc2; omega)
      (by clear * - p13 hd2'; omega)
      (by norm_num) (by norm_num) (by norm_num)
  obtain ⟨u4, t4, c4, d4, hs4, ht4, hc4, hd4', hD4, hC4⟩ :=
    mulColumn_spec (c := c3) (d := d3) (pc := q4) (pd := q14)
      (cb := 2 ^ 63) (db := 2 ^ 62) (db' := 2 ^ 36) (cb' := 2 ^ 64) (cb'' := 2 ^ 39)
      (by clear * - p4 hc3; omega)
      (by clear * - p14 hd3'; omega)
      (by norm_num) (by norm_num) (by norm_num)
  obtain ⟨u5, t5, c5, d5, hs5, ht5, hc5, hd5', hD5, hC5⟩ :=
    mulColumn_spec (c := c4) (d := d4) (pc := q5) (pd := q15)
      (cb := 2 ^ 63) (db := 2 ^ 62) (db' := 2 ^ 36) (cb' := 2 ^ 64) (cb'' := 2 ^ 39)
      (by clear * - p5 hc4; omega)
      (by clear * - p15 hd4'; omega)
      (by norm_num) (by norm_num) (by norm_num)
  obtain ⟨u6, t6, c6, d6, hs6, ht6, hc6, hd6', hD6, hC6⟩ :=
    mulColumn_spec (c := c5) (d := d5) (pc := q6) (pd := q16)
      (cb := 2 ^ 63) (db := 2 ^ 61) (db' := 2 ^ 35) (cb' := 2 ^ 64) (cb'' := 2 ^ 39)
      (by clear * - p6 hc5; omega)
      (by clear * - p16 hd5'; omega)
      (by norm_num) (by norm_num) (by norm_num)
  obtain ⟨u7, t7, c7, d7, hs7, ht7, hc7, hd7', hD7, hC7⟩ :=
    mulColumn_spec (c := c6) (d := d6) (pc := q7) (pd := q17)
      (cb := 0x8000007C00000007 + 1) (db := 2 ^ 58) (db' := 2 ^ 32) (cb' := 0x800001703FFFC2F7 + 1) (cb'' := 2 ^ 38)
      (by clear * - p7 hc6; omega)
      (by clear * - p17 hd6'; omega)
      (by norm_num) (by norm_num) (by norm_num)
  have hd7 : d7 % 2 ^ 32 = d7 := Nat.mod_eq_of_lt hd7'
  obtain ⟨u8, t8, c8, d8, hs8, ht8, hc8, hd8', hD8, hC8⟩ :=
    mulColumn_spec (c := c7) (d := d7) (pc := q8) (pd := q18)
      (cb := 0x9000007B80000008 + 1) (db := 2 ^ 57) (db' := 2 ^ 31) (cb' := 0x9000016FBFFFC2F8 + 1) (cb'' := 2 ^ 39)
      (by clear * - p8 hc7; omega)
      (by clear * - p18 hd7'; omega)
      (by norm_num) (by norm_num) (by norm_num)
  obtain ⟨e, f, r0, r1, r2, r9, hs, hr0, hr1, hr2, hr9, hE, hF, hG⟩ :=
    mulFinish_spec (r3 := t3) (r4 := t4) (r5 := t5) (r6 := t6) (r7 := t7) (r8 := t8)
      hc8 hd8' ht0 ht1 ht2 ht9b
  refine ⟨⟨r0, r1, r2, t3, t4, t5, t6, t7, t8, r9⟩, ?_, ⟨hr0, hr1, hr2, ht3, ht4, ht5, ht6, ht7, ht8, hr9⟩, ?_⟩
  · rw [mulInner]
    simp only [e0, e1, e2, e3, e4, e5, e6, e7, e8, e9, e10, e11, e12, e13, e14, e15, e16, e17, e18,
      ht9, hd,
      check_of (show q9 < 2 ^ 64 by omega), check_of hdb, bind, Option.bind, hd7,
      hs0, hs1, hs2, hs3, hs4, hs5, hs6, hs7, hs8]
    exact hs
  · rw [elem_eq, elem_eq a, elem_eq b]
    obtain ⟨hB, hB'⟩ := base_pow
    replace hE : c8 + d8 * 0x3D10 + t9 + 0x400 * 2 ^ 26 * d8 = r9 + 2 ^ 22 * e := by omega
    have hB0 : (2 ^ 26 : ℕ) = 2 ^ 26 := rfl
    generalize hBB : (2 ^ 26 : ℕ) = B at hq9 hD0 hC0 hD1 hC1 hD2 hC2 hD3 hC3 hD4 hC4 hD5 hC5 hD6 hC6 hD7 hC7 hD8 hC8 hE hF hG hB hB' ⊢
    replace e0 := congrArg (Nat.cast (R := ZMod k256P)) e0
    replace e1 := congrArg (Nat.cast (R := ZMod k256P)) e1
    replace e2 := congrArg (Nat.cast (R := ZMod k256P)) e2
    replace e3 := congrArg (Nat.cast (R := ZMod k256P)) e3
    replace e4 := congrArg (Nat.cast (R := ZMod k256P)) e4
    replace e5 := congrArg (Nat.cast (R := ZMod k256P)) e5
    replace e6 := congrArg (Nat.cast (R := ZMod k256P)) e6
    replace e7 := congrArg (Nat.cast (R := ZMod k256P)) e7
    replace e8 := congrArg (Nat.cast (R := ZMod k256P)) e8
    replace e9 := congrArg (Nat.cast (R := ZMod k256P)) e9
    replace e10 := congrArg (Nat.cast (R := ZMod k256P)) e10
    replace e11 := congrArg (Nat.cast (R := ZMod k256P)) e11
    replace e12 := congrArg (Nat.cast (R := ZMod k256P)) e12
    replace e13 := congrArg (Nat.cast (R := ZMod k256P)) e13
    replace e14 := congrArg (Nat.cast (R := ZMod k256P)) e14
    replace e15 := congrArg (Nat.cast (R := ZMod k256P)) e15
    replace e16 := congrArg (Nat.cast (R := ZMod k256P)) e16
    replace e17 := congrArg (Nat.cast (R := ZMod k256P)) e17
    replace e18 := congrArg (Nat.cast (R := ZMod k256P)) e18
    replace hq9 := congrArg (Nat.cast (R := ZMod k256P)) hq9
    replace hD0 := congrArg (Nat.cast (R := ZMod k256P)) hD0
    replace hC0 := congrArg (Nat.cast (R := ZMod k256P)) hC0
    replace hD1 := congrArg (Nat.cast (R := ZMod k256P)) hD1
    replace hC1 := congrArg (Nat.cast (R := ZMod k256P)) hC1
    replace hD2 := congrArg (Nat.cast (R := ZMod k256P)) hD2
    replace hC2 := congrArg (Nat.cast (R := ZMod k256P)) hC2
    replace hD3 := congrArg (Nat.cast (R := ZMod k256P)) hD3
    replace hC3 := congrArg (Nat.cast (R := ZMod k256P)) hC3
    replace hD4 := congrArg (Nat.cast (R := ZMod k256P)) hD4
    replace hC4 := congrArg (Nat.cast (R := ZMod k256P)) hC4
    replace hD5 := congrArg (Nat.cast (R := ZMod k256P)) hD5
    replace hC5 := congrArg (Nat.cast (R := ZMod k256P)) hC5
    replace hD6 := congrArg (Nat.cast (R := ZMod k256P)) hD6
    replace hC6 := congrArg (Nat.cast (R := ZMod k256P)) hC6
    replace hD7 := congrArg (Nat.cast (R := ZMod k256P)) hD7
    replace hC7 := congrArg (Nat.cast (R := ZMod k256P)) hC7
    replace hD8 := congrArg (Nat.cast (R := ZMod k256P)) hD8
    replace hC8 := congrArg (Nat.cast (R := ZMod k256P)) hC8
    replace hE := congrArg (Nat.cast (R := ZMod k256P)) hE
    replace hF := congrArg (Nat.cast (R := ZMod k256P)) hF
    replace hG := congrArg (Nat.cast (R := ZMod k256P)) hG
    push_cast at e0 e1 e2 e3 e4 e5 e6 e7 e8 e9 e10 e11 e12 e13 e14 e15 e16 e17 e18 hq9 hD0 hC0 hD1 hC1 hD2 hC2 hD3 hC3 hD4 hC4 hD5 hC5 hD6 hC6 hD7 hC7 hD8 hC8 hE hF hG
    linear_combination (exp := 1) - (B : ZMod k256P) ^ 0 * e0
      - (B : ZMod k256P) ^ 1 * e1
      - (B : ZMod k256P) ^ 2 * e2
      - (B : ZMod k256P) ^ 3 * e3
      - (B : ZMod k256P) ^ 4 * e4
      - (B : ZMod k256P) ^ 5 * e5
      - (B : ZMod k256P) ^ 6 * e6
      - (B : ZMod k256P) ^ 7 * e7
      - (B : ZMod k256P) ^ 8 * e8
      - (B : ZMod k256P) ^ 9 * e9
      - (B : ZMod k256P) ^ 10 * e10
      - (B : ZMod k256P) ^ 11 * e11
      - (B : ZMod k256P) ^ 12 * e12
      - (B : ZMod k256P) ^ 13 * e13
      - (B : ZMod k256P) ^ 14 * e14
      - (B : ZMod k256P) ^ 15 * e15
      - (B : ZMod k256P) ^ 16 * e16
      - (B : ZMod k256P) ^ 17 * e17
      - (B : ZMod k256P) ^ 18 * e18
      - (B : ZMod k256P) ^ 9 * hq9
      - (B : ZMod k256P) ^ 0 * hC0
      - (B : ZMod k256P) ^ 1 * hC1
      - (B : ZMod k256P) ^ 2 * hC2
      - (B : ZMod k256P) ^ 3 * hC3
      - (B : ZMod k256P) ^ 4 * hC4
      - (B : ZMod k256P) ^ 5 * hC5
      - (B : ZMod k256P) ^ 6 * hC6
      - (B : ZMod k256P) ^ 7 * hC7
      - (B : ZMod k256P) ^ 8 * hC8
      - (B : ZMod k256P) ^ 10 * hD0
      - (B : ZMod k256P) ^ 11 * hD1
      - (B : ZMod k256P) ^ 12 * hD2
      - (B : ZMod k256P) ^ 13 * hD3
      - (B : ZMod k256P) ^ 14 * hD4
      - (B : ZMod k256P) ^ 15 * hD5
      - (B : ZMod k256P) ^ 16 * hD6
      - (B : ZMod k256P) ^ 17 * hD7
      - (B : ZMod k256P) ^ 18 * hD8
      - (u0 * (B : ZMod k256P) ^ 0 + u1 * (B : ZMod k256P) ^ 1 + u2 * (B : ZMod k256P) ^ 2 + u3 * (B : ZMod k256P) ^ 3 + u4 * (B : ZMod k256P) ^ 4 + u5 * (B : ZMod k256P) ^ 5 + u6 * (B : ZMod k256P) ^ 6 + u7 * (B : ZMod k256P) ^ 7 + u8 * (B : ZMod k256P) ^ 8 + d8 * (B : ZMod k256P) ^ 9) * hB
      - (B : ZMod k256P) ^ 9 * hE
      - e * hB'
      - hF
      - B * hG

end FieldElement10x26

end Verif
