import Verif.Spec.Goldilocks
import Verif.Proofs.Goldilocks

/-!
# C45: Goldilocks arithmetic

In the model every checked operation, `debug_assert!` and `assume` that fails makes the result
`Except.error`, so `Returns` also says that none of them fails.
-/

namespace Verif.Goldilocks

theorem P_eq : P = ORDER := by rw [order_eq]; norm_num

theorem returns_of {r : Except Panic ℕ} {f : ∀ q : ℕ, ZMod q} (h : IsResult r (f ORDER)) :
    Returns r (f P) := by
  unfold Returns
  rw [P_eq]
  exact h

/-- Addition, subtraction, negation and multiplication. -/
theorem C45_ring_operations (a b : ℕ) (ha : a < P) (hb : b < P) :
    Returns (add a b) (a + b) ∧ Returns (sub a b) (a - b) ∧ Returns (neg a) (-a) ∧
      Returns (mul a b) (a * b) ∧ Returns (square a) (a ^ 2) := by
  rw [P_eq] at ha hb
  refine ⟨?_, ?_, ?_, ?_, ?_⟩
  · exact returns_of (f := fun q => ((a : ZMod q) + b))
      (isResult_mod (add_eq ha hb) (by push_cast; rfl))
  · refine returns_of (f := fun q => ((a : ZMod q) - b)) (isResult_mod (sub_eq ha hb) ?_)
    rw [Nat.cast_sub (by omega)]
    push_cast
    simp
  · refine returns_of (f := fun q => (-(a : ZMod q))) (isResult_mod (neg_eq ha) ?_)
    rw [Nat.cast_sub (by omega)]
    simp
  · exact returns_of (f := fun q => ((a : ZMod q) * b)) (mul_result ha hb)
  · have := mul_result ha ha
    rw [← pow_two] at this
    exact returns_of (f := fun q => ((a : ZMod q) ^ 2)) this

/-- The reduction is correct for every 128-bit input, not only for products. -/
theorem C45_reduce128 (x : ℕ) (hx : x < 2 ^ 128) : Returns (reduce128 x) x :=
  returns_of (f := fun q => (x : ZMod q)) (isResult_mod (reduce128_eq hx) rfl)

/-- Inversion: zero has none, every other value gets its field inverse. -/
theorem C45_inverse (a : ℕ) (ha : a < P) :
    (a = 0 → tryInverse a = .ok none) ∧
    (a ≠ 0 → ∃ n : ℕ, tryInverse a = .ok (some n) ∧ n < P ∧ (n : ZMod P) * a = 1) := by
  rw [P_eq] at ha ⊢
  refine ⟨fun h => by simp [tryInverse, h], fun h0 => ?_⟩
  obtain ⟨n, h1, h2, h3⟩ := tryInverse_result ha h0
  exact ⟨n, h1, h2, by rw [h3]; exact inv_mul_cancel₀ (cast_ne_zero ha h0)⟩

/-- Division by a nonzero value is field division; dividing by zero panics. -/
theorem C45_division (a b : ℕ) (ha : a < P) (hb : b < P) :
    (b = 0 → div a b = .error .assertion) ∧
    (b ≠ 0 → ∃ n : ℕ, div a b = .ok n ∧ n < P ∧ (n : ZMod P) * b = a) := by
  rw [P_eq] at ha hb ⊢
  refine ⟨fun h => by subst h; rfl, fun h0 => ?_⟩
  obtain ⟨i, h1, h2, h3⟩ := tryInverse_result hb h0
  obtain ⟨n, e, hn, hv⟩ := mul_result ha h2
  refine ⟨n, ?_, hn, ?_⟩
  · unfold div
    rw [h1]
    exact e
  · rw [hv, h3, mul_assoc, inv_mul_cancel₀ (cast_ne_zero hb h0), mul_one]

/-- Powers, for every 64-bit exponent (indeed for every exponent). -/
theorem C45_power (a exp : ℕ) (ha : a < P) : Returns (pow a exp) (a ^ exp) := by
  rw [P_eq] at ha
  refine returns_of (f := fun q => ((a : ZMod q) ^ exp)) ?_
  unfold pow
  split
  · subst_vars
    exact ⟨1, rfl, by rw [order_eq]; norm_num, by simp⟩
  · split
    · subst_vars
      exact ⟨a, rfl, ha, by simp⟩
    · have := powLoop_result ha (r := 1) (by rw [order_eq]; norm_num) (exp := exp) (by omega)
      simpa using this

/-- Conversions from machine integers: every `u64` and every `i64` is mapped to its residue. -/
theorem C45_conversions :
    (∀ n : ℕ, n < 2 ^ 64 → Returns (ofU64 n) n) ∧
    (∀ n : ℤ, -2 ^ 63 ≤ n → n < 2 ^ 63 → Returns (ofI64 n) n) := by
  constructor
  · intro n hn
    exact returns_of (f := fun q => (n : ZMod q))
      (isResult_mod (wrap_eq (by rw [order_eq]; omega)) rfl)
  · intro n h1 h2
    refine returns_of (f := fun q => (n : ZMod q)) ?_
    unfold ofI64 fromCanonicalU64
    have ho := order_eq
    split
    · rename_i hneg
      have e : (ORDER + (2 ^ 64 + n).toNat) % 2 ^ 64 = ((ORDER : ℤ) + n).toNat := by
        rw [ho]; omega
      rw [e, check_eq (by simp; omega), ok_bind]
      refine ⟨_, rfl, by omega, ?_⟩
      have : ((((ORDER : ℤ) + n).toNat : ℤ) : ZMod ORDER) = n := by
        rw [Int.toNat_of_nonneg (by omega)]; simp
      exact_mod_cast this
    · rw [check_eq (by simp; omega), ok_bind]
      refine ⟨_, rfl, by omega, ?_⟩
      have : ((n.toNat : ℤ) : ZMod ORDER) = n := by rw [Int.toNat_of_nonneg (by omega)]
      exact_mod_cast this

/-- Parsing an arbitrary-precision integer succeeds exactly for canonical representations and
keeps them. -/
theorem C45_checked_from (n : ℕ) :
    checkedFrom n = .ok (if n < P then some n else none) := by
  rw [P_eq]
  unfold checkedFrom ofU64
  split
  · rename_i h
    rw [wrap_eq (by omega), Nat.mod_eq_of_lt h]; rfl
  · rfl

/-- The signed representation is the representative of smallest absolute value. -/
theorem C45_signed (a : ℕ) (ha : a < P) :
    ((toSigned a : ℤ) : ZMod P) = a ∧ -(P : ℤ) < 2 * toSigned a ∧ 2 * toSigned a < P := by
  rw [P_eq] at ha ⊢
  have ho := order_eq
  unfold toSigned isInLowerHalf
  by_cases h : a ≤ (ORDER - 1) / 2
  · simp only [h, decide_true, if_true]
    refine ⟨by simp, by omega, by omega⟩
  · simp only [h, decide_false, Bool.false_eq_true, if_false]
    refine ⟨by simp, by omega, by omega⟩

/-- Distinct canonical representations are distinct field elements, so equality of
representations (the derived `PartialEq`) is equality in the field. -/
theorem C45_canonical_unique (a b : ℕ) (ha : a < P) (hb : b < P) :
    ((a : ZMod P) = b) ↔ a = b := by
  constructor
  · intro h
    rw [ZMod.natCast_eq_natCast_iff'] at h
    rwa [Nat.mod_eq_of_lt ha, Nat.mod_eq_of_lt hb] at h
  · rintro rfl; rfl

/-- The modulus is prime, as the rest of the model assumes of the field; the same holds
for the other small fields the code base supports. -/
theorem C45_moduli_prime : Nat.Prime P ∧ Nat.Prime (2 ^ 31 - 2 ^ 27 + 1) ∧
    Nat.Prime (2 ^ 31 - 2 ^ 24 + 1) ∧ Nat.Prime (2 ^ 31 - 1) := by
  refine ⟨by rw [P_eq]; exact goldilocks_prime, ?_, ?_, ?_⟩
  · exact babyBear_prime
  · exact koalaBear_prime
  · exact mersenne31_prime

-- Concrete cases that go through the carry and borrow paths.
example : add (P - 1) (P - 2) = .ok (P - 3) := by decide +kernel
example : sub 1 (P - 1) = .ok 2 := by decide +kernel
example : mul (P - 1) (P - 1) = .ok 1 := by decide +kernel
example : reduce128 (2 ^ 128 - 1) = .ok (2 ^ 64 % P * 2 ^ 64 % P - 1) := by decide +kernel
example : tryInverse 2 = .ok (some ((P + 1) / 2)) := by decide +kernel
example : div 1 0 = .error .assertion := rfl

end Verif.Goldilocks
