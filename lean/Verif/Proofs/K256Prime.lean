import Mathlib.NumberTheory.LucasPrimality
import Mathlib.NumberTheory.LegendreSymbol.Basic
import Mathlib.FieldTheory.Finite.Basic
import Mathlib.Tactic.NormNum.Prime
import Mathlib.Tactic.LinearCombination
import Verif.Spec.K256Field

/-!
# The modulus of secp256k1 is prime

By Pocklington's criterion, twice, from a prime of 128 bits whose predecessor has only small
factors.
-/

namespace Verif

/-- `a ^ e % n` by repeated squaring; `fuel` bounds the number of bits of `e`. -/
def powModFuel (n : ℕ) : ℕ → ℕ → ℕ → ℕ
  | 0, _, _ => 1
  | fuel + 1, a, e =>
    if e = 0 then 1 else
    if e % 2 = 0 then powModFuel n fuel (a * a % n) (e / 2)
    else a * powModFuel n fuel (a * a % n) (e / 2) % n

theorem powModFuel_eq {n : ℕ} : ∀ (fuel a e : ℕ), e < 2 ^ fuel →
    ((powModFuel n fuel a e : ℕ) : ZMod n) = (a : ZMod n) ^ e
  | 0, a, e, h => by
    have : e = 0 := by simpa using h
    simp [powModFuel, this]
  | fuel + 1, a, e, h => by
    rw [powModFuel]
    split_ifs with h0 h1
    · simp [h0]
    · rw [powModFuel_eq fuel _ _ (by omega)]
      push_cast [ZMod.natCast_mod]
      rw [← pow_two, ← pow_mul]
      congr 1; omega
    · push_cast [ZMod.natCast_mod]
      rw [powModFuel_eq fuel _ _ (by omega)]
      push_cast [ZMod.natCast_mod]
      rw [← pow_two, ← pow_mul, ← pow_succ']
      congr 1; omega

/-- Pocklington's criterion with one large prime factor of `n - 1`. -/
theorem pocklington {n q a : ℕ} (hq : q.Prime) (hn : 1 < n) (hd : q ∣ n - 1) (hsq : n ≤ q * q)
    (h1 : (a : ZMod n) ^ (n - 1) = 1)
    (h2 : ∃ b : ZMod n, ((a : ZMod n) ^ ((n - 1) / q) - 1) * b = 1) : n.Prime := by
  by_contra hnp
  have hr := Nat.minFac_prime (n := n) (by omega)
  have hrn := Nat.minFac_dvd n
  have hrr : n.minFac ^ 2 ≤ n := Nat.minFac_sq_le_self (by omega) hnp
  generalize n.minFac = r at hr hrn hrr
  have := Fact.mk hr
  have := Fact.mk hq
  let f := ZMod.castHom hrn (ZMod r)
  have h1' : (a : ZMod r) ^ (n - 1) = 1 := by simpa using congrArg f h1
  have h2' : (a : ZMod r) ^ ((n - 1) / q) ≠ 1 := by
    obtain ⟨b, hb⟩ := h2
    intro hc
    have := congrArg f hb
    simp [hc] at this
  have ho : orderOf ((a : ZMod r) ^ ((n - 1) / q)) = q := by
    apply orderOf_eq_prime _ h2'
    rw [← pow_mul, Nat.div_mul_cancel hd, h1']
  have ha : (a : ZMod r) ^ ((n - 1) / q) ≠ 0 := by
    intro h
    have h3 : ((a : ZMod r) ^ ((n - 1) / q)) ^ q = 1 := by
      rw [← pow_mul, Nat.div_mul_cancel hd, h1']
    rw [h, zero_pow hq.ne_zero] at h3
    exact zero_ne_one h3
  have hdr : q ∣ r - 1 := by
    rw [← ho]
    exact orderOf_dvd_of_pow_eq_one (ZMod.pow_card_sub_one_eq_one ha)
  have : q ≤ r - 1 := Nat.le_of_dvd (by have := hr.two_le; omega) hdr
  have h4 : q < r := by have := hr.two_le; omega
  have h5 : q * q < r * r := Nat.mul_lt_mul'' h4 h4
  rw [pow_two] at hrr
  omega

theorem powModFuel_pow {n fuel a e v : ℕ} (he : e < 2 ^ fuel) (h : powModFuel n fuel a e = v) :
    (a : ZMod n) ^ e = (v : ZMod n) := by
  rw [← h, powModFuel_eq fuel a e he]

theorem zmod_ne_one {n v : ℕ} (hv : v < n) (h1 : 1 < n) (h : v ≠ 1) : (v : ZMod n) ≠ 1 := by
  intro hc
  have : ((v : ℕ) : ZMod n) = ((1 : ℕ) : ZMod n) := by simpa using hc
  rw [ZMod.natCast_eq_natCast_iff', Nat.mod_eq_of_lt hv, Nat.mod_eq_of_lt h1] at this
  exact h this

/-- A prime factor of the predecessor of the next prime. -/
def k256B : ℕ := 255515944373312847190720520512484175977

theorem k256B_prime : k256B.Prime := by
  refine lucas_primality k256B ((3 : ℕ) : ZMod k256B) ?_ ?_
  · rw [powModFuel_pow (fuel := 130) (v := 1) (by decide +kernel) (by decide +kernel)]
    exact Nat.cast_one
  · intro q hq hd
    have hf : k256B - 1 = 2 ^ 3 * (7 ^ 2 * (11 * (1627 * (2657 * (4423 * (41201 * (96557 *
        (107590001 * 7240687)))))))) := by decide +kernel
    have key : ∀ f : ℕ, q = f → powModFuel k256B 130 3 ((k256B - 1) / f) ≠ 1 →
        powModFuel k256B 130 3 ((k256B - 1) / f) < k256B →
        ((3 : ℕ) : ZMod k256B) ^ ((k256B - 1) / q) ≠ 1 := by
      intro f hqf h1 h2
      subst hqf
      rw [powModFuel_pow (fuel := 130) (lt_of_le_of_lt (Nat.div_le_self _ _) (by decide +kernel)) rfl]
      exact zmod_ne_one h2 (by decide +kernel) h1
    rw [hf] at hd
    have pd : ∀ {f : ℕ}, f.Prime → q ∣ f → q = f := fun hf h =>
      (Nat.prime_dvd_prime_iff_eq hq hf).1 h
    rcases hq.dvd_mul.1 hd with h | hd
    · exact key 2 (pd (by norm_num) (hq.dvd_of_dvd_pow h)) (by decide +kernel) (by decide +kernel)
    rcases hq.dvd_mul.1 hd with h | hd
    · exact key 7 (pd (by norm_num) (hq.dvd_of_dvd_pow h)) (by decide +kernel) (by decide +kernel)
    rcases hq.dvd_mul.1 hd with h | hd
    · exact key 11 (pd (by norm_num) h) (by decide +kernel) (by decide +kernel)
    rcases hq.dvd_mul.1 hd with h | hd
    · exact key 1627 (pd (by norm_num) h) (by decide +kernel) (by decide +kernel)
    rcases hq.dvd_mul.1 hd with h | hd
    · exact key 2657 (pd (by norm_num) h) (by decide +kernel) (by decide +kernel)
    rcases hq.dvd_mul.1 hd with h | hd
    · exact key 4423 (pd (by norm_num) h) (by decide +kernel) (by decide +kernel)
    rcases hq.dvd_mul.1 hd with h | hd
    · exact key 41201 (pd (by norm_num) h) (by decide +kernel) (by decide +kernel)
    rcases hq.dvd_mul.1 hd with h | hd
    · exact key 96557 (pd (by norm_num) h) (by decide +kernel) (by decide +kernel)
    rcases hq.dvd_mul.1 hd with h | h
    · exact key 107590001 (pd (by norm_num) h) (by decide +kernel) (by decide +kernel)
    · exact key 7240687 (pd (by norm_num) h) (by decide +kernel) (by decide +kernel)

/-- A prime factor of the predecessor of the modulus. -/
def k256Q : ℕ := 205115282021455665897114700593932402728804164701536103180137503955397371

/-- The computation that `pocklington` asks for. -/
theorem pocklington_of {n q a fuel x y : ℕ} (hq : q.Prime) (hn : 1 < n) (hd : (n - 1) % q = 0)
    (hsq : n ≤ q * q) (hf : n ≤ 2 ^ fuel) (h1 : powModFuel n fuel a (n - 1) = 1)
    (h2 : powModFuel n fuel a ((n - 1) / q) = x + 1) (h3 : x * y % n = 1) : n.Prime := by
  refine pocklington (a := a) hq hn (Nat.dvd_of_mod_eq_zero hd) hsq ?_ ⟨(y : ZMod n), ?_⟩
  · rw [powModFuel_pow (by omega) h1, Nat.cast_one]
  · rw [powModFuel_pow (lt_of_le_of_lt (Nat.div_le_self _ _) (by omega)) h2]
    have : ((x * y % n : ℕ) : ZMod n) = ((1 : ℕ) : ZMod n) := by rw [h3]
    rw [ZMod.natCast_mod] at this
    push_cast at this ⊢
    linear_combination this

theorem k256Q_prime : k256Q.Prime :=
  pocklington_of (a := 2) (fuel := 240)
    (x := 53072002638256206696760401718638995221936714922431175139555783581918753)
    (y := 81475874003799270243122483189086420723726815346591292526890606927317739)
    k256B_prime (by decide +kernel) (by decide +kernel) (by decide +kernel) (by decide +kernel)
    (by decide +kernel) (by decide +kernel) (by decide +kernel)

theorem k256P_prime : k256P.Prime :=
  pocklington_of (a := 2) (fuel := 260)
    (x := 30133174243114333125352536507925183895021889065932097717961225114769139489295)
    (y := 38738227534097492269493948901333532538630784921480042032654553727346127695815)
    k256Q_prime (by decide +kernel) (by decide +kernel) (by decide +kernel) (by decide +kernel)
    (by decide +kernel) (by decide +kernel) (by decide +kernel)

instance : Fact k256P.Prime := ⟨k256P_prime⟩

end Verif
