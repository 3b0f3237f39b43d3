import Mathlib.NumberTheory.LucasPrimality
import Mathlib.Tactic.NormNum.Prime
import Mathlib.Tactic.Ring

/-! The moduli of the supported fields are prime (Lucas certificates). -/

namespace Verif

/-- Modular exponentiation by squaring, for evaluation by the kernel. -/
def powMod (m : ℕ) : ℕ → ℕ → ℕ → ℕ
  | 0, _, _ => 1
  | n + 1, b, e =>
    if e % 2 = 1 then (b * powMod m n ((b * b) % m) (e / 2)) % m
    else powMod m n ((b * b) % m) (e / 2)

theorem powMod_cast (m : ℕ) (n b e : ℕ) (h : e < 2 ^ n) :
    ((powMod m n b e : ℕ) : ZMod m) = (b : ZMod m) ^ e := by
  induction n generalizing b e with
  | zero =>
    have : e = 0 := by simpa using h
    subst this; simp [powMod]
  | succ n ih =>
    have h2 : e / 2 < 2 ^ n := by rw [pow_succ] at h; omega
    have hrec : ((powMod m n (b * b % m) (e / 2) : ℕ) : ZMod m) = (b : ZMod m) ^ (2 * (e / 2)) := by
      rw [ih _ _ h2, ZMod.natCast_mod, Nat.cast_mul, pow_mul]; ring
    unfold powMod
    split
    · rename_i ho
      rw [ZMod.natCast_mod, Nat.cast_mul, hrec, ← pow_succ']
      congr 1; omega
    · rw [hrec]; congr 1; omega

theorem pow_eq_one_of_powMod {m n b e : ℕ} (h : e < 2 ^ n) (hp : powMod m n b e = 1) :
    (b : ZMod m) ^ e = 1 := by rw [← powMod_cast m n b e h, hp, Nat.cast_one]

theorem pow_ne_one_of_powMod {m n b e r : ℕ} (h : e < 2 ^ n) (hp : powMod m n b e = r)
    (hr : 1 < r ∧ r < m) : (b : ZMod m) ^ e ≠ 1 := by
  rw [← powMod_cast m n b e h, hp]
  intro hh
  have h1 : ((r : ℕ) : ZMod m) = ((1 : ℕ) : ZMod m) := by rw [hh, Nat.cast_one]
  rw [ZMod.natCast_eq_natCast_iff] at h1
  have := Nat.ModEq.eq_of_lt_of_lt h1 hr.2 (by omega)
  omega

theorem prime_of_certificate (p g n : ℕ) (factors : List ℕ) (hn : p - 1 < 2 ^ n)
    (h1 : powMod p n g (p - 1) = 1)
    (hf : ∀ q ∈ factors, 1 < powMod p n g ((p - 1) / q) ∧ powMod p n g ((p - 1) / q) < p)
    (hq : ∀ q : ℕ, q.Prime → q ∣ p - 1 → q ∈ factors) : p.Prime := by
  refine lucas_primality p (g : ZMod p) (pow_eq_one_of_powMod hn h1) fun q hq1 hq2 => ?_
  exact pow_ne_one_of_powMod (lt_of_le_of_lt (Nat.div_le_self _ _) hn) rfl (hf q (hq q hq1 hq2))

theorem prime_dvd_prod {q : ℕ} (hq : q.Prime) {l : List (ℕ × ℕ)} (hl : ∀ e ∈ l, e.1.Prime)
    (h : q ∣ (l.map fun e => e.1 ^ e.2).prod) : q ∈ l.map (·.1) := by
  induction l with
  | nil => simp at h; exact absurd h hq.one_lt.ne'
  | cons a t ih =>
    rw [List.map_cons, List.prod_cons, hq.dvd_mul] at h
    rw [List.map_cons, List.mem_cons]
    rcases h with h | h
    · left
      exact (Nat.prime_dvd_prime_iff_eq hq (hl a List.mem_cons_self)).1 (hq.dvd_of_dvd_pow h)
    · right
      exact ih (fun e he => hl e (List.mem_cons_of_mem _ he)) h

theorem goldilocks_prime : Nat.Prime 0xFFFFFFFF00000001 := by
  refine prime_of_certificate _ 7 64
    (([(2, 32), (3, 1), (5, 1), (17, 1), (257, 1), (65537, 1)] : List (ℕ × ℕ)).map (·.1))
    (by norm_num) (by decide +kernel) (by decide +kernel) fun q hq h => ?_
  refine prime_dvd_prod hq ?_ (by simpa using h)
  simp only [List.mem_cons, List.not_mem_nil, or_false, forall_eq_or_imp, forall_eq]
  norm_num

theorem babyBear_prime : Nat.Prime 2013265921 := by
  refine prime_of_certificate _ 31 32 (([(2, 27), (3, 1), (5, 1)] : List (ℕ × ℕ)).map (·.1))
    (by norm_num) (by decide +kernel) (by decide +kernel) fun q hq h => ?_
  refine prime_dvd_prod hq ?_ (by simpa using h)
  simp only [List.mem_cons, List.not_mem_nil, or_false, forall_eq_or_imp, forall_eq]
  norm_num

theorem koalaBear_prime : Nat.Prime 2130706433 := by
  refine prime_of_certificate _ 3 32 (([(2, 24), (127, 1)] : List (ℕ × ℕ)).map (·.1))
    (by norm_num) (by decide +kernel) (by decide +kernel) fun q hq h => ?_
  refine prime_dvd_prod hq ?_ (by simpa using h)
  simp only [List.mem_cons, List.not_mem_nil, or_false, forall_eq_or_imp, forall_eq]
  norm_num

theorem mersenne31_prime : Nat.Prime 2147483647 := by
  refine prime_of_certificate _ 7 32
    (([(2, 1), (3, 2), (7, 1), (11, 1), (31, 1), (151, 1), (331, 1)] : List (ℕ × ℕ)).map (·.1))
    (by norm_num) (by decide +kernel) (by decide +kernel) fun q hq h => ?_
  refine prime_dvd_prod hq ?_ (by simpa using h)
  simp only [List.mem_cons, List.not_mem_nil, or_false, forall_eq_or_imp, forall_eq]
  norm_num

end Verif
