import Verif.Model.Goldilocks
import Verif.Proofs.Primes
import Mathlib.FieldTheory.Finite.Basic

/-! Helper lemmas about Goldilocks arithmetic: every operation computes the canonical result. -/

namespace Verif.Goldilocks

theorem order_eq : ORDER = 18446744069414584321 := rfl
theorem eps_eq : EPSILON = 4294967295 := rfl

theorem wrap_eq {x : ℕ} (h : x < 2 * ORDER) : wrap x = .ok (x % ORDER) := by
  unfold wrap subU64
  have := order_eq
  split
  · rename_i hx
    rw [Nat.mod_eq_sub_mod hx, Nat.mod_eq_of_lt (by omega)]
  · rw [Nat.mod_eq_of_lt (by omega)]

theorem ok_bind {α β : Type} (a : α) (f : α → Except Panic β) : (Except.ok a >>= f) = f a := rfl

theorem check_eq {c : Bool} (h : c = true) : check c = .ok () := by simp [check, h]

theorem neg_eq {a : ℕ} (h : a < ORDER) : neg a = .ok ((ORDER - a) % ORDER) := by
  unfold neg subU64
  split
  · subst_vars; simp
  · rw [if_pos h.le]
    congr 1
    exact (Nat.mod_eq_of_lt (by omega)).symm

theorem add_eq {a b : ℕ} (ha : a < ORDER) (hb : b < ORDER) : add a b = .ok ((a + b) % ORDER) := by
  unfold add overflowingAdd
  rw [order_eq] at ha hb
  by_cases h : 2 ^ 64 ≤ a + b
  · simp only [h, decide_true, if_true, eps_eq, one_mul]
    have h1 : (a + b) % 2 ^ 64 = a + b - 2 ^ 64 := by omega
    rw [h1, check_eq (by simp; omega)]
    rw [ok_bind, wrap_eq (by rw [order_eq]; omega), order_eq]
    refine congrArg _ ?_; omega
  · simp only [h, decide_false, Bool.false_eq_true, if_false, eps_eq, zero_mul, add_zero]
    have h1 : (a + b) % 2 ^ 64 = a + b := by omega
    rw [h1, check_eq (by simp; omega)]
    rw [ok_bind, wrap_eq (by rw [order_eq]; omega), order_eq]
    refine congrArg _ ?_; omega

theorem sub_eq {a b : ℕ} (ha : a < ORDER) (hb : b < ORDER) :
    sub a b = .ok ((ORDER + a - b) % ORDER) := by
  unfold sub overflowingSub
  rw [order_eq] at ha hb
  by_cases h : a < b
  · simp only [h, decide_true, if_true, eps_eq, one_mul]
    have h1 : (2 ^ 64 + a - b) % 2 ^ 64 = 2 ^ 64 + a - b := by omega
    rw [h1, check_eq (by simp; omega)]
    rw [ok_bind, wrap_eq (by rw [order_eq]; omega), order_eq]
    refine congrArg _ ?_; omega
  · simp only [h, decide_false, Bool.false_eq_true, if_false, eps_eq, zero_mul, Nat.sub_zero]
    have h1 : (2 ^ 64 + a - b) % 2 ^ 64 = a - b := by omega
    rw [h1, check_eq (by simp)]
    rw [ok_bind, wrap_eq (by rw [order_eq]; omega), order_eq]
    refine congrArg _ ?_; omega

theorem addNoCanonicalize_eq {x y : ℕ} (hx : x < 2 ^ 64) (hy : y < 2 ^ 64)
    (h : x + y < 2 ^ 64 + ORDER) :
    ∃ z, addNoCanonicalize x y = .ok z ∧ z < 2 ^ 64 ∧ z % ORDER = (x + y) % ORDER := by
  unfold addNoCanonicalize overflowingAdd
  rw [order_eq] at *
  by_cases hc : 2 ^ 64 ≤ x + y
  · simp only [hc, decide_true, if_true]
    have h1 : (x + y) % 2 ^ 64 = x + y - 2 ^ 64 := by omega
    rw [h1, check_eq (by simp; omega), check_eq (by simp; omega)]
    refine ⟨x + y - 2 ^ 64 + EPSILON, ?_, ?_, ?_⟩
    · rw [ok_bind, ok_bind]
      unfold addU64
      rw [if_pos (by rw [eps_eq]; omega)]
    · rw [eps_eq]; omega
    · rw [eps_eq]; omega
  · simp only [hc, decide_false, Bool.false_eq_true, if_false]
    have h1 : (x + y) % 2 ^ 64 = x + y := by omega
    rw [h1, check_eq (by simp), check_eq (by simp)]
    refine ⟨x + y, ?_, by omega, rfl⟩
    rw [ok_bind, ok_bind]
    unfold addU64
    rw [if_pos (by omega)]
    simp

theorem reduce128_eq {x : ℕ} (hx : x < 2 ^ 128) : reduce128 x = .ok (x % ORDER) := by
  unfold reduce128
  have hlo : x % 2 ^ 64 < 2 ^ 64 := Nat.mod_lt _ (by norm_num)
  have hhi : x / 2 ^ 64 < 2 ^ 64 := by omega
  have hsplit : x = 2 ^ 64 * (x / 2 ^ 64) + x % 2 ^ 64 := (Nat.div_add_mod _ _).symm
  have hsh : (x / 2 ^ 64) >>> 32 = x / 2 ^ 64 / 2 ^ 32 := Nat.shiftRight_eq_div_pow _ _
  have hand : (x / 2 ^ 64) &&& EPSILON = x / 2 ^ 64 % 2 ^ 32 := Nat.and_two_pow_sub_one_eq_mod _ 32
  simp only [hsh, hand]
  generalize x % 2 ^ 64 = lo at *
  generalize x / 2 ^ 64 = hi at *
  have hd : hi = 2 ^ 32 * (hi / 2 ^ 32) + hi % 2 ^ 32 := (Nat.div_add_mod _ _).symm
  have h2 : hi % 2 ^ 32 < 2 ^ 32 := Nat.mod_lt _ (by norm_num)
  have h3 : hi / 2 ^ 32 < 2 ^ 32 := by omega
  generalize hi / 2 ^ 32 = hh at *
  generalize hi % 2 ^ 32 = hl at *
  have ht0 : ∃ t0, (if (overflowingSub lo hh).2 = true then subU64 (overflowingSub lo hh).1 EPSILON
      else Except.ok (overflowingSub lo hh).1) = Except.ok t0 ∧ t0 < 2 ^ 64 ∧
      ((lo < hh ∧ t0 + hh = lo + ORDER) ∨ (¬ lo < hh ∧ t0 + hh = lo)) := by
    unfold overflowingSub subU64
    by_cases hb : lo < hh
    · simp only [hb, decide_true, if_true]
      have : (2 ^ 64 + lo - hh) % 2 ^ 64 = 2 ^ 64 + lo - hh := by omega
      rw [this, eps_eq, if_pos (by omega)]
      refine ⟨_, rfl, by omega, Or.inl ⟨trivial, ?_⟩⟩
      rw [order_eq]; omega
    · simp only [hb, decide_false, Bool.false_eq_true, if_false]
      have : (2 ^ 64 + lo - hh) % 2 ^ 64 = lo - hh := by omega
      rw [this]
      refine ⟨_, rfl, by omega, Or.inr ⟨not_false, by omega⟩⟩
  obtain ⟨t0, e0, b0, c0⟩ := ht0
  have ht1 : mulU64 hl EPSILON = .ok (hl * EPSILON) := by
    unfold mulU64; rw [if_pos (by rw [eps_eq]; omega)]
  obtain ⟨t2, e2, b2, c2⟩ := addNoCanonicalize_eq b0 (y := hl * EPSILON)
    (by rw [eps_eq]; omega) (by rw [eps_eq, order_eq]; omega)
  have e0' : ∀ rest : ℕ → Except Panic ℕ, (if (overflowingSub lo hh).2 = true then
      subU64 (overflowingSub lo hh).1 EPSILON >>= rest
      else Except.ok (overflowingSub lo hh).1 >>= rest) = rest t0 := by
    intro rest
    by_cases hc : (overflowingSub lo hh).2 = true
    · simp only [hc, if_true] at e0 ⊢
      rw [e0]; rfl
    · simp only [hc] at e0 ⊢
      exact congrArg (· >>= rest) e0
  rw [e0']
  change (do let t1 ← mulU64 hl EPSILON; let t2 ← addNoCanonicalize t0 t1; wrap t2) = _
  rw [ht1]
  change (do let t2 ← addNoCanonicalize t0 (hl * EPSILON); wrap t2) = _
  rw [e2]
  change wrap t2 = _
  rw [wrap_eq (by rw [order_eq]; omega), c2]
  congr 1
  -- x = 2^64 * hi + lo, hi = 2^32 * hh + hl
  have key : ∃ m n, t0 + hl * EPSILON + ORDER * m = x + ORDER * n := by
    rcases c0 with ⟨-, h⟩ | ⟨-, h⟩
    · exact ⟨hh * (2 ^ 32 + 1) + hl, 1, by rw [order_eq, eps_eq] at *; omega⟩
    · exact ⟨hh * (2 ^ 32 + 1) + hl, 0, by rw [order_eq, eps_eq] at *; omega⟩
  obtain ⟨m, n, hk⟩ := key
  have := congrArg (· % ORDER) hk
  simpa [Nat.add_mul_mod_self_left] using this

theorem mul_eq {a b : ℕ} (ha : a < ORDER) (hb : b < ORDER) : mul a b = .ok (a * b % ORDER) := by
  unfold mul mulU128
  have : a * b < 2 ^ 128 := by
    have h1 : a * b ≤ ORDER * ORDER := Nat.mul_le_mul ha.le hb.le
    have h2 : ORDER * ORDER < 2 ^ 128 := by rw [order_eq]; norm_num
    omega
  rw [if_pos this]
  exact reduce128_eq this

theorem order_pos : 0 < ORDER := by rw [order_eq]; norm_num

/-- `r` is a successful canonical result with the value `v` in the field. -/
def IsResult (r : Except Panic ℕ) (v : ZMod ORDER) : Prop :=
  ∃ n, r = .ok n ∧ n < ORDER ∧ (n : ZMod ORDER) = v

theorem isResult_mod {r : Except Panic ℕ} {n : ℕ} (h : r = .ok (n % ORDER)) {v : ZMod ORDER}
    (hv : (n : ZMod ORDER) = v) : IsResult r v :=
  ⟨_, h, Nat.mod_lt _ order_pos, by rw [ZMod.natCast_mod, hv]⟩

theorem mul_result {a b : ℕ} (ha : a < ORDER) (hb : b < ORDER) :
    IsResult (mul a b) ((a : ZMod ORDER) * b) := isResult_mod (mul_eq ha hb) (by push_cast; rfl)

theorem bind_result {r : Except Panic ℕ} {v w : ZMod ORDER} {f : ℕ → Except Panic ℕ}
    (h : IsResult r v) (hf : ∀ n < ORDER, (n : ZMod ORDER) = v → IsResult (f n) w) :
    IsResult (r >>= f) w := by
  obtain ⟨n, rfl, hn, hv⟩ := h
  exact hf n hn hv

theorem squareMul_result {a b : ℕ} (ha : a < ORDER) (hb : b < ORDER) :
    IsResult (squareMul a b) ((a : ZMod ORDER) ^ 2 * b) := by
  refine bind_result (mul_result ha ha) fun n hn hv => ?_
  have := mul_result hn hb
  rwa [hv, ← pow_two] at this

theorem expPowerOf2_result {a : ℕ} (ha : a < ORDER) (n : ℕ) :
    IsResult (expPowerOf2 a n) ((a : ZMod ORDER) ^ 2 ^ n) := by
  induction n generalizing a with
  | zero => exact ⟨a, rfl, ha, by simp⟩
  | succ n ih =>
    refine bind_result (mul_result ha ha) fun m hm hv => ?_
    have := ih hm
    rwa [hv, ← pow_two, ← pow_mul, ← pow_succ'] at this

theorem expAcc_result {a b : ℕ} (ha : a < ORDER) (hb : b < ORDER) (n : ℕ) :
    IsResult (expAcc n a b) ((a : ZMod ORDER) ^ 2 ^ n * b) := by
  refine bind_result (expPowerOf2_result ha n) fun m hm hv => ?_
  have := mul_result hm hb
  rwa [hv] at this

instance factOrder : Fact (Nat.Prime ORDER) := ⟨goldilocks_prime⟩

theorem cast_ne_zero {a : ℕ} (ha : a < ORDER) (h0 : a ≠ 0) : (a : ZMod ORDER) ≠ 0 := by
  rw [Ne, ZMod.natCast_eq_zero_iff]
  intro h
  have := Nat.le_of_dvd (by omega) h
  omega

theorem pow_step {R : Type} [Monoid R] (x : R) {m k c n : ℕ} (h : m * k + c = n) :
    (x ^ m) ^ k * x ^ c = x ^ n := by rw [← pow_mul, ← pow_add, h]

theorem tryInverse_result {a : ℕ} (ha : a < ORDER) (h0 : a ≠ 0) :
    ∃ n, tryInverse a = .ok (some n) ∧ n < ORDER ∧ (n : ZMod ORDER) = (a : ZMod ORDER)⁻¹ := by
  unfold tryInverse
  rw [if_neg h0]
  obtain ⟨t2, e2, b2, v2⟩ := squareMul_result ha ha
  obtain ⟨t3, e3, b3, v3⟩ := squareMul_result b2 ha
  obtain ⟨t6, e6, b6, v6⟩ := expAcc_result b3 b3 3
  obtain ⟨t12, e12, b12, v12⟩ := expAcc_result b6 b6 6
  obtain ⟨t24, e24, b24, v24⟩ := expAcc_result b12 b12 12
  obtain ⟨t30, e30, b30, v30⟩ := expAcc_result b24 b6 6
  obtain ⟨t31, e31, b31, v31⟩ := squareMul_result b30 ha
  obtain ⟨t63, e63, b63, v63⟩ := expAcc_result b31 b31 32
  obtain ⟨r, er, br, vr⟩ := squareMul_result b63 ha
  refine ⟨r, ?_, br, ?_⟩
  · rw [e2]; simp only [bind, Except.bind, e3, e6, e12, e24, e30, e31, e63, er, pure, Except.pure]
  · have hv : (r : ZMod ORDER) = (a : ZMod ORDER) ^ (ORDER - 2) := by
      generalize (a : ZMod ORDER) = x at *
      have p2 : (t2 : ZMod ORDER) = x ^ 3 := by rw [v2]; ring
      have p3 : (t3 : ZMod ORDER) = x ^ 7 := by rw [v3, p2]; ring
      have p6 : (t6 : ZMod ORDER) = x ^ 63 := by rw [v6, p3]; ring
      have p12 : (t12 : ZMod ORDER) = x ^ 4095 := by rw [v12, p6]; exact pow_step x (by norm_num)
      have p24 : (t24 : ZMod ORDER) = x ^ 16777215 := by rw [v24, p12]; exact pow_step x (by norm_num)
      have p30 : (t30 : ZMod ORDER) = x ^ 1073741823 := by rw [v30, p24, p6]; exact pow_step x (by norm_num)
      have p31 : (t31 : ZMod ORDER) = x ^ 2147483647 := by
        rw [v31, p30, ← pow_mul, ← pow_succ]
      have p63 : (t63 : ZMod ORDER) = x ^ 9223372034707292159 := by
        rw [v63, p31]; exact pow_step x (by norm_num)
      rw [vr, p63, ← pow_mul, ← pow_succ]
      exact congrArg _ (by rw [order_eq])
    have hne := cast_ne_zero ha h0
    have hf := ZMod.pow_card_sub_one_eq_one hne
    rw [hv]
    apply eq_inv_of_mul_eq_one_left
    rw [← pow_succ]
    exact hf

theorem powLoop_result {x r exp : ℕ} (hx : x < ORDER) (hr : r < ORDER) (he : 1 ≤ exp) :
    IsResult (powLoop x r exp) ((r : ZMod ORDER) * (x : ZMod ORDER) ^ exp) := by
  induction exp using Nat.strongRecOn generalizing x r with
  | ind exp ih =>
    rw [powLoop]
    split
    · rename_i h2
      have hs : exp >>> 1 = exp / 2 := by rw [Nat.shiftRight_eq_div_pow]
      have ha : exp &&& 1 = exp % 2 := Nat.and_one_is_mod exp
      obtain ⟨s, es, bs, vs⟩ := mul_result hx hx
      have step : ∀ r' < ORDER, IsResult (powLoop s r' (exp / 2))
          ((r' : ZMod ORDER) * (x : ZMod ORDER) ^ (2 * (exp / 2))) := by
        intro r' hr'
        have := ih (exp / 2) (by omega) bs hr' (by omega)
        rwa [vs, ← pow_two, ← pow_mul] at this
      rw [hs, ha]
      split
      · rename_i ho
        refine bind_result (mul_result hr hx) fun r' hr' hv => ?_
        unfold square
        rw [es]
        have := step r' hr'
        rw [hv, mul_assoc, ← pow_succ'] at this
        have he : 2 * (exp / 2) + 1 = exp := by omega
        rwa [he] at this
      · rename_i ho
        unfold square
        rw [es]
        have := step r hr
        have he : 2 * (exp / 2) = exp := by omega
        rw [he] at this
        exact this
    · have : exp = 1 := by omega
      subst this
      rw [pow_one]
      exact mul_result hr hx

end Verif.Goldilocks
