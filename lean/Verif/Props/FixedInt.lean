import Verif.Proofs.FixedInt
import Verif.Proofs.Primes

/-!
# C89: the integers of the fields, and range constraints with them
-/

set_option linter.unusedSectionVars false

namespace Verif

/-- C89, first part: the integers of the small fields and of Goldilocks are integers with 32 and 64 bits, whether overflow
checks are on or off. -/
theorem C89_words (checks : Bool) {w : ℕ} (hw : 32 ≤ w) : FixedWidth (wordInt checks w) (WordValid w) :=
  wordInt_fixedWidth checks hw

/-- C89, second part: the integers made of 64-bit limbs are integers with `64 n` bits. -/
theorem C89_limbs {n : ℕ} (hn : 0 < n) : FixedWidth (limbInt n) (LimbsValid n) := limbInt_fixedWidth hn

/-- C89, third part, what happens otherwise for a single word: an addition or a subtraction that leaves the range panics
if overflow checks are on and wraps around if they are off; a shift to the left that leaves the range loses the upper bits
in any case; a shift by the width or more panics if overflow checks are on. -/
theorem C89_words_overflow {w : ℕ} (a b k : ℕ) (ha : WordValid w a) (hb : WordValid w b) :
    (2 ^ w ≤ a + b → (wordInt true w).add a b = .error .assertion ∧
      (wordInt false w).add a b = .ok (a + b - 2 ^ w)) ∧
    (a < b → (wordInt true w).sub a b = .error .assertion ∧
      (wordInt false w).sub a b = .ok (2 ^ w - (b - a))) ∧
    (k < w → ∀ checks, (wordInt checks w).shl a k = .ok (a * 2 ^ k % 2 ^ w)) ∧
    (w ≤ k → (wordInt true w).shl a k = .error .assertion ∧ (wordInt true w).shr a k = .error .assertion) := by
  unfold WordValid at ha hb
  refine ⟨fun h => ⟨?_, ?_⟩, fun h => ⟨?_, ?_⟩, fun h checks => ?_, fun h => ⟨?_, ?_⟩⟩
  · show WordInt.add true w a b = _
    rw [WordInt.add, if_neg (by omega), if_pos rfl]
    rfl
  · show WordInt.add false w a b = _
    rw [WordInt.add, if_neg (by omega), if_neg (by simp), Nat.mod_eq_sub_mod h, Nat.mod_eq_of_lt (by omega)]
    rfl
  · show WordInt.sub true w a b = _
    rw [WordInt.sub, if_neg (by omega), if_pos rfl]
    rfl
  · show WordInt.sub false w a b = _
    rw [WordInt.sub, if_neg (by omega), if_neg (by simp)]
    congr 1
    omega
  · show WordInt.shl checks w a k = _
    rw [WordInt.shl, if_pos h, Nat.shiftLeft_eq]
    rfl
  · show WordInt.shl true w a k = _
    rw [WordInt.shl, if_neg (by omega), if_pos rfl]
    rfl
  · show WordInt.shr true w a k = _
    rw [WordInt.shr, if_neg (by omega), if_pos rfl]
    rfl

/-- C89, third part, what happens otherwise for limbs: additions and subtractions wrap around, a shift to the left panics
if the result does not fit, and a shift to the right by any amount works. -/
theorem C89_limbs_overflow {n : ℕ} (a b : List ℕ) (k : ℕ) (ha : LimbsValid n a) (hb : LimbsValid n b) :
    Returns (limbInt n) (LimbsValid n) ((limbInt n).add a b) ((limbsValue a + limbsValue b) % 2 ^ (64 * n)) ∧
    Returns (limbInt n) (LimbsValid n) ((limbInt n).sub a b)
      ((limbsValue a + (2 ^ (64 * n) - limbsValue b)) % 2 ^ (64 * n)) ∧
    (limbsValue a * 2 ^ k < 2 ^ (64 * n) →
      Returns (limbInt n) (LimbsValid n) ((limbInt n).shl a k) (limbsValue a * 2 ^ k)) ∧
    (2 ^ (64 * n) ≤ limbsValue a * 2 ^ k → (limbInt n).shl a k = .error .assertion) ∧
    Returns (limbInt n) (LimbsValid n) ((limbInt n).shr a k) (limbsValue a / 2 ^ k) := by
  have hva := LimbInt.limbsValue_lt ha
  have hvb := LimbInt.limbsValue_lt hb
  have ea := LimbInt.toArbitrary_eq ha.2
  have hbig : ∀ m, m < 2 ^ (64 * n) → ∃ c, LimbInt.tryFromBig n m = .ok c ∧ LimbsValid n c ∧
      LimbInt.toArbitrary c = m := by
    intro m hm
    refine ⟨LimbInt.ofNat n m, by rw [LimbInt.tryFromBig, if_pos hm], LimbInt.ofNat_valid n m, ?_⟩
    rw [LimbInt.toArbitrary_eq (LimbInt.ofNat_valid n m).2, LimbInt.limbsValue_ofNat, Nat.mod_eq_of_lt hm]
  refine ⟨⟨LimbInt.addCarry 0 a b, rfl, LimbInt.addCarry_valid ha hb, ?_⟩,
    ⟨LimbInt.subBorrow 0 a b, rfl, LimbInt.subBorrow_valid ha hb, ?_⟩, ?_, ?_, ?_⟩
  · show LimbInt.toArbitrary _ = _
    rw [LimbInt.toArbitrary_eq (LimbInt.addCarry_valid ha hb).2, LimbInt.limbsValue_addCarry ha hb, Nat.add_zero]
  · show LimbInt.toArbitrary _ = _
    have hv := LimbInt.subBorrow_valid (c := 0) ha hb
    rw [LimbInt.toArbitrary_eq hv.2]
    have h1 := LimbInt.limbsValue_subBorrow (c := 0) (by omega) ha hb
    have h2 := LimbInt.limbsValue_lt hv
    rw [Nat.add_zero] at h1
    generalize limbsValue (LimbInt.subBorrow 0 a b) = s at *
    generalize limbsValue a = x at *
    generalize limbsValue b = y at *
    generalize 2 ^ (64 * n) = m at *
    by_cases h : s + y < m
    · rw [Nat.mod_eq_of_lt h] at h1
      rw [show x + (m - y) = s + m by omega, Nat.add_mod_right, Nat.mod_eq_of_lt h2]
    · rw [Nat.mod_eq_sub_mod (by omega), Nat.mod_eq_of_lt (by omega)] at h1
      rw [Nat.mod_eq_of_lt (by omega)]
      omega
  · intro h
    obtain ⟨c, hc, hv, hn⟩ := hbig _ h
    refine ⟨c, ?_, hv, hn⟩
    show LimbInt.shl n a k = _
    rw [LimbInt.shl, ea, Nat.shiftLeft_eq, hc]
    rfl
  · intro h
    show LimbInt.shl n a k = _
    rw [LimbInt.shl, ea, Nat.shiftLeft_eq, LimbInt.tryFromBig, if_neg (by omega)]
    rfl
  · obtain ⟨c, hc, hv, hn⟩ := hbig (limbsValue a / 2 ^ k) (lt_of_le_of_lt (Nat.div_le_self _ _) hva)
    refine ⟨c, ?_, hv, hn⟩
    show LimbInt.shr n a k = _
    rw [LimbInt.shr, ea, Nat.shiftRight_eq_div_pow, hc]
    rfl

section
variable {I : IntOps} {valid : I.Carrier → Prop} {p : ℕ} [Fact p.Prime]

open MachineRange

theorem gives_bind {x : Except Panic (MachineRange I p)} {r r' : RangeConstraint p}
    {f : MachineRange I p → Except Panic (MachineRange I p)} (h : Gives valid x r)
    (hf : ∀ y, valid y.mask → y.abs = r → Gives valid (f y) r') : Gives valid (x >>= f) r' := by
  obtain ⟨y, hy, hv, hn⟩ := h
  rw [hy]
  exact hf y hv hn

theorem RangeTerm.run_error (F : FixedWidth I valid) (hp : p < 2 ^ I.width) (t : RangeTerm p) :
    t.Typed →
    (t.BitsExist I.width → Gives valid (t.run I) (t.ideal I.width)) ∧
    (¬ t.BitsExist I.width → t.run I = .error .assertion) := by
  have un : ∀ (a : RangeTerm p) (f : MachineRange I p → Except Panic (MachineRange I p))
      (g : RangeConstraint p → RangeConstraint p)
      (_ : (a.BitsExist I.width → Gives valid (a.run I) (a.ideal I.width)) ∧
        (¬ a.BitsExist I.width → a.run I = .error .assertion))
      (_ : ∀ y : MachineRange I p, valid y.mask → Gives valid (f y) (g y.abs)),
      (a.BitsExist I.width → Gives valid (a.run I >>= f) (g (a.ideal I.width))) ∧
      (¬ a.BitsExist I.width → (a.run I >>= f) = .error .assertion) := by
    intro a f g ih hf
    refine ⟨fun h => gives_bind (ih.1 h) fun y hv hn => ?_, fun h => ?_⟩
    · rw [← hn]
      exact hf y hv
    · rw [ih.2 h]
      rfl
  have bin : ∀ (a b : RangeTerm p) (f : MachineRange I p → MachineRange I p → Except Panic (MachineRange I p))
      (g : RangeConstraint p → RangeConstraint p → RangeConstraint p)
      (_ : (a.BitsExist I.width → Gives valid (a.run I) (a.ideal I.width)) ∧
        (¬ a.BitsExist I.width → a.run I = .error .assertion))
      (_ : (b.BitsExist I.width → Gives valid (b.run I) (b.ideal I.width)) ∧
        (¬ b.BitsExist I.width → b.run I = .error .assertion))
      (_ : ∀ y z : MachineRange I p, valid y.mask → valid z.mask → Gives valid (f y z) (g y.abs z.abs)),
      (a.BitsExist I.width ∧ b.BitsExist I.width →
        Gives valid (a.run I >>= fun x => b.run I >>= fun y => f x y) (g (a.ideal I.width) (b.ideal I.width))) ∧
      (¬ (a.BitsExist I.width ∧ b.BitsExist I.width) →
        (a.run I >>= fun x => b.run I >>= fun y => f x y) = .error .assertion) := by
    intro a b f g iha ihb hf
    refine ⟨fun h => gives_bind (iha.1 h.1) fun y hv hn => gives_bind (ihb.1 h.2) fun z hw hm => ?_, fun h => ?_⟩
    · rw [← hn, ← hm]
      exact hf y z hv hw
    · by_cases ha : a.BitsExist I.width
      · obtain ⟨y, hy, -, -⟩ := iha.1 ha
        rw [hy]
        show (b.run I >>= fun z => f y z) = _
        rw [ihb.2 fun hb => h ⟨ha, hb⟩]
        rfl
      · rw [iha.2 ha]
        rfl
  induction t with
  | range min max => exact fun _ => ⟨fun _ => fromRange_gives F hp min max, fun h => absurd trivial h⟩
  | value v =>
    exact fun _ => ⟨fun _ => ⟨_, rfl, (fromValue_gives F hp v).1, (fromValue_gives F hp v).2⟩,
      fun h => absurd trivial h⟩
  | all => exact fun _ => ⟨fun _ => unconstrained_gives F hp, fun h => absurd trivial h⟩
  | mask m =>
    intro h
    refine ⟨fun _ => ?_, fun h => absurd trivial h⟩
    have := fromMask_gives (p := p) F hp (F.fromU64 m h).1
    rw [(F.fromU64 m h).2] at this
    exact this
  | maxBit k =>
    intro _
    have := fromMaxBit_gives (p := p) (k := k) F hp
    unfold RangeConstraint.fromMaxBit at this
    refine ⟨fun h => ?_, fun h => ?_⟩
    · have h : k < I.width := h
      rw [if_pos (by omega)] at this
      exact this
    · have h : ¬ k < I.width := h
      rw [if_neg (by omega)] at this
      exact this
  | sum a b iha ihb =>
    exact fun h => bin a b _ _ (iha h.1) (ihb h.2) fun y z hy hz => combineSum_gives F hp hy hz
  | product a b iha ihb =>
    exact fun h => bin a b _ _ (iha h.1) (ihb h.2) fun y z hy hz => combineProduct_gives F hp hy hz
  | conjunction a b iha ihb =>
    exact fun h => bin a b _ _ (iha h.1) (ihb h.2) fun y z hy hz => conjunction_gives F hp hy hz
  | disjunction a b iha ihb =>
    exact fun h => bin a b _ _ (iha h.1) (ihb h.2) fun y z hy hz => disjunction_gives F hp hy hz
  | multiple a f ih =>
    exact fun h => un a _ (fun r => r.multiple f) (ih h) fun y hy => multiple_gives F hp hy f
  | square a ih => exact fun h => un a _ _ (ih h) fun y hy => square_gives F hp hy
  | neg a ih => exact fun h => un a _ _ (ih h) fun y _ => neg_gives F hp y

/-- C89, fourth part: any computation with range constraints that uses integers of a fixed width above the modulus gives
what it gives with unbounded numbers. No operation overflows or panics, except for `from_max_bit` with a bit that does not
exist; a mask that is passed in is cut to the width. -/
theorem C89_ranges (F : FixedWidth I valid) (hp : p < 2 ^ I.width) (t : RangeTerm p) (ht : t.Typed) :
    ((∃ r, t.run I = .ok r) ↔ t.BitsExist I.width) ∧
    ∀ r, t.run I = .ok r → valid r.mask ∧ r.abs = t.ideal I.width := by
  have h := RangeTerm.run_error F hp t ht
  by_cases hb : t.BitsExist I.width
  · obtain ⟨y, hy, hv, hn⟩ := h.1 hb
    refine ⟨⟨fun _ => hb, fun _ => ⟨y, hy⟩⟩, ?_⟩
    intro r hr
    rw [hy] at hr
    obtain rfl := Except.ok.inj hr
    exact ⟨hv, hn⟩
  · refine ⟨⟨?_, fun h => absurd h hb⟩, ?_⟩
    · rintro ⟨r, hr⟩
      rw [h.2 hb] at hr
      cases hr
    · intro r hr
      rw [h.2 hb] at hr
      cases hr

/-- C89, fifth part: the same for the questions about range constraints. Only `allowed_values` can panic, namely if the
range has `2^32` or more elements. -/
theorem C89_queries (F : FixedWidth I valid) (hp : p < 2 ^ I.width) (a b : MachineRange I p) (ha : valid a.mask)
    (hb : valid b.mask) :
    I.toArbitrary a.width = a.abs.width ∧
    a.isUnconstrained = .ok a.abs.isUnconstrained ∧
    (∀ v, a.allowsValue v = a.abs.allowsValue v) ∧
    a.tryToSingleValue = a.abs.tryToSingleValue ∧
    a.isDisjoint b = a.abs.isDisjoint b.abs ∧
    (∀ l, a.allowedValues = .ok l ↔ a.abs.allowedValues = some l) ∧
    ((∃ l, a.allowedValues = .ok l) ↔ a.abs.width < 2 ^ 32) := by
  have hv := allowedValues_ok F hp ha
  refine ⟨(width_ok F hp a).2, isUnconstrained_ok F hp ha, fun v => allowsValue_ok F hp ha v,
    tryToSingleValue_ok F hp ha, isDisjoint_ok F hp ha hb, ?_, ?_⟩
  · intro l
    rw [hv]
    cases a.abs.allowedValues with
    | none => simp
    | some l' => simp
  · rw [hv]
    unfold RangeConstraint.allowedValues
    by_cases h : a.abs.width < 2 ^ 32
    · rw [if_pos h]
      exact ⟨fun _ => h, fun _ => ⟨_, rfl⟩⟩
    · rw [if_neg h]
      refine ⟨?_, fun x => absurd x h⟩
      rintro ⟨l, hl⟩
      cases hl

end

instance machineRange_prime : Fact (Nat.Prime 2013265921) := ⟨babyBear_prime⟩

/-- C89 for the fields in use: BabyBear, and any other field with less than 32 bits, has 32-bit integers, Goldilocks
64-bit integers, and BN254 integers with four limbs. -/
theorem C89_fields (checks : Bool) {p : ℕ} [Fact p.Prime] (t : RangeTerm p) (ht : t.Typed) :
    (p < 2 ^ 32 → ((∃ r, t.run (wordInt checks 32) = .ok r) ↔ t.BitsExist 32) ∧
      ∀ r, t.run (wordInt checks 32) = .ok r → r.abs = t.ideal 32) ∧
    (p < 2 ^ 64 → ((∃ r, t.run (wordInt checks 64) = .ok r) ↔ t.BitsExist 64) ∧
      ∀ r, t.run (wordInt checks 64) = .ok r → r.abs = t.ideal 64) ∧
    (p < 2 ^ 256 → ((∃ r, t.run (limbInt 4) = .ok r) ↔ t.BitsExist 256) ∧
      ∀ r, t.run (limbInt 4) = .ok r → r.abs = t.ideal 256) := by
  refine ⟨fun hp => ?_, fun hp => ?_, fun hp => ?_⟩
  · have h := C89_ranges (C89_words checks (w := 32) le_rfl) hp t ht
    exact ⟨h.1, fun r hr => (h.2 r hr).2⟩
  · have h := C89_ranges (C89_words checks (w := 64) (by omega)) hp t ht
    exact ⟨h.1, fun r hr => (h.2 r hr).2⟩
  · have h := C89_ranges (C89_limbs (n := 4) (by omega)) hp t ht
    exact ⟨h.1, fun r hr => (h.2 r hr).2⟩

/-- A concrete case: the sum of two bytes, restricted to a mask, times 256, in BabyBear. -/
def machineRangeSample : RangeTerm 2013265921 :=
  .multiple (.conjunction (.sum (.maxBit 7) (.mask 255)) (.mask 0x1fe)) 256

example : machineRangeSample.Typed ∧ machineRangeSample.BitsExist 32 := by
  simp [machineRangeSample, RangeTerm.Typed, RangeTerm.BitsExist]

/-- The mask is cut: with 32 bits, `2^32 + 255` is 255. -/
example : ((RangeTerm.mask (2 ^ 32 + 255) : RangeTerm 2013265921).ideal 32).mask = 255 := rfl

/-- Two integers with two limbs, a sum with a carry, a shift to the left that does not fit. -/
example : LimbInt.addCarry 0 [2 ^ 64 - 1, 3] [2, 4] = [1, 8] ∧ LimbInt.shl 2 [0, 2 ^ 63] 1 = .error .assertion := by
  decide +kernel

end Verif
