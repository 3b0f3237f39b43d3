import Verif.Proofs.HintBytes

/-!
# C71: hints about the field of secp256k1
-/

namespace Verif

open FieldElement10x26

/-- **C71** (the modulus): what the hints call inverses and square roots are those of a field. -/
theorem C71_prime : k256P.Prime := k256P_prime

/-- **C71** (products): for factors of magnitude at most 8 no operation overflows and no assertion
fails, and the result is the product modulo the prime, of magnitude 1 and, but for the third limb,
with limbs of 26 and 22 bits. -/
theorem C71_mul (a b : FieldElement10x26) (ha : a.Magnitude 8) (hb : b.Magnitude 8) :
    ∃ r, a.mul b = some r ∧ r.elem = a.elem * b.elem ∧ r.Magnitude 1 ∧
      (r.l2 < 2 ^ 26 → r.WeaklyNormalized) := by
  obtain ⟨r, hr, hp, he⟩ := mul_spec ha.small hb.small
  refine ⟨r, hr, he, hp.magnitude, fun h2 => ?_⟩
  obtain ⟨h0, h1, -, h3, h4, h5, h6, h7, h8, h9⟩ := hp
  exact ⟨h0, h1, h2, h3, h4, h5, h6, h7, h8, h9⟩

/-- **C71** (sums, negatives and small multiples). -/
theorem C71_linear (a b : FieldElement10x26) (m n : ℕ) (ha : a.Magnitude m) (hb : b.Magnitude n) :
    (m + n ≤ 32 → ∃ r, a.add b = some r ∧ r.Magnitude (m + n) ∧ r.elem = a.elem + b.elem) ∧
    (m ≤ maxMagnitude → ∃ r, a.negate m = some r ∧ r.Magnitude (m + 1) ∧ r.elem = - a.elem) ∧
    (∀ k, m * k ≤ 32 → ∃ r, a.mulSingle k = some r ∧ r.Magnitude (m * k) ∧ r.elem = a.elem * k) :=
  ⟨fun h => add_spec ha hb h, fun h => negate_spec ha h, fun _ h => mulSingle_spec ha h⟩

/-- **C71** (normalization): up to the maximal magnitude, `normalize` gives the limbs of the
smallest representative, and `normalizes_to_zero` says whether the element is zero. -/
theorem C71_normalize (a : FieldElement10x26) (ha : a.Magnitude maxMagnitude) :
    (∃ r, a.normalize = some r ∧ r.Normalized ∧ r.val = a.val % k256P) ∧
    ∃ b, a.normalizesToZero = some b ∧ (b = true ↔ a.elem = 0) := by
  refine ⟨normalize_spec ha, _, normalizesToZero_spec ha, ?_⟩
  rw [decide_eq_true_iff]

/-- **C71** (tests on normalized elements). -/
theorem C71_tests (a : FieldElement10x26) (ha : a.Normalized) :
    (a.isZero = true ↔ a.elem = 0) ∧ (a.isOdd = true ↔ a.val % 2 = 1) := by
  constructor
  · rw [isZero, beq_iff_eq]
    simp only [Nat.or_eq_zero_iff]
    have : a.elem = 0 ↔ a.val = 0 := by
      rw [elem, ZMod.natCast_eq_zero_iff]
      constructor
      · intro h; exact Nat.eq_zero_of_dvd_of_lt h ha.2
      · intro h; rw [h]; exact dvd_zero _
    rw [this]
    simp only [val]
    omega
  · rw [isOdd, beq_iff_eq]
    simp only [val]
    omega

/-- **C71** (SEC1 encoding): 32 bytes are decoded to the normalized element with their value if that
is smaller than the prime, and to nothing otherwise; a normalized element is encoded to the bytes of
its value. -/
theorem C71_bytes :
    (∀ b : ℕ → ℕ, (∀ i < 32, b i < 256) →
      (beValue ((List.range 32).map b) < k256P → ∃ r, fromBytes b = some (some r) ∧ r.Normalized ∧
        r.val = beValue ((List.range 32).map b)) ∧
      (k256P ≤ beValue ((List.range 32).map b) → fromBytes b = some none)) ∧
    ∀ a : FieldElement10x26, a.Normalized →
      a.toBytes.length = 32 ∧ (∀ x ∈ a.toBytes, x < 256) ∧ beValue a.toBytes = a.val := by
  refine ⟨fun b hb => ?_, fun a ha => toBytes_spec ha.1⟩
  obtain ⟨hw, hv⟩ := fromBytesUnchecked_spec hb
  have ho : (fromBytesUnchecked b).getOverflow =
      some (decide (k256P ≤ (fromBytesUnchecked b).val)) := by
    obtain ⟨h0, h1, h2, h3, h4, h5, h6, h7, h8, h9⟩ := hw
    exact getOverflow_spec ⟨h0, h1, h2, h3, h4, h5, h6, h7, h8⟩ (by omega)
  rw [← hv]
  constructor
  · intro h
    rw [decide_eq_false (by omega)] at ho
    refine ⟨fromBytesUnchecked b, ?_, ⟨hw, h⟩, rfl⟩
    simp only [fromBytes, ho, Option.bind_eq_bind, Option.bind_some, Bool.false_eq_true, if_false]
  · intro h
    rw [decide_eq_true h] at ho
    simp only [fromBytes, ho, Option.bind_eq_bind, Option.bind_some, if_true]

/-- **C71** (`from_u64`): the value of the limbs is the given number. -/
theorem C71_from_u64 (v : ℕ) (h : v < 2 ^ 64) :
    (fromU64 v).WeaklyNormalized ∧ (fromU64 v).val = v := by
  constructor
  · simp only [FieldElement10x26.WeaklyNormalized, fromU64]; omega
  · simp only [fromU64, val]; omega

/-- **C71** (inverse): for every element of magnitude at most 8 at the address that the register
holds, the guest receives the limbs of the smallest representative of its inverse, which is zero
for zero; the mask of the guest changes nothing. -/
theorem C71_inverse (m : HintMemory) (rs1 p : ℕ) (e : FieldElement10x26) (hrs : rs1 < 32)
    (hp : m.PointsTo rs1 p) (he : m.HoldsElem p e) (hm : e.Magnitude 8) :
    ∃ r, hintK256InverseField10x26 m rs1 = some r ∧ r.Normalized ∧
      hintStream m .k256InverseField10x26 rs1 = some r.leBytes ∧
      (e.elem ≠ 0 → r.elem * e.elem = 1) ∧ (e.elem = 0 → r = FieldElement10x26.zero) := by
  obtain ⟨r, hr, hn, hs, hv⟩ := hintInverse_spec hrs hp he hm
  refine ⟨r, hr, hn, hs, fun h0 => ?_, fun h0 => ?_⟩
  · rw [hv, inv_mul_cancel₀ h0]
  · rw [h0, inv_zero, elem, ZMod.natCast_eq_zero_iff] at hv
    have h := Nat.eq_zero_of_dvd_of_lt hv hn.2
    obtain ⟨l0, l1, l2, l3, l4, l5, l6, l7, l8, l9⟩ := r
    simp only [val] at h
    simp only [FieldElement10x26.zero, FieldElement10x26.mk.injEq]
    omega

/-- **C71** (square root): for every element of magnitude at most 8 the host answers whether it is
a square, with a root of it or, if it is not a square, of its product with 3.  The root has
magnitude 1 and, but for the third limb, limbs of 26 and 22 bits.  The guest receives that answer
and the root with the third limb reduced to 26 bits: the root itself if that limb has no more, and
otherwise a number that is smaller by `2^78`. -/
theorem C71_sqrt (m : HintMemory) (rs1 p : ℕ) (e : FieldElement10x26) (hrs : rs1 < 32)
    (hp : m.PointsTo rs1 p) (he : m.HoldsElem p e) (hm : e.Magnitude 8) :
    ∃ (b : Bool) (r g : FieldElement10x26),
      hintStream m .k256SqrtField10x26 rs1 = some (leBytes b.toNat ++ r.leBytes) ∧
      hintK256SqrtField10x26 m rs1 = some (b, g) ∧
      (b = true ↔ IsSquare e.elem) ∧ r.elem ^ 2 = (if b then e.elem else 3 * e.elem) ∧
      r.Magnitude 1 ∧ g.WeaklyNormalized ∧
      (r.l2 < 2 ^ 26 → g = r) ∧
      (2 ^ 26 ≤ r.l2 → g.val + 2 ^ 78 = r.val ∧
        (r.elem ≠ 2 ^ 77 → g.elem ^ 2 ≠ if b then e.elem else 3 * e.elem)) := by
  obtain ⟨b, r, hst, hg, hpr, hb, hr⟩ := hintSqrt_spec hrs hp he hm
  refine ⟨b, r, ensureWeaklyNormalized r, hst, hg, hb, ?_, hpr.magnitude,
    ensureWeaklyNormalized_weak r, fun h => ?_, fun h => ?_⟩
  · rw [hr, mul_comm]
  · rcases ensureWeaklyNormalized_product hpr with ⟨-, -, h'⟩ | ⟨-, h'⟩
    · exact h'
    · omega
  · rcases ensureWeaklyNormalized_product hpr with ⟨-, h', -⟩ | ⟨h', -⟩
    · omega
    · refine ⟨h', fun hne hsq => hne ?_⟩
      have he' : r.elem = (ensureWeaklyNormalized r).elem + 2 ^ 78 := by
        rw [elem, ← h', elem, Nat.cast_add, Nat.cast_pow, Nat.cast_ofNat]
      rw [mul_comm 3, ← hr, he'] at hsq
      have h2 : (2 : ZMod k256P) ≠ 0 := by
        have : ((2 : ℕ) : ZMod k256P) ≠ 0 := by
          rw [Ne, ZMod.natCast_eq_zero_iff]; decide +kernel
        exact_mod_cast this
      generalize (ensureWeaklyNormalized r).elem = g at *
      have h79 : (2 : ZMod k256P) ^ 79 * (g + 2 ^ 77) = 0 := by linear_combination - hsq
      have h0 := (mul_eq_zero.1 h79).resolve_left (pow_ne_zero _ h2)
      rw [he']
      linear_combination h0

/-- The root of 338398 that the host computes. -/
def root338398 : FieldElement10x26 :=
  ⟨0x1C11A37, 0x14DF744, 0x400072A, 0x1166BD3, 0x2C0376C, 0x119FC9E, 0x33B6090, 0x219BB13, 0x137087A, 0xE317B⟩

theorem sqrt338398 : (⟨338398, 0, 0, 0, 0, 0, 0, 0, 0, 0⟩ : FieldElement10x26).sqrt =
    some (some root338398) := by
  decide +kernel

/-- **C71** (the answers of an honest host are not always roots for the guest): for the number
338398, which is a square, the guest receives "square" and a number whose square is another
one. -/
theorem C71_sqrt_masked (m : HintMemory) (rs1 p : ℕ) (hrs : rs1 < 32) (hp : m.PointsTo rs1 p)
    (he : m.HoldsElem p ⟨338398, 0, 0, 0, 0, 0, 0, 0, 0, 0⟩) :
    IsSquare (338398 : ZMod k256P) ∧
    ∃ g, hintK256SqrtField10x26 m rs1 = some (true, g) ∧ g.elem ^ 2 ≠ 338398 := by
  have hp' : m.register (4 * rs1) = p := leWord_eq hp
  have hst : hintStream m .k256SqrtField10x26 rs1 = some (leBytes 1 ++ root338398.leBytes) := by
    simp only [hintStream_eq m _ hrs, HintsFunct7.executor, k256SqrtField10x26SubEx, check_true,
      hp', readElem_eq he, sqrt338398, Option.bind_eq_bind, Option.bind_some]
  have key : ∀ n : ℕ, (n ^ 2 % k256P = 338398 ↔ (n : ZMod k256P) ^ 2 = 338398) := by
    intro n
    have h := ZMod.natCast_eq_natCast_iff' (n ^ 2) 338398 k256P
    rw [Nat.mod_eq_of_lt (show 338398 < k256P by decide +kernel), Nat.cast_pow,
      Nat.cast_ofNat] at h
    exact h.symm
  refine ⟨?_, ensureWeaklyNormalized root338398, ?_, ?_⟩
  · refine ⟨(root338398.val : ZMod k256P), ?_⟩
    rw [← pow_two]
    exact ((key _).1 (by decide +kernel)).symm
  · have hsm : root338398.Small := by
      simp only [FieldElement10x26.Small, root338398]; omega
    simp only [hintK256SqrtField10x26, hst, Option.bind_eq_bind, Option.bind_some,
      readHintU32_leBytes (show (1 : ℕ) < 2 ^ 32 by norm_num), readHintElem_leBytes hsm]
    rfl
  · rw [elem, Ne, ← key]
    decide +kernel

/-- **C71** (inverse of bytes): for 32 bytes at the address that the register holds, the guest
receives the 32 bytes of the inverse of their value modulo the prime, and zeros if the value is a
multiple of the prime. -/
theorem C71_inverse_bytes (m : HintMemory) (rs1 p : ℕ) (hrs : rs1 < 32) (hp : m.PointsTo rs1 p) :
    ∃ r, hintK256InverseField m rs1 = some r ∧ r.length = 32 ∧ (∀ x ∈ r, x < 256) ∧
      beValue r < k256P ∧
      (beValue r : ZMod k256P) = ((beValue ((List.range 32).map fun i => m.mem (p + i)) : ℕ) :
        ZMod k256P)⁻¹ := by
  have hp' : m.register (4 * rs1) = p := leWord_eq hp
  have key : ∀ N : ℕ, N = k256P → ∀ n : ℕ, ∃ v : ℕ,
      (if ((n : ZMod N)).val = 0 then 0 else ((n : ZMod N)⁻¹).val) = v ∧ v < k256P ∧
      (v : ZMod k256P) = (n : ZMod k256P)⁻¹ := by
    rintro N rfl n
    refine ⟨_, rfl, ?_, ?_⟩
    · split_ifs
      · exact k256P_prime.pos
      · exact ZMod.val_lt _
    · split_ifs with h
      · rw [(ZMod.val_eq_zero _).1 h, inv_zero, Nat.cast_zero]
      · exact ZMod.natCast_zmod_val _
  obtain ⟨v, hv, hlt, hinv⟩ := key k256Mod (by decide +kernel)
    (beValue ((List.range 32).map fun i => m.mem (p + i)))
  obtain ⟨h1, h2, h3⟩ := toBeBytes_spec (n := v) (lt_trans hlt (by decide +kernel))
  refine ⟨toBeBytes v, ?_, h1, h2, by rw [h3]; exact hlt, by rw [h3]; exact hinv⟩
  have hst : hintStream m .k256InverseField rs1 = some (toBeBytes v) := by
    rw [hintStream_eq m _ hrs, HintsFunct7.executor, k256InverseFieldSubEx]
    simp only [check_true, hp', fromBeBytes_eq, hv, Option.bind_eq_bind, Option.bind_some]
  rw [hintK256InverseField, hst, Option.bind_eq_bind, Option.bind_some, readHint32,
    if_pos (by omega), List.take_of_length_le (by omega)]

/-- **C71** (reversed bytes): in the zkVM and outside of it the result is the word with its bytes in
the opposite order. -/
theorem C71_reverse (m : HintMemory) (rs1 p w : ℕ) (hrs : rs1 < 32) (hp : m.PointsTo rs1 p)
    (hw : HoldsWord m.mem p w) :
    hintReverseBytes m rs1 = some (byteSwap w) ∧ hintReverseBytesNative w = byteSwap w := by
  refine ⟨?_, native_eq w⟩
  have hp' : m.register (4 * rs1) = p := leWord_eq hp
  obtain ⟨hlt, hw⟩ := hw
  have h0 := hw 0 (by norm_num)
  have h1 := hw 1 (by norm_num)
  have h2 := hw 2 (by norm_num)
  have h3 := hw 3 (by norm_num)
  rw [add_zero] at h0
  have hst : hintStream m .reverseBytes rs1 = some [m.mem (p + 3), m.mem (p + 2), m.mem (p + 1),
      m.mem p] := by
    rw [hintStream_eq m _ hrs, HintsFunct7.executor, reverseBytesSubEx]
    simp only [check_true, hp', Option.bind_eq_bind, Option.bind_some]
    rfl
  rw [hintReverseBytes, hst, Option.bind_eq_bind, Option.bind_some, readHintU32,
    Option.bind_eq_bind, Option.bind_some, h0, h1, h2, h3, Option.some_inj, byteSwap]
  omega

/-- **C71** (instructions): a word is translated exactly if its opcode, `funct3` and `funct7` are
those of a hint; the instruction then has an executor and reads the register that the word
names. -/
theorem C71_translation (word : ℕ) (rest : List ℕ) :
    (∀ i, hintsProcessCustom (word :: rest) = some i →
      i.a = 4 * (word / 2 ^ 15 % 32) ∧ i.b = 0 ∧ i.cUpper = 0 ∧
      ∃ ex, (i.disc, ex) ∈ hintsExecutors) ∧
    ((hintsProcessCustom (word :: rest)).isSome ↔
      word % 128 = 0x5b ∧ word / 2 ^ 12 % 8 = 0 ∧ word / 2 ^ 25 % 128 < 4) := by
  have hm : ∀ f : HintsFunct7, (f.phantom, f.executor) ∈ hintsExecutors := by
    intro f
    have := List.mem_of_find?_eq_some (hintsExecutors_find f)
    exact this
  have hf : ∀ n, (∃ f, HintsFunct7.fromRepr n = some f) ↔ n < 4 := by
    intro n
    constructor
    · rintro ⟨f, h⟩
      by_contra hn
      obtain ⟨k, rfl⟩ : ∃ k, n = k + 4 := ⟨n - 4, by omega⟩
      simp [HintsFunct7.fromRepr] at h
    · intro hn
      interval_cases n <;> exact ⟨_, rfl⟩
  have h7 := hf (word / 2 ^ 25 % 2 ^ 7)
  rw [hintsProcessCustom]
  constructor
  · intro i hi
    split_ifs at hi with h1 h2
    rw [Option.bind_eq_bind, Option.bind_eq_some_iff] at hi
    obtain ⟨f, hf', hi⟩ := hi
    obtain rfl := (Option.some_inj.1 hi).symm
    exact ⟨rfl, rfl, rfl, f.executor, hm f⟩
  · split_ifs with h1 h2
    · simp only [Option.isSome_none, Bool.false_eq_true, false_iff]
      intro h; exact h1 h.1
    · simp only [Option.isSome_none, Bool.false_eq_true, false_iff]
      intro h; exact h2 h.2.1
    · rw [not_not] at h1 h2
      have : (word % 128 = 0x5b ∧ word / 2 ^ 12 % 8 = 0 ∧ word / 2 ^ 25 % 128 < 4) ↔
          word / 2 ^ 25 % 2 ^ 7 < 4 := by
        refine ⟨fun h => h.2.2, fun h => ⟨h1, h2, h⟩⟩
      rw [this, ← h7, Option.bind_eq_bind, Option.isSome_iff_exists]
      constructor
      · rintro ⟨i, hi⟩
        obtain ⟨f, hf', -⟩ := Option.bind_eq_some_iff.1 hi
        exact ⟨f, hf'⟩
      · rintro ⟨f, hf'⟩
        exact ⟨_, by rw [hf', Option.bind_some]⟩

/-! Every element can be in memory: register 10 points to address 4096, where its limbs are. -/

/-- A memory that holds an element at address 4096, to which register 10 points. -/
def hintSampleMemory (e : FieldElement10x26) : HintMemory :=
  ⟨fun a => if a = 41 then 16 else 0,
   fun a => e.limbs.getD ((a - 4096) / 4) 0 / 256 ^ ((a - 4096) % 4) % 256⟩

theorem hintSampleMemory_spec (e : FieldElement10x26) (h : ∀ l ∈ e.limbs, l < 2 ^ 32) :
    (hintSampleMemory e).PointsTo 10 4096 ∧ (hintSampleMemory e).HoldsElem 4096 e := by
  constructor
  · refine ⟨by norm_num, fun k hk => ?_⟩
    interval_cases k <;> rfl
  · intro k l hl
    refine ⟨h l (List.mem_of_getElem? hl), fun j hj => ?_⟩
    simp only [hintSampleMemory]
    rw [show (4096 + 4 * k + j - 4096) / 4 = k by omega,
      show (4096 + 4 * k + j - 4096) % 4 = j by omega, List.getD_eq_getElem?_getD, hl,
      Option.getD_some]

example : ∃ r, hintK256InverseField10x26 (hintSampleMemory ⟨7, 1, 0, 0, 0, 0, 0, 0, 0, 5⟩) 10 =
    some r ∧ r.Normalized := by
  have h := hintSampleMemory_spec ⟨7, 1, 0, 0, 0, 0, 0, 0, 0, 5⟩ (by decide)
  obtain ⟨r, hr, hn, -⟩ := C71_inverse _ 10 4096 _ (by norm_num) h.1 h.2 (by decide)
  exact ⟨r, hr, hn⟩

example : ∃ g, hintK256SqrtField10x26 (hintSampleMemory ⟨338398, 0, 0, 0, 0, 0, 0, 0, 0, 0⟩) 10 =
    some (true, g) ∧ g.elem ^ 2 ≠ 338398 := by
  have h := hintSampleMemory_spec ⟨338398, 0, 0, 0, 0, 0, 0, 0, 0, 0⟩ (by decide)
  exact (C71_sqrt_masked _ 10 4096 (by norm_num) h.1 h.2).2

/-- Four is a square. -/
example : ∃ g, hintK256SqrtField10x26 (hintSampleMemory ⟨4, 0, 0, 0, 0, 0, 0, 0, 0, 0⟩) 10 =
    some (true, g) := by
  have h := hintSampleMemory_spec ⟨4, 0, 0, 0, 0, 0, 0, 0, 0, 0⟩ (by decide)
  obtain ⟨b, r, g, -, hg, hb, -⟩ := C71_sqrt _ 10 4096 _ (by norm_num) h.1 h.2 (by decide)
  have : b = true := by
    rw [hb]
    refine ⟨((2 : ℕ) : ZMod k256P), ?_⟩
    rw [elem, ← Nat.cast_mul]
    exact congrArg _ (by decide +kernel)
  exact ⟨g, this ▸ hg⟩

end Verif
