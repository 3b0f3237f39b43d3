import Verif.Proofs.FieldText

/-!
# C85: conversions of field elements
-/

namespace Verif
open FieldKind

/-- C85: reading a printed element, in decimal or hexadecimal, gives the element. -/
theorem C85_print_parse {k : FieldKind} (hk : k.Valid) {a : ℕ} (ha : a < k.char) :
    k.fromStr (display a) = .ok a ∧ k.fromStrRadix (lowerHex a) 16 = .ok a := by
  have ha : a < k.modulus := by rw [modulus_eq]; exact ha
  have hbig : ∀ radix, 2 ≤ radix → radix ≤ 16 → bigFromStr radix (Nat.toDigits radix a) = some a := by
    intro radix h1 h2
    have h := fromStrRadix_toDigits (limit := a + 1) h1 h2 (Nat.lt_succ_self a)
    rw [fromStrRadix_eq] at h
    cases hb : bigFromStr radix (Nat.toDigits radix a) with
    | none => simp [hb] at h
    | some n =>
      simp only [hb] at h
      split_ifs at h
      exact h
  constructor
  · unfold fromStr display
    simp only [hbig 10 (by omega) (by omega)]
    rw [if_neg (by omega)]
    exact fromBig_eq hk ha
  · unfold FieldKind.fromStrRadix lowerHex
    cases k with
    | small p =>
      have h1 : a < p := ha
      have h2 := hk.2
      simp only [fromStrRadix_eq, hbig 16 (by omega) (by omega), show a < 2 ^ 32 by omega, if_true, checkedSmall, h1]
    | goldilocks =>
      have h1 : a < Goldilocks.ORDER := ha
      have : Goldilocks.ORDER = 18446744069414584321 := rfl
      simp only [fromStrRadix_eq, hbig 16 (by omega) (by omega), show a < 2 ^ 64 by omega, if_true, h1]
    | large p l =>
      have h1 : a < p := ha
      simp only [hbig 16 (by omega) (by omega), Nat.mod_eq_of_lt h1]
      rw [if_neg (by omega)]

/-- C85: reading a decimal numeral accepts exactly the numerals of numbers below the characteristic, and never panics. -/
theorem C85_decimal {k : FieldKind} (hk : k.Valid) (s : List Char) :
    (∀ n, k.fromStr s = .ok n ↔ IsRadixNumeral 10 s n ∧ n < k.char) ∧ k.fromStr s ≠ .error .panic := by
  unfold fromStr
  cases hb : bigFromStr 10 s with
  | none =>
    refine ⟨fun n => ⟨fun h => by simp at h, fun h => ?_⟩, by simp⟩
    rw [bigFromStr_iff.2 h.1] at hb
    cases hb
  | some m =>
    by_cases hm : m ≥ k.modulus
    · simp only [hm, if_true]
      refine ⟨fun n => ⟨fun h => by simp at h, fun h => ?_⟩, by simp⟩
      rw [bigFromStr_iff.2 h.1] at hb
      cases hb
      rw [modulus_eq] at hm
      omega
    · simp only [hm, if_false]
      have hm : m < k.modulus := by omega
      rw [fromBig_eq hk hm]
      refine ⟨fun n => ⟨fun h => ?_, fun h => ?_⟩, by simp⟩
      · cases h
        exact ⟨bigFromStr_iff.1 hb, by rw [← modulus_eq]; exact hm⟩
      · rw [bigFromStr_iff.2 h.1] at hb
        cases hb
        rfl

/-- C85: reading a numeral with a radix accepts exactly the numerals of numbers below the characteristic. For fields with
31 bits it panics on the numerals of other numbers with 32 bits; otherwise it returns an error. -/
theorem C85_radix {k : FieldKind} (hk : k.Valid) (s : List Char) (radix : ℕ) :
    (∀ n, k.fromStrRadix s radix = .ok n ↔ IsRadixNumeral radix s n ∧ n < k.char) ∧
      (k.fromStrRadix s radix = .error .panic ↔
        ∃ p n, k = small p ∧ IsRadixNumeral radix s n ∧ p ≤ n ∧ n < 2 ^ 32) := by
  have huniq : ∀ n m, bigFromStr radix s = some m → IsRadixNumeral radix s n → n = m := by
    intro n m h1 h2
    rw [bigFromStr_iff.2 h2] at h1
    exact Option.some.inj h1
  cases hb : bigFromStr radix s with
  | none =>
    have hno : ∀ n, ¬ IsRadixNumeral radix s n := fun n h => by
      rw [bigFromStr_iff.2 h] at hb
      cases hb
    have : k.fromStrRadix s radix = .error .err := by
      cases k <;> simp [FieldKind.fromStrRadix, fromStrRadix_eq, hb]
    rw [this]
    refine ⟨fun n => ⟨fun h => by simp at h, fun h => absurd h.1 (hno n)⟩, fun h => by simp at h, ?_⟩
    rintro ⟨p, n, _, h, _⟩
    exact absurd h (hno n)
  | some m =>
    have hm := bigFromStr_iff.1 hb
    rw [← modulus_eq]
    cases k with
    | small p =>
      have hp := hk.2
      by_cases h1 : m < p
      · have h2 : m < 2 ^ 32 := by omega
        have : (small p).fromStrRadix s radix = .ok m := by
          simp only [FieldKind.fromStrRadix, fromStrRadix_eq, hb, h2, if_true, checkedSmall, h1]
        rw [this]
        refine ⟨fun n => ⟨fun h => ?_, fun h => ?_⟩, fun h => by simp at h, ?_⟩
        · cases h
          exact ⟨hm, h1⟩
        · rw [huniq n m hb h.1]
        · rintro ⟨p', n, hp', hn, h3, _⟩
          cases hp'
          have := huniq n m hb hn
          omega
      · by_cases h2 : m < 2 ^ 32
        · have : (small p).fromStrRadix s radix = .error .panic := by
            simp only [FieldKind.fromStrRadix, fromStrRadix_eq, hb, h2, if_true, checkedSmall, h1, if_false]
          rw [this]
          refine ⟨fun n => ⟨fun h => by simp at h, fun h => ?_⟩, fun _ => ⟨p, m, rfl, hm, by omega, h2⟩, fun _ => rfl⟩
          have h3 := huniq n m hb h.1
          have h4 : n < p := h.2
          omega
        · have : (small p).fromStrRadix s radix = .error .err := by
            simp only [FieldKind.fromStrRadix, fromStrRadix_eq, hb, h2, if_false]
          rw [this]
          refine ⟨fun n => ⟨fun h => by simp at h, fun h => ?_⟩, fun h => by simp at h, ?_⟩
          · have h3 := huniq n m hb h.1
            have h4 : n < p := h.2
            omega
          · rintro ⟨p', n, _, hn, _, h3⟩
            have := huniq n m hb hn
            omega
    | goldilocks =>
      have ho : Goldilocks.ORDER = 18446744069414584321 := rfl
      have hmod : FieldKind.goldilocks.modulus = Goldilocks.ORDER := rfl
      by_cases h1 : m < Goldilocks.ORDER
      · have : FieldKind.goldilocks.fromStrRadix s radix = .ok m := by
          simp only [FieldKind.fromStrRadix, fromStrRadix_eq, hb, show m < 2 ^ 64 by omega, if_true, h1]
        rw [this]
        refine ⟨fun n => ⟨fun h => ?_, fun h => ?_⟩, fun h => by simp at h, ?_⟩
        · cases h
          exact ⟨hm, h1⟩
        · rw [huniq n m hb h.1]
        · rintro ⟨p', n, hp', _⟩
          cases hp'
      · have : FieldKind.goldilocks.fromStrRadix s radix = .error .err := by
          by_cases h2 : m < 2 ^ 64
          · simp only [FieldKind.fromStrRadix, fromStrRadix_eq, hb, h2, if_true, h1, if_false]
          · simp only [FieldKind.fromStrRadix, fromStrRadix_eq, hb, h2, if_false]
        rw [this]
        refine ⟨fun n => ⟨fun h => by simp at h, fun h => ?_⟩, fun h => by simp at h, ?_⟩
        · have h3 := huniq n m hb h.1
          rw [hmod] at h
          omega
        · rintro ⟨p', n, hp', _⟩
          cases hp'
    | large p l =>
      have hmod : (large p l).modulus = p := rfl
      by_cases h1 : m < p
      · have : (large p l).fromStrRadix s radix = .ok m := by
          simp only [FieldKind.fromStrRadix, hb, Nat.mod_eq_of_lt h1]
          rw [if_neg (by omega)]
        rw [this]
        refine ⟨fun n => ⟨fun h => ?_, fun h => ?_⟩, fun h => by simp at h, ?_⟩
        · cases h
          exact ⟨hm, h1⟩
        · rw [huniq n m hb h.1]
        · rintro ⟨p', n, hp', _⟩
          cases hp'
      · have : (large p l).fromStrRadix s radix = .error .err := by
          simp only [FieldKind.fromStrRadix, hb]
          rw [if_pos (by omega)]
        rw [this]
        refine ⟨fun n => ⟨fun h => by simp at h, fun h => ?_⟩, fun h => by simp at h, ?_⟩
        · have h3 := huniq n m hb h.1
          rw [hmod] at h
          omega
        · rintro ⟨p', n, hp', _⟩
          cases hp'

/-- C85: reading the bytes of an element gives the element. -/
theorem C85_bytes {k : FieldKind} (hk : k.Valid) {a : ℕ} (ha : a < k.char) :
    littleEndian (k.toBytesLe a) = a ∧ k.fromBytesLe (k.toBytesLe a) = .ok a := by
  have ha : a < k.modulus := by rw [modulus_eq]; exact ha
  have hb := ofLeBytes_leBytes (numBytes_bound hk ha)
  refine ⟨by rw [← ofLeBytes_eq]; exact hb, ?_⟩
  unfold toBytesLe fromBytesLe
  cases k with
  | small p =>
    have h1 : a < p := ha
    simp only [length_leBytes, numBytes, if_true, hb, checkedSmall, h1] at hb ⊢
  | goldilocks =>
    have h1 : a < Goldilocks.ORDER := ha
    have ho : Goldilocks.ORDER = 18446744069414584321 := rfl
    have h2 : a < 2 ^ 64 := by omega
    simp only [hb, h2, if_true, wrapGoldilocks_eq h2, Nat.mod_eq_of_lt h1]
  | large p l =>
    have h1 : a < p := ha
    simp only [length_leBytes, numBytes, if_true, hb, h1] at hb ⊢

/-- C85: what is read from bytes. -/
theorem C85_from_bytes {k : FieldKind} (hk : k.Valid) (b : List (BitVec 8)) :
    (∀ n, k.fromBytesLe b = .ok n → IsCanonical k.char n (littleEndian b)) ∧
      ((∃ n, k.fromBytesLe b = .ok n) ↔
        match k with
        | .goldilocks => littleEndian b < 2 ^ 64
        | .small _ => b.length = 4 ∧ littleEndian b < k.char
        | .large _ limbs => b.length = 8 * limbs ∧ littleEndian b < k.char) := by
  rw [← modulus_eq]
  unfold fromBytesLe IsCanonical
  rw [ofLeBytes_eq]
  cases k with
  | small p =>
    have hmod : (small p).modulus = p := rfl
    simp only [checkedSmall, hmod]
    constructor
    · intro n h
      split_ifs at h with h1 h2
      cases h
      exact ⟨h2, Int.ModEq.refl _⟩
    · constructor
      · rintro ⟨n, h⟩
        split_ifs at h with h1 h2
        exact ⟨h1, h2⟩
      · rintro ⟨h1, h2⟩
        exact ⟨littleEndian b, by simp only [h1, h2, if_true]⟩
  | goldilocks =>
    have hmod : FieldKind.goldilocks.modulus = Goldilocks.ORDER := rfl
    have ho : Goldilocks.ORDER = 18446744069414584321 := rfl
    by_cases h : littleEndian b < 2 ^ 64
    · have hlt : littleEndian b % Goldilocks.ORDER < Goldilocks.ORDER := Nat.mod_lt _ (by rw [ho]; omega)
      simp only [h, if_true, wrapGoldilocks_eq h, wrapGoldilocks_eq (show littleEndian b % Goldilocks.ORDER < 2 ^ 64 by omega),
        Nat.mod_mod]
      refine ⟨fun n hn => ?_, by simp⟩
      cases hn
      rw [hmod]
      refine ⟨hlt, ?_⟩
      rw [Int.natCast_mod]
      exact Int.mod_modEq _ _
    · rw [if_neg h]
      exact ⟨fun n hn => by simp at hn, fun ⟨n, hn⟩ => by simp at hn, fun h' => absurd h' h⟩
  | large p l =>
    have hmod : (large p l).modulus = p := rfl
    simp only [hmod]
    constructor
    · intro n h
      split_ifs at h with h1 h2
      cases h
      exact ⟨h2, Int.ModEq.refl _⟩
    · constructor
      · rintro ⟨n, h⟩
        split_ifs at h with h1 h2
        exact ⟨by omega, h2⟩
      · rintro ⟨h1, h2⟩
        exact ⟨littleEndian b, by simp only [show b.length = l * 8 by omega, h2, if_true]⟩

/-- C85: what is made of unsigned integers. -/
theorem C85_unsigned {k : FieldKind} (hk : k.Valid) {n : ℕ} (hn : n < 2 ^ 64) :
    (∀ m, k.fromU64 n = .ok m → IsCanonical k.char m n) ∧
      ((∃ m, k.fromU64 n = .ok m) ↔ ∀ p, k = small p → n < p) ∧ (n < 2 ^ 32 → k.fromU32 n = k.fromU64 n) ∧
      k.checkedFrom n = .ok (if n < k.char then some n else none) := by
  rw [← modulus_eq]
  have hch : k.checkedFrom n = .ok (if n < k.modulus then some n else none) := by
    unfold checkedFrom
    split_ifs with h
    · rw [fromBig_eq hk h]
      rfl
    · rfl
  refine ⟨?_, ?_, ?_, hch⟩
  · intro m hm
    cases k with
    | small p =>
      simp only [fromU64, checkedSmall] at hm
      split_ifs at hm with h
      cases hm
      exact ⟨h, Int.ModEq.refl _⟩
    | goldilocks =>
      simp only [fromU64, wrapGoldilocks_eq hn] at hm
      cases hm
      refine ⟨Nat.mod_lt _ (modulus_pos (k := .goldilocks) trivial), ?_⟩
      rw [Int.natCast_mod]
      exact Int.mod_modEq _ _
    | large p l =>
      cases hm
      refine ⟨Nat.mod_lt _ hk.1, ?_⟩
      rw [Int.natCast_mod]
      exact Int.mod_modEq _ _
  · cases k with
    | small p =>
      constructor
      · rintro ⟨m, hm⟩ p' hp'
        cases hp'
        simp only [fromU64, checkedSmall] at hm
        split_ifs at hm with h
        exact h
      · intro h
        exact ⟨n, if_pos (h p rfl)⟩
    | goldilocks => exact ⟨fun _ p hp => (by cases hp), fun _ => ⟨_, wrapGoldilocks_eq hn⟩⟩
    | large p l => exact ⟨fun _ p hp => (by cases hp), fun _ => ⟨_, rfl⟩⟩
  · intro h
    cases k with
    | small p => rfl
    | goldilocks =>
      have ho : Goldilocks.ORDER = 18446744069414584321 := rfl
      simp only [fromU64, fromU32, wrapGoldilocks_eq hn]
      rw [Nat.mod_eq_of_lt (by omega)]
    | large p l => rfl

/-- C85: what is made of signed integers. For fields with 31 bits, integers whose absolute value is too large make the
conversion panic. -/
theorem C85_signed {k : FieldKind} (hk : k.Valid) {n : ℤ} (h1 : -2 ^ 63 ≤ n) (h2 : n < 2 ^ 63) :
    (∀ m, k.fromI64 n = .ok m → IsCanonical k.char m n) ∧
      ((∃ m, k.fromI64 n = .ok m) ↔ ∀ p, k = small p → -(p : ℤ) ≤ n ∧ n < p) := by
  rw [← modulus_eq]
  cases k with
  | small p =>
    have hp := hk.2
    have hmod : (small p).modulus = p := rfl
    rw [hmod]
    have key : ∀ m, (small p).fromI64 n = .ok m ↔
        ((n < 0 ∧ (m : ℤ) = p + n ∧ m < p) ∨ (0 ≤ n ∧ (m : ℤ) = n ∧ m < p)) := by
      intro m
      simp only [fromI64, checkedSmall]
      by_cases hn : n < 0
      · have : (p + (2 ^ 64 + n).toNat) % 2 ^ 64 = if -(p : ℤ) ≤ n then (p + n).toNat else (2 ^ 64 + p + n).toNat := by
          split_ifs <;> omega
        rw [if_pos hn, this]
        by_cases hpn : -(p : ℤ) ≤ n
        · rw [if_pos hpn]
          by_cases hlt : (p + n).toNat < p
          · rw [if_pos hlt]
            simp only [Except.ok.injEq]
            omega
          · omega
        · rw [if_neg hpn, if_neg (by omega)]
          simp only [reduceCtorEq, false_iff]
          omega
      · rw [if_neg hn]
        by_cases hlt : n.toNat < p
        · rw [if_pos hlt]
          simp only [Except.ok.injEq]
          omega
        · rw [if_neg hlt]
          simp only [reduceCtorEq, false_iff]
          omega
    refine ⟨fun m hm => ?_, ?_⟩
    · rcases (key m).1 hm with ⟨_, h, hlt⟩ | ⟨_, h, hlt⟩
      · refine ⟨hlt, ?_⟩
        rw [h]
        exact Int.ModEq.symm (Int.modEq_of_dvd ⟨1, by ring⟩)
      · exact ⟨hlt, by rw [h]⟩
    · constructor
      · rintro ⟨m, hm⟩ p' hp'
        cases hp'
        rcases (key m).1 hm with h | h <;> omega
      · intro h
        obtain ⟨h3, h4⟩ := h p rfl
        by_cases hn : n < 0
        · exact ⟨(p + n).toNat, (key _).2 (.inl ⟨hn, by omega, by omega⟩)⟩
        · exact ⟨n.toNat, (key _).2 (.inr ⟨by omega, by omega, by omega⟩)⟩
  | goldilocks =>
    have ho : Goldilocks.ORDER = 18446744069414584321 := rfl
    have hmod : FieldKind.goldilocks.modulus = Goldilocks.ORDER := rfl
    have key : ∃ m : ℕ, FieldKind.goldilocks.fromI64 n = .ok m ∧ m < Goldilocks.ORDER ∧
        (m : ℤ) = if n < 0 then Goldilocks.ORDER + n else n := by
      simp only [fromI64, Goldilocks.ofI64, Goldilocks.fromCanonicalU64]
      by_cases hn : n < 0
      · have e : (Goldilocks.ORDER + (2 ^ 64 + n).toNat) % 2 ^ 64 = ((Goldilocks.ORDER : ℤ) + n).toNat := by
          rw [ho]; omega
        rw [if_pos hn, if_pos hn, e, Goldilocks.check_eq (by simp; omega), Goldilocks.ok_bind]
        exact ⟨_, rfl, by omega, by omega⟩
      · rw [if_neg hn, if_neg hn, Goldilocks.check_eq (by simp; omega), Goldilocks.ok_bind]
        exact ⟨_, rfl, by omega, by omega⟩
    obtain ⟨m, hm, hlt, hv⟩ := key
    refine ⟨fun m' hm' => ?_, fun _ p hp => (by cases hp), fun _ => ⟨_, hm⟩⟩
    rw [hm] at hm'
    cases hm'
    refine ⟨hlt, ?_⟩
    rw [hv, hmod]
    split_ifs
    · exact Int.ModEq.symm (Int.modEq_of_dvd ⟨1, by ring⟩)
    · rfl
  | large p l =>
    have hp := hk.1
    refine ⟨fun m hm => ?_, fun _ p hp => (by cases hp), fun _ => ⟨_, rfl⟩⟩
    cases hm
    have h0 := Int.emod_nonneg n (show (p : ℤ) ≠ 0 by omega)
    have hl := Int.emod_lt_of_pos n (show (0 : ℤ) < p by omega)
    refine ⟨?_, ?_⟩
    · show (n % (p : ℤ)).toNat < p
      omega
    · rw [Int.toNat_of_nonneg h0]
      exact Int.mod_modEq _ _

/-- C85: the signed form of an element is the integer of smallest absolute value that denotes it, and converting it back
gives the element. -/
theorem C85_to_signed {k : FieldKind} (hk : k.Valid) {a : ℕ} (ha : a < k.char) :
    k.toSigned a ≡ a [ZMOD k.char] ∧ -(k.char : ℤ) ≤ 2 * k.toSigned a ∧ 2 * k.toSigned a < k.char ∧
      (-2 ^ 63 ≤ k.toSigned a → k.toSigned a < 2 ^ 63 → k.fromI64 (k.toSigned a) = .ok a) := by
  have hres : k.toSigned a ≡ a [ZMOD k.char] ∧ -(k.char : ℤ) ≤ 2 * k.toSigned a ∧ 2 * k.toSigned a < k.char := by
    rw [← modulus_eq] at ha ⊢
    unfold FieldKind.toSigned FieldKind.isInLowerHalf
    by_cases h : a ≤ (k.modulus - 1) / 2
    · simp only [h, decide_true, if_true]
      exact ⟨Int.ModEq.refl _, by omega, by omega⟩
    · simp only [h, decide_false, Bool.false_eq_true, if_false]
      exact ⟨Int.ModEq.symm (Int.modEq_of_dvd ⟨-1, by ring⟩), by omega, by omega⟩
  refine ⟨hres.1, hres.2.1, hres.2.2, fun h1 h2 => ?_⟩
  obtain ⟨hok, hiff⟩ := C85_signed hk h1 h2
  obtain ⟨m, hm⟩ := hiff.2 (by
    rintro p rfl
    have : (small p).char = p := rfl
    omega)
  have hc := hok m hm
  have h3 : (m : ℤ) ≡ a [ZMOD k.char] := hc.2.trans hres.1
  have h4 : m = a := by
    have := (Int.natCast_modEq_iff.1 h3)
    exact Nat.ModEq.eq_of_lt_of_lt this hc.1 ha
  rw [hm, h4]

/-- C85: equal text, equal bytes or equal signed form only for equal elements. -/
theorem C85_injective {k : FieldKind} (hk : k.Valid) {a b : ℕ} (ha : a < k.char) (hb : b < k.char)
    (h : display a = display b ∨ lowerHex a = lowerHex b ∨ k.toBytesLe a = k.toBytesLe b ∨ k.toSigned a = k.toSigned b) :
    a = b := by
  rcases h with h | h | h | h
  · have h1 := (C85_print_parse hk ha).1
    rw [h, (C85_print_parse hk hb).1] at h1
    exact (Except.ok.inj h1).symm
  · have h1 := (C85_print_parse hk ha).2
    rw [h, (C85_print_parse hk hb).2] at h1
    exact (Except.ok.inj h1).symm
  · have h1 := (C85_bytes hk ha).2
    rw [h, (C85_bytes hk hb).2] at h1
    exact (Except.ok.inj h1).symm
  · have h1 := (C85_to_signed hk ha).1.symm.trans (h ▸ (C85_to_signed hk hb).1)
    exact Nat.ModEq.eq_of_lt_of_lt (Int.natCast_modEq_iff.1 h1) ha hb

/-! ### Samples: the hypotheses are met by the fields the code base uses -/

/-- BabyBear. -/
def babyBearKind : FieldKind := small 2013265921

example : babyBearKind.Valid := by
  constructor <;> norm_num
example : FieldKind.goldilocks.Valid := trivial
example : (large 21888242871839275222246405745257275088548364400416034343698204186575808495617 4).Valid := by
  constructor <;> norm_num
example : babyBearKind.fromStr "+2013265920".toList = .ok 2013265920 := by decide +kernel
example : babyBearKind.fromStr "2013265921".toList = .error .err := by decide +kernel
example : babyBearKind.fromStrRadix "2013265921".toList 10 = .error .panic := by decide +kernel
example : babyBearKind.fromI64 (-1) = .ok 2013265920 := by decide +kernel
example : babyBearKind.fromI64 (-2013265922) = .error .panic := by decide +kernel
example : babyBearKind.toSigned 2013265920 = -1 := by decide +kernel
example : FieldKind.goldilocks.fromStrRadix "ffffffff00000000".toList 16 = .ok 18446744069414584320 := by decide +kernel
example : lowerHex 18446744069414584320 = "ffffffff00000000".toList := by decide +kernel

end Verif
