import Verif.Spec.FieldText
import Verif.Proofs.Saved
import Verif.Proofs.Goldilocks

/-!
# Conversions of field elements: proofs
-/

namespace Verif

theorem digitOf_iff {radix : ℕ} {c : Char} {d : ℕ} : digitOf radix c = some d ↔ IsDigit radix c d := by
  have e0 : '0'.toNat = 48 := rfl
  have ea : 'a'.toNat = 97 := rfl
  have eA : 'A'.toNat = 65 := rfl
  unfold digitOf IsDigit
  rw [e0, ea, eA]
  constructor
  · intro h
    split_ifs at h with h1 h2 h3 <;> simp only [Option.some.injEq] at h <;> omega
  · rintro ⟨hd, h⟩
    by_cases h1 : 48 ≤ c.toNat ∧ c.toNat ≤ 57 ∧ c.toNat - 48 < radix
    · rw [if_pos h1]
      congr 1
      omega
    · rw [if_neg h1]
      by_cases h2 : 97 ≤ c.toNat ∧ c.toNat ≤ 122 ∧ c.toNat - 87 < radix
      · rw [if_pos h2]
        congr 1
        omega
      · rw [if_neg h2, if_pos (by omega)]
        congr 1
        omega

theorem digitsValue_iff {radix : ℕ} {cs : List Char} {acc n : ℕ} :
    digitsValue radix cs acc = some n ↔ ∃ ds, List.Forall₂ (IsDigit radix) cs ds ∧
      n = acc * radix ^ ds.length + Nat.ofDigits radix ds.reverse := by
  induction cs generalizing acc with
  | nil =>
    constructor
    · intro h
      exact ⟨[], .nil, by simpa [digitsValue, eq_comm] using h⟩
    · rintro ⟨ds, hd, rfl⟩
      cases hd
      simp [digitsValue]
  | cons c t ih =>
    simp only [digitsValue]
    constructor
    · intro h
      cases hc : digitOf radix c with
      | none => simp [hc] at h
      | some d =>
        rw [hc] at h
        obtain ⟨ds, hd, hn⟩ := ih.1 h
        refine ⟨d :: ds, .cons (digitOf_iff.1 hc) hd, ?_⟩
        rw [hn, List.reverse_cons, Nat.ofDigits_append, List.length_reverse, List.length_cons]
        simp only [Nat.ofDigits_singleton]
        ring
    · rintro ⟨ds, hd, hn⟩
      cases hd with
      | cons hc ht =>
        rename_i d ds
        rw [digitOf_iff.2 hc]
        refine ih.2 ⟨ds, ht, ?_⟩
        rw [hn, List.reverse_cons, Nat.ofDigits_append, List.length_reverse, List.length_cons]
        simp only [Nat.ofDigits_singleton]
        ring

theorem not_isDigit_plus {radix d : ℕ} : ¬ IsDigit radix '+' d := by
  have ep : '+'.toNat = 43 := rfl
  have e0 : '0'.toNat = 48 := rfl
  have ea : 'a'.toNat = 97 := rfl
  have eA : 'A'.toNat = 65 := rfl
  unfold IsDigit
  rw [e0, ea, eA, ep]
  omega

namespace FieldKind

theorem bigFromStr_iff {radix : ℕ} {s : List Char} {n : ℕ} : bigFromStr radix s = some n ↔ IsRadixNumeral radix s n := by
  have key : ∀ cs : List Char, (if cs = [] then none else digitsValue radix cs 0) = some n ↔
      ∃ ds, ds ≠ [] ∧ List.Forall₂ (IsDigit radix) cs ds ∧ n = Nat.ofDigits radix ds.reverse := by
    intro cs
    constructor
    · intro h
      split_ifs at h with hcs
      obtain ⟨ds, hd, hn⟩ := digitsValue_iff.1 h
      refine ⟨ds, ?_, hd, by simpa using hn⟩
      rintro rfl
      cases hd
      exact hcs rfl
    · rintro ⟨ds, hne, hd, hn⟩
      have : cs ≠ [] := by
        rintro rfl
        cases hd
        exact hne rfl
      rw [if_neg this]
      exact digitsValue_iff.2 ⟨ds, hd, by simpa using hn⟩
  unfold bigFromStr
  rw [key]
  constructor
  · rintro ⟨ds, h1, h2, h3⟩
    refine ⟨stripPlus s, ds, ?_, h1, h2, h3⟩
    unfold stripPlus
    split
    · exact .inr rfl
    · exact .inl rfl
  · rintro ⟨cs, ds, h, h1, h2, h3⟩
    have : stripPlus s = cs := by
      rcases h with rfl | rfl
      · unfold stripPlus
        split
        · cases h2 with
          | cons hc _ => exact absurd hc not_isDigit_plus
        · rfl
      · rfl
    rw [this]
    exact ⟨ds, h1, h2, h3⟩

theorem fromStrRadix_eq {limit radix : ℕ} {s : List Char} :
    Verif.fromStrRadix limit radix s = match bigFromStr radix s with
      | none => none
      | some n => if n < limit then some n else none := by
  unfold Verif.fromStrRadix bigFromStr
  split_ifs <;> rfl

theorem modulus_eq (k : FieldKind) : k.modulus = k.char := by
  cases k with
  | small p => rfl
  | goldilocks => decide +kernel
  | large p l => rfl

theorem modulus_pos {k : FieldKind} (hk : k.Valid) : 0 < k.modulus := by
  cases k with
  | small p => exact hk.1
  | goldilocks => decide +kernel
  | large p l => exact hk.1

theorem wrapGoldilocks_eq {n : ℕ} (hn : n < 2 ^ 64) : wrapGoldilocks n = .ok (n % Goldilocks.ORDER) := by
  unfold wrapGoldilocks Goldilocks.wrap Goldilocks.subU64
  by_cases h : n ≥ Goldilocks.ORDER
  · have : n % Goldilocks.ORDER = n - Goldilocks.ORDER := by
      rw [Nat.mod_eq_sub_mod h, Nat.mod_eq_of_lt]
      have : Goldilocks.ORDER = 18446744069414584321 := rfl
      omega
    simp [h, this]
  · have : n % Goldilocks.ORDER = n := Nat.mod_eq_of_lt (by omega)
    simp [h, this]

theorem fromBig_eq {k : FieldKind} {n : ℕ} (hk : k.Valid) (hn : n < k.modulus) : k.fromBig n = .ok n := by
  cases k with
  | small p =>
    have h1 := hk.2
    have h2 : n < p := hn
    have h3 : n < 2 ^ 64 := by omega
    simp only [fromBig, fromU64, checkedSmall, h2, h3, if_true]
  | goldilocks =>
    have h1 : n < Goldilocks.ORDER := hn
    have : Goldilocks.ORDER = 18446744069414584321 := rfl
    have h3 : n < 2 ^ 64 := by omega
    simp only [fromBig, fromU64, h3, if_true]
    rw [wrapGoldilocks_eq h3, Nat.mod_eq_of_lt h1]
  | large p l =>
    have h1 : n < p := hn
    simp only [fromBig, Nat.mod_eq_of_lt h1]

/-! ## Bytes -/

theorem ofLeBytes_eq (b : List (BitVec 8)) : ofLeBytes b = littleEndian b := by
  induction b with
  | nil => rfl
  | cons x t ih => simp only [ofLeBytes, littleEndian, List.foldr_cons] at *; rw [ih]

theorem length_leBytes (n a : ℕ) : (leBytes n a).length = n := by
  induction n generalizing a with
  | zero => rfl
  | succ n ih => simp [leBytes, ih]

theorem ofLeBytes_leBytes {n a : ℕ} (h : a < 256 ^ n) : ofLeBytes (leBytes n a) = a := by
  induction n generalizing a with
  | zero => simp at h; simp [leBytes, ofLeBytes, h]
  | succ n ih =>
    rw [pow_succ] at h
    rw [leBytes, ofLeBytes, ih (Nat.div_lt_of_lt_mul (by rw [mul_comm]; exact h)), BitVec.toNat_ofNat]
    exact Nat.mod_add_div a 256

theorem ofLeBytes_lt (b : List (BitVec 8)) : ofLeBytes b < 256 ^ b.length := by
  induction b with
  | nil => simp [ofLeBytes]
  | cons x t ih =>
    have := x.isLt
    rw [ofLeBytes, List.length_cons, pow_succ]
    omega

theorem numBytes_bound {k : FieldKind} (hk : k.Valid) {a : ℕ} (ha : a < k.modulus) : a < 256 ^ k.numBytes := by
  cases k with
  | small p =>
    have h1 := hk.2
    have h2 : a < p := ha
    show a < 256 ^ 4
    omega
  | goldilocks =>
    have h2 : a < Goldilocks.ORDER := ha
    have ho : Goldilocks.ORDER = 18446744069414584321 := rfl
    show a < 256 ^ 8
    omega
  | large p l =>
    refine lt_of_lt_of_le (lt_of_lt_of_le ha hk.2) ?_
    show 2 ^ (64 * l) ≤ 256 ^ (l * 8)
    rw [show (256 : ℕ) = 2 ^ 8 by norm_num, ← pow_mul, show 8 * (l * 8) = 64 * l by ring]

end FieldKind
end Verif
