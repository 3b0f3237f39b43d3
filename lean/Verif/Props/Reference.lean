import Verif.Model.Reference
import Mathlib.Tactic.Ring

/-! # Properties of the serialisation of column references -/

namespace Verif

/-! ## Specification -/

/-- The number a decimal numeral stands for. -/
def numeralValue (ds : List Char) : ℕ := ds.foldl (fun n c => n * 10 + (c.toNat - '0'.toNat)) 0

/-- A numeral: digits, at least one, perhaps after a plus sign. -/
def IsNumeral (s : List Char) (n : ℕ) : Prop :=
  ∃ ds, (s = ds ∨ s = '+' :: ds) ∧ ds ≠ [] ∧ (∀ c ∈ ds, c.isDigit) ∧ numeralValue ds = n

/-! ## Lemmas -/

theorem isDigit_iff (c : Char) : c.isDigit = true ↔ 48 ≤ c.toNat ∧ c.toNat ≤ 57 := by
  unfold Char.isDigit
  rw [Bool.and_eq_true, decide_eq_true_eq, decide_eq_true_eq]
  exact Iff.rfl

theorem digitValue_some {c : Char} {d : ℕ} (h : digitValue c = some d) :
    c.isDigit = true ∧ d = c.toNat - 48 := by
  unfold digitValue at h
  split at h
  · rename_i hc
    cases h
    exact ⟨(isDigit_iff c).2 hc, rfl⟩
  · cases h

theorem digitValue_digit {c : Char} (h : c.isDigit = true) : digitValue c = some (c.toNat - 48) := by
  rw [digitValue, if_pos ((isDigit_iff c).1 h)]

theorem foldl_ge (ds : List Char) (a : ℕ) :
    a ≤ ds.foldl (fun n c => n * 10 + (c.toNat - '0'.toNat)) a := by
  induction ds generalizing a with
  | nil => exact le_refl _
  | cons c t ih =>
    rw [List.foldl_cons]
    exact le_trans (by omega) (ih _)

theorem parseDigits_eq {ds : List Char} {a n : ℕ} (ha : a < 2 ^ 64) : parseDigits ds a = some n ↔
    (∀ c ∈ ds, c.isDigit) ∧ ds.foldl (fun n c => n * 10 + (c.toNat - '0'.toNat)) a = n ∧ n < 2 ^ 64 := by
  induction ds generalizing a with
  | nil =>
    simp only [parseDigits, Option.some.injEq, List.not_mem_nil, false_implies, implies_true, List.foldl_nil,
      true_and]
    constructor
    · rintro rfl
      exact ⟨rfl, ha⟩
    · exact fun h => h.1
  | cons c t ih =>
    have h0 : '0'.toNat = 48 := rfl
    rw [parseDigits, List.foldl_cons]
    cases hd : digitValue c with
    | none =>
      simp only [reduceCtorEq, false_iff]
      rintro ⟨h1, -⟩
      rw [digitValue_digit (h1 c (by simp))] at hd
      cases hd
    | some d =>
      obtain ⟨h1, rfl⟩ := digitValue_some hd
      simp only
      split
      · rename_i hlt
        rw [ih hlt]
        simp only [List.mem_cons, forall_eq_or_imp, h1, true_and, h0]
      · rename_i hge
        simp only [reduceCtorEq, false_iff]
        rintro ⟨-, h3, h4⟩
        have := foldl_ge t (a * 10 + (c.toNat - '0'.toNat))
        rw [h3, h0] at this
        omega

theorem parseU64_eq {s : List Char} {n : ℕ} : parseU64 s = some n ↔ IsNumeral s n ∧ n < 2 ^ 64 := by
  have hplus : ('+').isDigit = false := by decide
  have hminus : ('-').isDigit = false := by decide
  have key : ∀ c t, ¬ (c = '+' ∧ t = []) → ¬ (c = '-' ∧ t = []) →
      (if c = '+' then parseDigits t 0 else parseDigits (c :: t) 0) = some n →
      IsNumeral (c :: t) n ∧ n < 2 ^ 64 := by
    intro c t h1 h2 h
    split at h
    · rename_i hc
      subst hc
      obtain ⟨a1, a2, a3⟩ := (parseDigits_eq (by norm_num)).1 h
      exact ⟨⟨t, .inr rfl, fun ht => h1 ⟨rfl, ht⟩, a1, a2⟩, a3⟩
    · obtain ⟨a1, a2, a3⟩ := (parseDigits_eq (by norm_num)).1 h
      exact ⟨⟨c :: t, .inl rfl, by simp, a1, a2⟩, a3⟩
  constructor
  · intro h
    unfold parseU64 at h
    split at h
    · cases h
    · cases h
    · cases h
    · rename_i c t hp hm
      exact key c t (by rintro ⟨rfl, rfl⟩; exact hp rfl rfl) (by rintro ⟨rfl, rfl⟩; exact hm rfl rfl) h
  · rintro ⟨⟨ds, hs, hne, hd, hv⟩, hn⟩
    have hpd : parseDigits ds 0 = some n := (parseDigits_eq (by norm_num)).2 ⟨hd, hv, hn⟩
    obtain ⟨c, t, rfl⟩ := List.exists_cons_of_ne_nil hne
    have hc : c.isDigit := hd c (by simp)
    rcases hs with rfl | rfl
    · unfold parseU64
      split
      · rename_i h
        cases h
      · rename_i h
        cases h
        rw [hplus] at hc
        cases hc
      · rename_i h
        cases h
        rw [hminus] at hc
        cases hc
      · rename_i c' t' _ _ h
        cases h
        rw [if_neg, hpd]
        rintro rfl
        rw [hplus] at hc
        cases hc
    · unfold parseU64
      split
      · rename_i h
        cases h
      · rename_i h
        cases h
      · rename_i h
        cases h
      · rename_i h
        cases h
        rw [if_pos rfl, hpd]

theorem rfindChar_none {c : Char} : ∀ {s : List Char}, rfindChar c s = none ↔ c ∉ s
  | [] => by simp [rfindChar]
  | a :: t => by
    rw [rfindChar]
    cases h : rfindChar c t with
    | some i =>
      have : ¬ c ∉ t := fun hn => by
        rw [rfindChar_none.2 hn] at h
        cases h
      simp only [reduceCtorEq, false_iff, List.mem_cons, not_or, not_and]
      exact fun _ => this
    | none =>
      have ht := rfindChar_none.1 h
      simp only [List.mem_cons, not_or]
      by_cases hac : a = c
      · simp [hac]
      · simp only [if_neg hac, true_iff]
        exact ⟨fun e => hac e.symm, ht⟩

theorem rfindChar_some {c : Char} {s : List Char} {i : ℕ} : rfindChar c s = some i ↔
    ∃ x y, s = x ++ c :: y ∧ x.length = i ∧ c ∉ y := by
  induction s generalizing i with
  | nil => simp [rfindChar]
  | cons a t ih =>
    rw [rfindChar]
    cases h : rfindChar c t with
    | some j =>
      obtain ⟨x, y, rfl, rfl, hy⟩ := ih.1 h
      simp only [Option.some.injEq]
      constructor
      · rintro rfl
        exact ⟨a :: x, y, rfl, rfl, hy⟩
      · rintro ⟨x', y', e, rfl, hy'⟩
        have h2 : rfindChar c (x ++ c :: y) = some (x'.length - 1) := by
          cases x' with
          | nil =>
            rw [List.nil_append, List.cons.injEq] at e
            rw [← e.2] at hy'
            simp at hy'
          | cons b x' =>
            rw [List.cons_append, List.cons.injEq] at e
            rw [e.2]
            rw [← e.2]
            exact ih.2 ⟨x', y', e.2, by simp, hy'⟩
        rw [h] at h2
        cases x' with
        | nil =>
          rw [List.nil_append, List.cons.injEq] at e
          rw [← e.2] at hy'
          simp at hy'
        | cons b x' =>
          simp at h2
          simp [h2]
    | none =>
      have ht := rfindChar_none.1 h
      simp only
      constructor
      · intro hi
        split at hi
        · rename_i hac
          subst hac
          cases hi
          exact ⟨[], t, rfl, rfl, ht⟩
        · cases hi
      · rintro ⟨x, y, e, rfl, hy⟩
        cases x with
        | nil =>
          rw [List.nil_append, List.cons.injEq] at e
          rw [if_pos e.1]
          rfl
        | cons b x =>
          rw [List.cons_append, List.cons.injEq] at e
          rw [e.2] at ht
          simp at ht

theorem decimalDigit_isDigit : ∀ n < 10, (decimalDigit n).isDigit = true ∧ (decimalDigit n).toNat = 48 + n := by
  decide

theorem displayNat_spec (n : ℕ) : displayNat n ≠ [] ∧ (∀ c ∈ displayNat n, c.isDigit) ∧
    numeralValue (displayNat n) = n := by
  induction n using Nat.strongRecOn with
  | _ n ih =>
    rw [displayNat]
    have h0 : '0'.toNat = 48 := rfl
    split
    · rename_i h
      obtain ⟨h1, h2⟩ := decimalDigit_isDigit n h
      refine ⟨by simp, by simpa using h1, ?_⟩
      simp only [numeralValue, List.foldl_cons, List.foldl_nil, h2, h0]
      omega
    · rename_i h
      obtain ⟨-, a2, a3⟩ := ih (n / 10) (by omega)
      obtain ⟨h1, h2⟩ := decimalDigit_isDigit (n % 10) (Nat.mod_lt _ (by norm_num))
      refine ⟨by simp, ?_, ?_⟩
      · intro c hc
        rcases List.mem_append.1 hc with hc | hc
        · exact a2 c hc
        · rw [List.mem_singleton] at hc
          subst hc
          exact h1
      · unfold numeralValue at a3 ⊢
        rw [List.foldl_append, a3]
        simp only [List.foldl_cons, List.foldl_nil, h2, h0]
        omega

theorem digits_no_at {ds : List Char} (h : ∀ c ∈ ds, c.isDigit) : '@' ∉ ds := by
  intro hm
  have := h _ hm
  revert this
  decide

/-! ## The property -/

/-- **C46.** Deserialising the serialised form of a reference gives back its name and its id, for all names,
including those that contain the separator. -/
theorem C46_round_trip (r : ColumnReference) (h : r.id < 2 ^ 64) :
    ColumnReference.deserialize r.serialize = some r := by
  obtain ⟨h1, h2, h3⟩ := displayNat_spec r.id
  have hf : rfindChar '@' r.serialize = some r.name.length :=
    rfindChar_some.2 ⟨r.name, displayNat r.id, rfl, rfl, digits_no_at h2⟩
  rw [ColumnReference.deserialize, hf]
  simp only [ColumnReference.serialize]
  have hd : (r.name ++ '@' :: displayNat r.id).drop (r.name.length + 1) = displayNat r.id := by
    rw [List.drop_append, List.drop_of_length_le (by omega)]
    simp
  rw [hd, parseU64_eq.2 ⟨⟨_, .inl rfl, h1, h2, h3⟩, h⟩]
  simp

/-- Different references have different serialised forms. -/
theorem C46_injective {a b : ColumnReference} (ha : a.id < 2 ^ 64) (hb : b.id < 2 ^ 64)
    (h : a.serialize = b.serialize) : a = b := by
  have := C46_round_trip a ha
  rw [h, C46_round_trip b hb] at this
  exact (Option.some.inj this).symm

/-- A string is accepted exactly if it consists of the name, the separator and a numeral (with an optional plus
sign; leading zeros are allowed) for the id, which must fit into 64 bits. The name is everything before the last
separator. -/
theorem C46_accepts {s : List Char} {r : ColumnReference} : ColumnReference.deserialize s = some r ↔
    ∃ ds, s = r.name ++ '@' :: ds ∧ IsNumeral ds r.id ∧ r.id < 2 ^ 64 := by
  constructor
  · intro h
    unfold ColumnReference.deserialize at h
    split at h
    · cases h
    · rename_i pos hp
      split at h
      · cases h
      · rename_i id hid
        cases h
        obtain ⟨x, y, rfl, rfl, hy⟩ := rfindChar_some.1 hp
        have hd : (x ++ '@' :: y).drop (x.length + 1) = y := by
          rw [List.drop_append, List.drop_of_length_le (by omega)]
          simp
        rw [hd] at hid
        obtain ⟨a1, a2⟩ := parseU64_eq.1 hid
        exact ⟨y, by simp, a1, a2⟩
  · rintro ⟨ds, rfl, hn, hlt⟩
    have hno : '@' ∉ ds := by
      obtain ⟨d, hd, -, hdig, -⟩ := hn
      have := digits_no_at hdig
      rcases hd with rfl | rfl
      · exact this
      · simp [this]
    have hf : rfindChar '@' (r.name ++ '@' :: ds) = some r.name.length :=
      rfindChar_some.2 ⟨r.name, ds, rfl, rfl, hno⟩
    have hd : (r.name ++ '@' :: ds).drop (r.name.length + 1) = ds := by
      rw [List.drop_append, List.drop_of_length_le (by omega)]
      simp
    rw [ColumnReference.deserialize, hf]
    simp only
    rw [hd, parseU64_eq.2 ⟨hn, hlt⟩]
    simp

/-- Two references are equal for the code exactly if they compare as equal, which only depends on the ids; a
reference is equal to the one read back. -/
theorem C46_equality (a b : ColumnReference) : (a.eq b = true ↔ a.cmp b = .eq) ∧
    (a.eq b = true ↔ a.id = b.id) ∧
    ∀ s, ColumnReference.deserialize a.serialize = some s → a.eq s = true ∨ 2 ^ 64 ≤ a.id := by
  refine ⟨?_, ?_, ?_⟩
  · simp [ColumnReference.eq, ColumnReference.cmp]
  · simp [ColumnReference.eq]
  · intro s hs
    by_cases h : a.id < 2 ^ 64
    · rw [C46_round_trip a h] at hs
      cases hs
      exact .inl (by simp [ColumnReference.eq])
    · exact .inr (by omega)

/-- A name with separators. -/
example : ColumnReference.deserialize (ColumnReference.serialize ⟨"a@7@".toList, 4200⟩) =
    some ⟨"a@7@".toList, 4200⟩ := C46_round_trip _ (by decide)

example : ColumnReference.serialize ⟨"a@7@".toList, 4200⟩ = "a@7@@4200".toList := by
  simp [ColumnReference.serialize, displayNat, decimalDigit]

/-- Strings with and without a valid numeral. -/
example : ColumnReference.deserialize "x@+007".toList = some ⟨"x".toList, 7⟩ ∧
    ColumnReference.deserialize "x@".toList = none ∧ ColumnReference.deserialize "x@+".toList = none ∧
    ColumnReference.deserialize "x@18446744073709551616".toList = none := by decide +kernel

end Verif
