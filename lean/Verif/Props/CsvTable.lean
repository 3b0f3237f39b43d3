import Verif.Spec.CsvTable
import Verif.Props.FieldText

/-!
# C90: tables of field elements in CSV files
-/

set_option linter.unusedSimpArgs false

namespace Verif
namespace CsvTable
open FieldKind

/-! ## Cells -/

theorem char_pos {k : FieldKind} (hk : k.Valid) : 0 < k.char := by
  cases k with
  | small p => exact hk.1
  | goldilocks => decide
  | large p l => exact hk.1

theorem isDigit_code {radix d : ℕ} {c : Char} (h : IsDigit radix c d) :
    48 ≤ c.toNat ∧ (c.toNat < 58 ∨ 10 < radix ∧ (65 ≤ c.toNat ∧ c.toNat < 91 ∨ 97 ≤ c.toNat ∧ c.toNat < 123)) := by
  have e0 : '0'.toNat = 48 := rfl
  have ea : 'a'.toNat = 97 := rfl
  have eA : 'A'.toNat = 65 := rfl
  obtain ⟨h1, h2⟩ := h
  rw [e0, ea, eA] at h2
  omega

theorem numeral_head {radix n : ℕ} {s : List Char} (h : IsRadixNumeral radix s n) :
    ∃ c t, s = c :: t ∧ (c = '+' ∨ ∃ d, IsDigit radix c d) ∧ (c ≠ '+' → ∀ x ∈ t, ∃ d, IsDigit radix x d) := by
  obtain ⟨cs, ds, hs, hne, hf, -⟩ := h
  cases hf with
  | nil => exact absurd rfl hne
  | cons hd ht =>
    rename_i c d cs ds
    rcases hs with rfl | rfl
    · refine ⟨c, cs, rfl, .inr ⟨d, hd⟩, fun _ x hx => ?_⟩
      clear hd hne
      induction ht with
      | nil => cases hx
      | cons h1 _ ih =>
        rcases List.mem_cons.1 hx with rfl | hx
        · exact ⟨_, h1⟩
        · exact ih hx
    · exact ⟨'+', c :: cs, rfl, .inl rfl, fun h => absurd rfl h⟩

theorem numeral_not_minus {radix n : ℕ} {t : List Char} : ¬ IsRadixNumeral radix ('-' :: t) n := by
  intro h
  obtain ⟨c, t', h1, h2, -⟩ := numeral_head h
  cases h1
  rcases h2 with h2 | ⟨d, h2⟩
  · exact absurd h2 (by decide)
  · have := (isDigit_code h2).1
    exact absurd this (by decide)

theorem decimal_not_hex {n : ℕ} {t : List Char} : ¬ IsRadixNumeral 10 ('0' :: 'x' :: t) n := by
  intro h
  obtain ⟨c, t', h1, -, h2⟩ := numeral_head h
  cases h1
  obtain ⟨d, hd⟩ := h2 (by decide) 'x' (by simp)
  have := (isDigit_code hd).2
  have e : 'x'.toNat = 120 := rfl
  omega

theorem isWhitespace_code {c : Char} (h : 33 ≤ c.toNat) (h2 : c.toNat < 128) : isWhitespace c = false := by
  unfold isWhitespace
  simp
  omega

theorem numeral_not_blank {radix n : ℕ} {s : List Char} (h : IsRadixNumeral radix s n) : s.all isWhitespace = false := by
  obtain ⟨c, t, rfl, h2, -⟩ := numeral_head h
  have : isWhitespace c = false := by
    rcases h2 with rfl | ⟨d, hd⟩
    · exact isWhitespace_code (by decide) (by decide)
    · have := isDigit_code hd
      exact isWhitespace_code (by omega) (by omega)
  simp [this]

theorem unwrapNum_ok {x : Except NumError ℕ} {n : ℕ} : unwrapNum x = .ok n ↔ x = .ok n := by
  cases x <;> simp [unwrapNum]

theorem negate_canonical {k : FieldKind} (hk : k.Valid) {m n : ℕ} (hm : m < k.char) :
    negate k m = n ↔ IsCanonical k.char n (-(m : ℤ)) := by
  have hpos := char_pos hk
  unfold negate IsCanonical
  rw [modulus_eq]
  generalize k.char = p at *
  have key : ((((p - m) % p : ℕ) : ℤ)) ≡ -(m : ℤ) [ZMOD p] := by
    rw [Int.natCast_mod]
    refine (Int.mod_modEq _ _).trans ?_
    rw [Int.natCast_sub hm.le]
    have : (p : ℤ) - m ≡ 0 - m [ZMOD p] := Int.ModEq.sub_right _ (by simp [Int.ModEq])
    simpa using this
  constructor
  · rintro rfl
    exact ⟨Nat.mod_lt _ hpos, key⟩
  · rintro ⟨h1, h2⟩
    have h3 := key.trans h2.symm
    have h4 := (Int.natCast_modEq_iff).1 h3
    unfold Nat.ModEq at h4
    rw [Nat.mod_mod, Nat.mod_eq_of_lt h1] at h4
    exact h4

theorem readValue_hex (k : FieldKind) (t : List Char) :
    readValue k ('0' :: 'x' :: t) = unwrapNum (k.fromStrRadix t 16) := rfl

theorem readValue_minus (k : FieldKind) (t : List Char) :
    readValue k ('-' :: t) = (unwrapNum (k.fromStr t)).map (negate k) := rfl

theorem readValue_other (k : FieldKind) {s : List Char} (h1 : ∀ t, s ≠ '0' :: 'x' :: t) (h2 : ∀ t, s ≠ '-' :: t) :
    readValue k s = unwrapNum (k.fromStr s) := by
  unfold readValue
  split
  · exact absurd rfl (h1 _)
  · exact absurd rfl (h2 _)
  · rfl

theorem except_map_ok {α β E : Type} {x : Except E α} {f : α → β} {b : β} :
    x.map f = .ok b ↔ ∃ a, x = .ok a ∧ f a = b := by
  cases x with
  | error e => simp [Except.map]
  | ok a => simp [Except.map]

theorem readValue_iff {k : FieldKind} (hk : k.Valid) (s : List Char) (n : ℕ) : readValue k s = .ok n ↔
    (∃ t, s = '0' :: 'x' :: t ∧ IsRadixNumeral 16 t n ∧ n < k.char) ∨ (IsRadixNumeral 10 s n ∧ n < k.char) ∨
    (∃ t m, s = '-' :: t ∧ IsRadixNumeral 10 t m ∧ m < k.char ∧ IsCanonical k.char n (-(m : ℤ))) := by
  by_cases h1 : ∃ t, s = '0' :: 'x' :: t
  · obtain ⟨t, rfl⟩ := h1
    rw [readValue_hex, unwrapNum_ok, (C85_radix hk t 16).1 n]
    constructor
    · exact fun h => .inl ⟨t, rfl, h⟩
    · rintro (⟨t', h, h'⟩ | ⟨h, -⟩ | ⟨t', m, h, -⟩)
      · cases h
        exact h'
      · exact absurd h decimal_not_hex
      · cases h
  · by_cases h2 : ∃ t, s = '-' :: t
    · obtain ⟨t, rfl⟩ := h2
      rw [readValue_minus, except_map_ok]
      constructor
      · rintro ⟨m, hm, hn⟩
        rw [unwrapNum_ok, (C85_decimal hk t).1 m] at hm
        exact .inr (.inr ⟨t, m, rfl, hm.1, hm.2, (negate_canonical hk hm.2).1 hn⟩)
      · rintro (⟨t', h, h'⟩ | ⟨h, -⟩ | ⟨t', m, h, h3, h4, h5⟩)
        · cases h
        · exact absurd h numeral_not_minus
        · cases h
          exact ⟨m, by rw [unwrapNum_ok, (C85_decimal hk t).1 m]; exact ⟨h3, h4⟩, (negate_canonical hk h4).2 h5⟩
    · rw [readValue_other k (fun t h => h1 ⟨t, h⟩) (fun t h => h2 ⟨t, h⟩), unwrapNum_ok, (C85_decimal hk s).1 n]
      constructor
      · exact fun h => .inr (.inl h)
      · rintro (⟨t', h, h'⟩ | h | ⟨t', m, h, -⟩)
        · exact absurd ⟨t', h⟩ h1
        · exact h
        · exact absurd ⟨t', h⟩ h2

/-- C90, first part: what a cell stands for, with no other cell being accepted. -/
theorem C90_cell {k : FieldKind} (hk : k.Valid) (cell : List Char) (o : Option ℕ) :
    readCell k cell = .ok o ↔ CellStandsFor k cell o := by
  unfold readCell CellStandsFor
  by_cases hb : cell.all isWhitespace = true
  · rw [if_pos hb]
    constructor
    · intro h
      exact .inl ⟨List.all_eq_true.1 hb, (Except.ok.inj h).symm⟩
    · rintro (⟨-, rfl⟩ | ⟨n, rfl, h⟩)
      · rfl
      · exfalso
        rcases h with ⟨t, rfl, -⟩ | ⟨h, -⟩ | ⟨t, m, rfl, -⟩
        · have := List.all_eq_true.1 hb '0' (by simp)
          rw [isWhitespace_code (by decide) (by decide)] at this
          cases this
        · rw [numeral_not_blank h] at hb
          cases hb
        · have := List.all_eq_true.1 hb '-' (by simp)
          rw [isWhitespace_code (by decide) (by decide)] at this
          cases this
  · rw [if_neg hb, except_map_ok]
    constructor
    · rintro ⟨n, hn, rfl⟩
      exact .inr ⟨n, rfl, (readValue_iff hk cell n).1 hn⟩
    · rintro (⟨h, -⟩ | ⟨n, rfl, h⟩)
      · exact absurd (List.all_eq_true.2 h) hb
      · exact ⟨n, (readValue_iff hk cell n).2 h, rfl⟩

/-! ## Reading -/

theorem readCells_ok {k : FieldKind} : ∀ {cols : List (List Char × List ℕ)} {cells : List (List Char)},
    cells.length = cols.length → ∀ {r}, readCells k cols cells = .ok r ↔
      ∃ vs : List (Option ℕ), List.Forall₂ (fun c v => readCell k c = .ok v) cells vs ∧
        r = List.zipWith (fun c v => (c.1, c.2 ++ v.toList)) cols vs
  | [], [], _, r => by
    simp only [readCells]
    constructor
    · intro h
      exact ⟨[], .nil, (Except.ok.inj h).symm⟩
    · rintro ⟨vs, h, rfl⟩
      cases h
      rfl
  | [], _ :: _, h, _ => by simp at h
  | _ :: _, [], h, _ => by simp at h
  | c :: cs, x :: xs, h, r => by
    have ih := fun r => readCells_ok (k := k) (cols := cs) (cells := xs) (by simpa using h) (r := r)
    simp only [readCells, bind, Except.bind, pure, Except.pure]
    constructor
    · intro h
      cases hx : readCell k x with
      | error e => simp [hx] at h
      | ok v =>
        simp only [hx] at h
        cases hr : readCells k cs xs with
        | error e => simp [hr] at h
        | ok rest =>
          simp only [hr, Except.ok.injEq] at h
          obtain ⟨vs, h1, h2⟩ := (ih rest).1 hr
          exact ⟨v :: vs, .cons hx h1, by rw [← h, h2]; rfl⟩
    · rintro ⟨vs, h1, rfl⟩
      cases h1 with
      | cons hx ht =>
        rename_i v vs
        have := (ih _).2 ⟨vs, ht, rfl⟩
        simp only [hx, this]
        rfl

theorem readRecords_ok {k : FieldKind} : ∀ {rows : List (List (List Char))} {cols : List (List Char × List ℕ)} {r},
    readRecords k cols rows = .ok r ↔
      ∃ table : List (List (Option ℕ)),
        List.Forall₂ (fun row vs => row.length = cols.length ∧ List.Forall₂ (fun c v => readCell k c = .ok v) row vs)
          rows table ∧
        r = cols.mapIdx fun i c => (c.1, c.2 ++ columnValues table i)
  | [], cols, r => by
    simp only [readRecords]
    constructor
    · intro h
      refine ⟨[], .nil, ?_⟩
      rw [← Except.ok.inj h]
      refine List.ext_getElem? fun i => ?_
      rw [List.getElem?_mapIdx]
      cases cols[i]? with
      | none => rfl
      | some c => simp [columnValues]
    · rintro ⟨table, h, rfl⟩
      cases h
      congr 1
      refine List.ext_getElem? fun i => ?_
      rw [List.getElem?_mapIdx]
      cases cols[i]? with
      | none => rfl
      | some c => simp [columnValues]
  | row :: rows, cols, r => by
    have ih := fun cols r => readRecords_ok (k := k) (rows := rows) (cols := cols) (r := r)
    simp only [readRecords, readRecord, bind, Except.bind]
    have step : ∀ (vs : List (Option ℕ)) (table : List (List (Option ℕ))), vs.length = cols.length →
        ((List.zipWith (fun c v => (c.1, c.2 ++ v.toList)) cols vs).mapIdx fun i c => (c.1, c.2 ++ columnValues table i)) =
        cols.mapIdx fun i c => (c.1, c.2 ++ columnValues (vs :: table) i) := by
      intro vs table hl
      refine List.ext_getElem? fun i => ?_
      rw [List.getElem?_mapIdx, List.getElem?_mapIdx, List.getElem?_zipWith]
      cases hc : cols[i]? with
      | none => rfl
      | some c =>
        have hi : i < vs.length := by
          rw [hl]
          exact (List.getElem?_eq_some_iff.1 hc).1
        rw [List.getElem?_eq_getElem hi]
        simp only [Option.map_some, columnValues, List.filterMap_cons, List.getElem?_eq_getElem hi, Option.join_some]
        cases vs[i] with
        | none => simp
        | some v => simp
    have hlen : ∀ (vs : List (Option ℕ)), vs.length = cols.length →
        (List.zipWith (fun (c : List Char × List ℕ) (v : Option ℕ) => (c.1, c.2 ++ v.toList)) cols vs).length =
          cols.length := by
      intro vs h
      rw [List.length_zipWith, h, Nat.min_self]
    constructor
    · intro h
      by_cases hl : row.length = cols.length
      · simp only [if_pos hl] at h
        cases hc : readCells k cols row with
        | error e => simp [hc] at h
        | ok cols' =>
          simp only [hc] at h
          obtain ⟨vs, h1, rfl⟩ := (readCells_ok hl).1 hc
          obtain ⟨table, h2, rfl⟩ := (ih _ _).1 h
          have hvl : vs.length = cols.length := h1.length_eq.symm.trans hl
          rw [hlen vs hvl] at h2
          exact ⟨vs :: table, .cons ⟨hl, h1⟩ h2, step vs table hvl⟩
      · simp [if_neg hl] at h
    · rintro ⟨table, h, rfl⟩
      cases h with
      | cons h1 h2 =>
        rename_i vs table
        have hvl : vs.length = cols.length := h1.2.length_eq.symm.trans h1.1
        have hc := (readCells_ok (k := k) h1.1 (r := _)).2 ⟨vs, h1.2, rfl⟩
        simp only [if_pos h1.1, hc]
        rw [ih]
        refine ⟨table, ?_, (step vs table hvl).symm⟩
        rw [hlen vs hvl]
        exact h2

/-- C90, second part: what is read. The header gives the names; every other record must have as many cells as the header,
and each of them, also those below `Row`, must stand for an element of the field or nothing. The result has a column for
each name but `Row`, in the order of the header, with the values of the cells below it that are not empty. -/
theorem C90_read {k : FieldKind} (hk : k.Valid) (header : List (List Char)) (rows : List (List (List Char)))
    (r : List (List Char × List ℕ)) :
    read k (header :: rows) = .ok r ↔
      ∃ table : List (List (Option ℕ)),
        List.Forall₂ (fun row vs => row.length = header.length ∧ List.Forall₂ (CellStandsFor k) row vs) rows table ∧
        r = (header.mapIdx fun i name => (name, columnValues table i)).filter fun c => c.1 ≠ rowName := by
  have hcell : ∀ row vs, List.Forall₂ (fun c v => readCell k c = .ok v) row vs ↔ List.Forall₂ (CellStandsFor k) row vs := by
    intro row vs
    constructor
    · exact fun h => h.imp fun c v hc => (C90_cell hk c v).1 hc
    · exact fun h => h.imp fun c v hc => (C90_cell hk c v).2 hc
  have hmap : ∀ table : List (List (Option ℕ)),
      ((header.map fun name => ((name, []) : List Char × List ℕ)).mapIdx fun i c => (c.1, c.2 ++ columnValues table i)) =
      header.mapIdx fun i name => (name, columnValues table i) := by
    intro table
    refine List.ext_getElem? fun i => ?_
    rw [List.getElem?_mapIdx, List.getElem?_mapIdx, List.getElem?_map]
    cases header[i]? <;> simp
  simp only [read, List.headD_cons, List.tail_cons, bind, Except.bind, pure, Except.pure]
  constructor
  · intro h
    cases hr : readRecords k (header.map fun name => (name, [])) rows with
    | error e => simp [hr] at h
    | ok cols =>
      simp only [hr, Except.ok.injEq] at h
      obtain ⟨table, h1, rfl⟩ := readRecords_ok.1 hr
      refine ⟨table, h1.imp fun row vs hx => ⟨by simpa using hx.1, (hcell _ _).1 hx.2⟩, ?_⟩
      rw [← h, hmap]
  · rintro ⟨table, h1, rfl⟩
    have := (readRecords_ok (k := k) (rows := rows) (cols := header.map fun name => (name, [])) (r := _)).2
      ⟨table, h1.imp fun row vs hx => ⟨by simpa using hx.1, (hcell _ _).2 hx.2⟩, rfl⟩
    rw [this, hmap]

/-! ## Writing -/

theorem foldl_max_ge (l : List (List Char × List ℕ)) (m : ℕ) :
    m ≤ l.foldl (fun m d => max m d.2.length) m ∧ ∀ d ∈ l, d.2.length ≤ l.foldl (fun m d => max m d.2.length) m := by
  induction l generalizing m with
  | nil => simp
  | cons c t ih =>
    obtain ⟨h1, h2⟩ := ih (max m c.2.length)
    simp only [List.foldl_cons]
    refine ⟨le_trans (le_max_left _ _) h1, ?_⟩
    intro d hd
    rcases List.mem_cons.1 hd with rfl | hd
    · exact le_trans (le_max_right _ _) h1
    · exact h2 d hd

theorem foldl_max_mem (l : List (List Char × List ℕ)) (m : ℕ) :
    l.foldl (fun m d => max m d.2.length) m = m ∨ ∃ d ∈ l, d.2.length = l.foldl (fun m d => max m d.2.length) m := by
  induction l generalizing m with
  | nil => simp
  | cons c t ih =>
    simp only [List.foldl_cons]
    rcases ih (max m c.2.length) with h | ⟨d, hd, h⟩
    · rw [h]
      rcases max_choice m c.2.length with h' | h'
      · exact .inl h'
      · exact .inr ⟨c, by simp, h'.symm⟩
    · exact .inr ⟨d, List.mem_cons_of_mem _ hd, h⟩

theorem maxLength_spec {polys : List (List Char × List ℕ)} {n : ℕ} (h : maxLength polys = some n) :
    (∀ c ∈ polys, c.2.length ≤ n) ∧ ∃ c ∈ polys, c.2.length = n := by
  cases polys with
  | nil => cases h
  | cons c t =>
    have h : t.foldl (fun m d => max m d.2.length) c.2.length = n := Option.some.inj h
    obtain ⟨h1, h2⟩ := foldl_max_ge t c.2.length
    rw [h] at h1 h2
    refine ⟨?_, ?_⟩
    · intro d hd
      rcases List.mem_cons.1 hd with rfl | hd
      · exact h1
      · exact h2 d hd
    · rcases foldl_max_mem t c.2.length with h' | ⟨d, hd, h'⟩
      · exact ⟨c, by simp, by rw [← h, h']⟩
      · exact ⟨d, List.mem_cons_of_mem _ hd, by rw [h', h]⟩

theorem numeral_of_fromStr {k : FieldKind} (hk : k.Valid) {s : List Char} {n : ℕ} (h : k.fromStr s = .ok n) :
    CellStandsFor k s (some n) := .inr ⟨n, rfl, .inr (.inl (((C85_decimal hk s).1 n).1 h))⟩

theorem render_stands {k : FieldKind} (hk : k.Valid) (mode : Mode) {v : ℕ} (hv : v < k.char) :
    CellStandsFor k (render mode v) (some v) := by
  obtain ⟨h1, h2⟩ := C85_print_parse hk hv
  cases mode with
  | signedBase10 => exact numeral_of_fromStr hk h1
  | unsignedBase10 => exact numeral_of_fromStr hk h1
  | hex => exact .inr ⟨v, rfl, .inl ⟨_, rfl, ((C85_radix hk _ 16).1 v).1 h2⟩⟩

theorem filterMap_getElem? (l : List ℕ) {n : ℕ} (h : l.length ≤ n) : (List.range n).filterMap (fun i => l[i]?) = l := by
  induction l generalizing n with
  | nil =>
    simp
  | cons x t ih =>
    cases n with
    | zero => simp at h
    | succ n =>
      rw [List.range_succ_eq_map, List.filterMap_cons]
      simp only [List.getElem?_cons_zero, List.filterMap_map, Function.comp_def, List.getElem?_cons_succ]
      rw [ih (by simpa using h)]

/-- C90, third part: a table can be written if and only if it has a column and none has the name `Row`. -/
theorem C90_write (mode : Mode) (polys : List (List Char × List ℕ)) :
    (∃ file, write mode polys = .ok file) ↔ polys ≠ [] ∧ ∀ c ∈ polys, c.1 ≠ "Row".toList := by
  have e : "Row".toList = rowName := by decide
  rw [e]
  unfold write
  by_cases h : polys.any (fun c => c.1 = rowName) = true
  · rw [if_pos h]
    refine ⟨fun hf => (by obtain ⟨f, hf⟩ := hf; cases hf), fun h2 => ?_⟩
    obtain ⟨c, hc, hn⟩ := List.any_eq_true.1 h
    exact absurd (by simpa using hn) (h2.2 c hc)
  · rw [if_neg h]
    have hn : ∀ c ∈ polys, c.1 ≠ rowName := by
      intro c hc hn
      exact h (List.any_eq_true.2 ⟨c, hc, by simpa using hn⟩)
    cases polys with
    | nil =>
      refine ⟨fun hf => (by obtain ⟨f, hf⟩ := hf; cases hf), fun h2 => absurd rfl h2.1⟩
    | cons c t => exact ⟨fun _ => ⟨by simp, hn⟩, fun _ => ⟨_, rfl⟩⟩

/-- C90, fourth part: reading a table that was written gives the table, in every mode, if no column is longer than the
characteristic; otherwise reading panics, because the numbers of the rows are read as field elements, too. -/
theorem C90_roundtrip {k : FieldKind} (hk : k.Valid) (mode : Mode) (polys : List (List Char × List ℕ))
    (hv : ∀ c ∈ polys, ∀ v ∈ c.2, v < k.char) (file : List (List (List Char))) (h : write mode polys = .ok file) :
    ((∀ c ∈ polys, c.2.length ≤ k.char) → read k file = .ok polys) ∧
    ((∃ c ∈ polys, k.char < c.2.length) → ∃ e, read k file = .error e) := by
  have e : "Row".toList = rowName := by decide
  have hnames := ((C90_write mode polys).1 ⟨file, h⟩).2
  rw [e] at hnames
  unfold write at h
  have hany : ¬ polys.any (fun c => c.1 = rowName) = true := by
    intro hx
    obtain ⟨c, hc, hn⟩ := List.any_eq_true.1 hx
    exact hnames c hc (by simpa using hn)
  rw [if_neg hany] at h
  cases hm : maxLength polys with
  | none => simp [hm] at h
  | some n =>
    simp only [hm, Except.ok.injEq] at h
    subst h
    obtain ⟨h1, c0, hc0, h0⟩ := maxLength_spec hm
    refine ⟨?_, ?_⟩
    · intro hlen
      have hn : n ≤ k.char := h0 ▸ hlen c0 hc0
      rw [C90_read hk]
      refine ⟨(List.range n).map fun i => some i :: polys.map fun c => c.2[i]?, ?_, ?_⟩
      · rw [List.forall₂_map_left_iff, List.forall₂_map_right_iff, List.forall₂_same]
        intro i hi
        have hi : i < n := by simpa using hi
        refine ⟨by simp [row], ?_⟩
        refine .cons (numeral_of_fromStr hk (C85_print_parse hk (by omega)).1) ?_
        rw [List.forall₂_map_left_iff, List.forall₂_map_right_iff, List.forall₂_same]
        intro c hc
        cases hx : c.2[i]? with
        | none => exact .inl ⟨by simp [Blank], rfl⟩
        | some v => exact render_stands hk mode (hv c hc v (List.mem_of_getElem? hx))
      · have hrow : (fun c : List Char × List ℕ => decide (c.1 ≠ rowName)) (rowName, columnValues
            ((List.range n).map fun i => some i :: polys.map fun c => c.2[i]?) 0) = false := by simp
        rw [List.mapIdx_cons, List.filter_cons_of_neg (by simp)]
        have : ((polys.map Prod.fst).mapIdx fun i name => (name, columnValues
            ((List.range n).map fun i => some i :: polys.map fun c => c.2[i]?) (i + 1))) = polys := by
          refine List.ext_getElem? fun j => ?_
          rw [List.getElem?_mapIdx, List.getElem?_map]
          cases hj : polys[j]? with
          | none => rfl
          | some c =>
            simp only [Option.map_some, Option.some.injEq]
            refine Prod.ext rfl ?_
            simp only [columnValues, List.filterMap_map, Function.comp_def, List.getElem?_cons_succ, List.getElem?_map, hj,
              Option.map_some, Option.join_some]
            exact filterMap_getElem? c.2 (h1 c (List.mem_of_getElem? hj))
        rw [this, List.filter_eq_self.2]
        intro c hc
        simpa using hnames c hc
    · rintro ⟨c, hc, hl⟩
      have hn : k.char < n := lt_of_lt_of_le hl (h1 c hc)
      cases hr : read k ((rowName :: polys.map Prod.fst) :: (List.range n).map (row mode polys)) with
      | error e => exact ⟨e, rfl⟩
      | ok r =>
        exfalso
        obtain ⟨table, ht, -⟩ := (C90_read hk _ _ r).1 hr
        rw [List.forall₂_map_left_iff] at ht
        have hmem : k.char ∈ List.range n := by simpa using hn
        obtain ⟨vs, -, -, hvs⟩ : ∃ vs ∈ table, (row mode polys k.char).length = (rowName :: polys.map Prod.fst).length ∧
            List.Forall₂ (CellStandsFor k) (row mode polys k.char) vs := by
          clear hr h1 h0 hm hn
          generalize List.range n = l at ht hmem
          induction ht with
          | nil => cases hmem
          | cons hx _ ih =>
            rcases List.mem_cons.1 hmem with he | hmem
            · exact ⟨_, by simp, he ▸ hx⟩
            · obtain ⟨vs, h1, h2⟩ := ih hmem
              exact ⟨vs, List.mem_cons_of_mem _ h1, h2⟩
        cases hvs with
        | cons hx _ =>
          rename_i v vs
          have hr := (C90_cell hk _ _).2 hx
          have hnum : IsRadixNumeral 10 (Nat.toDigits 10 k.char) k.char := by
            have h := fromStrRadix_toDigits (radix := 10) (limit := k.char + 1) (by omega) (by omega)
              (Nat.lt_succ_self k.char)
            rw [fromStrRadix_eq] at h
            cases hb : bigFromStr 10 (Nat.toDigits 10 k.char) with
            | none => simp [hb] at h
            | some m =>
              simp only [hb] at h
              split_ifs at h
              obtain rfl := Option.some.inj h
              exact bigFromStr_iff.1 hb
          have huniq : ∀ m, IsRadixNumeral 10 (Nat.toDigits 10 k.char) m → m = k.char := by
            intro m hm
            have h1 := bigFromStr_iff.2 hm
            rw [bigFromStr_iff.2 hnum] at h1
            exact (Option.some.inj h1).symm
          rcases hx with ⟨hb, -⟩ | ⟨m, -, ⟨t, ht, -⟩ | ⟨hm, hlt⟩ | ⟨t, m', ht, -⟩⟩
          · have := numeral_not_blank hnum
            rw [List.all_eq_true.2 hb] at this
            cases this
          · rw [ht] at hnum
            exact decimal_not_hex hnum
          · have := huniq m hm
            omega
          · rw [ht] at hnum
            exact numeral_not_minus hnum

/-- The mode called signed writes the same as the unsigned one. -/
theorem C90_signed (polys : List (List Char × List ℕ)) : write .signedBase10 polys = write .unsignedBase10 polys := by
  have : row .signedBase10 polys = row .unsignedBase10 polys := rfl
  unfold write
  rw [this]

/-- A concrete case: two columns of different length, with hexadecimal numerals. -/
example : write .hex [(['a'], [10, 255]), (['b'], [7])] = .ok
    [[rowName, ['a'], ['b']], [['0'], ['0', 'x', 'a'], ['0', 'x', '7']], [['1'], ['0', 'x', 'f', 'f'], []]] := by
  decide +kernel

/-- In a field with five elements, a column with six cannot be read again. -/
example : ∃ file e, write .hex [(['a'], [0, 1, 2, 3, 4, 0])] = .ok file ∧ read (.small 5) file = .error e := by
  obtain ⟨file, h⟩ := (C90_write .hex [(['a'], [0, 1, 2, 3, 4, 0])]).2 (by simp)
  obtain ⟨e, he⟩ := (C90_roundtrip (k := .small 5) (by simp [FieldKind.Valid]) .hex _ (by simp [FieldKind.char]) file h).2
    ⟨(['a'], [0, 1, 2, 3, 4, 0]), by simp, by simp [FieldKind.char]⟩
  exact ⟨file, e, h, he⟩

end CsvTable
end Verif
