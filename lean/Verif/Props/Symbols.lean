import Verif.Proofs.Symbols
import Verif.Proofs.SymbolLocations
import Verif.Proofs.Extraction

/-!
# C82 and C83: names of addresses, and the statements of a program
-/

set_option linter.unusedSectionVars false
set_option linter.unusedSimpArgs false

namespace Verif

/-! ## C82: names -/

/-- C82: the symbols that are read are those with a name that are functions or variables, each with the name and the address
that the file gives it. -/
theorem C82_read (strtab : ℕ → Except Panic SymName) (syms : List ElfSym) (l : List (SymName × ℕ))
    (h : readSymbolTable strtab syms = .ok l) (name : SymName) (addr : ℕ) :
    (name, addr) ∈ l ↔
      ∃ s ∈ syms, s.name ≠ 0 ∧ s.isFuncOrObject = true ∧ strtab s.name = .ok name ∧ addr = s.value % 2 ^ 32 := by
  have key : ∀ (syms : List ElfSym) (l : List (SymName × ℕ)),
      syms.mapM (fun s => do let name ← strtab s.name; pure (name, s.value % 2 ^ 32)) = Except.ok l →
      ((name, addr) ∈ l ↔ ∃ s ∈ syms, strtab s.name = .ok name ∧ addr = s.value % 2 ^ 32) := by
    intro syms
    induction syms with
    | nil =>
      intro l h
      simp only [List.mapM_nil, pure, Except.pure, Except.ok.injEq] at h
      simp [← h]
    | cons s syms ih =>
      intro l h
      rw [List.mapM_cons] at h
      simp only [bind, Except.bind, pure, Except.pure] at h ih
      cases hs : strtab s.name with
      | error e => rw [hs] at h; simp at h
      | ok n =>
        rw [hs] at h
        simp only at h
        split at h
        · simp at h
        · rename_i l' hl'
          simp only [Except.ok.injEq] at h
          subst h
          rw [List.mem_cons, ih _ hl']
          constructor
          · rintro (h | ⟨t, ht, h⟩)
            · injection h with h1 h2
              exact ⟨s, by simp, by rw [hs, h1], h2⟩
            · exact ⟨t, List.mem_cons_of_mem _ ht, h⟩
          · rintro ⟨t, ht, h1, h2⟩
            rcases List.mem_cons.1 ht with rfl | ht
            · rw [hs] at h1
              injection h1 with h1
              exact .inl (Prod.ext h1.symm h2)
            · exact .inr ⟨t, ht, h1, h2⟩
  rw [readSymbolTable] at h
  rw [key _ _ h]
  constructor
  · rintro ⟨s, hs, h1, h2⟩
    obtain ⟨hs, hf⟩ := List.mem_filter.1 hs
    simp only [Bool.and_eq_true, decide_eq_true_eq] at hf
    exact ⟨s, hs, hf.1, hf.2, h1, h2⟩
  · rintro ⟨s, hs, h1, h2, h3, h4⟩
    exact ⟨s, List.mem_filter.2 ⟨hs, by simp [h1, h2]⟩, h3, h4⟩

/-- C82: making the names different comes to an end, for addresses of 32 bits, and the number of passes that are allowed makes
no difference. -/
theorem C82_terminates (l : List (SymName × ℕ)) (hb : ∀ x ∈ l, x.2 < 2 ^ 32) :
    ∃ n r, ∀ m, n ≤ m → dedupNames m l = some r := by
  obtain ⟨r, hr⟩ := dedupNames_total (plainCount l + 1) hb (by omega)
  refine ⟨plainCount l + 1, r, fun m hm => ?_⟩
  obtain ⟨k, rfl⟩ := Nat.exists_eq_add_of_le hm
  exact dedupNames_mono _ k hr

/-- C82: in the result no name occurs twice, and the names are in order. -/
theorem C82_distinct (n : ℕ) (l r : List (SymName × ℕ)) (h : dedupNames n l = some r) :
    r.Pairwise fun x y => x.1 < y.1 := by
  obtain ⟨l', _, h1, rfl⟩ := dedupNames_inv (P := fun _ => True) (fun _ _ => trivial) n trivial h
  exact noClash_pairwise h1

/-- C82: every name in the result is the name of a symbol at the same address, perhaps with the address appended some number of
times, and every symbol is in the result in this way. -/
theorem C82_entries (n : ℕ) (l r : List (SymName × ℕ)) (h : dedupNames n l = some r) :
    (∀ x ∈ r, ∃ name k, (name, x.2) ∈ l ∧ x.1 = withAddress name x.2 k) ∧
      ∀ x ∈ l, ∃ k, (withAddress x.1 x.2 k, x.2) ∈ r := by
  obtain ⟨l', h1, _, rfl⟩ := dedupNames_inv (P := NamesOf l) (fun _ h => namesOf_pass h) n (namesOf_refl l) h
  refine ⟨fun x hx => h1.1 x (mem_sortedSyms.1 hx), fun x hx => ?_⟩
  obtain ⟨k, hk⟩ := h1.2 x hx
  exact ⟨k, mem_sortedSyms.2 hk⟩

/-- C82: a symbol whose name no symbol at another address has, or can get by appending its address, keeps its name. -/
theorem C82_unchanged (n : ℕ) (l r : List (SymName × ℕ)) (h : dedupNames n l = some r) (name : SymName) (addr : ℕ)
    (hx : (name, addr) ∈ l) (hu : ∀ y ∈ l, ∀ k, name = withAddress y.1 y.2 k → y.2 = addr) : (name, addr) ∈ r := by
  obtain ⟨l', h1, _, rfl⟩ := dedupNames_inv (P := fun l' => NamesOf l l' ∧ (name, addr) ∈ l')
    (fun _ h => ⟨namesOf_pass h.1, kept_pass h.1 hu h.2⟩) n ⟨namesOf_refl l, hx⟩ h
  exact mem_sortedSyms.2 h1.2

/-- C82: a name that symbols at two addresses have is not in the result for any of them. -/
theorem C82_renamed (n : ℕ) (l r : List (SymName × ℕ)) (h : dedupNames n l = some r) (name : SymName) (a b : ℕ) (hab : a ≠ b)
    (ha : (name, a) ∈ l) (hb : (name, b) ∈ l) : ∃ k, (withAddress name a (k + 1), a) ∈ r := by
  cases n with
  | zero => simp [dedupNames] at h
  | succ n =>
    rw [dedupNames] at h
    have hc : Clashes (sortedSyms l) (name, a) :=
      ⟨(name, b), mem_sortedSyms.2 hb, rfl, fun hh => hab (congrArg Prod.snd hh).symm⟩
    have hch : (dedupPass l).2 = true := dedupPass_changed.2 ⟨_, mem_sortedSyms.2 ha, hc⟩
    simp only [hch, if_true] at h
    have hin : (withAddress name a 1, a) ∈ (dedupPass l).1 := by
      refine mem_dedupPass.2 ⟨_, ha, ?_⟩
      rw [passMap, if_pos hc]
      rfl
    obtain ⟨k, hk⟩ := (C82_entries n _ r h).2 _ hin
    refine ⟨k, ?_⟩
    have : withAddress (withAddress name a 1) a k = withAddress name a (k + 1) := by
      clear hk
      induction k with
      | zero => rfl
      | succ k ih => rw [withAddress, ih]; rfl
    rw [← this]
    exact hk

/-- C82: the name of an address is the first of the names of the symbols there, and there is none exactly if there is no
symbol. -/
theorem C82_lookup (n : ℕ) (l r : List (SymName × ℕ)) (h : dedupNames n l = some r) (addr : ℕ) :
    (∀ s, (symTable r).tryGetOne addr = some s ↔ (s, addr) ∈ r ∧ ∀ s', (s', addr) ∈ r → s ≤ s') ∧
    ((symTable r).tryGetOne addr = none ↔ ∀ x ∈ l, x.2 ≠ addr) ∧
    (symTable r).getOne addr = ((symTable r).tryGetOne addr).getD (SymTable.defaultLabel addr) := by
  have hs := C82_distinct n l r h
  have he := C82_entries n l r h
  have hfs : ((r.filter fun y => decide (y.2 = addr)).map Prod.fst).Pairwise (· < ·) :=
    List.pairwise_map.2 (hs.filter _)
  have hmem : ∀ s, s ∈ (r.filter fun y => decide (y.2 = addr)).map Prod.fst ↔ (s, addr) ∈ r := by
    intro s
    rw [List.mem_map]
    constructor
    · rintro ⟨x, hx, rfl⟩
      obtain ⟨h1, h2⟩ := List.mem_filter.1 hx
      simp only [decide_eq_true_eq] at h2
      rw [← h2]
      exact h1
    · exact fun h => ⟨_, List.mem_filter.2 ⟨h, by simp⟩, rfl⟩
  refine ⟨fun s => ?_, ?_, rfl⟩
  · rw [symTable_tryGetOne]
    constructor
    · intro hh
      cases hl : (r.filter fun y => decide (y.2 = addr)).map Prod.fst with
      | nil => rw [hl] at hh; simp at hh
      | cons a t =>
        rw [hl] at hh hfs hmem
        simp only [List.head?_cons, Option.some.injEq] at hh
        subst hh
        refine ⟨(hmem a).1 (by simp), fun s' hs' => ?_⟩
        rcases List.mem_cons.1 ((hmem s').2 hs') with rfl | h
        · exact le_refl _
        · exact le_of_lt ((List.pairwise_cons.1 hfs).1 s' h)
    · rintro ⟨h1, h2⟩
      cases hl : (r.filter fun y => decide (y.2 = addr)).map Prod.fst with
      | nil => rw [hl] at hmem; exact absurd ((hmem s).2 h1) (by simp)
      | cons a t =>
        rw [hl] at hfs hmem
        have ha := h2 a ((hmem a).1 (by simp))
        rcases List.mem_cons.1 ((hmem s).2 h1) with rfl | h
        · rfl
        · exact absurd (lt_of_lt_of_le ((List.pairwise_cons.1 hfs).1 s h) ha) (lt_irrefl _)
  · rw [symTable_tryGetOne, List.head?_eq_none_iff]
    constructor
    · intro hh x hx hxa
      obtain ⟨k, hk⟩ := he.2 x hx
      rw [hxa] at hk
      have := (hmem _).2 hk
      rw [hh] at this
      exact absurd this (by simp)
    · intro hh
      refine List.eq_nil_iff_forall_not_mem.2 fun s hs => ?_
      obtain ⟨name, k, h1, _⟩ := he.1 _ ((hmem s).1 hs)
      exact hh _ h1 rfl

/-- C82: all names of an address are the names of the symbols there, in order, or the default name if there is none. -/
theorem C82_all (n : ℕ) (l r : List (SymName × ℕ)) (h : dedupNames n l = some r) (addr : ℕ) :
    ((symTable r).getAll addr).Pairwise (· < ·) ∧
    ((∃ x ∈ l, x.2 = addr) → ∀ s, s ∈ (symTable r).getAll addr ↔ (s, addr) ∈ r) ∧
    ((∀ x ∈ l, x.2 ≠ addr) → (symTable r).getAll addr = [SymTable.defaultLabel addr]) := by
  have hs := C82_distinct n l r h
  have he := C82_entries n l r h
  have hex : (∃ x ∈ r, x.2 = addr) ↔ ∃ x ∈ l, x.2 = addr := by
    constructor
    · rintro ⟨x, hx, rfl⟩
      obtain ⟨name, k, h1, _⟩ := he.1 _ hx
      exact ⟨_, h1, rfl⟩
    · rintro ⟨x, hx, rfl⟩
      obtain ⟨k, hk⟩ := he.2 x hx
      exact ⟨_, hk, rfl⟩
  refine ⟨?_, fun hx s => ?_, fun hx => ?_⟩
  · rw [symTable_getAll]
    split_ifs
    · exact List.pairwise_map.2 (hs.filter _)
    · exact List.pairwise_singleton _ _
  · rw [symTable_getAll, if_pos (hex.2 hx), List.mem_map]
    constructor
    · rintro ⟨x, hx, rfl⟩
      obtain ⟨h1, h2⟩ := List.mem_filter.1 hx
      simp only [decide_eq_true_eq] at h2
      rw [← h2]
      exact h1
    · exact fun h => ⟨_, List.mem_filter.2 ⟨h, by simp⟩, rfl⟩
  · rw [symTable_getAll, if_neg]
    intro hh
    obtain ⟨x, hx', hxa⟩ := hex.1 hh
    exact hx x hx' hxa

theorem defaultLabel_inj {a b : ℕ} (ha : a < 2 ^ 32) (hb : b < 2 ^ 32) (h : SymTable.defaultLabel a = SymTable.defaultLabel b) :
    a = b := by
  simp only [SymTable.defaultLabel, List.cons.injEq, true_and] at h
  exact hex8_inj ha hb h

/-- C82: no name is the name of two addresses, unless a symbol is called like the default name of another address that has no
symbol. -/
theorem C82_labels (n : ℕ) (l r : List (SymName × ℕ)) (h : dedupNames n l = some r) (a b : ℕ) (ha : a < 2 ^ 32) (hb : b < 2 ^ 32)
    (s : SymName) (hsa : s ∈ (symTable r).getAll a) (hsb : s ∈ (symTable r).getAll b) (hab : a ≠ b) :
    (s = SymTable.defaultLabel a ∧ (s, b) ∈ r ∧ ∀ x ∈ l, x.2 ≠ a) ∨
      (s = SymTable.defaultLabel b ∧ (s, a) ∈ r ∧ ∀ x ∈ l, x.2 ≠ b) := by
  obtain ⟨_, a1, a2⟩ := C82_all n l r h a
  obtain ⟨_, b1, b2⟩ := C82_all n l r h b
  have hd := C82_distinct n l r h
  by_cases hla : ∃ x ∈ l, x.2 = a
  · by_cases hlb : ∃ x ∈ l, x.2 = b
    · have h1 := (a1 hla s).1 hsa
      have h2 := (b1 hlb s).1 hsb
      exfalso
      have hne : (s, a) ≠ (s, b) := fun hh => hab (congrArg Prod.snd hh)
      have := (List.pairwise_iff_getElem.1 hd)
      obtain ⟨i, hi, hi'⟩ := List.getElem_of_mem h1
      obtain ⟨j, hj, hj'⟩ := List.getElem_of_mem h2
      rcases lt_trichotomy i j with hij | hij | hij
      · have := this i j hi hj hij
        rw [hi', hj'] at this
        exact lt_irrefl _ this
      · subst hij
        exact hne (hi'.symm.trans hj')
      · have := this j i hj hi hij
        rw [hi', hj'] at this
        exact lt_irrefl _ this
    · have hlb' : ∀ x ∈ l, x.2 ≠ b := fun x hx hh => hlb ⟨x, hx, hh⟩
      rw [b2 hlb', List.mem_singleton] at hsb
      exact .inr ⟨hsb, (a1 hla s).1 hsa, hlb'⟩
  · have hla' : ∀ x ∈ l, x.2 ≠ a := fun x hx hh => hla ⟨x, hx, hh⟩
    rw [a2 hla', List.mem_singleton] at hsa
    by_cases hlb : ∃ x ∈ l, x.2 = b
    · exact .inl ⟨hsa, (b1 hlb s).1 hsb, hla'⟩
    · rw [b2 fun x hx hh => hlb ⟨x, hx, hh⟩, List.mem_singleton] at hsb
      exact absurd (defaultLabel_inj ha hb (hsa.symm.trans hsb)) hab

/-- C82: the exception occurs: a symbol that is called like the default name of another address. -/
theorem C82_collision (a b : ℕ) (hab : a ≠ b) :
    ∃ r, dedupNames 1 [(SymTable.defaultLabel a, b)] = some r ∧ (symTable r).getAll a = (symTable r).getAll b := by
  have hs : sortedSyms [(SymTable.defaultLabel a, b)] = [(SymTable.defaultLabel a, b)] := by
    simp [sortedSyms, dedupNeighbours]
  have hc : (dedupPass [(SymTable.defaultLabel a, b)]).2 = false := by
    rw [← Bool.not_eq_true, dedupPass_changed, hs]
    rintro ⟨x, hx, y, hy, _, h⟩
    rw [List.mem_singleton] at hx hy
    exact h (hy.trans hx.symm)
  have hr : dedupNames 1 [(SymTable.defaultLabel a, b)] = some [(SymTable.defaultLabel a, b)] := by
    rw [dedupNames]
    simp only [hc, Bool.false_eq_true, if_false]
    rw [dedupPass_same hc, hs]
  refine ⟨_, hr, ?_⟩
  rw [(C82_all 1 _ _ hr a).2.2 (by simpa using hab.symm), symTable_getAll, if_pos (by simp)]
  simp

/-- C82: the name before an address is that of the nearest address with a symbol that is not greater, with the distance; there is
none exactly if all symbols come later. Addresses of more than 32 bits are a panic. -/
theorem C82_preceding (n : ℕ) (l r : List (SymName × ℕ)) (h : dedupNames n l = some r) (addr : ℕ) :
    (2 ^ 32 ≤ addr → (symTable r).tryGetOneOrPreceding addr = .error .assertion) ∧
    (addr < 2 ^ 32 →
      (∀ s off, (symTable r).tryGetOneOrPreceding addr = .ok (some (s, off)) ↔
        ∃ a, a + off = addr ∧ (symTable r).tryGetOne a = some s ∧ ∀ x ∈ l, x.2 ≤ addr → x.2 ≤ a) ∧
      ((symTable r).tryGetOneOrPreceding addr = .ok none ↔ ∀ x ∈ l, addr < x.2)) := by
  have he := C82_entries n l r h
  have hlr : ∀ a, (∀ x ∈ l, x.2 ≤ addr → x.2 ≤ a) ↔ ∀ x ∈ r, x.2 ≤ addr → x.2 ≤ a := by
    intro a
    constructor
    · intro hh x hx
      obtain ⟨name, k, h1, _⟩ := he.1 _ hx
      exact hh (name, x.2) h1
    · intro hh x hx
      obtain ⟨k, hk⟩ := he.2 x hx
      exact hh (withAddress x.1 x.2 k, x.2) hk
  refine ⟨fun hge => ?_, fun hlt => ⟨fun s off => ?_, ?_⟩⟩
  · rw [SymTable.tryGetOneOrPreceding, if_neg (by omega)]
  · rw [SymTable.tryGetOneOrPreceding, if_pos hlt]
    simp only [Except.ok.injEq, Option.bind_eq_some_iff, Option.map_eq_some_iff, Prod.mk.injEq]
    constructor
    · rintro ⟨x, hx, s', hs', rfl, rfl⟩
      rw [symTable_preceding] at hx
      refine ⟨x.1, by omega, ?_, (hlr _).2 hx.2.2⟩
      rw [symTable_tryGetOne, ← (mem_symTable.1 hx.1).2]
      exact hs'
    · rintro ⟨a, h1, h2, h3⟩
      rw [symTable_tryGetOne] at h2
      refine ⟨(a, (r.filter fun y => y.2 = a).map Prod.fst), (symTable_preceding _ _ _).2 ⟨?_, ?_, (hlr a).1 h3⟩, s, h2, rfl, ?_⟩
      · refine mem_symTable.2 ⟨?_, rfl⟩
        have := List.mem_of_head? h2
        obtain ⟨x, hx, _⟩ := List.mem_map.1 this
        obtain ⟨hx, hxa⟩ := List.mem_filter.1 hx
        exact ⟨x, hx, by simpa using hxa⟩
      · show a ≤ addr
        omega
      · show addr - a = off
        omega
  · rw [SymTable.tryGetOneOrPreceding, if_pos hlt]
    simp only [Except.ok.injEq, Option.bind_eq_none_iff, Option.map_eq_none_iff, List.head?_eq_none_iff]
    constructor
    · intro hh x hx
      by_contra hle
      cases hl : ((symTable r).filter fun x => decide (x.1 ≤ addr)).getLast? with
      | none =>
        rw [List.getLast?_eq_none_iff, List.filter_eq_nil_iff] at hl
        obtain ⟨k, hk⟩ := he.2 x hx
        refine hl (x.2, (r.filter fun y => y.2 = x.2).map Prod.fst) (mem_symTable.2 ⟨⟨_, hk, rfl⟩, rfl⟩) ?_
        simpa using hle
      | some y =>
        have hy := (symTable_preceding r addr y).1 hl
        have hnil := hh y hl
        obtain ⟨⟨z, hz, hzy⟩, h2⟩ := mem_symTable.1 hy.1
        rw [hnil] at h2
        have : z.1 ∈ (r.filter fun w => decide (w.2 = y.1)).map Prod.fst :=
          List.mem_map_of_mem (List.mem_filter.2 ⟨hz, by simpa using hzy⟩)
        rw [← h2] at this
        exact absurd this (by simp)
    · intro hh y hy
      obtain ⟨h1, h2, _⟩ := (symTable_preceding r addr y).1 hy
      obtain ⟨⟨z, hz, hzy⟩, _⟩ := mem_symTable.1 h1
      obtain ⟨name, k, h3, _⟩ := he.1 _ hz
      have := hh _ h3
      simp only at this
      omega

/-- C82: the table of a file. If all names can be read it is made, and an address has a name of its own in it exactly if it is
the address of a function or a variable with a name. -/
theorem C82_table (strtab : ℕ → Except Panic SymName) (syms : List ElfSym)
    (hok : ∀ s ∈ syms, s.name ≠ 0 → s.isFuncOrObject = true → ∃ name, strtab s.name = .ok name) :
    ∃ n t, (∀ m, n ≤ m → symTableNew m strtab syms = .ok (some t)) ∧
      ∀ addr, (∃ s, t.tryGetOne addr = some s) ↔
        ∃ s ∈ syms, s.name ≠ 0 ∧ s.isFuncOrObject = true ∧ addr = s.value % 2 ^ 32 := by
  have hread : ∃ l, readSymbolTable strtab syms = .ok l := by
    rw [readSymbolTable]
    have : ∀ l : List ElfSym, (∀ s ∈ l, ∃ name, strtab s.name = .ok name) →
        ∃ r, l.mapM (fun s => do let name ← strtab s.name; pure (name, s.value % 2 ^ 32)) = Except.ok r := by
      intro l
      induction l with
      | nil => intro _; exact ⟨[], rfl⟩
      | cons s l ih =>
        intro h
        obtain ⟨name, hn⟩ := h s (by simp)
        obtain ⟨r, hr⟩ := ih fun x hx => h x (List.mem_cons_of_mem _ hx)
        rw [List.mapM_cons]
        simp only [bind, Except.bind, pure, Except.pure] at hr ⊢
        rw [hn]
        simp only [hr]
        exact ⟨_, rfl⟩
    refine this _ fun s hs => ?_
    obtain ⟨hs, hf⟩ := List.mem_filter.1 hs
    simp only [Bool.and_eq_true, decide_eq_true_eq] at hf
    exact hok s hs hf.1 hf.2
  obtain ⟨l, hl⟩ := hread
  have hmem := C82_read strtab syms l hl
  obtain ⟨n, r, hr⟩ := C82_terminates l fun x hx => by
    obtain ⟨s, _, _, _, _, h⟩ := (hmem x.1 x.2).1 hx
    rw [h]
    exact Nat.mod_lt _ (by decide)
  refine ⟨n, symTable r, fun m hm => ?_, fun addr => ?_⟩
  · rw [symTableNew, hl]
    simp only [bind, Except.bind, pure, Except.pure, hr m hm, Option.map_some]
  · have hnone := (C82_lookup n l r (hr n (le_refl n)) addr).2.1
    constructor
    · rintro ⟨s, hs⟩
      by_contra hno
      rw [hnone.2] at hs
      · exact absurd hs (by simp)
      · rintro x hx rfl
        obtain ⟨s, h1, h2, h3, h4, h5⟩ := (hmem x.1 x.2).1 hx
        exact hno ⟨s, h1, h2, h3, h5⟩
    · rintro ⟨s, h1, h2, h3, h4⟩
      cases ht : (symTable r).tryGetOne addr with
      | some s => exact ⟨s, rfl⟩
      | none =>
        obtain ⟨name, hn⟩ := hok s h1 h2 h3
        exact absurd rfl (hnone.1 ht _ ((hmem name addr).2 ⟨s, h1, h2, h3, hn, h4⟩))

/-! ## C83: locations and statements -/

/-- C83: the locations that are kept are those in a segment, and those after the end of all segments; the order is kept. -/
theorem C83_locations (search : LocSearch) (hc : search.Correct) (segments : List (ℕ × ℕ)) (hseg : SegmentsApart segments)
    (l : List SrcLoc) (hs : l.Pairwise fun x y => x.address ≤ y.address) :
    filterLocations search segments l = l.filter fun x =>
      decide ((∃ s ∈ segments, s.1 ≤ x.address ∧ x.address < s.1 + s.2) ∨ ∀ s ∈ segments, s.1 + s.2 ≤ x.address) :=
  filterLocations_eq hc hseg hs

/-- C83: the statements are given without a panic exactly if every location is in an instruction or after all of them, and every
label is the address of an instruction or comes after all of them. -/
theorem C83_panic {I : Type} (t : SymTable) (labels : List ℕ) (locs : List SrcLoc) (is : List (PlacedIns I)) (hne : is ≠ [])
    (hi : InsApart is) (hl : labels.Pairwise (· < ·)) (hs : locs.Pairwise fun x y => x.address ≤ y.address) :
    (∃ r, executableStatements t labels locs is = .ok r) ↔
      (∀ x ∈ locs, (∃ i ∈ is, i.address ≤ x.address ∧ x.address < i.address + i.size) ∨
        ∀ i ∈ is, i.address + i.size ≤ x.address) ∧
      ∀ x ∈ labels, (∃ i ∈ is, x = i.address) ∨ ∀ i ∈ is, i.address < x := by
  constructor
  · rintro ⟨r, hr⟩
    rw [executableStatements] at hr
    simp only [bind, Except.bind, pure, Except.pure] at hr
    cases h1 : mergeJoinBy locFirst locs is with
    | error e => rw [h1] at hr; simp at hr
    | ok inner =>
      have hp := inner_placed is locs hi hs ⟨_, h1⟩
      rw [inner_ok is locs hi hs hp] at hr
      simp only at hr
      cases h2 : mergeJoinBy labelFirst labels (withCells (innerOf locs is)) with
      | error e => rw [h2] at hr; simp at hr
      | ok outer => exact ⟨hp, outer_placed is labels locs hi hl ⟨_, h2⟩⟩
  · rintro ⟨h1, h2⟩
    rw [executableStatements, inner_ok is locs hi hs h1]
    simp only [bind, Except.bind, pure, Except.pure]
    rw [outer_ok is labels locs hi hl h2 fun h => absurd h hne]
    exact ⟨_, rfl⟩

/-- C83: the statements are, for each instruction in order: the names of its address if it has a label, the locations in it, the
instruction; at the end the locations and then the names of the labels after all instructions. -/
theorem C83_statements {I : Type} (t : SymTable) (labels : List ℕ) (locs : List SrcLoc) (is : List (PlacedIns I)) (hne : is ≠ [])
    (hi : InsApart is) (hl : labels.Pairwise (· < ·)) (hs : locs.Pairwise fun x y => x.address ≤ y.address)
    (r : List (OutStatement I)) (hr : executableStatements t labels locs is = .ok r) :
    r = is.flatMap (blockOf t labels locs) ++
      ((locs.filter fun x => decide (∀ i ∈ is, i.address + i.size ≤ x.address)).map fun x =>
        OutStatement.debugLoc x.file x.line x.col) ++
      (labels.filter fun x => decide (∀ i ∈ is, i.address < x)).flatMap fun x => (t.getAll x).map .label := by
  obtain ⟨h1, h2⟩ := (C83_panic t labels locs is hne hi hl hs).1 ⟨r, hr⟩
  rw [executableStatements, inner_ok is locs hi hs h1] at hr
  simp only [bind, Except.bind, pure, Except.pure] at hr
  rw [outer_ok is labels locs hi hl h2 fun h => absurd h hne] at hr
  simp only [Except.ok.injEq] at hr
  rw [← hr, outerOf]
  simp only [List.flatMap_append, List.flatMap_map, List.flatMap_assoc, toStatements]
  congr 1
  congr 1
  · refine List.flatMap_congr fun i _ => ?_
    rw [blockOf]
    congr 2
    · split_ifs <;> simp [toStatements]
    · rw [List.map_eq_flatMap]
  · rw [List.map_eq_flatMap]

/-! ## The hypotheses are met -/

/-- Three symbols, two with the same name. -/
def sampleSyms : List (SymName × ℕ) := [("g".toList, 8), ("f".toList, 4), ("f".toList, 8)]

theorem sampleSyms_pass : dedupPass sampleSyms =
    ([("f_00000004".toList, 4), ("f_00000008".toList, 8), ("g".toList, 8)], true) := by
  have h1 : sampleSyms.mergeSort symLe = [("f".toList, 4), ("f".toList, 8), ("g".toList, 8)] := by
    have hgf : ¬ ['g'] < ['f'] := by decide
    have hfg : ['f'] < ['g'] := by decide
    simp [sampleSyms, List.mergeSort, List.MergeSort.Internal.splitInTwo, List.merge, symLe, hgf, hfg]
  rw [dedupPass, h1, show dedupNeighbours [("f".toList, 4), ("f".toList, 8), ("g".toList, 8)] =
    [("f".toList, 4), ("f".toList, 8), ("g".toList, 8)] by decide]
  simp [renameGroups]
  decide

/-- C82: a sample: the two symbols with the same name get their addresses, and the other keeps its name. -/
theorem C82_sample : dedupNames 2 sampleSyms = some [("f_00000004".toList, 4), ("f_00000008".toList, 8), ("g".toList, 8)] ∧
    (∀ x ∈ sampleSyms, x.2 < 2 ^ 32) := by
  refine ⟨?_, by decide⟩
  have h2 : dedupPass [("f_00000004".toList, 4), ("f_00000008".toList, 8), ("g".toList, 8)] =
      ([("f_00000004".toList, 4), ("f_00000008".toList, 8), ("g".toList, 8)], false) := by
    have h1 : [("f_00000004".toList, 4), ("f_00000008".toList, 8), ("g".toList, 8)].mergeSort symLe =
        [("f_00000004".toList, 4), ("f_00000008".toList, 8), ("g".toList, 8)] :=
      List.mergeSort_of_pairwise (by decide +kernel)
    rw [dedupPass, h1, show dedupNeighbours [("f_00000004".toList, 4), ("f_00000008".toList, 8), ("g".toList, 8)] =
      [("f_00000004".toList, 4), ("f_00000008".toList, 8), ("g".toList, 8)] by decide]
    simp [renameGroups]
  rw [dedupNames, sampleSyms_pass]
  simp only [if_true]
  rw [dedupNames, h2]
  rfl

/-- Two instructions. -/
def sampleIns : List (PlacedIns String) := [⟨4, 4, "a"⟩, ⟨8, 2, "b"⟩]

/-- Three locations. -/
def sampleLocs : List SrcLoc := [⟨6, 1, 2, 3⟩, ⟨8, 1, 3, 1⟩, ⟨12, 1, 4, 1⟩]

/-- C83: a sample: a location in the middle of an instruction, a label and a location at an instruction, a location and a label
after the last. -/
theorem C83_sample : executableStatements [(8, ["f".toList])] [8, 16] sampleLocs sampleIns =
    .ok [.debugLoc 1 2 3, .instruction "a", .label "f".toList, .debugLoc 1 3 1, .instruction "b", .debugLoc 1 4 1,
      .label "__.L00000010".toList] := by
  have hi : InsApart sampleIns := ⟨by simp [sampleIns], by simp [sampleIns]⟩
  have hl : [8, 16].Pairwise (· < ·) := by decide
  have hs : sampleLocs.Pairwise fun x y => x.address ≤ y.address := by decide
  obtain ⟨r, hr⟩ := (C83_panic [(8, ["f".toList])] [8, 16] sampleLocs sampleIns (by simp [sampleIns]) hi hl hs).2
    ⟨by simp [sampleLocs, sampleIns], by simp [sampleIns]⟩
  rw [hr, C83_statements _ _ _ _ (by simp [sampleIns]) hi hl hs r hr]
  decide +kernel

/-- The search from the start. -/
def linearSearch : LocSearch := fun l addr =>
  if l.any (fun x => x.address = addr) then .inl (l.findIdx fun x => x.address = addr)
  else .inr (l.findIdx fun x => decide (addr < x.address))

/-- C83: there is a correct search. -/
theorem C83_search : linearSearch.Correct := by
  intro l addr hs
  rw [linearSearch]
  by_cases h : l.any (fun x => decide (x.address = addr)) = true
  · rw [if_pos h]
    obtain ⟨x, hx, hxa⟩ := List.any_eq_true.1 h
    have hlt : l.findIdx (fun x => decide (x.address = addr)) < l.length := List.findIdx_lt_length_of_exists ⟨x, hx, hxa⟩
    refine ⟨l[l.findIdx fun x => decide (x.address = addr)], List.getElem?_eq_getElem hlt, ?_⟩
    have := List.findIdx_getElem (p := fun x : SrcLoc => decide (x.address = addr)) (w := hlt)
    simpa using this
  · rw [if_neg h]
    have hne : ∀ x ∈ l, x.address ≠ addr := by
      intro x hx hh
      exact h (List.any_eq_true.2 ⟨x, hx, by simpa using hh⟩)
    have hsplit : l.findIdx (fun x => decide (addr < x.address)) = (l.filter fun x => decide (x.address < addr)).length := by
      clear h
      induction l with
      | nil => rfl
      | cons a t ih =>
        obtain ⟨h1, h2⟩ := List.pairwise_cons.1 hs
        have ha := hne a (by simp)
        rw [List.findIdx_cons]
        by_cases hlt : addr < a.address
        · rw [show decide (addr < a.address) = true by simpa using hlt, List.filter_eq_nil_iff.2]
          · rfl
          · intro x hx
            simp only [decide_eq_true_eq]
            rcases List.mem_cons.1 hx with rfl | hx
            · omega
            · have := h1 x hx
              omega
        · rw [show decide (addr < a.address) = false by simpa using hlt, ih h2 fun x hx => hne x (List.mem_cons_of_mem _ hx),
            List.filter_cons_of_pos (by simp; omega)]
          rfl
    have hl := sorted_split hs addr
    rw [hsplit]
    refine ⟨List.length_filter_le _ _, ?_⟩
    have hA : ∀ x ∈ l.filter (fun x => decide (x.address < addr)), x.address < addr := fun x hx => by
      simpa using (List.mem_filter.1 hx).2
    have hB : ∀ x ∈ l.filter (fun x => decide (addr ≤ x.address)), addr < x.address := fun x hx => by
      obtain ⟨h1, h2⟩ := List.mem_filter.1 hx
      have := hne x h1
      simp only [decide_eq_true_eq] at h2
      omega
    generalize l.filter (fun x => decide (x.address < addr)) = A at *
    generalize l.filter (fun x => decide (addr ≤ x.address)) = B at *
    subst hl
    rw [List.take_left, List.drop_left]
    exact ⟨hA, hB⟩

end Verif
