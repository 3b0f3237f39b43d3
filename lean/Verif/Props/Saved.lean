import Verif.Proofs.Saved

/-!
# C84: saved expressions, machines and constraint systems
-/

namespace Verif

/-- How an element of a field is saved: the number below the characteristic (number/src/plonky3_macros.rs:41-49,
goldilocks.rs:24-40). -/
def saveNumber {p : ℕ} (n : ZMod p) : Json := .num n.val

/-- How an element of a field with characteristic below 2^32 is read. -/
def readZ31 (p : ℕ) (j : Json) : Except SavedError (ZMod p) := (readNumber31 p j).map Nat.cast

/-- How an element of the Goldilocks field is read, as the residue of the number that is stored. -/
def readZ64 (p : ℕ) (j : Json) : Except SavedError (ZMod p) := (readNumber64 j).map Nat.cast

/-- The two ways to read elements of a field. -/
def IsReader (p : ℕ) (r : Json → Except SavedError (ZMod p)) : Prop :=
  (r = readZ31 p ∧ p ≤ 2 ^ 32) ∨ (r = readZ64 p ∧ p ≤ 2 ^ 64)

theorem IsReader.leaves {p : ℕ} [NeZero p] {r : Json → Except SavedError (ZMod p)} (h : IsReader p r) :
    LeavesSaved saveNumber saveRef r readRef fun x => x.id < 2 ^ 64 := by
  refine ⟨fun n => ⟨n.val, rfl, ?_⟩, fun x hx => ⟨_, rfl, readRef_saveRef hx⟩⟩
  have hn := ZMod.val_lt n
  rcases h with ⟨rfl, hp⟩ | ⟨rfl, hp⟩
  · rw [readZ31, readNumber31, if_pos (lt_of_lt_of_le hn hp), if_pos hn]
    simp [Except.map]
  · rw [readZ64, readNumber64, if_pos (lt_of_lt_of_le hn hp)]
    simp [Except.map]

/-- C84: reading a saved expression gives the expression, also with the names of its columns, whatever they are. -/
theorem C84_expression {p : ℕ} [NeZero p] {r : Json → Except SavedError (ZMod p)} (hr : IsReader p r)
    (e : AlgExpr (ZMod p) SavedRef) (he : ∀ x ∈ e.refs, x.id < 2 ^ 64) :
    readExpr r readRef (saveExpr saveNumber saveRef e) = .ok e :=
  readExpr_saveExpr hr.leaves e he

/-- C84: different expressions are saved differently. -/
theorem C84_distinct {p : ℕ} [NeZero p] (hp : p ≤ 2 ^ 64) {e e' : AlgExpr (ZMod p) SavedRef}
    (he : ∀ x ∈ e.refs, x.id < 2 ^ 64) (he' : ∀ x ∈ e'.refs, x.id < 2 ^ 64)
    (h : saveExpr saveNumber saveRef e = saveExpr saveNumber saveRef e') : e = e' := by
  have h1 := C84_expression (.inr ⟨rfl, hp⟩) e he
  rw [h, C84_expression (.inr ⟨rfl, hp⟩) e' he'] at h1
  exact (Except.ok.inj h1).symm

/-- C84: reading a saved machine gives the machine. -/
theorem C84_machine {p : ℕ} [NeZero p] {r : Json → Except SavedError (ZMod p)} (hr : IsReader p r)
    (m : SymMachine (ZMod p) SavedRef) (hm : m.Storable fun x => x.id < 2 ^ 64) :
    readMachine r readRef (saveMachine saveNumber saveRef m) = .ok m :=
  readMachine_saveMachine hr.leaves hm

/-- C84: the saved form of an expression denotes its value. -/
theorem C84_denotes {p : ℕ} [NeZero p] (σ : ℕ → ZMod p) (e : AlgExpr (ZMod p) SavedRef) :
    JsonDenotes σ (saveExpr saveNumber saveRef e) (e.value fun x => σ x.id) := by
  induction e with
  | reference x =>
    have h := JsonDenotes.reference (σ := σ) x.name x.id
    rw [Nat.toString_eq_repr, Nat.toList_repr] at h
    simpa [saveExpr, saveRef, AlgExpr.value] using h
  | number n =>
    have h := JsonDenotes.number (p := p) (σ := σ) n.val (ZMod.val_lt n)
    simpa [saveExpr, saveNumber, AlgExpr.value] using h
  | binary l op x ihl ihr =>
    cases op with
    | add => exact .add _ _ _ _ ihl ihr
    | sub => exact .sub _ _ _ _ ihl ihr
    | mul => exact .mul _ _ _ _ ihl ihr
  | minus e ih => exact .neg _ _ ih

theorem saved_ref_inj {a b : List Char} {i j : ℕ}
    (h : a ++ "@".toList ++ (toString i).toList = b ++ "@".toList ++ (toString j).toList) : i = j := by
  have hat : ∀ i : ℕ, '@' ∉ Nat.toDigits 10 i := fun i h => by
    obtain ⟨d, hd⟩ := digitOf_of_mem (by omega) (by omega) i h
    simp [digitOf] at hd
  rw [Nat.toString_eq_repr, Nat.toList_repr, Nat.toString_eq_repr, Nat.toList_repr] at h
  have h1 := splitLast_append a (hat i)
  have h2 := splitLast_append b (hat j)
  have h' : a ++ '@' :: Nat.toDigits 10 i = b ++ '@' :: Nat.toDigits 10 j := by simpa using h
  rw [h', h2] at h1
  simp only [Option.some.injEq, Prod.mk.injEq] at h1
  have h3 := digitsValue_toDigits (radix := 10) (by omega) (by omega) i
  rw [← h1.2, digitsValue_toDigits (by omega) (by omega) j] at h3
  exact (Option.some.inj h3).symm

/-- C84: a saved form denotes at most one value. -/
theorem C84_unique {p : ℕ} {σ : ℕ → ZMod p} {j : Json} {x y : ZMod p} (hx : JsonDenotes σ j x)
    (hy : JsonDenotes σ j y) : x = y := by
  induction hx generalizing y with
  | number n h =>
    cases hy with
    | number n h => rfl
  | reference name i =>
    generalize hs : name ++ "@".toList ++ (toString i).toList = s at hy
    cases hy with
    | reference name' i' => rw [saved_ref_inj hs]
  | add a b x y ha hb iha ihb =>
    cases hy with
    | add _ _ x' y' ha' hb' => rw [iha ha', ihb hb']
  | sub a b x y ha hb iha ihb =>
    cases hy with
    | sub _ _ x' y' ha' hb' => rw [iha ha', ihb hb']
  | mul a b x y ha hb iha ihb =>
    cases hy with
    | mul _ _ x' y' ha' hb' => rw [iha ha', ihb hb']
  | neg a x ha ih =>
    cases hy with
    | neg _ x' ha' => rw [ih ha']

/-- C84: the saved form of a grouped expression denotes its value, and reading it gives an expression with the same
values. -/
theorem C84_grouped {p : ℕ} [NeZero p] {r : Json → Except SavedError (ZMod p)} (hr : IsReader p r)
    (g : GExpr p SavedRef) (hg : ∀ v, GExpr.Occurs v g → v.id < 2 ^ 64) :
    (∀ σ : ℕ → ZMod p, JsonDenotes σ (saveGrouped saveNumber saveRef g) (g.eval fun x => σ x.id)) ∧
      ∃ e, readExpr r readRef (saveGrouped saveNumber saveRef g) = .ok e ∧ ∀ σ, e.value σ = g.eval σ := by
  rw [saveGrouped_eq]
  refine ⟨fun σ => ?_, savedAs g, ?_, fun σ => value_savedAs σ g⟩
  · rw [← value_savedAs]
    exact C84_denotes σ _
  · exact readExpr_saveExpr hr.leaves _ fun v hv => hg v (occurs_of_refs_savedAs g hv)

/-- C84: reading a saved constraint system as a machine gives a machine with the same constraints, bus interactions and
derived columns. -/
theorem C84_system {p : ℕ} [NeZero p] {r : Json → Except SavedError (ZMod p)} (hr : IsReader p r)
    (s : ConstraintSystem p SavedRef) (hs : s.Storable fun x => x.id < 2 ^ 64) :
    ∃ m, readMachine r readRef (saveSystem saveNumber saveRef s) = .ok m ∧ ∀ σ, MachineAgrees σ m s := by
  have hp : p ≤ 2 ^ 64 := by
    rcases hr with ⟨_, h⟩ | ⟨_, h⟩
    · exact h.trans (by norm_num)
    · exact h
  refine ⟨savedMachine s, ?_, fun σ => savedMachine_agrees σ hs⟩
  rw [saveSystem_eq saveNumber saveRef (fun _ => rfl) hs]
  exact readMachine_saveMachine hr.leaves (savedMachine_storable hp hs)

/-- C84: what is read as a number. For fields with 31 bits, numbers that are not below the characteristic make the
reader panic, or fail if they have more than 32 bits; for Goldilocks, every number with 64 bits is stored as it is, also
one that is not below the characteristic. -/
theorem C84_numbers (p n : ℕ) (hp : p ≤ 2 ^ 32) :
    (readNumber31 p (.num n) = if n < p then .ok n else if n < 2 ^ 32 then .error .panic else .error .invalid) ∧
      (readNumber64 (.num n) = if n < 2 ^ 64 then .ok n else .error .invalid) := by
  refine ⟨?_, rfl⟩
  show (if n < 2 ^ 32 then _ else _) = _
  by_cases h1 : n < p
  · rw [if_pos h1, if_pos (lt_of_lt_of_le h1 hp), if_pos h1]
  · simp only [h1, if_false]

/-! ## A machine -/

/-- `x - 3 * y` where the name of `x` contains the separator. -/
def savedSample : AlgExpr (ZMod 2013265921) SavedRef :=
  .binary (.reference ⟨"a@1".toList, 12⟩) .sub (.binary (.number 3) .mul (.minus (.reference ⟨"b_0".toList, 7⟩)))

theorem savedSample_text : saveRef ⟨"a@1".toList, 12⟩ = .str "a@1@12".toList := by
  simp [saveRef, Nat.toDigits, Nat.toDigitsCore, Nat.digitChar]

theorem savedSample_read :
    readExpr (readZ31 2013265921) readRef (saveExpr saveNumber saveRef savedSample) = .ok savedSample :=
  have : NeZero 2013265921 := ⟨by norm_num⟩
  C84_expression (.inl ⟨rfl, by norm_num⟩) savedSample (by simp [savedSample, AlgExpr.refs])

/-- A constraint system with a quadratic term, a bus interaction and a derived column. -/
def savedSystemSample : ConstraintSystem 2013265921 SavedRef :=
  ⟨[.mk [(.mk [] [(⟨"x".toList, 0⟩, 1)] 0, .mk [] [(⟨"y".toList, 1⟩, 5)] 1)] [(⟨"x".toList, 0⟩, 3)] 0],
    [⟨.mk [] [] 6, .mk [] [] 1, [.mk [] [(⟨"y".toList, 1⟩, 1)] 2]⟩],
    [⟨⟨"z".toList, 2⟩, .quotientOrZero (.mk [] [] 1) (.mk [] [(⟨"x".toList, 0⟩, 1)] 0)⟩]⟩

theorem savedSystemSample_read : ∃ m, readMachine (readZ31 2013265921) readRef
    (saveSystem saveNumber saveRef savedSystemSample) = .ok m ∧ ∀ σ, MachineAgrees σ m savedSystemSample := by
  have : NeZero 2013265921 := ⟨by norm_num⟩
  refine C84_system (.inl ⟨rfl, by norm_num⟩) _ ⟨?_, ?_, ?_, ?_, ?_⟩
  · intro e he v hv
    rw [← GExpr.mem_vars_iff_occurs] at hv
    simp only [savedSystemSample, List.mem_singleton] at he
    subst he
    simp [GExpr.vars, GExpr.varsQ] at hv
    rcases hv with rfl | rfl | rfl <;> simp
  · simp [savedSystemSample]
  · intro b hb e he v hv
    rw [← GExpr.mem_vars_iff_occurs] at hv
    simp only [savedSystemSample, List.mem_singleton] at hb
    subst hb
    simp only [List.mem_cons, List.not_mem_nil, or_false] at he
    rcases he with rfl | rfl
    · simp [GExpr.vars, GExpr.varsQ] at hv
    · simp [GExpr.vars, GExpr.varsQ] at hv
      subst hv
      simp
  · simp [savedSystemSample]
  · intro d hd e1 e2 h v hv
    rw [← GExpr.mem_vars_iff_occurs, ← GExpr.mem_vars_iff_occurs] at hv
    simp only [savedSystemSample, List.mem_singleton] at hd
    subst hd
    simp only [ComputationMethod.quotientOrZero.injEq] at h
    obtain ⟨rfl, rfl⟩ := h
    simp [GExpr.vars, GExpr.varsQ] at hv
    subst hv
    simp

end Verif
