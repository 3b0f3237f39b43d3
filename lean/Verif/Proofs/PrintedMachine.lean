import Verif.Proofs.Printed
import Verif.Proofs.Extraction
import Mathlib.Data.List.Basic

/-!
# Lemmas on printed machines
-/

set_option linter.unusedSectionVars false
set_option linter.unusedSimpArgs false

namespace Verif

/-- Characters of printed expressions. -/
def IsExprChar (c : Char) : Prop := ¬ IsSpecial c ∨ c ∈ "()+-*/ ".toList

theorem Reads.chars {l : TextLevel} {s : List Char} {t : TextTree} (h : Reads l s t) : ∀ c ∈ s, IsExprChar c := by
  induction h with
  | num n =>
    intro c hc
    rw [numeral_eq] at hc
    exact .inl (not_special_of_isDigit (isDigit_of_mem hc))
  | name s h => exact fun c hc => .inl (h.2.1 c hc)
  | parentheses s t _ ih =>
    intro c hc
    simp only [List.cons_append, List.mem_cons, List.mem_append, List.not_mem_nil, or_false] at hc
    rcases hc with rfl | hc | rfl
    · exact .inr (by decide)
    · exact ih c hc
    · exact .inr (by decide)
  | atom _ _ _ ih => exact ih
  | neg s t _ ih =>
    intro c hc
    rcases List.mem_cons.1 hc with rfl | hc
    · exact .inr (by decide)
    · exact ih c hc
  | factor _ _ _ ih => exact ih
  | times s s' op t t' ho _ _ ih ih' =>
    intro c hc
    simp only [List.mem_append, List.mem_cons] at hc
    rcases hc with hc | rfl | rfl | rfl | hc
    · exact ih c hc
    · exact .inr (by decide)
    · exact .inr (by cases op <;> decide)
    · exact .inr (by decide)
    · exact ih' c hc
  | product _ _ _ ih => exact ih
  | plus s s' op t t' ho _ _ ih ih' =>
    intro c hc
    simp only [List.mem_append, List.mem_cons] at hc
    rcases hc with hc | rfl | rfl | rfl | hc
    · exact ih c hc
    · exact .inr (by decide)
    · exact .inr (by cases op <;> decide)
    · exact .inr (by decide)
    · exact ih' c hc

/-- Characters with which a printed expression begins. -/
theorem Reads.head {l : TextLevel} {s : List Char} {t : TextTree} (h : Reads l s t) :
    ∃ c x, s = c :: x ∧ (¬ IsSpecial c ∨ c = '(' ∨ c = '-') := by
  induction h with
  | num n =>
    rw [numeral_eq]
    cases hd : Nat.toDigits 10 n with
    | nil => exact absurd hd Nat.toDigits_ne_nil
    | cons c x => exact ⟨c, x, rfl, .inl (not_special_of_isDigit (isDigit_of_mem (n := n) (by simp [hd])))⟩
  | name s h =>
    cases s with
    | nil => exact absurd rfl h.1
    | cons c x => exact ⟨c, x, rfl, .inl (h.2.1 c (by simp))⟩
  | parentheses s t _ _ => exact ⟨'(', _, rfl, .inr (.inl rfl)⟩
  | atom _ _ _ ih => exact ih
  | neg s t _ _ => exact ⟨'-', s, rfl, .inr (.inr rfl)⟩
  | factor _ _ _ ih => exact ih
  | times s s' op t t' ho _ _ ih _ =>
    obtain ⟨c, x, rfl, hc⟩ := ih
    exact ⟨c, _, rfl, hc⟩
  | product _ _ _ ih => exact ih
  | plus s s' op t t' ho _ _ ih _ =>
    obtain ⟨c, x, rfl, hc⟩ := ih
    exact ⟨c, _, rfl, hc⟩

theorem not_exprChar {c : Char} (h : c ∈ ",[]=\n".toList) : ¬ IsExprChar c := by
  have h1 : ∀ c ∈ ",[]=\n".toList, (c ∈ "()+-*/,[]=".toList ∨ isWhiteSpace c = true) ∧ c ∉ "()+-*/ ".toList := by decide
  rintro (h2 | h2)
  · exact h2 (h1 c h).1
  · exact (h1 c h).2 h2

/-- Splitting at a character that does not occur before. -/
theorem split_unique {d : Char} {s s' r r' : List Char} (hs : d ∉ s) (hs' : d ∉ s') (h : s ++ d :: r = s' ++ d :: r') :
    s = s' ∧ r = r' := by
  obtain ⟨h1, h2⟩ := run_unique (P := (· ≠ d)) (s := s) (s' := s') (r := d :: r) (r' := d :: r')
    (fun c hc => by rintro rfl; exact hs hc) (fun c hc => by rintro rfl; exact hs' hc)
    (fun c x hx => by cases hx; simp) (fun c x hx => by cases hx; simp) h
  exact ⟨h1, (List.cons.inj h2).2⟩

theorem joinText_cons (sep x : List Char) (t : List (List Char)) :
    joinText sep (x :: t) = x ++ if t = [] then [] else sep ++ joinText sep t := by
  cases t with
  | nil => simp [joinText]
  | cons y t => simp [joinText]

theorem joinText_injective {d : Char} {sep : List Char} {l l' : List (List Char)} (hl : ∀ x ∈ l, d ∉ x)
    (hl' : ∀ x ∈ l', d ∉ x) (hne : l ≠ []) (hne' : l' ≠ []) (h : joinText (d :: sep) l = joinText (d :: sep) l') :
    l = l' := by
  induction l generalizing l' with
  | nil => exact absurd rfl hne
  | cons x t ih =>
    cases l' with
    | nil => exact absurd rfl hne'
    | cons x' t' =>
      rw [joinText_cons, joinText_cons] at h
      have hstart : ∀ t : List (List Char), ∀ c y, (if t = [] then [] else d :: sep ++ joinText (d :: sep) t) = c :: y → ¬ c ≠ d := by
        intro t c y hc
        split_ifs at hc
        cases hc
        simp
      obtain ⟨h1, h2⟩ := run_unique (P := (· ≠ d)) (fun c hc => by rintro rfl; exact hl x (by simp) hc)
        (fun c hc => by rintro rfl; exact hl' x' (by simp) hc) (hstart t) (hstart t') h
      subst h1
      by_cases ht : t = []
      · by_cases ht' : t' = []
        · rw [ht, ht']
        · rw [if_pos ht, if_neg ht'] at h2
          cases h2
      · by_cases ht' : t' = []
        · rw [if_neg ht, if_pos ht'] at h2
          cases h2
        · rw [if_neg ht, if_neg ht'] at h2
          rw [ih (fun x hx => hl x (by simp [hx])) (fun x hx => hl' x (by simp [hx])) ht ht' (List.append_cancel_left h2)]

/-- Lines, each with its end. -/
def unlinesText (l : List (List Char)) : List Char := l.flatMap fun x => x ++ ['\n']

theorem unlinesText_injective {l l' : List (List Char)} (hl : ∀ x ∈ l, '\n' ∉ x) (hl' : ∀ x ∈ l', '\n' ∉ x)
    (h : unlinesText l = unlinesText l') : l = l' := by
  induction l generalizing l' with
  | nil =>
    cases l' with
    | nil => rfl
    | cons x t => simp [unlinesText] at h
  | cons x t ih =>
    cases l' with
    | nil => simp [unlinesText] at h
    | cons x' t' =>
      simp only [unlinesText, List.flatMap_cons, List.append_assoc, List.singleton_append] at h
      obtain ⟨h1, h2⟩ := split_unique (hl x (by simp)) (hl' x' (by simp)) h
      rw [h1, ih (fun x hx => hl x (by simp [hx])) (fun x hx => hl' x (by simp [hx])) h2]

theorem unlinesText_eq_join {l : List (List Char)} (h : l ≠ []) : unlinesText l = joinText ['\n'] l ++ ['\n'] := by
  induction l with
  | nil => exact absurd rfl h
  | cons x t ih =>
    rw [joinText_cons]
    by_cases ht : t = []
    · simp [ht, unlinesText]
    · rw [if_neg ht]
      have := ih ht
      simp only [unlinesText, List.flatMap_cons, List.append_assoc] at this ⊢
      rw [this]

/-! ## Parts of machines -/

section
variable {p : ℕ} [NeZero p]

/-- All references of the expression are in the list. -/
def RefsIn (l : List SavedRef) (e : AlgExpr (ZMod p) SavedRef) : Prop := ∀ r ∈ e.refs, r ∈ l

theorem printColumns_reads {l : List SavedRef} (hl : GoodNames l) {e : AlgExpr (ZMod p) SavedRef} (he : RefsIn l e) :
    Reads .sum (printColumns e) (e.textTree SavedRef.name) :=
  (printExpr_reads SavedRef.name e fun r hr => hl.1 r (he r hr)).to_sum

theorem printColumns_injective {l : List SavedRef} (hl : GoodNames l) {e e' : AlgExpr (ZMod p) SavedRef} (he : RefsIn l e)
    (he' : RefsIn l e') (h : printColumns e = printColumns e') : e = e' :=
  printExpr_injective (fun r hr => hl.1 r (he r hr)) (fun r hr => hl.1 r (he' r hr))
    (fun r hr r' hr' => hl.2 r (he r hr) r' (he' r' hr')) h

theorem printColumns_no {l : List SavedRef} (hl : GoodNames l) {e : AlgExpr (ZMod p) SavedRef} (he : RefsIn l e) {c : Char}
    (hc : c ∈ ",[]=\n".toList) : c ∉ printColumns e :=
  fun h => not_exprChar hc ((printColumns_reads hl he).chars c h)

theorem printArgs_injective {l : List SavedRef} (hl : GoodNames l) {es es' : List (AlgExpr (ZMod p) SavedRef)}
    (he : ∀ e ∈ es, RefsIn l e) (he' : ∀ e ∈ es', RefsIn l e)
    (h : joinText ", ".toList (es.map printColumns) = joinText ", ".toList (es'.map printColumns)) : es = es' := by
  have hno : ∀ es : List (AlgExpr (ZMod p) SavedRef), (∀ e ∈ es, RefsIn l e) → ∀ x ∈ es.map printColumns, ',' ∉ x := by
    intro es he x hx
    obtain ⟨e, hes, rfl⟩ := List.mem_map.1 hx
    exact printColumns_no hl (he e hes) (by decide)
  have hnil : ∀ es : List (AlgExpr (ZMod p) SavedRef), (∀ e ∈ es, RefsIn l e) →
      joinText ", ".toList (es.map printColumns) = [] → es = [] := by
    intro es he h
    cases es with
    | nil => rfl
    | cons e t =>
      rw [List.map_cons, joinText_cons] at h
      obtain ⟨c, x, hc, _⟩ := (printColumns_reads hl (he e (by simp))).head
      rw [hc] at h
      cases h
  by_cases h0 : es = []
  · subst h0
    exact (hnil es' he' h.symm).symm
  · by_cases h0' : es' = []
    · subst h0'
      exact hnil es he h
    · have h1 := joinText_injective (d := ',') (sep := [' ']) (hno es he) (hno es' he') (by simpa using h0) (by simpa using h0') h
      clear h h0 h0' hno hnil
      induction es generalizing es' with
      | nil =>
        cases es' with
        | nil => rfl
        | cons _ _ => simp at h1
      | cons e t ih =>
        cases es' with
        | nil => simp at h1
        | cons e' t' =>
          simp only [List.map_cons, List.cons.injEq] at h1
          rw [printColumns_injective hl (he e (by simp)) (he' e' (by simp)) h1.1,
            ih (fun e he1 => he e (by simp [he1])) (fun e he1 => he' e (by simp [he1])) h1.2]

/-- All references of the interaction are in the list. -/
def BusRefsIn (l : List SavedRef) (b : SymBus (ZMod p) SavedRef) : Prop := RefsIn l b.mult ∧ ∀ e ∈ b.args, RefsIn l e

theorem printNat_no {n : ℕ} {c : Char} (h : c.isDigit = false) : c ∉ printNat n := by
  intro hc
  rw [isDigit_of_mem hc] at h
  cases h

/-- The text of an interaction without its bus. -/
def busBody (b : SymBus (ZMod p) SavedRef) : List Char :=
  printColumns b.mult ++ ',' :: (" args=[".toList ++ (joinText ", ".toList (b.args.map printColumns) ++ [']']))

theorem busBody_injective {l : List SavedRef} (hl : GoodNames l) {b b' : SymBus (ZMod p) SavedRef} (hb : BusRefsIn l b)
    (hb' : BusRefsIn l b') (h : busBody b = busBody b') : b.mult = b'.mult ∧ b.args = b'.args := by
  obtain ⟨h1, h2⟩ := split_unique (printColumns_no hl hb.1 (by decide)) (printColumns_no hl hb'.1 (by decide)) h
  exact ⟨printColumns_injective hl hb.1 hb'.1 h1,
    printArgs_injective hl hb.2 hb'.2 (List.append_cancel_right (List.append_cancel_left h2))⟩

theorem printBus_eq (b : SymBus (ZMod p) SavedRef) :
    printBus b = "(id=".toList ++ (printNat b.id ++ ',' :: (" mult=".toList ++ (busBody b ++ [')']))) := by
  have h1 : ", mult=".toList = ',' :: " mult=".toList := by decide
  have h2 : ", args=[".toList = ',' :: " args=[".toList := by decide
  have h3 : "])".toList = [']', ')'] := by decide
  unfold printBus busBody
  rw [h1, h2, h3]
  simp only [List.append_assoc, List.cons_append, List.nil_append]

theorem renderInteraction_eq (b : SymBus (ZMod p) SavedRef) :
    renderInteraction b = ("mult=".toList ++ busBody b) ++ ['\n'] := by
  have h2 : ", args=[".toList = ',' :: " args=[".toList := by decide
  have h3 : "]\n".toList = [']', '\n'] := by decide
  unfold renderInteraction busBody
  rw [h2, h3]
  simp only [List.append_assoc, List.cons_append, List.nil_append]

theorem printNat_injective {n m : ℕ} (h : printNat n = printNat m) : n = m := by
  have := congrArg (fun l => Nat.ofDigitChars 10 l 0) h
  simpa [printNat] using this

theorem printBus_injective {l : List SavedRef} (hl : GoodNames l) {b b' : SymBus (ZMod p) SavedRef} (hb : BusRefsIn l b)
    (hb' : BusRefsIn l b') (h : printBus b = printBus b') : b = b' := by
  rw [printBus_eq, printBus_eq] at h
  obtain ⟨h1, h2⟩ := split_unique (printNat_no (by decide)) (printNat_no (by decide)) (List.append_cancel_left h)
  obtain ⟨h3, h4⟩ := busBody_injective hl hb hb' (List.append_cancel_right (List.append_cancel_left h2))
  cases b; cases b'
  simp only [SymBus.mk.injEq]
  exact ⟨printNat_injective h1, h3, h4⟩

theorem printConstraint_injective {l : List SavedRef} (hl : GoodNames l) {e e' : AlgExpr (ZMod p) SavedRef} (he : RefsIn l e)
    (he' : RefsIn l e') (h : printConstraint e = printConstraint e') : e = e' :=
  printColumns_injective hl he he' (List.append_cancel_right h)

/-- Lists with the same texts. -/
theorem map_injective_of {α : Type} {f : α → List Char} {P : α → Prop} (hf : ∀ a b, P a → P b → f a = f b → a = b) {l l' : List α}
    (hl : ∀ a ∈ l, P a) (hl' : ∀ a ∈ l', P a) (h : l.map f = l'.map f) : l = l' := by
  induction l generalizing l' with
  | nil =>
    cases l' with
    | nil => rfl
    | cons _ _ => simp at h
  | cons e t ih =>
    cases l' with
    | nil => simp at h
    | cons e' t' =>
      simp only [List.map_cons, List.cons.injEq] at h
      rw [hf e e' (hl e (by simp)) (hl' e' (by simp)) h.1,
        ih (fun e he1 => hl e (by simp [he1])) (fun e he1 => hl' e (by simp [he1])) h.2]

theorem busBody_no {l : List SavedRef} (hl : GoodNames l) {b : SymBus (ZMod p) SavedRef} (hb : BusRefsIn l b) : '\n' ∉ busBody b := by
  have hj : ∀ es : List (AlgExpr (ZMod p) SavedRef), (∀ e ∈ es, RefsIn l e) →
      '\n' ∉ joinText ", ".toList (es.map printColumns) := by
    intro es
    induction es with
    | nil => intro _; simp [joinText]
    | cons e t ih =>
      intro he
      rw [List.map_cons, joinText_cons, List.mem_append]
      rintro (h | h)
      · exact printColumns_no hl (he e (by simp)) (by decide) h
      · split_ifs at h with h0
        · cases h
        · rcases List.mem_append.1 h with h | h
          · exact absurd h (by decide)
          · exact ih (fun e he1 => he e (by simp [he1])) h
  unfold busBody
  rw [List.mem_append, List.mem_cons, List.mem_append, List.mem_append]
  rintro (h | h | h | h | h)
  · exact printColumns_no hl hb.1 (by decide) h
  · exact absurd h (by decide)
  · exact absurd h (by decide)
  · exact hj b.args hb.2 h
  · exact absurd h (by decide)

theorem printBus_no {l : List SavedRef} (hl : GoodNames l) {b : SymBus (ZMod p) SavedRef} (hb : BusRefsIn l b) : '\n' ∉ printBus b := by
  rw [printBus_eq, List.mem_append, List.mem_append, List.mem_cons, List.mem_append, List.mem_append]
  rintro (h | h | h | h | h | h)
  · exact absurd h (by decide)
  · exact printNat_no (by decide) h
  · exact absurd h (by decide)
  · exact absurd h (by decide)
  · exact busBody_no hl hb h
  · exact absurd h (by decide)

theorem printConstraint_no {l : List SavedRef} (hl : GoodNames l) {e : AlgExpr (ZMod p) SavedRef} (he : RefsIn l e) :
    '\n' ∉ printConstraint e := by
  unfold printConstraint
  rw [List.mem_append]
  rintro (h | h)
  · exact printColumns_no hl he (by decide) h
  · exact absurd h (by decide)

theorem printConstraint_last (e : AlgExpr (ZMod p) SavedRef) : (printConstraint e).getLast? = some '0' := by
  simp [printConstraint]

theorem printBus_last (b : SymBus (ZMod p) SavedRef) : (printBus b).getLast? = some ')' := by
  have h3 : "])".toList = [']', ')'] := by decide
  unfold printBus
  rw [h3, List.getLast?_append_cons]
  rfl

/-- All references of the machine are in the list. -/
def MachineRefsIn (l : List SavedRef) (m : SymMachine (ZMod p) SavedRef) : Prop := ∀ r ∈ m.refs, r ∈ l

theorem MachineRefsIn.constraint {l : List SavedRef} {m : SymMachine (ZMod p) SavedRef} (h : MachineRefsIn l m) :
    ∀ e ∈ m.constraints, RefsIn l e := by
  intro e he r hr
  exact h r (List.mem_flatMap.2 ⟨e, by simp [SymMachine.exprs, he], hr⟩)

theorem MachineRefsIn.bus {l : List SavedRef} {m : SymMachine (ZMod p) SavedRef} (h : MachineRefsIn l m) :
    ∀ b ∈ m.bus, BusRefsIn l b := by
  intro b hb
  have he : ∀ e ∈ b.mult :: b.args, e ∈ m.exprs := by
    intro e he
    exact List.mem_append_right _ (List.mem_flatMap.2 ⟨b, hb, he⟩)
  exact ⟨fun r hr => h r (List.mem_flatMap.2 ⟨_, he _ (by simp), hr⟩),
    fun e hx r hr => h r (List.mem_flatMap.2 ⟨_, he _ (by simp [hx]), hr⟩)⟩

theorem printMachine_eq (m : SymMachine (ZMod p) SavedRef) :
    printMachine m = unlinesText (m.bus.map printBus ++ m.constraints.map printConstraint) := by
  simp [printMachine, unlinesText, List.flatMap_map]

theorem printMachine_injective {l : List SavedRef} (hl : GoodNames l) {m m' : SymMachine (ZMod p) SavedRef}
    (hm : MachineRefsIn l m) (hm' : MachineRefsIn l m') (h : printMachine m = printMachine m') :
    m.constraints = m'.constraints ∧ m.bus = m'.bus := by
  rw [printMachine_eq, printMachine_eq] at h
  have hno : ∀ m : SymMachine (ZMod p) SavedRef, MachineRefsIn l m →
      ∀ x ∈ m.bus.map printBus ++ m.constraints.map printConstraint, '\n' ∉ x := by
    intro m hm x hx
    rcases List.mem_append.1 hx with hx | hx
    · obtain ⟨b, hb, rfl⟩ := List.mem_map.1 hx
      exact printBus_no hl (hm.bus b hb)
    · obtain ⟨e, he, rfl⟩ := List.mem_map.1 hx
      exact printConstraint_no hl (hm.constraint e he)
  have h1 := unlinesText_injective (hno m hm) (hno m' hm') h
  have hc := congrArg (List.filter fun x => x.getLast? = some '0') h1
  have hb := congrArg (List.filter fun x => x.getLast? = some ')') h1
  simp only [List.filter_append, List.filter_map, Function.comp_def, printConstraint_last, printBus_last] at hc hb
  simp at hc hb
  exact ⟨map_injective_of (P := RefsIn l) (fun a b ha hb => printConstraint_injective hl ha hb) hm.constraint hm'.constraint hc,
    map_injective_of (P := BusRefsIn l) (fun a b ha hb => printBus_injective hl ha hb) hm.bus hm'.bus hb⟩

/-! ## The rendered text -/

theorem trimText_of {s w : List Char} {a b : Char} (ha : s.head? = some a) (hb : s.getLast? = some b)
    (ha' : isWhiteSpace a = false) (hb' : isWhiteSpace b = false) (hw : ∀ c ∈ w, isWhiteSpace c = true) :
    trimText (s ++ w) = s := by
  cases s with
  | nil => simp at ha
  | cons c s =>
    simp only [List.head?_cons, Option.some.injEq] at ha
    subst ha
    unfold trimText
    rw [List.cons_append, List.dropWhile_cons_of_neg (by simp [ha']), ← List.cons_append, List.reverse_append,
      List.dropWhile_append_of_pos (by simpa using hw)]
    have : ∃ t, (c :: s).reverse = b :: t := by
      rw [List.getLast?_eq_head?_reverse] at hb
      cases hr : (c :: s).reverse with
      | nil => rw [hr] at hb; cases hb
      | cons d t => rw [hr] at hb; cases hb; exact ⟨t, rfl⟩
    obtain ⟨t, ht⟩ := this
    rw [ht, List.dropWhile_cons_of_neg (by simp [hb']), ← ht, List.reverse_reverse]

/-- The lines of the columns. -/
def columnLines (names : List (List Char)) : List (List Char) :=
  if names = [] then ["  ".toList] else names.map ("  ".toList ++ ·)

theorem columnLines_text (names : List (List Char)) :
    "  ".toList ++ joinText "\n  ".toList names ++ ['\n'] = unlinesText (columnLines names) := by
  induction names with
  | nil => simp [columnLines, joinText, unlinesText]
  | cons x t ih =>
    rw [joinText_cons]
    by_cases ht : t = []
    · simp [ht, columnLines, unlinesText]
    · rw [if_neg ht]
      simp only [columnLines, if_neg ht, if_neg (List.cons_ne_nil x t), List.map_cons, unlinesText, List.flatMap_cons] at ih ⊢
      rw [← ih]
      simp

/-- The line with the number of the columns. -/
def headLine (n : ℕ) : List Char := "Symbolic machine using ".toList ++ printNat n ++ " unique main columns:".toList

/-- The line before the interactions of a bus. -/
def busLine (ty : ℕ → List Char) (i : ℕ) : List Char := "// Bus ".toList ++ printNat i ++ " (".toList ++ ty i ++ "):".toList

/-- The line of an interaction. -/
def interactionLine (b : SymBus (ZMod p) SavedRef) : List Char := "mult=".toList ++ busBody b

/-- The lines of a bus. -/
def busLines (ty : ℕ → List Char) (m : SymMachine (ZMod p) SavedRef) (i : ℕ) : List (List Char) :=
  [] :: busLine ty i :: (m.bus.filter fun b => b.id = i).map interactionLine

/-- The lines of the constraints. -/
def constraintLines (m : SymMachine (ZMod p) SavedRef) : List (List Char) :=
  (if m.constraints.isEmpty then [] else [[], "// Algebraic constraints:".toList]) ++ m.constraints.map printConstraint

/-- The lines of the text before it is trimmed. -/
def machineLines (ty : ℕ → List Char) (m : SymMachine (ZMod p) SavedRef) : List (List Char) :=
  headLine (columnList m).length :: (columnLines ((columnList m).map SavedRef.name) ++
    ((busIds m).flatMap (busLines ty m) ++ constraintLines m))

theorem unlinesText_append (a b : List (List Char)) : unlinesText (a ++ b) = unlinesText a ++ unlinesText b := by
  simp [unlinesText]

theorem unlinesText_cons (a : List Char) (b : List (List Char)) : unlinesText (a :: b) = a ++ '\n' :: unlinesText b := by
  simp [unlinesText]

theorem renderBus_none {busType : ℕ → Option (List Char)} {m : SymMachine (ZMod p) SavedRef} {i : ℕ}
    (h : busType i = none) : renderBus busType m i = .error .assertion := by
  unfold renderBus
  rw [h]

theorem renderBus_some {busType : ℕ → Option (List Char)} {m : SymMachine (ZMod p) SavedRef} {i : ℕ} {ty : List Char}
    (h : busType i = some ty) : renderBus busType m i = .ok ("\n// Bus ".toList ++ printNat i ++ " (".toList ++ ty ++ "):\n".toList ++
      (m.bus.filter fun b => b.id = i).flatMap renderInteraction) := by
  unfold renderBus
  rw [h]

theorem busLines_text_aux {a a' n b t c c' x : List Char} (ha : a = '\n' :: a') (hc : c = c' ++ ['\n']) :
    a ++ n ++ b ++ t ++ c ++ x = [] ++ '\n' :: ((a' ++ n ++ b ++ t ++ c') ++ '\n' :: x) := by
  subst ha hc
  simp

theorem busLines_text {ty : ℕ → List Char} {m : SymMachine (ZMod p) SavedRef} {i : ℕ} :
    "\n// Bus ".toList ++ printNat i ++ " (".toList ++ ty i ++ "):\n".toList ++
      (m.bus.filter fun b => b.id = i).flatMap renderInteraction = unlinesText (busLines ty m i) := by
  have h3 : (m.bus.filter fun b => b.id = i).flatMap renderInteraction =
      unlinesText ((m.bus.filter fun b => b.id = i).map interactionLine) := by
    unfold unlinesText
    rw [List.flatMap_map]
    exact congrArg (fun f => (m.bus.filter fun b => b.id = i).flatMap f) (funext renderInteraction_eq)
  unfold busLines
  rw [unlinesText_cons, unlinesText_cons, h3]
  exact busLines_text_aux (by decide) (by decide)

theorem renderBus_eq {busType : ℕ → Option (List Char)} {m : SymMachine (ZMod p) SavedRef} {i : ℕ} {t : List Char}
    (h : renderBus busType m i = .ok t) : t = unlinesText (busLines (fun i => (busType i).getD []) m i) := by
  cases ht : busType i with
  | none => rw [renderBus_none ht] at h; cases h
  | some ty =>
    rw [renderBus_some ht] at h
    have h1 : ty = (fun i => (busType i).getD []) i := by simp only [ht, Option.getD_some]
    rw [← Except.ok.inj h, h1]
    exact busLines_text (ty := fun i => (busType i).getD []) (m := m) (i := i)

theorem renderMachine_lines {busType : ℕ → Option (List Char)} {m : SymMachine (ZMod p) SavedRef} {t : List Char}
    (h : renderMachine busType m = .ok t) : t = trimText (unlinesText (machineLines (fun i => (busType i).getD []) m)) := by
  unfold renderMachine at h
  cases hb : (busIds m).mapM (renderBus busType m) with
  | error e => rw [hb] at h; cases h
  | ok buses =>
    rw [hb] at h
    simp only [bind, Except.bind, pure, Except.pure, Except.ok.injEq] at h
    subst h
    congr 1
    have h1 := exceptMapM_ok hb
    have h2 : buses.flatten = unlinesText ((busIds m).flatMap (busLines (fun i => (busType i).getD []) m)) := by
      clear hb
      generalize busIds m = ids at h1 ⊢
      induction h1 with
      | nil => rfl
      | cons h _ ih => rw [List.flatten_cons, List.flatMap_cons, unlinesText_append, ih, renderBus_eq h]
    have h3 : renderConstraints m = unlinesText (constraintLines m) := by
      unfold renderConstraints constraintLines unlinesText
      rw [List.flatMap_append, List.flatMap_map]
      split_ifs
      · rfl
      · simp
    have h4 : renderColumns m = unlinesText (headLine (columnList m).length :: columnLines ((columnList m).map SavedRef.name)) := by
      rw [unlinesText_cons, ← columnLines_text]
      have h1 : " unique main columns:\n  ".toList = " unique main columns:".toList ++ '\n' :: "  ".toList := by decide
      unfold renderColumns headLine
      rw [h1]
      simp only [List.append_assoc, List.cons_append, List.nil_append]
    rw [h2, h3, h4, ← unlinesText_append, ← unlinesText_append]
    simp [machineLines]

/-- The references in the list of the columns are references of the machine. -/
theorem mem_insertColumn {r r' : SavedRef} {l : List SavedRef} (h : r ∈ insertColumn r' l) : r = r' ∨ r ∈ l := by
  induction l with
  | nil => exact .inl (by simpa [insertColumn] using h)
  | cons x t ih =>
    simp only [insertColumn] at h
    split_ifs at h with h1 h2
    · simpa using h
    · rcases List.mem_cons.1 h with h | h
      · exact .inl h
      · exact .inr (by simp [h])
    · rcases List.mem_cons.1 h with h | h
      · exact .inr (by simp [h])
      · rcases ih h with h | h
        · exact .inl h
        · exact .inr (by simp [h])

theorem mem_columnList {m : SymMachine (ZMod p) SavedRef} {r : SavedRef} (h : r ∈ columnList m) : r ∈ m.refs := by
  have hf : ∀ (rs l : List SavedRef), r ∈ rs.foldl (fun l r => insertColumn r l) l → r ∈ rs ∨ r ∈ l := by
    intro rs
    induction rs with
    | nil => intro l h; exact .inr h
    | cons x t ih =>
      intro l h
      rcases ih _ h with h | h
      · exact .inl (by simp [h])
      · rcases mem_insertColumn h with h | h
        · exact .inl (by simp [h])
        · exact .inr h
  rcases hf _ _ h with h | h
  · exact h
  · cases h

theorem mem_insertId {i j : ℕ} {l : List ℕ} : i ∈ insertId j l ↔ i = j ∨ i ∈ l := by
  induction l with
  | nil => simp [insertId]
  | cons x t ih =>
    simp only [insertId]
    split_ifs with h1 h2
    · simp
    · subst h2; simp
    · simp only [List.mem_cons, ih]; tauto

theorem sorted_insertId {j : ℕ} {l : List ℕ} (h : l.Pairwise (· < ·)) : (insertId j l).Pairwise (· < ·) := by
  induction l with
  | nil => simp [insertId]
  | cons x t ih =>
    rw [List.pairwise_cons] at h
    simp only [insertId]
    split_ifs with h1 h2
    · refine List.pairwise_cons.2 ⟨fun y hy => ?_, List.pairwise_cons.2 h⟩
      rcases List.mem_cons.1 hy with rfl | hy
      · exact h1
      · exact h1.trans (h.1 y hy)
    · exact List.pairwise_cons.2 h
    · refine List.pairwise_cons.2 ⟨fun y hy => ?_, ih h.2⟩
      rcases mem_insertId.1 hy with rfl | hy
      · omega
      · exact h.1 y hy

theorem busIds_spec (m : SymMachine (ZMod p) SavedRef) :
    (busIds m).Pairwise (· < ·) ∧ ∀ i, i ∈ busIds m ↔ ∃ b ∈ m.bus, b.id = i := by
  have hf : ∀ (bs : List (SymBus (ZMod p) SavedRef)) (l : List ℕ), l.Pairwise (· < ·) →
      (bs.foldl (fun l b => insertId b.id l) l).Pairwise (· < ·) ∧
      ∀ i, i ∈ bs.foldl (fun l b => insertId b.id l) l ↔ (∃ b ∈ bs, b.id = i) ∨ i ∈ l := by
    intro bs
    induction bs with
    | nil => intro l h; exact ⟨h, by simp⟩
    | cons b t ih =>
      intro l h
      obtain ⟨h1, h2⟩ := ih (insertId b.id l) (sorted_insertId h)
      refine ⟨h1, fun i => ?_⟩
      rw [List.foldl_cons, h2, mem_insertId]
      simp only [List.mem_cons, exists_eq_or_imp]
      rw [@eq_comm _ b.id i, or_left_comm, or_assoc]
  have := hf m.bus [] List.Pairwise.nil
  exact ⟨this.1, fun i => by rw [busIds, this.2]; simp⟩

/-- The lines of the text, each with the last heading before it. -/
def headed : List Char → List (List Char) → List (List Char × List Char)
  | _, [] => []
  | h, x :: t => if x.head? = some '/' then headed x t else (h, x) :: headed h t

/-- The lines under a heading that end like an interaction. -/
def linesUnder (H : List Char) (h : List Char) (l : List (List Char)) : List (List Char) :=
  ((headed h l).filter fun x => x.1 = H ∧ x.2.getLast? = some ']').map Prod.snd

theorem linesUnder_skip {H h : List Char} {x : List Char} {l : List (List Char)} (h1 : x.head? ≠ some '/')
    (h2 : x.getLast? ≠ some ']') : linesUnder H h (x :: l) = linesUnder H h l := by
  simp [linesUnder, headed, h1, h2]

theorem linesUnder_skips {H h : List Char} {k l : List (List Char)} (h1 : ∀ x ∈ k, x.head? ≠ some '/' ∧ x.getLast? ≠ some ']') :
    linesUnder H h (k ++ l) = linesUnder H h l := by
  induction k with
  | nil => rfl
  | cons x t ih =>
    rw [List.cons_append, linesUnder_skip (h1 x (by simp)).1 (h1 x (by simp)).2, ih fun x hx => h1 x (by simp [hx])]

theorem linesUnder_heading {H h : List Char} {x : List Char} {l : List (List Char)} (h1 : x.head? = some '/') :
    linesUnder H h (x :: l) = linesUnder H x l := by
  simp [linesUnder, headed, h1]

theorem linesUnder_take {H h : List Char} {k l : List (List Char)} (h1 : ∀ x ∈ k, x.head? ≠ some '/' ∧ x.getLast? = some ']') :
    linesUnder H h (k ++ l) = (if h = H then k else []) ++ linesUnder H h l := by
  induction k with
  | nil => simp
  | cons x t ih =>
    have ih := ih fun x hx => h1 x (by simp [hx])
    obtain ⟨h2, h3⟩ := h1 x (by simp)
    by_cases hh : h = H
    · simp only [linesUnder, List.cons_append, headed, if_neg h2, List.filter_cons, hh, h3, and_self, decide_true, if_true,
        List.map_cons] at ih ⊢
      rw [ih]
    · simp only [linesUnder, List.cons_append, headed, if_neg h2, List.filter_cons, hh, h3, false_and, decide_false, if_false,
        Bool.false_eq_true] at ih ⊢
      exact ih

theorem head?_append_cons {c : Char} {x y : List Char} (h : x.head? = some c) : (x ++ y).head? = some c := by
  cases x with
  | nil => cases h
  | cons _ _ => simpa using h

theorem getLast?_append_of {c : Char} {x y : List Char} (h : y.getLast? = some c) : (x ++ y).getLast? = some c := by
  rw [List.getLast?_append, h]
  rfl

theorem busLine_head (ty : ℕ → List Char) (i : ℕ) : (busLine ty i).head? = some '/' := by
  unfold busLine
  exact head?_append_cons (head?_append_cons (head?_append_cons (head?_append_cons (by decide))))

theorem busLine_injective {ty : ℕ → List Char} {i j : ℕ} (h : busLine ty i = busLine ty j) : i = j := by
  have aux : ∀ {a n n' b t t' c : List Char}, ' ' ∉ n → ' ' ∉ n' → b.head? = some ' ' →
      a ++ n ++ b ++ t ++ c = a ++ n' ++ b ++ t' ++ c → n = n' := by
    intro a n n' b t t' c hn hn' hb h
    cases b with
    | nil => cases hb
    | cons d b =>
      cases hb
      simp only [List.append_assoc, List.cons_append] at h
      exact (split_unique hn hn' (List.append_cancel_left h)).1
  exact printNat_injective (aux (printNat_no (by decide)) (printNat_no (by decide)) (by decide) h)

theorem interactionLine_head (b : SymBus (ZMod p) SavedRef) : (interactionLine b).head? = some 'm' :=
  head?_append_cons (by decide)

theorem interactionLine_last (b : SymBus (ZMod p) SavedRef) : (interactionLine b).getLast? = some ']' := by
  unfold interactionLine busBody
  refine getLast?_append_of (getLast?_append_of ?_)
  rw [← List.singleton_append]
  exact getLast?_append_of (getLast?_append_of (getLast?_append_of rfl))

theorem printConstraint_head {l : List SavedRef} (hl : GoodNames l) {e : AlgExpr (ZMod p) SavedRef} (he : RefsIn l e) :
    ∃ c, (printConstraint e).head? = some c ∧ c ≠ '/' ∧ c ≠ ' ' := by
  obtain ⟨c, x, hx, hc⟩ := (printColumns_reads hl he).head
  refine ⟨c, head?_append_cons (by rw [hx]; rfl), ?_⟩
  rcases hc with hc | rfl | rfl
  · constructor
    · rintro rfl; exact hc (.inl (by decide))
    · rintro rfl; exact hc (.inr (by decide))
  · decide
  · decide

/-- Properties of the lines of the columns. -/
theorem columnLines_spec {names : List (List Char)} (hn : ∀ n ∈ names, IsName n) {x : List Char} (hx : x ∈ columnLines names) :
    x.head? = some ' ' ∧ x.getLast? ≠ some ']' ∧ '\n' ∉ x := by
  unfold columnLines at hx
  split_ifs at hx with h0
  · rw [List.mem_singleton] at hx
    subst hx
    decide
  · obtain ⟨n, hn', rfl⟩ := List.mem_map.1 hx
    have hnn := hn n hn'
    refine ⟨head?_append_cons (by decide), ?_, ?_⟩
    · rw [List.getLast?_append_of_ne_nil _ hnn.1]
      intro h
      exact hnn.2.1 _ (List.mem_of_getLast? h) (.inl (by decide))
    · rw [List.mem_append]
      rintro (h | h)
      · exact absurd h (by decide)
      · exact hnn.2.1 _ h (.inr (by decide))

theorem linesUnder_constraints {l : List SavedRef} (hl : GoodNames l) {m : SymMachine (ZMod p) SavedRef}
    (hm : MachineRefsIn l m) (H h : List Char) : linesUnder H h (constraintLines m) = [] := by
  have hs : ∀ h, linesUnder H h (m.constraints.map printConstraint) = [] := by
    intro h
    rw [← List.append_nil (m.constraints.map printConstraint), linesUnder_skips]
    · rfl
    · intro x hx
      obtain ⟨e, he, rfl⟩ := List.mem_map.1 hx
      obtain ⟨c, hc, hc1, _⟩ := printConstraint_head hl (hm.constraint e he)
      rw [hc, printConstraint_last]
      exact ⟨by simpa using hc1, by decide⟩
  unfold constraintLines
  split_ifs
  · exact hs h
  · have : ∀ (x y : List Char) (z : List (List Char)), [x, y] ++ z = x :: y :: z := fun _ _ _ => rfl
    rw [this, linesUnder_skip (by decide) (by decide), linesUnder_heading (by decide)]
    exact hs _

theorem linesUnder_buses {ty : ℕ → List Char} {m : SymMachine (ZMod p) SavedRef} {i : ℕ} (ids : List ℕ) (h : List Char)
    (rest : List (List Char)) (hr : ∀ h, linesUnder (busLine ty i) h rest = []) :
    linesUnder (busLine ty i) h (ids.flatMap (busLines ty m) ++ rest) =
      (ids.filter (· = i)).flatMap fun j => (m.bus.filter fun b => b.id = j).map interactionLine := by
  induction ids generalizing h with
  | nil => exact hr h
  | cons j t ih =>
    rw [List.flatMap_cons, List.append_assoc, busLines, List.cons_append, List.cons_append,
      linesUnder_skip (by simp) (by simp), linesUnder_heading (busLine_head ty j), linesUnder_take, ih]
    · by_cases hj : j = i
      · subst hj
        simp
      · rw [if_neg (fun h => hj (busLine_injective h)), List.filter_cons_of_neg (by simpa using hj)]
        rfl
    · intro x hx
      obtain ⟨b, _, rfl⟩ := List.mem_map.1 hx
      rw [interactionLine_head, interactionLine_last]
      exact ⟨by decide, rfl⟩

theorem filter_sorted {ids : List ℕ} (h : ids.Pairwise (· < ·)) (i : ℕ) : ids.filter (· = i) = if i ∈ ids then [i] else [] := by
  induction ids with
  | nil => rfl
  | cons j t ih =>
    rw [List.pairwise_cons] at h
    by_cases hj : j = i
    · subst hj
      have hn : j ∉ t := fun hj => absurd (h.1 j hj) (lt_irrefl _)
      rw [List.filter_cons_of_pos (by simp), ih h.2, if_neg hn, if_pos (by simp)]
    · rw [List.filter_cons_of_neg (by simpa using hj), ih h.2]
      simp [Ne.symm hj]

/-- The lines of the text that are shown under the heading of a bus are its interactions. -/
theorem machineLines_bus {l : List SavedRef} (hl : GoodNames l) {ty : ℕ → List Char} {m : SymMachine (ZMod p) SavedRef}
    (hm : MachineRefsIn l m) (i : ℕ) : linesUnder (busLine ty i) [] (machineLines ty m) =
      (m.bus.filter fun b => b.id = i).map interactionLine := by
  have hh : ∀ n, (headLine n).head? = some 'S' := by
    intro n
    unfold headLine
    exact head?_append_cons (head?_append_cons (by decide))
  have hh' : ∀ n, (headLine n).getLast? = some ':' := by
    intro n
    unfold headLine
    exact getLast?_append_of (by decide)
  unfold machineLines
  rw [linesUnder_skip (by rw [hh]; decide) (by rw [hh']; decide), linesUnder_skips, linesUnder_buses, filter_sorted (busIds_spec m).1]
  · split_ifs with hi
    · simp
    · have : (m.bus.filter fun b => b.id = i) = [] := by
        rw [List.filter_eq_nil_iff]
        intro b hb hbi
        exact hi (((busIds_spec m).2 i).2 ⟨b, hb, by simpa using hbi⟩)
      rw [this]
      rfl
  · exact fun h => linesUnder_constraints hl hm _ h
  · intro x hx
    have := columnLines_spec (names := (columnList m).map SavedRef.name) (fun n hn => by
      obtain ⟨r, hr, rfl⟩ := List.mem_map.1 hn
      exact hl.1 r (hm r (mem_columnList hr))) hx
    rw [this.1]
    exact ⟨by decide, this.2.1⟩

/-- Lines that look like a constraint. -/
def looksLikeConstraint (x : List Char) : Bool := x.head? != some ' ' && x.getLast? == some '0'

theorem machineLines_constraints {l : List SavedRef} (hl : GoodNames l) {ty : ℕ → List Char} {m : SymMachine (ZMod p) SavedRef}
    (hm : MachineRefsIn l m) : (machineLines ty m).filter looksLikeConstraint = m.constraints.map printConstraint := by
  have h1 : ∀ n, looksLikeConstraint (headLine n) = false := by
    intro n
    have : (headLine n).getLast? = some ':' := by
      unfold headLine
      exact getLast?_append_of (by decide)
    simp [looksLikeConstraint, this]
  have h2 : (columnLines ((columnList m).map SavedRef.name)).filter looksLikeConstraint = [] := by
    rw [List.filter_eq_nil_iff]
    intro x hx
    have := columnLines_spec (names := (columnList m).map SavedRef.name) (fun n hn => by
      obtain ⟨r, hr, rfl⟩ := List.mem_map.1 hn
      exact hl.1 r (hm r (mem_columnList hr))) hx
    simp [looksLikeConstraint, this.1]
  have h3 : ((busIds m).flatMap (busLines ty m)).filter looksLikeConstraint = [] := by
    rw [List.filter_eq_nil_iff]
    intro x hx
    obtain ⟨i, _, hx⟩ := List.mem_flatMap.1 hx
    have hb : (busLine ty i).getLast? = some ':' := by
      unfold busLine
      exact getLast?_append_of (by decide)
    rcases List.mem_cons.1 hx with rfl | hx
    · simp [looksLikeConstraint]
    rcases List.mem_cons.1 hx with rfl | hx
    · simp [looksLikeConstraint, hb]
    · obtain ⟨b, _, rfl⟩ := List.mem_map.1 hx
      simp [looksLikeConstraint, interactionLine_last]
  have h4 : (constraintLines m).filter looksLikeConstraint = m.constraints.map printConstraint := by
    unfold constraintLines
    rw [List.filter_append]
    have h5 : (m.constraints.map printConstraint).filter looksLikeConstraint = m.constraints.map printConstraint := by
      rw [List.filter_eq_self]
      intro x hx
      obtain ⟨e, he, rfl⟩ := List.mem_map.1 hx
      obtain ⟨c, hc, _, hc1⟩ := printConstraint_head hl (hm.constraint e he)
      simp [looksLikeConstraint, hc, printConstraint_last, hc1]
    rw [h5]
    split_ifs
    · rfl
    · have : List.filter looksLikeConstraint [[], "// Algebraic constraints:".toList] = [] := by decide
      rw [this, List.nil_append]
  unfold machineLines
  rw [List.filter_cons_of_neg (by simp [h1]), List.filter_append, List.filter_append, h2, h3, h4]
  rfl

/-- A line of white space. -/
def IsBlank (x : List Char) : Prop := ∀ c ∈ x, isWhiteSpace c = true

/-- A line whose last character is not white space. -/
def EndsFull (x : List Char) : Prop := ∃ c, x.getLast? = some c ∧ isWhiteSpace c = false

theorem joinText_last {sep z : List Char} {A : List (List Char)} (hz : z ≠ []) :
    (joinText sep (A ++ [z])).getLast? = z.getLast? := by
  induction A with
  | nil => simp [joinText]
  | cons x t ih =>
    rw [List.cons_append, joinText_cons, if_neg (by simp), ← ih]
    have : joinText sep (t ++ [z]) ≠ [] := by
      intro h
      rw [h] at ih
      exact hz (List.getLast?_eq_none_iff.1 ih.symm)
    rw [List.getLast?_append_of_ne_nil _ (by simp [this]), List.getLast?_append_of_ne_nil _ this]

theorem drop_blank {Ls : List (List Char)} (h : ∀ x ∈ Ls, IsBlank x ∨ EndsFull x) :
    ∃ K B, Ls = K ++ B ∧ (∀ x ∈ B, IsBlank x) ∧ (K = [] ∨ ∃ A z, K = A ++ [z] ∧ EndsFull z) := by
  induction Ls using List.reverseRecOn with
  | nil => exact ⟨[], [], rfl, by simp, .inl rfl⟩
  | append_singleton t x ih =>
    rcases h x (by simp) with hx | hx
    · obtain ⟨K, B, rfl, hB, hK⟩ := ih fun y hy => h y (by simp [hy])
      refine ⟨K, B ++ [x], by simp, fun y hy => ?_, hK⟩
      rcases List.mem_append.1 hy with hy | hy
      · exact hB y hy
      · rw [List.mem_singleton] at hy
        exact hy ▸ hx
    · exact ⟨t ++ [x], [], by simp, by simp, .inr ⟨t, x, rfl, hx⟩⟩

theorem trim_lines {Ls : List (List Char)} {x : List Char} {t : List (List Char)} {c : Char} (hx : Ls = x :: t)
    (hc : x.head? = some c) (hc' : isWhiteSpace c = false) (h : ∀ x ∈ Ls, IsBlank x ∨ EndsFull x) :
    ∃ K B, Ls = K ++ B ∧ (∀ x ∈ B, IsBlank x) ∧ K ≠ [] ∧ trimText (unlinesText Ls) = joinText ['\n'] K := by
  obtain ⟨K, B, hKB, hB, hK⟩ := drop_blank h
  have hK0 : K ≠ [] := by
    rintro rfl
    have : IsBlank x := hB x (by rw [List.nil_append] at hKB; rw [← hKB, hx]; simp)
    rw [this c (List.mem_of_head? hc)] at hc'
    cases hc'
  refine ⟨K, B, hKB, hB, hK0, ?_⟩
  obtain ⟨A, z, hA, d, hd, hd'⟩ := hK.resolve_left hK0
  rw [hKB, unlinesText_append, unlinesText_eq_join hK0, List.append_assoc]
  have hz : z ≠ [] := by rintro rfl; cases hd
  refine trimText_of (a := c) (b := d) ?_ ?_ hc' hd' ?_
  · cases K with
    | nil => exact absurd rfl hK0
    | cons y k =>
      rw [hx, List.cons_append] at hKB
      rw [joinText_cons, ← (List.cons.inj hKB).1]
      exact head?_append_cons hc
  · rw [hA, joinText_last hz, hd]
  · intro e he
    rw [List.mem_append, List.mem_singleton] at he
    rcases he with rfl | he
    · decide
    · obtain ⟨y, hy, he⟩ := List.mem_flatMap.1 he
      rw [List.mem_append, List.mem_singleton] at he
      rcases he with he | rfl
      · exact hB y hy e he
      · decide

theorem blank_facts {x : List Char} (h : IsBlank x) : x.head? ≠ some '/' ∧ x.getLast? ≠ some ']' ∧ looksLikeConstraint x = false := by
  refine ⟨fun h' => ?_, fun h' => ?_, ?_⟩
  · exact absurd (h _ (List.mem_of_head? h')) (by decide)
  · exact absurd (h _ (List.mem_of_getLast? h')) (by decide)
  · have : x.getLast? ≠ some '0' := fun h' => absurd (h _ (List.mem_of_getLast? h')) (by decide)
    simp [looksLikeConstraint, this]

theorem linesUnder_blank {H : List Char} {B : List (List Char)} (hB : ∀ x ∈ B, IsBlank x) (K : List (List Char)) (h : List Char) :
    linesUnder H h (K ++ B) = linesUnder H h K := by
  have h0 : ∀ h, linesUnder H h B = [] := by
    intro h
    rw [← List.append_nil B, linesUnder_skips]
    · rfl
    · exact fun x hx => ⟨(blank_facts (hB x hx)).1, (blank_facts (hB x hx)).2.1⟩
  induction K generalizing h with
  | nil => exact h0 h
  | cons x t ih =>
    rw [List.cons_append]
    by_cases hx : x.head? = some '/'
    · rw [linesUnder_heading hx, linesUnder_heading hx, ih]
    · have ih := ih h
      simp only [linesUnder, headed, if_neg hx, List.filter_cons] at ih ⊢
      split_ifs
      · rw [List.map_cons, List.map_cons, ih]
      · exact ih

theorem machineLines_full {l : List SavedRef} (hl : GoodNames l) {ty : ℕ → List Char} {m : SymMachine (ZMod p) SavedRef}
    (hm : MachineRefsIn l m) (hty : ∀ i, '\n' ∉ ty i) :
    ∀ x ∈ machineLines ty m, (IsBlank x ∨ EndsFull x) ∧ '\n' ∉ x := by
  intro x hx
  have hnames : ∀ n ∈ (columnList m).map SavedRef.name, IsName n := by
    intro n hn
    obtain ⟨r, hr, rfl⟩ := List.mem_map.1 hn
    exact hl.1 r (hm r (mem_columnList hr))
  unfold machineLines at hx
  rw [List.mem_cons, List.mem_append, List.mem_append] at hx
  rcases hx with rfl | hx | hx | hx
  · refine ⟨.inr ⟨':', ?_, by decide⟩, ?_⟩
    · unfold headLine
      exact getLast?_append_of (by decide)
    · unfold headLine
      rw [List.mem_append, List.mem_append]
      rintro ((h | h) | h)
      · exact absurd h (by decide)
      · exact printNat_no (by decide) h
      · exact absurd h (by decide)
  · refine ⟨?_, (columnLines_spec hnames hx).2.2⟩
    unfold columnLines at hx
    split_ifs at hx with h0
    · rw [List.mem_singleton] at hx
      subst hx
      exact .inl (by unfold IsBlank; decide)
    · obtain ⟨n, hn', rfl⟩ := List.mem_map.1 hx
      have hnn := hnames n hn'
      refine .inr ?_
      cases hlast : n.getLast? with
      | none => exact absurd (List.getLast?_eq_none_iff.1 hlast) hnn.1
      | some c =>
        refine ⟨c, getLast?_append_of hlast, ?_⟩
        have := hnn.2.1 c (List.mem_of_getLast? hlast)
        by_contra hw
        exact this (.inr (by simpa using hw))
  · obtain ⟨i, _, hx⟩ := List.mem_flatMap.1 hx
    unfold busLines at hx
    rw [List.mem_cons, List.mem_cons] at hx
    rcases hx with rfl | rfl | hx
    · exact ⟨.inl (by simp [IsBlank]), by simp⟩
    · refine ⟨.inr ⟨':', ?_, by decide⟩, ?_⟩
      · unfold busLine
        exact getLast?_append_of (by decide)
      · unfold busLine
        rw [List.mem_append, List.mem_append, List.mem_append, List.mem_append]
        rintro ((((h | h) | h) | h) | h)
        · exact absurd h (by decide)
        · exact printNat_no (by decide) h
        · exact absurd h (by decide)
        · exact hty i h
        · exact absurd h (by decide)
    · obtain ⟨b, hb, rfl⟩ := List.mem_map.1 hx
      refine ⟨.inr ⟨']', interactionLine_last b, by decide⟩, ?_⟩
      unfold interactionLine
      rw [List.mem_append]
      rintro (h | h)
      · exact absurd h (by decide)
      · exact busBody_no hl (hm.bus b (List.mem_filter.1 hb).1) h
  · unfold constraintLines at hx
    rw [List.mem_append] at hx
    rcases hx with hx | hx
    · split_ifs at hx
      · cases hx
      · rw [List.mem_cons, List.mem_singleton] at hx
        rcases hx with rfl | rfl
        · exact ⟨.inl (by simp [IsBlank]), by simp⟩
        · exact ⟨.inr ⟨':', by decide, by decide⟩, by decide⟩
    · obtain ⟨e, he, rfl⟩ := List.mem_map.1 hx
      exact ⟨.inr ⟨'0', printConstraint_last e, by decide⟩, printConstraint_no hl (hm.constraint e he)⟩

theorem renderMachine_injective {l : List SavedRef} (hl : GoodNames l) {busType : ℕ → Option (List Char)}
    (hty : ∀ i ty, busType i = some ty → '\n' ∉ ty) {m m' : SymMachine (ZMod p) SavedRef} (hm : MachineRefsIn l m)
    (hm' : MachineRefsIn l m') {t : List Char} (h : renderMachine busType m = .ok t) (h' : renderMachine busType m' = .ok t) :
    m.constraints = m'.constraints ∧ ∀ i, (m.bus.filter fun b => b.id = i) = m'.bus.filter fun b => b.id = i := by
  have hty' : ∀ i, '\n' ∉ (busType i).getD [] := by
    intro i
    cases hb : busType i with
    | none => simp
    | some ty => exact hty i ty hb
  generalize hTY : (fun i => (busType i).getD []) = TY at *
  have hty'' : ∀ i, '\n' ∉ TY i := by
    intro i
    rw [← hTY]
    exact hty' i
  have key : ∀ m : SymMachine (ZMod p) SavedRef, MachineRefsIn l m → renderMachine busType m = .ok t →
      ∃ K, t = joinText ['\n'] K ∧ K ≠ [] ∧ (∀ x ∈ K, '\n' ∉ x) ∧ K.filter looksLikeConstraint = m.constraints.map printConstraint ∧
        ∀ i, linesUnder (busLine TY i) [] K = (m.bus.filter fun b => b.id = i).map interactionLine := by
    intro m hm h
    have h1 := renderMachine_lines h
    rw [hTY] at h1
    have hfull := machineLines_full hl hm hty''
    obtain ⟨K, B, hKB, hB, hK0, hK⟩ := trim_lines (Ls := machineLines TY m) rfl (c := 'S')
      (by unfold headLine; exact head?_append_cons (head?_append_cons (by decide))) (by decide) fun x hx => (hfull x hx).1
    refine ⟨K, h1.trans hK, hK0, fun x hx => (hfull x (by rw [hKB]; simp [hx])).2, ?_, fun i => ?_⟩
    · rw [← machineLines_constraints hl (ty := TY) hm, hKB, List.filter_append]
      have : B.filter looksLikeConstraint = [] := by
        rw [List.filter_eq_nil_iff]
        intro x hx
        simp [(blank_facts (hB x hx)).2.2]
      rw [this, List.append_nil]
    · rw [← machineLines_bus hl hm, hKB, linesUnder_blank hB]
  obtain ⟨K, h1, h2, h3, h4, h5⟩ := key m hm h
  obtain ⟨K', h1', h2', h3', h4', h5'⟩ := key m' hm' h'
  have hK : K = K' := joinText_injective (d := '\n') (sep := []) h3 h3' h2 h2' (h1.symm.trans h1')
  subst hK
  refine ⟨map_injective_of (P := RefsIn l) (fun a b ha hb => printConstraint_injective hl ha hb) hm.constraint hm'.constraint
    (h4.symm.trans h4'), fun i => ?_⟩
  refine map_injective_of (P := fun b => BusRefsIn l b ∧ b.id = i) (fun a b ha hb hab => ?_) (fun b hb => ?_) (fun b hb => ?_)
    ((h5 i).symm.trans (h5' i))
  · obtain ⟨h6, h7⟩ := busBody_injective hl ha.1 hb.1 (List.append_cancel_left hab)
    have h8 := ha.2.trans hb.2.symm
    cases a; cases b
    simp only [SymBus.mk.injEq]
    exact ⟨h8, h6, h7⟩
  · rw [List.mem_filter] at hb
    exact ⟨hm.bus b hb.1, by simpa using hb.2⟩
  · rw [List.mem_filter] at hb
    exact ⟨hm'.bus b hb.1, by simpa using hb.2⟩

theorem printed_forall₂ {α β : Type} {R : α → β → Prop} {l : List α} {l' : List β} (h : List.Forall₂ R l l') {a : α} (ha : a ∈ l) :
    ∃ b, R a b := by
  induction h with
  | nil => cases ha
  | cons h _ ih =>
    rcases List.mem_cons.1 ha with rfl | ha
    · exact ⟨_, h⟩
    · exact ih ha

/-- The text exists iff every bus of an interaction has a type. -/
theorem renderMachine_ok {busType : ℕ → Option (List Char)} {m : SymMachine (ZMod p) SavedRef} :
    (∃ t, renderMachine busType m = .ok t) ↔ ∀ b ∈ m.bus, busType b.id ≠ none := by
  have hm : (∃ t, renderMachine busType m = .ok t) ↔ ∃ l, (busIds m).mapM (renderBus busType m) = .ok l := by
    unfold renderMachine
    cases (busIds m).mapM (renderBus busType m) with
    | error e => simp [bind, Except.bind]
    | ok l => simp [bind, Except.bind, pure, Except.pure]
  rw [hm]
  constructor
  · rintro ⟨l, hl⟩ b hb hn
    have hi : b.id ∈ busIds m := ((busIds_spec m).2 b.id).2 ⟨b, hb, rfl⟩
    obtain ⟨x, hx⟩ := printed_forall₂ (exceptMapM_ok hl) hi
    rw [renderBus_none hn] at hx
    cases hx
  · intro h
    have : ∀ i ∈ busIds m, ∃ t, renderBus busType m i = .ok t := by
      intro i hi
      obtain ⟨b, hb, rfl⟩ := ((busIds_spec m).2 i).1 hi
      cases ht : busType b.id with
      | none => exact absurd ht (h b hb)
      | some ty => exact ⟨_, renderBus_some ht⟩
    exact exceptMapM_total this

theorem insertColumn_spec {r : SavedRef} {l : List SavedRef} (h : l.Pairwise fun a b => a.id < b.id) :
    (insertColumn r l).Pairwise (fun a b => a.id < b.id) ∧ r ∈ insertColumn r l ∧ ∀ x ∈ l, ∃ y ∈ insertColumn r l, y.id = x.id := by
  induction l with
  | nil => simp [insertColumn]
  | cons x t ih =>
    rw [List.pairwise_cons] at h
    obtain ⟨ih1, ih2, ih3⟩ := ih h.2
    simp only [insertColumn]
    split_ifs with h1 h2
    · refine ⟨List.pairwise_cons.2 ⟨fun y hy => ?_, List.pairwise_cons.2 h⟩, by simp, fun y hy => ⟨y, by simp [hy], rfl⟩⟩
      rcases List.mem_cons.1 hy with rfl | hy
      · exact h1
      · exact h1.trans (h.1 y hy)
    · refine ⟨List.pairwise_cons.2 ⟨fun y hy => ?_, h.2⟩, by simp, fun y hy => ?_⟩
      · rw [h2]
        exact h.1 y hy
      · rcases List.mem_cons.1 hy with rfl | hy
        · exact ⟨r, by simp, h2⟩
        · exact ⟨y, by simp [hy], rfl⟩
    · refine ⟨List.pairwise_cons.2 ⟨fun y hy => ?_, ih1⟩, by simp [ih2], fun y hy => ?_⟩
      · rcases mem_insertColumn hy with rfl | hy
        · omega
        · exact h.1 y hy
      · rcases List.mem_cons.1 hy with rfl | hy
        · exact ⟨y, by simp, rfl⟩
        · obtain ⟨z, hz, hzy⟩ := ih3 y hy
          exact ⟨z, by simp [hz], hzy⟩

theorem columnList_spec (m : SymMachine (ZMod p) SavedRef) :
    (columnList m).Pairwise (fun a b => a.id < b.id) ∧ ∀ r ∈ m.refs, ∃ c ∈ columnList m, c.id = r.id := by
  have hf : ∀ (rs l : List SavedRef), l.Pairwise (fun a b => a.id < b.id) →
      (rs.foldl (fun l r => insertColumn r l) l).Pairwise (fun a b => a.id < b.id) ∧
      ∀ r, r ∈ rs ∨ r ∈ l → ∃ c ∈ rs.foldl (fun l r => insertColumn r l) l, c.id = r.id := by
    intro rs
    induction rs with
    | nil =>
      intro l h
      exact ⟨h, fun r hr => ⟨r, hr.resolve_left (by simp), rfl⟩⟩
    | cons x t ih =>
      intro l h
      obtain ⟨h1, h2, h3⟩ := insertColumn_spec (r := x) h
      obtain ⟨h4, h5⟩ := ih _ h1
      refine ⟨h4, fun r hr => ?_⟩
      rcases hr with hr | hr
      · rcases List.mem_cons.1 hr with rfl | hr
        · exact h5 r (.inr h2)
        · exact h5 r (.inl hr)
      · obtain ⟨y, hy, hyr⟩ := h3 r hr
        obtain ⟨c, hc, hcy⟩ := h5 y (.inr hy)
        exact ⟨c, hc, hcy.trans hyr⟩
  have := hf m.refs [] List.Pairwise.nil
  exact ⟨this.1, fun r hr => this.2 r (.inl hr)⟩

/-- The beginning of the text: the number of the columns and their names. -/
theorem renderMachine_head {l : List SavedRef} (hl : GoodNames l) {busType : ℕ → Option (List Char)}
    {m : SymMachine (ZMod p) SavedRef} (hm : MachineRefsIn l m) (hty : ∀ i ty, busType i = some ty → '\n' ∉ ty) {t : List Char}
    (h : renderMachine busType m = .ok t) :
    (∃ r, t = headLine (columnList m).length ++ r) ∧
      (columnList m ≠ [] → ∃ r, t = headLine (columnList m).length ++ '\n' :: ("  ".toList ++ joinText "\n  ".toList ((columnList m).map SavedRef.name)) ++ r) := by
  have hty' : ∀ i, '\n' ∉ (busType i).getD [] := by
    intro i
    cases hb : busType i with
    | none => simp
    | some ty => exact hty i ty hb
  have h1 := renderMachine_lines h
  have hfull := machineLines_full hl hm hty'
  obtain ⟨K, B, hKB, hB, hK0, hK⟩ := trim_lines (Ls := machineLines (fun i => (busType i).getD []) m) rfl (c := 'S')
    (by unfold headLine; exact head?_append_cons (head?_append_cons (by decide))) (by decide) fun x hx => (hfull x hx).1
  rw [hK] at h1
  have hnames : ∀ n ∈ (columnList m).map SavedRef.name, IsName n := by
    intro n hn
    obtain ⟨r, hr, rfl⟩ := List.mem_map.1 hn
    exact hl.1 r (hm r (mem_columnList hr))
  constructor
  · cases K with
    | nil => exact absurd rfl hK0
    | cons y k =>
      unfold machineLines at hKB
      rw [List.cons_append] at hKB
      rw [joinText_cons, ← (List.cons.inj hKB).1] at h1
      exact ⟨_, h1⟩
  · intro hc
    -- the lines of the columns are not blank
    have hpre : ∃ k, K = (headLine (columnList m).length :: columnLines ((columnList m).map SavedRef.name)) ++ k := by
      have hall : ∀ x ∈ headLine (columnList m).length :: columnLines ((columnList m).map SavedRef.name), ¬ IsBlank x := by
        intro x hx hb
        rcases List.mem_cons.1 hx with rfl | hx
        · exact absurd (hb 'S' (List.mem_of_head? (by unfold headLine; exact head?_append_cons (head?_append_cons (by decide))))) (by decide)
        · unfold columnLines at hx
          rw [if_neg (by simpa using hc)] at hx
          obtain ⟨n, hn, rfl⟩ := List.mem_map.1 hx
          have hnn := hnames n hn
          cases n with
          | nil => exact hnn.1 rfl
          | cons c n => exact hnn.2.1 c (by simp) (.inr (hb c (by simp)))
      have hKB' : (headLine (columnList m).length :: columnLines ((columnList m).map SavedRef.name)) ++
          ((busIds m).flatMap (busLines (fun i => (busType i).getD []) m) ++ constraintLines m) = K ++ B := by
        rw [← hKB]
        unfold machineLines
        rw [List.cons_append]
      rcases List.append_eq_append_iff.1 hKB' with ⟨a, ha, _⟩ | ⟨c, hc1, hc2⟩
      · exact ⟨a, ha⟩
      · cases c with
        | nil => exact ⟨[], by rw [List.append_nil, hc1, List.append_nil]⟩
        | cons x c =>
          exact absurd (hB x (by rw [hc2]; simp)) (hall x (by rw [hc1]; simp))
    obtain ⟨k, rfl⟩ := hpre
    have hjoin : ∀ (a b : List (List Char)), a ≠ [] → ∃ r, joinText ['\n'] (a ++ b) = joinText ['\n'] a ++ r := by
      intro a b ha
      induction a with
      | nil => exact absurd rfl ha
      | cons x t ih =>
        rw [List.cons_append, joinText_cons, joinText_cons]
        by_cases ht : t = []
        · subst ht
          refine ⟨if [] ++ b = [] then [] else ['\n'] ++ joinText ['\n'] ([] ++ b), ?_⟩
          rw [if_pos (rfl : ([] : List (List Char)) = []), List.append_nil]
        · obtain ⟨r, hr⟩ := ih ht
          refine ⟨r, ?_⟩
          rw [if_neg ht, if_neg (by simp [ht]), hr]
          simp
    obtain ⟨r, hr⟩ := hjoin (headLine (columnList m).length :: columnLines ((columnList m).map SavedRef.name)) k (by simp)
    refine ⟨r, ?_⟩
    rw [h1, hr]
    congr 1
    have hcl : columnLines ((columnList m).map SavedRef.name) ≠ [] := by
      unfold columnLines
      rw [if_neg (by simpa using hc)]
      exact fun h => hc (List.map_eq_nil_iff.1 (List.map_eq_nil_iff.1 h))
    rw [joinText_cons, if_neg hcl]
    have := columnLines_text ((columnList m).map SavedRef.name)
    rw [unlinesText_eq_join hcl] at this
    rw [List.append_cancel_right this]
    rfl

end
end Verif
