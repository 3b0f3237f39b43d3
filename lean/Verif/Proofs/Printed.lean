import Verif.Spec.Printed
import Verif.Proofs.Saved

/-!
# Lemmas on printed expressions
-/

namespace Verif

/-- The rest after an atom or a factor. -/
def StopFactor (r : List Char) : Prop := r = [] ∨ ∃ x, r = ')' :: x ∨ r = ' ' :: x

/-- The rest after a product. -/
def StopProduct (r : List Char) : Prop :=
  r = [] ∨ ∃ x, r = ')' :: x ∨ r = ' ' :: '+' :: x ∨ r = ' ' :: '-' :: x

/-- The rest after a sum. -/
def StopSum (r : List Char) : Prop := r = [] ∨ ∃ x, r = ')' :: x

theorem StopProduct.factor {r : List Char} (h : StopProduct r) : StopFactor r := by
  rcases h with h | ⟨x, h | h | h⟩
  · exact .inl h
  · exact .inr ⟨x, .inl h⟩
  · exact .inr ⟨_, .inr h⟩
  · exact .inr ⟨_, .inr h⟩

theorem StopSum.product {r : List Char} (h : StopSum r) : StopProduct r := by
  rcases h with h | ⟨x, h⟩
  · exact .inl h
  · exact .inr ⟨x, .inl h⟩

/-- A maximal run of characters is determined. -/
theorem run_unique {P : Char → Prop} {s s' r r' : List Char} (hs : ∀ c ∈ s, P c) (hs' : ∀ c ∈ s', P c)
    (hr : ∀ c x, r = c :: x → ¬ P c) (hr' : ∀ c x, r' = c :: x → ¬ P c) (h : s ++ r = s' ++ r') : s = s' ∧ r = r' := by
  induction s generalizing s' with
  | nil =>
    cases s' with
    | nil => exact ⟨rfl, h⟩
    | cons c t => exact absurd (hs' c (by simp)) (hr c _ h)
  | cons c t ih =>
    cases s' with
    | nil => exact absurd (hs c (by simp)) (hr' c _ h.symm)
    | cons c' t' =>
      obtain ⟨h1, h2⟩ := List.cons.inj h
      subst h1
      obtain ⟨h3, h4⟩ := ih (fun c hc => hs c (by simp [hc])) (fun c hc => hs' c (by simp [hc])) h2
      exact ⟨by rw [h3], h4⟩

theorem isDigit_of_mem {n : ℕ} {c : Char} (h : c ∈ Nat.toDigits 10 n) : c.isDigit = true :=
  Nat.isDigit_of_mem_toDigits (by omega) (by omega) h

theorem not_special_of_isDigit {c : Char} (h : c.isDigit = true) : ¬ IsSpecial c := by
  have h1 : 48 ≤ c.toNat ∧ c.toNat ≤ 57 := by
    simp only [Char.isDigit, Bool.and_eq_true, decide_eq_true_eq] at h
    exact ⟨UInt32.le_iff_toNat_le.1 h.1, UInt32.le_iff_toNat_le.1 h.2⟩
  rintro (h2 | h2)
  · have : ∀ c ∈ "()+-*/,[]=".toList, ¬ (48 ≤ c.toNat ∧ c.toNat ≤ 57) := by decide
    exact this c h2 h1
  · simp only [isWhiteSpace, Bool.or_eq_true, Bool.and_eq_true, decide_eq_true_eq, beq_iff_eq] at h2
    omega

/-- Digits and characters of names. -/
def IsWord (c : Char) : Prop := ¬ IsSpecial c

theorem special_paren : IsSpecial '(' := .inl (by decide)
theorem special_close : IsSpecial ')' := .inl (by decide)
theorem special_space : IsSpecial ' ' := .inr (by decide)
theorem special_minus : IsSpecial '-' := .inl (by decide)

theorem StopFactor.not_word {r : List Char} (h : StopFactor r) : ∀ c x, r = c :: x → ¬ IsWord c := by
  intro c x hc hw
  rcases h with h | ⟨y, h | h⟩
  · rw [h] at hc
    cases hc
  · rw [h] at hc
    cases hc
    exact hw special_close
  · rw [h] at hc
    cases hc
    exact hw special_space

theorem numeral_eq (n : ℕ) : (toString n).toList = Nat.toDigits 10 n := by
  rw [Nat.toString_eq_repr, Nat.toList_repr]

theorem toDigits_injective {n m : ℕ} (h : Nat.toDigits 10 n = Nat.toDigits 10 m) : n = m := by
  have h1 := digitsValue_toDigits (radix := 10) (by omega) (by omega) n
  have h2 := digitsValue_toDigits (radix := 10) (by omega) (by omega) m
  rw [h, h2] at h1
  exact (Option.some.inj h1).symm

/-- What an atom looks like. -/
theorem Reads.atom_cases {s : List Char} {t : TextTree} (h : Reads .atom s t) :
    (∃ n, s = Nat.toDigits 10 n ∧ t = .num n) ∨ (IsName s ∧ t = .name s) ∨
      ∃ s', s = '(' :: s' ++ [')'] ∧ Reads .sum s' t := by
  cases h with
  | num n => exact .inl ⟨n, numeral_eq n, rfl⟩
  | name _ h => exact .inr (.inl ⟨h, rfl⟩)
  | parentheses s' _ h => exact .inr (.inr ⟨s', rfl, h⟩)

/-- The first character of an atom is not a minus. -/
theorem Reads.atom_head {s : List Char} {t : TextTree} (h : Reads .atom s t) : ∃ c x, s = c :: x ∧ c ≠ '-' := by
  rcases h.atom_cases with ⟨n, rfl, _⟩ | ⟨⟨h1, h2, _⟩, _⟩ | ⟨s', rfl, _⟩
  · cases hd : Nat.toDigits 10 n with
    | nil => exact absurd hd Nat.toDigits_ne_nil
    | cons c x =>
      refine ⟨c, x, rfl, ?_⟩
      rintro rfl
      have := isDigit_of_mem (n := n) (c := '-') (by simp [hd])
      simp at this
  · cases s with
    | nil => exact absurd rfl h1
    | cons c x =>
      refine ⟨c, x, rfl, ?_⟩
      rintro rfl
      exact h2 '-' (by simp) special_minus
  · exact ⟨'(', _, rfl, by decide⟩

/-- More factors or products, from left to right. -/
inductive Chain (ops : List TextOp) (R : List Char → TextTree → Prop) : TextTree → List Char → TextTree → Prop
  | nil (t : TextTree) : Chain ops R t [] t
  | cons (t t' u : TextTree) (op : TextOp) (f rest : List Char) (ho : op ∈ ops) (hf : R f t')
    (h : Chain ops R (.bin op t t') rest u) : Chain ops R t (' ' :: op.char :: ' ' :: (f ++ rest)) u

theorem Chain.snoc {ops : List TextOp} {R : List Char → TextTree → Prop} {t u t' : TextTree} {s f : List Char} {op : TextOp}
    (h : Chain ops R t s u) (ho : op ∈ ops) (hf : R f t') :
    Chain ops R t (s ++ ' ' :: op.char :: ' ' :: f) (.bin op u t') := by
  induction h with
  | nil t => simpa using Chain.cons t t' _ op f [] ho hf (.nil _)
  | cons t t1 u op1 f1 rest ho1 hf1 _ ih =>
    have := Chain.cons t t1 _ op1 f1 _ ho1 hf1 ih
    simpa [List.append_assoc] using this

theorem Reads.product_chain {s : List Char} {t : TextTree} (h : Reads .product s t) :
    ∃ f t0 rest, Reads .factor f t0 ∧ s = f ++ rest ∧ Chain [.mul, .div] (Reads .factor) t0 rest t := by
  generalize hl : TextLevel.product = l at h
  induction h with
  | factor s t h _ => exact ⟨s, t, [], h, by simp, .nil t⟩
  | times s s' op t t' ho _ h' ih _ =>
    obtain ⟨f, t0, rest, h1, rfl, h3⟩ := ih hl
    exact ⟨f, t0, _, h1, by simp, h3.snoc (by simpa using ho) h'⟩
  | _ => cases hl

theorem Reads.sum_chain {s : List Char} {t : TextTree} (h : Reads .sum s t) :
    ∃ f t0 rest, Reads .product f t0 ∧ s = f ++ rest ∧ Chain [.add, .sub] (Reads .product) t0 rest t := by
  generalize hl : TextLevel.sum = l at h
  induction h with
  | product s t h _ => exact ⟨s, t, [], h, by simp, .nil t⟩
  | plus s s' op t t' ho _ h' ih _ =>
    obtain ⟨f, t0, rest, h1, rfl, h3⟩ := ih hl
    exact ⟨f, t0, _, h1, by simp, h3.snoc (by simpa using ho) h'⟩
  | _ => cases hl

theorem TextOp.char_injective {a b : TextOp} (h : a.char = b.char) : a = b := by
  cases a <;> cases b <;> first | rfl | (exfalso; revert h; decide)

/-- Reading determines the text and what is read, up to length `n`. -/
def UniqueReading (n : ℕ) (R : List Char → TextTree → Prop) (stop : List Char → Prop) : Prop :=
  ∀ s t s' t' r r', s.length ≤ n → s'.length ≤ n → R s t → R s' t' → s ++ r = s' ++ r' → stop r → stop r' → s = s' ∧ t = t'

theorem Chain.unique {n : ℕ} {ops : List TextOp} {R : List Char → TextTree → Prop} {inner outer : List Char → Prop}
    (hR : UniqueReading n R inner) (h1 : ∀ r, outer r → inner r)
    (h2 : ∀ op ∈ ops, ∀ x, inner (' ' :: op.char :: x)) (h3 : ∀ op ∈ ops, ∀ x, ¬ outer (' ' :: op.char :: x))
    {t u u' : TextTree} {s s' r r' : List Char} (hn : s.length ≤ n) (hn' : s'.length ≤ n) (h : Chain ops R t s u)
    (h' : Chain ops R t s' u') (he : s ++ r = s' ++ r') (hr : outer r) (hr' : outer r') : s = s' ∧ u = u' := by
  have hin : ∀ {t u : TextTree} {s : List Char} {r : List Char}, Chain ops R t s u → outer r → inner (s ++ r) := by
    intro t u s r hc hr
    cases hc with
    | nil => exact h1 _ hr
    | cons _ _ _ op f rest ho => exact h2 op ho _
  induction h generalizing s' u' with
  | nil t =>
    cases h' with
    | nil => exact ⟨rfl, rfl⟩
    | cons _ _ _ op f rest ho =>
      simp only [List.nil_append] at he
      rw [he] at hr
      exact absurd hr (h3 op ho _)
  | cons t t1 u op f rest ho hf hc ih =>
    cases h' with
    | nil =>
      simp only [List.nil_append] at he
      rw [← he] at hr'
      exact absurd hr' (h3 op ho _)
    | cons _ t1' _ op' f' rest' ho' hf' hc' =>
      simp only [List.cons_append, List.cons.injEq, true_and, List.append_assoc] at he
      obtain ⟨he1, he2⟩ := he
      have hop := TextOp.char_injective he1
      subst hop
      simp only [List.length_cons, List.length_append] at hn hn'
      obtain ⟨h4, h5⟩ := hR f t1 f' t1' _ _ (by omega) (by omega) hf hf' he2 (hin hc hr) (hin hc' hr')
      subst h4
      subst h5
      obtain ⟨h6, h7⟩ := ih (by omega) (by omega) hc' (List.append_cancel_left he2)
      exact ⟨by rw [h6], h7⟩

theorem uniqueReading (n : ℕ) :
    UniqueReading n (Reads .atom) StopFactor ∧ UniqueReading n (Reads .factor) StopFactor ∧
      UniqueReading n (Reads .product) StopProduct ∧ UniqueReading n (Reads .sum) StopSum := by
  induction n using Nat.strong_induction_on with
  | _ n ih =>
  have hatom : UniqueReading n (Reads .atom) StopFactor := by
    intro s t s' t' r r' hn hn' h h' he hr hr'
    have hword : ∀ {m : ℕ}, ∀ c ∈ Nat.toDigits 10 m, IsWord c := fun c hc => not_special_of_isDigit (isDigit_of_mem hc)
    have hhead : ∀ {s0 : List Char} {r0 : List Char} {x : List Char}, s0 ≠ [] → (∀ c ∈ s0, IsWord c) →
        s0 ++ r0 = '(' :: x → False := by
      intro s0 r0 x h1 h2 h3
      cases s0 with
      | nil => exact h1 rfl
      | cons c y =>
        rw [List.cons_append, List.cons.injEq] at h3
        exact h2 c (by simp) (h3.1 ▸ special_paren)
    rcases h.atom_cases with ⟨m, rfl, rfl⟩ | ⟨hname, rfl⟩ | ⟨s1, rfl, h1⟩ <;>
      rcases h'.atom_cases with ⟨m', rfl, rfl⟩ | ⟨hname', rfl⟩ | ⟨s1', rfl, h1'⟩
    · obtain ⟨h2, _⟩ := run_unique hword hword hr.not_word hr'.not_word he
      exact ⟨h2, by rw [toDigits_injective h2]⟩
    · obtain ⟨h2, _⟩ := run_unique hword hname'.2.1 hr.not_word hr'.not_word he
      obtain ⟨c, hc, hd⟩ := hname'.2.2
      rw [← h2] at hc
      rw [isDigit_of_mem hc] at hd
      cases hd
    · exact (hhead Nat.toDigits_ne_nil hword he).elim
    · obtain ⟨h2, _⟩ := run_unique hname.2.1 hword hr.not_word hr'.not_word he
      obtain ⟨c, hc, hd⟩ := hname.2.2
      rw [h2] at hc
      rw [isDigit_of_mem hc] at hd
      cases hd
    · obtain ⟨h2, _⟩ := run_unique hname.2.1 hname'.2.1 hr.not_word hr'.not_word he
      exact ⟨h2, by rw [h2]⟩
    · exact (hhead hname.1 hname.2.1 he).elim
    · exact (hhead Nat.toDigits_ne_nil hword he.symm).elim
    · exact (hhead hname'.1 hname'.2.1 he.symm).elim
    · simp only [List.length_cons, List.length_append, List.length_nil] at hn hn'
      simp only [List.cons_append, List.cons.injEq, true_and, List.append_assoc, List.nil_append] at he
      obtain ⟨h2, h3⟩ := (ih (n - 1) (by omega)).2.2.2 s1 t s1' t' _ _ (by omega) (by omega) h1 h1' he (.inr ⟨_, rfl⟩)
        (.inr ⟨_, rfl⟩)
      exact ⟨by rw [h2], h3⟩
  have hfactor : UniqueReading n (Reads .factor) StopFactor := by
    intro s t s' t' r r' hn hn' h h' he hr hr'
    cases h with
    | atom _ _ h =>
      cases h' with
      | atom _ _ h' => exact hatom s t s' t' r r' hn hn' h h' he hr hr'
      | neg s1' _ h' =>
        obtain ⟨c, x, rfl, hc⟩ := h.atom_head
        simp only [List.cons_append, List.cons.injEq] at he
        exact absurd he.1 hc
    | neg s1 t1 h =>
      cases h' with
      | atom _ _ h' =>
        obtain ⟨c, x, rfl, hc⟩ := h'.atom_head
        simp only [List.cons_append, List.cons.injEq] at he
        exact absurd he.1.symm hc
      | neg s1' t1' h' =>
        simp only [List.length_cons] at hn hn'
        simp only [List.cons_append, List.cons.injEq, true_and] at he
        obtain ⟨h2, h3⟩ := (ih (n - 1) (by omega)).2.1 s1 t1 s1' t1' _ _ (by omega) (by omega) h h' he hr hr'
        exact ⟨by rw [h2], by rw [h3]⟩
  have hproduct : UniqueReading n (Reads .product) StopProduct := by
    intro s t s' t' r r' hn hn' h h' he hr hr'
    obtain ⟨f, t0, rest, h1, rfl, h3⟩ := h.product_chain
    obtain ⟨f', t0', rest', h1', rfl, h3'⟩ := h'.product_chain
    simp only [List.length_append] at hn hn'
    simp only [List.append_assoc] at he
    have hstop : ∀ {t u : TextTree} {s r : List Char}, Chain [.mul, .div] (Reads .factor) t s u → StopProduct r →
        StopFactor (s ++ r) := by
      intro t u s r hc hr
      cases hc with
      | nil => exact hr.factor
      | cons _ _ _ op f rest ho => exact .inr ⟨_, .inr rfl⟩
    obtain ⟨h4, h5⟩ := hfactor f t0 f' t0' _ _ (by omega) (by omega) h1 h1' he (hstop h3 hr) (hstop h3' hr')
    subst h4
    subst h5
    obtain ⟨h6, h7⟩ := Chain.unique hfactor (fun r => StopProduct.factor) (fun op _ x => .inr ⟨_, .inr rfl⟩)
      (by
        intro op ho x hx
        rcases hx with hx | ⟨y, hx | hx | hx⟩
        · cases hx
        · simp at hx
        all_goals
          simp only [List.cons.injEq, true_and] at hx
          simp only [List.mem_cons, List.not_mem_nil, or_false] at ho
          rcases ho with rfl | rfl <;> simp [TextOp.char] at hx)
      (by omega) (by omega) h3 h3' (List.append_cancel_left he) hr hr'
    exact ⟨by rw [h6], h7⟩
  refine ⟨hatom, hfactor, hproduct, ?_⟩
  intro s t s' t' r r' hn hn' h h' he hr hr'
  obtain ⟨f, t0, rest, h1, rfl, h3⟩ := h.sum_chain
  obtain ⟨f', t0', rest', h1', rfl, h3'⟩ := h'.sum_chain
  simp only [List.length_append] at hn hn'
  simp only [List.append_assoc] at he
  have hop : ∀ op ∈ [TextOp.add, .sub], ∀ x, StopProduct (' ' :: op.char :: x) := by
    intro op ho x
    simp only [List.mem_cons, List.not_mem_nil, or_false] at ho
    rcases ho with rfl | rfl
    · exact .inr ⟨x, .inr (.inl rfl)⟩
    · exact .inr ⟨x, .inr (.inr rfl)⟩
  have hstop : ∀ {t u : TextTree} {s r : List Char}, Chain [.add, .sub] (Reads .product) t s u → StopSum r →
      StopProduct (s ++ r) := by
    intro t u s r hc hr
    cases hc with
    | nil => exact hr.product
    | cons _ _ _ op f rest ho => exact hop op ho _
  obtain ⟨h4, h5⟩ := hproduct f t0 f' t0' _ _ (by omega) (by omega) h1 h1' he (hstop h3 hr) (hstop h3' hr')
  subst h4
  subst h5
  obtain ⟨h6, h7⟩ := Chain.unique hproduct (fun r => StopSum.product) hop
    (by
      intro op _ x hx
      rcases hx with hx | ⟨y, hx⟩
      · cases hx
      · simp at hx)
    (by omega) (by omega) h3 h3' (List.append_cancel_left he) hr hr'
  exact ⟨by rw [h6], h7⟩

/-- A text is read in one way. -/
theorem reads_unique {s : List Char} {t t' : TextTree} (h : Reads .sum s t) (h' : Reads .sum s t') : t = t' :=
  ((uniqueReading s.length).2.2.2 s t s t' [] [] le_rfl le_rfl h h' rfl (.inl rfl) (.inl rfl)).2

/-! ## Algebraic expressions -/

/-- The level at which an expression is read. -/
def levelOf : Option ℕ → TextLevel
  | none => .atom
  | some q => if q = 1 then .factor else if q = 3 then .product else .sum

/-- A text of some level can be read at a higher one. -/
theorem Reads.to_sum {s : List Char} {t : TextTree} {l : TextLevel} (h : Reads l s t) : Reads .sum s t := by
  cases l with
  | atom => exact .product _ _ (.factor _ _ (.atom _ _ h))
  | factor => exact .product _ _ (.factor _ _ h)
  | product => exact .product _ _ h
  | sum => exact h

theorem printExpr_reads {p : ℕ} {R : Type} (ref : R → List Char) (e : AlgExpr (ZMod p) R)
    (he : ∀ r ∈ e.refs, IsName (ref r)) :
    Reads (levelOf e.precedence) (printExpr printNumber ref e) (e.textTree ref) := by
  induction e with
  | reference r => exact .name _ (he r (by simp [AlgExpr.refs]))
  | number n =>
    show Reads .atom (Nat.toDigits 10 n.val) _
    rw [← numeral_eq]
    exact .num _
  | minus e ih =>
    have ih := ih he
    show Reads .factor ('-' :: _) (.neg _)
    refine .neg _ _ ?_
    cases e with
    | reference r => exact .atom _ _ ih
    | number n => exact .atom _ _ ih
    | minus e => exact ih
    | binary l op r =>
      have : (AlgExpr.precedence (.binary l op r)).any (fun q => decide (1 < q)) = true := by
        cases op <;> rfl
      rw [parenthesesIf, if_pos this]
      exact .atom _ _ (.parentheses _ _ ih.to_sum)
  | binary l op r ihl ihr =>
    have ihl := ihl fun v hv => he v (by simp [AlgExpr.refs, hv])
    have ihr := ihr fun v hv => he v (by simp [AlgExpr.refs, hv])
    have hpl : ∀ {q s t}, Reads q s t → Reads .factor ('(' :: s ++ [')']) t :=
      fun h => .atom _ _ (.parentheses _ _ h.to_sum)
    cases op with
    | mul =>
      refine Reads.times _ _ .mul _ _ (.inl rfl) ?_ ?_
      · cases l with
        | reference r => exact .factor _ _ (.atom _ _ ihl)
        | number n => exact .factor _ _ (.atom _ _ ihl)
        | minus e => exact .factor _ _ ihl
        | binary _ op _ =>
          cases op with
          | mul => exact ihl
          | add => exact .factor _ _ (hpl ihl)
          | sub => exact .factor _ _ (hpl ihl)
      · cases r with
        | reference r => exact .atom _ _ ihr
        | number n => exact .atom _ _ ihr
        | minus e => exact ihr
        | binary _ op _ => cases op <;> exact hpl ihr
    | add =>
      refine Reads.plus _ _ .add _ _ (.inl rfl) ?_ ?_
      · cases l with
        | reference r => exact ihl.to_sum
        | number n => exact ihl.to_sum
        | minus e => exact ihl.to_sum
        | binary _ op _ => cases op <;> exact ihl.to_sum
      · cases r with
        | reference r => exact .factor _ _ (.atom _ _ ihr)
        | number n => exact .factor _ _ (.atom _ _ ihr)
        | minus e => exact .factor _ _ ihr
        | binary _ op _ =>
          cases op with
          | mul => exact ihr
          | add => exact .factor _ _ (hpl ihr)
          | sub => exact .factor _ _ (hpl ihr)
    | sub =>
      refine Reads.plus _ _ .sub _ _ (.inr rfl) ?_ ?_
      · cases l with
        | reference r => exact ihl.to_sum
        | number n => exact ihl.to_sum
        | minus e => exact ihl.to_sum
        | binary _ op _ => cases op <;> exact ihl.to_sum
      · cases r with
        | reference r => exact .factor _ _ (.atom _ _ ihr)
        | number n => exact .factor _ _ (.atom _ _ ihr)
        | minus e => exact .factor _ _ ihr
        | binary _ op _ =>
          cases op with
          | mul => exact ihr
          | add => exact .factor _ _ (hpl ihr)
          | sub => exact .factor _ _ (hpl ihr)

theorem value_textTree {p : ℕ} [Fact p.Prime] {R : Type} {name : R → List Char} {σ : R → ZMod p}
    {env : List Char → ZMod p} (e : AlgExpr (ZMod p) R) (h : ∀ r ∈ e.refs, env (name r) = σ r) :
    (e.textTree name).value env = some (e.value σ) := by
  induction e with
  | reference r => simp [AlgExpr.textTree, TextTree.value, AlgExpr.value, h r (by simp [AlgExpr.refs])]
  | number n => simp [AlgExpr.textTree, TextTree.value, AlgExpr.value]
  | minus e ih => simp [AlgExpr.textTree, TextTree.value, AlgExpr.value, ih h]
  | binary l op r ihl ihr =>
    have h1 := ihl fun v hv => h v (by simp [AlgExpr.refs, hv])
    have h2 := ihr fun v hv => h v (by simp [AlgExpr.refs, hv])
    cases op <;> simp [AlgExpr.textTree, AlgOp.textOp, TextTree.value, AlgExpr.value, h1, h2]

theorem textTree_injective {p : ℕ} [NeZero p] {R : Type} {name : R → List Char} {e e' : AlgExpr (ZMod p) R}
    (h : ∀ r ∈ e.refs, ∀ r' ∈ e'.refs, name r = name r' → r = r') (ht : e.textTree name = e'.textTree name) : e = e' := by
  induction e generalizing e' with
  | reference r =>
    cases e' with
    | reference r' =>
      simp only [AlgExpr.textTree, TextTree.name.injEq] at ht
      rw [h r (by simp [AlgExpr.refs]) r' (by simp [AlgExpr.refs]) ht]
    | _ => simp [AlgExpr.textTree] at ht
  | number n =>
    cases e' with
    | number n' =>
      simp only [AlgExpr.textTree, TextTree.num.injEq] at ht
      rw [ZMod.val_injective p ht]
    | _ => simp [AlgExpr.textTree] at ht
  | minus e ih =>
    cases e' with
    | minus e1 =>
      simp only [AlgExpr.textTree, TextTree.neg.injEq] at ht
      exact congrArg _ (ih (e' := e1) h ht)
    | _ => simp [AlgExpr.textTree] at ht
  | binary l op r ihl ihr =>
    cases e' with
    | binary l' op' r' =>
      simp only [AlgExpr.textTree, TextTree.bin.injEq] at ht
      have hop : op = op' := by
        have := ht.1
        cases op <;> cases op' <;> first | rfl | (exfalso; revert this; decide)
      rw [hop, ihl (fun v hv v' hv' => h v (by simp [AlgExpr.refs, hv]) v' (by simp [AlgExpr.refs, hv'])) ht.2.1,
        ihr (fun v hv v' hv' => h v (by simp [AlgExpr.refs, hv]) v' (by simp [AlgExpr.refs, hv'])) ht.2.2]
    | _ => simp [AlgExpr.textTree] at ht

theorem printExpr_injective {p : ℕ} [NeZero p] {R : Type} {name : R → List Char} {e e' : AlgExpr (ZMod p) R}
    (hn : ∀ r ∈ e.refs, IsName (name r)) (hn' : ∀ r ∈ e'.refs, IsName (name r))
    (h : ∀ r ∈ e.refs, ∀ r' ∈ e'.refs, name r = name r' → r = r')
    (ht : printExpr printNumber name e = printExpr printNumber name e') : e = e' := by
  have h1 := (printExpr_reads name e hn).to_sum
  have h2 := (printExpr_reads name e' hn').to_sum
  rw [← ht] at h2
  exact textTree_injective h (reads_unique h1 h2)

/-! ## Values known at run time -/

theorem reads_number {p : ℕ} (n : ZMod p) : Reads .atom (printNumber n) (.num n.val) := by
  show Reads .atom (Nat.toDigits 10 n.val) _
  rw [← numeral_eq]
  exact .num _

/-- The operators of symbolic expressions. -/
def SymOp.textOp : SymOp → TextOp
  | .add => .add
  | .sub => .sub
  | .mul => .mul
  | .div => .div

theorem printSymbolic_reads {p : ℕ} [Fact p.Prime] {S : Type} {name : S → List Char} {σ : S → ZMod p}
    {env : List Char → ZMod p} (e : SymExpr p S) (hn : ∀ s, e.Mentions s → IsName (name s))
    (hv : ∀ s, e.Mentions s → env (name s) = σ s) :
    ∃ t, Reads .factor (printSymbolic name e) t ∧ t.value env = e.value σ := by
  induction e with
  | concrete n =>
    unfold printSymbolic
    split_ifs
    · exact ⟨_, .atom _ _ (reads_number n), by simp [TextTree.value, SymExpr.value]⟩
    · exact ⟨_, .neg _ _ (.atom _ _ (reads_number (-n))), by simp [TextTree.value, SymExpr.value]⟩
  | symbol s rc => exact ⟨.name (name s), .atom _ _ (.name _ (hn s rfl)), by simp [TextTree.value, SymExpr.value, hv s rfl]⟩
  | unaryNeg e rc ih =>
    obtain ⟨t, h1, h2⟩ := ih hn hv
    exact ⟨_, .neg _ _ h1, by simp [TextTree.value, SymExpr.value, h2]⟩
  | binary l op r rc ihl ihr =>
    obtain ⟨tl, hl, hlv⟩ := ihl (fun s hs => hn s (.inl hs)) fun s hs => hv s (.inl hs)
    obtain ⟨tr, hr, hrv⟩ := ihr (fun s hs => hn s (.inr hs)) fun s hs => hv s (.inr hs)
    have hfac := Reads.factor _ _ hl
    have hfacr := Reads.factor _ _ hr
    have key : ∃ t, Reads .sum (printSymbolic name l ++ ' ' :: op.text :: ' ' :: printSymbolic name r) t ∧
        t = .bin op.textOp tl tr := by
      cases op with
      | add => exact ⟨_, Reads.plus _ _ .add _ _ (.inl rfl) (.product _ _ hfac) hfacr, rfl⟩
      | sub => exact ⟨_, Reads.plus _ _ .sub _ _ (.inr rfl) (.product _ _ hfac) hfacr, rfl⟩
      | mul => exact ⟨_, .product _ _ (Reads.times _ _ .mul _ _ (.inl rfl) hfac hr), rfl⟩
      | div => exact ⟨_, .product _ _ (Reads.times _ _ .div _ _ (.inr rfl) hfac hr), rfl⟩
    obtain ⟨t, ht, rfl⟩ := key
    refine ⟨.bin op.textOp tl tr, .atom _ _ ?_, ?_⟩
    · have := Reads.parentheses _ _ ht
      simpa [printSymbolic] using this
    · cases op <;> simp only [TextTree.value, SymExpr.value, SymOp.textOp, hlv, hrv] <;>
        cases l.value σ <;> cases r.value σ <;> rfl

/-! ## Grouped expressions -/

/-- A text with a sign has a value. -/
def SignedReads {p : ℕ} [Fact p.Prime] (env : List Char → ZMod p) (l : TextLevel) (x : Bool × List Char) (v : ZMod p) : Prop :=
  ∃ t w, Reads l x.2 t ∧ t.value env = some w ∧ v = if x.1 then -w else w

theorem combineSigned_reads {p : ℕ} [Fact p.Prime] {env : List Char → ZMod p} {x y : Bool × List Char} {v w : ZMod p}
    (hx : SignedReads env .sum x v) (hy : SignedReads env .product y w) : SignedReads env .sum (combineSigned x y) (v + w) := by
  obtain ⟨tx, vx, h1, h2, rfl⟩ := hx
  obtain ⟨ty, vy, h3, h4, rfl⟩ := hy
  by_cases h : x.1 = y.1
  · refine ⟨.bin .add tx ty, vx + vy, ?_, ?_, ?_⟩
    · have := Reads.plus _ _ .add _ _ (.inl rfl) h1 h3
      simpa [combineSigned, h, TextOp.char] using this
    · simp [TextTree.value, h2, h4]
    · show _ = if x.1 then _ else _
      rw [h]
      split_ifs <;> ring
  · refine ⟨.bin .sub tx ty, vx - vy, ?_, ?_, ?_⟩
    · have := Reads.plus _ _ .sub _ _ (.inr rfl) h1 h3
      simpa [combineSigned, h, TextOp.char] using this
    · simp [TextTree.value, h2, h4]
    · show _ = if x.1 then _ else _
      cases hx : x.1 <;> cases hy : y.1 <;> simp [hx, hy] at h ⊢ <;> ring

theorem reduceSigned_reads {p : ℕ} [Fact p.Prime] {env : List Char → ZMod p} {l : List (Bool × List Char)} {vs : List (ZMod p)}
    (h : List.Forall₂ (SignedReads env .product) l vs) : SignedReads env .sum (reduceSigned l) vs.sum := by
  cases h with
  | nil =>
    refine ⟨.num 0, 0, ?_, by simp [TextTree.value], by simp [reduceSigned]⟩
    have := (Reads.num 0).to_sum
    simpa [reduceSigned] using this
  | @cons x v l vs hx hl =>
    have hx' : SignedReads env .sum x v := by
      obtain ⟨t, w, h1, h2, h3⟩ := hx
      exact ⟨t, w, h1.to_sum, h2, h3⟩
    simp only [reduceSigned, List.sum_cons]
    clear hx
    induction hl generalizing x v with
    | nil => simpa using hx'
    | @cons y w l vs hy _ ih =>
      have := ih (combineSigned_reads hx' hy)
      simpa [add_assoc] using this

theorem signedNumber_reads {p : ℕ} [Fact p.Prime] (env : List Char → ZMod p) (k : ZMod p) :
    ∃ t w, Reads .atom (signedNumber k).2 t ∧ t.value env = some w ∧ k = if (signedNumber k).1 then -w else w := by
  by_cases h : isInLowerHalf k = true
  · rw [signedNumber, if_pos h]
    exact ⟨_, k, reads_number k, by simp [TextTree.value], by simp⟩
  · rw [signedNumber, if_neg h]
    exact ⟨_, -k, reads_number (-k), by simp [TextTree.value], by simp⟩

theorem signedLinear_reads {p : ℕ} [Fact p.Prime] {V : Type} {name : V → List Char} {σ : V → ZMod p}
    {env : List Char → ZMod p} (x : V × ZMod p) (hn : IsName (name x.1)) (hv : env (name x.1) = σ x.1) :
    SignedReads env .product (signedLinear name x) (x.2 * σ x.1) := by
  have hname : Reads .factor (name x.1) (.name (name x.1)) := .atom _ _ (.name _ hn)
  have hval : (TextTree.name (name x.1)).value env = some (σ x.1) := by simp [TextTree.value, hv]
  unfold signedLinear
  split_ifs with h1 h2
  · exact ⟨_, _, .factor _ _ hname, hval, by simp [h1]⟩
  · exact ⟨_, _, .factor _ _ hname, hval, by simp [h2]⟩
  · obtain ⟨t, w, h3, h4, h5⟩ := signedNumber_reads env x.2
    refine ⟨_, w * σ x.1, Reads.times _ _ .mul _ _ (.inl rfl) (.factor _ _ (.atom _ _ h3)) hname, ?_, ?_⟩
    · simp [TextTree.value, h4, hv]
    · show x.2 * σ x.1 = if (signedNumber x.2).1 then _ else _
      conv_lhs => rw [h5]
      split_ifs <;> ring

mutual
theorem signedText_reads {p : ℕ} [Fact p.Prime] {V : Type} {name : V → List Char} {σ : V → ZMod p} {env : List Char → ZMod p} :
    ∀ g : GExpr p V, (∀ v, GExpr.Occurs v g → IsName (name v) ∧ env (name v) = σ v) →
      SignedReads env .sum (signedText name g) (g.eval σ)
  | .mk q l c, h => by
    have hq := signedQuadratic_reads (name := name) (σ := σ) (env := env) q
      (fun ab hab v hv => h v (.left q l c ab.1 ab.2 hab hv)) (fun ab hab v hv => h v (.right q l c ab.1 ab.2 hab hv))
    obtain ⟨vs, hvs, hsum⟩ := hq
    have hl : List.Forall₂ (SignedReads env .product) (l.map (signedLinear name)) (l.map fun x => x.2 * σ x.1) := by
      rw [List.forall₂_map_left_iff, List.forall₂_map_right_iff]
      refine List.forall₂_same.2 fun x hx => ?_
      have := h x.1 (.linear q l c x.2 hx)
      exact signedLinear_reads x this.1 this.2
    have hc : ∃ vc, List.Forall₂ (SignedReads env .product) (if c = 0 then [] else [signedNumber c]) vc ∧ vc.sum = c := by
      split_ifs with h0
      · exact ⟨[], .nil, by simp [h0]⟩
      · obtain ⟨t, w, h1, h2, h3⟩ := signedNumber_reads env c
        exact ⟨[c], .cons ⟨t, w, .factor _ _ (.atom _ _ h1), h2, h3⟩ .nil, by simp⟩
    obtain ⟨vc, hvc, hcsum⟩ := hc
    have := reduceSigned_reads (List.rel_append (List.rel_append hvs hl) hvc)
    rw [List.sum_append, List.sum_append, hsum, hcsum] at this
    rw [signedText, GExpr.eval, GExpr.evalIn]
    exact this
theorem signedQuadratic_reads {p : ℕ} [Fact p.Prime] {V : Type} {name : V → List Char} {σ : V → ZMod p}
    {env : List Char → ZMod p} : ∀ q : List (GExpr p V × GExpr p V),
      (∀ ab ∈ q, ∀ v, GExpr.Occurs v ab.1 → IsName (name v) ∧ env (name v) = σ v) →
      (∀ ab ∈ q, ∀ v, GExpr.Occurs v ab.2 → IsName (name v) ∧ env (name v) = σ v) →
      ∃ vs, List.Forall₂ (SignedReads env .product) (signedQuadratic name q) vs ∧
        vs.sum = GExpr.evalInQ (RingHom.id _) σ q
  | [], _, _ => ⟨[], .nil, rfl⟩
  | (a, b) :: t, h1, h2 => by
    obtain ⟨ta, va, ha, hav, hae⟩ := signedText_reads (name := name) (σ := σ) (env := env) a (h1 (a, b) (by simp))
    obtain ⟨tb, vb, hb, hbv, hbe⟩ := signedText_reads (name := name) (σ := σ) (env := env) b (h2 (a, b) (by simp))
    obtain ⟨vs, hvs, hsum⟩ := signedQuadratic_reads (name := name) (σ := σ) (env := env) t
      (fun ab hab => h1 ab (by simp [hab])) (fun ab hab => h2 ab (by simp [hab]))
    refine ⟨a.eval σ * b.eval σ :: vs, .cons ⟨.bin .mul ta tb, va * vb, ?_, ?_, ?_⟩ hvs, ?_⟩
    · have := Reads.times _ _ .mul _ _ (.inl rfl) (.factor _ _ (.atom _ _ (.parentheses _ _ ha)))
        (.atom _ _ (.parentheses _ _ hb))
      simpa [TextOp.char] using this
    · simp [TextTree.value, hav, hbv]
    · rw [hae, hbe]
      cases (signedText name a).1 <;> cases (signedText name b).1 <;> simp
    · rw [List.sum_cons, hsum]
      rfl
end

end Verif
