import Verif.Proofs.SymbolicValue

/-!
# C81: values known at run time
-/

set_option linter.unusedSectionVars false
set_option linter.unusedSimpArgs false

namespace Verif

open SymExpr

variable {p : ℕ} [Fact p.Prime] {S S' : Type}

section
variable [DecidableEq S]

/-- **C81** Sums, differences, products and negations have the values they should have, and right annotations. -/
theorem C81_operations {env : S → ZMod p} {a b : SymExpr p S} {x y : ZMod p} (ha : a.Is env x) (hb : b.Is env y) :
    (a.plus b).Is env (x + y) ∧ (a.minus b).Is env (x - y) ∧ (a.times b).Is env (x * y) ∧ a.negate.Is env (-x) :=
  ⟨is_plus ha hb, is_minus ha hb, is_times ha hb, is_negate ha⟩

/-- **C81** Quotients and inverses, if the divisor is not zero. -/
theorem C81_division {env : S → ZMod p} {a b : SymExpr p S} {x y : ZMod p} (ha : a.Is env x) (hb : b.Is env y) (hy : y ≠ 0) :
    (∃ c, a.fieldDiv b = .ok c ∧ c.Is env (x / y)) ∧ ∃ c, b.fieldInverse = .ok c ∧ c.Is env y⁻¹ :=
  ⟨is_fieldDiv ha hb hy, is_fieldInverse hb hy⟩

/-- **C81** Only the division by the number 0 panics. -/
theorem C81_division_panic {a b : SymExpr p S} :
    (a.fieldDiv b = .error .assertion → b = .concrete 0) ∧ (b.fieldInverse = .error .assertion ↔ b = .concrete 0) := by
  refine ⟨fieldDiv_panic, ?_, ?_⟩
  · intro h
    cases b with
    | concrete n =>
      simp only [fieldInverse] at h
      split at h
      · rename_i hn
        rw [hn]
      · cases h
    | symbol s rc => cases h
    | unaryNeg e rc => cases h
    | binary l op r rc => cases op <;> cases h
  · rintro rfl
    simp [fieldInverse]

/-- **C81** Operations on numbers give numbers. -/
theorem C81_numbers (x y : ZMod p) :
    (concrete x : SymExpr p S).plus (.concrete y) = .concrete (x + y) ∧
    (concrete x : SymExpr p S).minus (.concrete y) = .concrete (x - y) ∧
    (concrete x : SymExpr p S).times (.concrete y) = .concrete (x * y) ∧
    (concrete x : SymExpr p S).negate = .concrete (-x) ∧
    (y ≠ 0 → (concrete x : SymExpr p S).fieldDiv (.concrete y) = .ok (.concrete (x / y)) ∧
      (concrete y : SymExpr p S).fieldInverse = .ok (.concrete (1 / y))) := by
  refine ⟨?_, ?_, rfl, rfl, fun hy => ⟨by simp [fieldDiv, tryToNumber, hy], by simp [fieldInverse, hy]⟩⟩
  · unfold plus
    simp only [isKnownZero, tryToNumber, Option.some.injEq, decide_eq_true_eq]
    split
    · rename_i h; rw [h, zero_add]
    · split
      · rename_i h; rw [h, add_zero]
      · rfl
  · unfold minus
    simp only [isKnownZero, tryToNumber, Option.some.injEq, decide_eq_true_eq]
    split
    · rename_i h; rw [h, zero_sub]; rfl
    · split
      · rename_i h; rw [h, sub_zero]
      · rfl

/-- **C81** What is said to be known is right: numbers, ranges, and that a value is not zero. -/
theorem C81_known {env : S → ZMod p} {e : SymExpr p S} {v : ZMod p} (h : e.Is env v) :
    (∀ n, e.tryToNumber = some n → v = n) ∧ e.range.allowsValue v = true ∧ (e.isKnownZero = true → v = 0) ∧
      (e.isKnownOne = true → v = 1) ∧ (e.isKnownMinusOne = true → v = -1) ∧ (e.isKnownNonzero = true → v ≠ 0) := by
  refine ⟨fun n hn => is_number hn h, is_range h, fun hk => known_number hk h, fun hk => known_number hk h,
    fun hk => known_number hk h, ?_⟩
  rintro hk rfl
  have := is_range h
  simp [isKnownNonzero, this] at hk

/-- **C81** A symbol with a range stands for the symbol, if the range is right. -/
theorem C81_symbol {env : S → ZMod p} {s : S} {rc : RangeConstraint p} (h : rc.allowsValue (env s) = true) :
    (fromSymbol s rc).Is env (env s) := is_fromSymbol h

/-- **C81** A substitution does not panic and replaces the symbol by the value of the substitution. -/
theorem C81_substitute {env : S → ZMod p} {x : S} {sub e : SymExpr p S} {w v : ZMod p} (hsub : sub.Is env w)
    (h : e.Is (Function.update env x w) v) : ∃ e', substitute x sub e = .ok e' ∧ e'.Is env v := is_substitute hsub h

/-- **C81** A change is reported exactly if the symbol occurs. -/
theorem C81_changed {env : S → ZMod p} {x : S} {sub e : SymExpr p S} {w v : ZMod p} (hsub : sub.Is env w)
    (h : e.Is (Function.update env x w) v) :
    ∃ r, computeSubstitution x sub e = .ok r ∧ (r.isSome = true ↔ e.Mentions x) := by
  rcases is_computeSubstitution hsub h with ⟨h1, h2⟩ | ⟨e', h1, h2, _⟩
  · exact ⟨none, h1, by simpa using h2⟩
  · exact ⟨some e', h1, by simpa using h2⟩

/-! ### Symbols -/

theorem mentions_plus {a b : SymExpr p S} {s : S} (h : (a.plus b).Mentions s) : a.Mentions s ∨ b.Mentions s := by
  unfold plus at h
  split at h
  · exact .inr h
  split at h
  · exact .inl h
  split at h
  · exact absurd h id
  · split at h
    · exact absurd h id
    · split at h
      · split at h
        · exact absurd h id
        · exact h
      · exact h
  · split at h
    · exact absurd h id
    · exact h
  · exact h

theorem mentions_negate {e : SymExpr p S} {s : S} (h : e.negate.Mentions s) : e.Mentions s := by
  induction e with
  | concrete n => exact h
  | symbol s' rc => exact h
  | unaryNeg e rc _ => exact h
  | binary l op r rc ihl ihr =>
    cases op with
    | add => exact (mentions_plus h).imp ihl ihr
    | sub => exact Or.symm h
    | mul =>
      simp only [negate] at h
      split at h
      · exact h.imp ihl id
      · split at h
        · exact h.imp id ihr
        · exact h
    | div => exact h

theorem mentions_minus {a b : SymExpr p S} {s : S} (h : (a.minus b).Mentions s) : a.Mentions s ∨ b.Mentions s := by
  unfold minus at h
  split at h
  · exact .inr (mentions_negate h)
  split at h
  · exact .inl h
  split at h
  · exact absurd h id
  · split at h
    · exact absurd h id
    · exact h

theorem mentions_times {a b : SymExpr p S} {s : S} (h : (a.times b).Mentions s) : a.Mentions s ∨ b.Mentions s := by
  unfold times at h
  split at h
  · exact absurd h id
  split at h
  · exact absurd h id
  split at h
  · exact .inr h
  split at h
  · exact .inl h
  split at h
  · exact .inr (mentions_negate h)
  split at h
  · exact .inl (mentions_negate h)
  · exact h

theorem mentions_fieldDiv {a b c : SymExpr p S} {s : S} (hc : a.fieldDiv b = .ok c) (h : c.Mentions s) :
    a.Mentions s ∨ b.Mentions s := by
  unfold fieldDiv at hc
  split at hc
  · split at hc
    · cases hc
    · cases hc
      exact absurd h id
  split at hc
  · cases hc
    exact absurd h id
  split at hc
  · cases hc
    exact .inl h
  split at hc
  · cases hc
    exact .inl (mentions_negate h)
  · cases hc
    exact h

theorem mentions_applyOp {op : SymOp} {a b c : SymExpr p S} {s : S} (hc : applyOp op a b = .ok c) (h : c.Mentions s) :
    a.Mentions s ∨ b.Mentions s := by
  cases op with
  | add => cases hc; exact mentions_plus h
  | sub => cases hc; exact mentions_minus h
  | mul => cases hc; exact mentions_times h
  | div => exact mentions_fieldDiv hc h

theorem computeSubstitution_mentions {x : S} {sub e : SymExpr p S} {r : Option (SymExpr p S)}
    (h : computeSubstitution x sub e = .ok r) :
    (r = none → ¬ e.Mentions x) ∧
      ∀ e', r = some e' → ∀ s, e'.Mentions s → (s ≠ x ∧ e.Mentions s) ∨ sub.Mentions s := by
  induction e generalizing r with
  | concrete n =>
    simp only [computeSubstitution, Except.ok.injEq] at h
    subst h
    exact ⟨fun _ => id, by intro e' he'; cases he'⟩
  | symbol t rc =>
    simp only [computeSubstitution, Except.ok.injEq] at h
    subst h
    split
    · exact ⟨by simp, by intro e' he' s hs; cases he'; exact .inr hs⟩
    · rename_i hne
      exact ⟨fun _ => hne, by intro e' he'; cases he'⟩
  | unaryNeg e rc ih =>
    simp only [computeSubstitution, bind, Except.bind] at h
    cases h1 : computeSubstitution x sub e with
    | error err => simp [h1] at h
    | ok r1 =>
      simp only [h1, Except.ok.injEq] at h
      subst h
      obtain ⟨i1, i2⟩ := ih h1
      cases r1 with
      | none => exact ⟨fun _ => i1 rfl, by intro e' he'; cases he'⟩
      | some e1 =>
        refine ⟨by simp, ?_⟩
        intro e' he' s hs
        cases he'
        exact i2 e1 rfl s (mentions_negate hs)
  | binary l op r' rc ihl ihr =>
    simp only [computeSubstitution, bind, Except.bind] at h
    cases h1 : computeSubstitution x sub l with
    | error err => simp [h1] at h
    | ok r1 =>
      cases h2 : computeSubstitution x sub r' with
      | error err => simp [h1, h2] at h
      | ok r2 =>
        simp only [h1, h2] at h
        obtain ⟨i1, i2⟩ := ihl h1
        obtain ⟨j1, j2⟩ := ihr h2
        have nx : ∀ {e : SymExpr p S} {s : S}, ¬ e.Mentions x → e.Mentions s → s ≠ x := by
          rintro e s hne hs rfl
          exact hne hs
        cases r1 with
        | none =>
          cases r2 with
          | none =>
            cases h
            exact ⟨fun _ => not_or.2 ⟨i1 rfl, j1 rfl⟩, by intro e' he'; cases he'⟩
          | some r2 =>
            simp only [Except.map] at h
            cases ha : applyOp op l r2 with
            | error err => simp [ha] at h
            | ok c =>
              simp only [ha, Except.ok.injEq] at h
              subst h
              refine ⟨by simp, ?_⟩
              intro e' he' s hs
              cases he'
              rcases mentions_applyOp ha hs with hs | hs
              · exact .inl ⟨nx (i1 rfl) hs, .inl hs⟩
              · exact (j2 _ rfl s hs).imp (fun hh => ⟨hh.1, .inr hh.2⟩) id
        | some r1 =>
          cases r2 with
          | none =>
            simp only [Except.map] at h
            cases ha : applyOp op r1 r' with
            | error err => simp [ha] at h
            | ok c =>
              simp only [ha, Except.ok.injEq] at h
              subst h
              refine ⟨by simp, ?_⟩
              intro e' he' s hs
              cases he'
              rcases mentions_applyOp ha hs with hs | hs
              · exact (i2 _ rfl s hs).imp (fun hh => ⟨hh.1, .inl hh.2⟩) id
              · exact .inl ⟨nx (j1 rfl) hs, .inr hs⟩
          | some r2 =>
            simp only [Except.map] at h
            cases ha : applyOp op r1 r2 with
            | error err => simp [ha] at h
            | ok c =>
              simp only [ha, Except.ok.injEq] at h
              subst h
              refine ⟨by simp, ?_⟩
              intro e' he' s hs
              cases he'
              rcases mentions_applyOp ha hs with hs | hs
              · exact (i2 _ rfl s hs).imp (fun hh => ⟨hh.1, .inl hh.2⟩) id
              · exact (j2 _ rfl s hs).imp (fun hh => ⟨hh.1, .inr hh.2⟩) id

/-- **C81** After a substitution only symbols of the substitution and other symbols of the expression occur: the symbol is
gone, unless the substitution has it. -/
theorem C81_eliminated {x : S} {sub e e' : SymExpr p S} (h : substitute x sub e = .ok e') {s : S} (hs : e'.Mentions s) :
    (s ≠ x ∧ e.Mentions s) ∨ sub.Mentions s := by
  simp only [substitute, bind, Except.bind] at h
  cases h1 : computeSubstitution x sub e with
  | error err => simp [h1] at h
  | ok r =>
    simp only [h1, Except.ok.injEq] at h
    subst h
    obtain ⟨i1, i2⟩ := computeSubstitution_mentions h1
    cases r with
    | none =>
      refine .inl ⟨?_, hs⟩
      rintro rfl
      exact i1 rfl hs
    | some e1 => exact i2 e1 rfl s hs

end

/-- **C81** Renaming symbols succeeds if and only if all symbols have a new name. -/
theorem C81_renaming (f : S → Option S') (e : SymExpr p S) :
    (∃ e', e.tryTransform f = some e') ↔ ∀ s, e.Mentions s → ∃ s', f s = some s' := tryTransform_isSome f e

/-- **C81** Renaming symbols keeps the value. -/
theorem C81_renamed {env : S' → ZMod p} {f : S → Option S'} {g : S → ZMod p} {e : SymExpr p S} {e' : SymExpr p S'} {v : ZMod p}
    (hg : ∀ s s', f s = some s' → g s = env s') (h : e.tryTransform f = some e') (hv : e.Is g v) : e'.Is env v :=
  is_tryTransform hg h hv

/-- **C81** Conversion to another kind of expression does not panic, and the result has the same value. `Val` is any relation
between expressions and values that the operations keep. -/
theorem C81_expression {E : Type} [Add E] [Sub E] [Mul E] [Neg E] {number : ZMod p → E} {var : S → E}
    {toNumber : E → Option (ZMod p)} {env : S → ZMod p} {Val : E → ZMod p → Prop} (hnum : ∀ n, Val (number n) n)
    (hvar : ∀ s, Val (var s) (env s)) (hadd : ∀ {a b x y}, Val a x → Val b y → Val (a + b) (x + y))
    (hsub : ∀ {a b x y}, Val a x → Val b y → Val (a - b) (x - y))
    (hmul : ∀ {a b x y}, Val a x → Val b y → Val (a * b) (x * y)) (hneg : ∀ {a x}, Val a x → Val (-a) (-x))
    (hto : ∀ {a n x}, toNumber a = some n → Val a x → x = n) {e : SymExpr p S} {v : ZMod p} (hv : e.value env = some v) :
    ∃ r, e.tryToExpression number var toNumber = .ok r ∧ ∀ e', r = some e' → Val e' v := by
  induction e generalizing v with
  | concrete n =>
    simp only [value, Option.some.injEq] at hv
    subst hv
    exact ⟨_, rfl, by rintro _ ⟨⟩; exact hnum n⟩
  | symbol s rc =>
    simp only [value, Option.some.injEq] at hv
    subst hv
    exact ⟨_, rfl, by rintro _ ⟨⟩; exact hvar s⟩
  | unaryNeg e rc ih =>
    simp only [value, Option.map_eq_some_iff] at hv
    obtain ⟨x, hx, rfl⟩ := hv
    obtain ⟨r, hr, hval⟩ := ih hx
    cases r with
    | none => exact ⟨none, by simp [tryToExpression, hr, bind, Except.bind], by simp⟩
    | some e1 =>
      exact ⟨some (-e1), by simp [tryToExpression, hr, bind, Except.bind], by rintro _ ⟨⟩; exact hneg (hval _ rfl)⟩
  | binary l op r rc ihl ihr =>
    obtain ⟨x, y, hx, hy, hop⟩ := value_binary_inv hv
    obtain ⟨rl, hl, hvl⟩ := ihl hx
    obtain ⟨rr, hr, hvr⟩ := ihr hy
    cases rl with
    | none => exact ⟨none, by simp [tryToExpression, hl, bind, Except.bind], by simp⟩
    | some l1 =>
      cases rr with
      | none => exact ⟨none, by simp [tryToExpression, hl, hr, bind, Except.bind], by simp⟩
      | some r1 =>
        have k1 := hvl _ rfl
        have k2 := hvr _ rfl
        cases op with
        | add =>
          cases hop
          exact ⟨_, by simp only [tryToExpression, hl, hr, bind, Except.bind]; rfl, by rintro _ ⟨⟩; exact hadd k1 k2⟩
        | sub =>
          cases hop
          exact ⟨_, by simp only [tryToExpression, hl, hr, bind, Except.bind]; rfl, by rintro _ ⟨⟩; exact hsub k1 k2⟩
        | mul =>
          cases hop
          exact ⟨_, by simp only [tryToExpression, hl, hr, bind, Except.bind]; rfl, by rintro _ ⟨⟩; exact hmul k1 k2⟩
        | div =>
          simp only [opValue] at hop
          split at hop
          · cases hop
          · rename_i hy0
            cases hop
            cases ht : toNumber r1 with
            | none => exact ⟨none, by simp [tryToExpression, hl, hr, bind, Except.bind, ht], by simp⟩
            | some n =>
              have hn := hto ht k2
              subst hn
              refine ⟨_, by simp only [tryToExpression, hl, hr, bind, Except.bind, ht, if_neg hy0]; rfl, ?_⟩
              rintro _ ⟨⟩
              have hd : x / y = x * (1 / y) := div_eq_mul_one_div x y
              rw [hd]
              exact hmul k1 (hnum _)

/-- **C81** Without divisions the conversion succeeds. -/
theorem C81_no_division {E : Type} [Add E] [Sub E] [Mul E] [Neg E] (number : ZMod p → E) (var : S → E)
    (toNumber : E → Option (ZMod p)) {e : SymExpr p S}
    (h : ∀ l r rc, SymExpr.binary l .div r rc ∉ e.allChildren) : ∃ e', e.tryToExpression number var toNumber = .ok (some e') := by
  induction e with
  | concrete n => exact ⟨_, rfl⟩
  | symbol s rc => exact ⟨_, rfl⟩
  | unaryNeg e rc ih =>
    obtain ⟨e1, h1⟩ := ih fun l r rc hm => h l r rc (by simp [allChildren, hm])
    exact ⟨-e1, by simp [tryToExpression, h1, bind, Except.bind]⟩
  | binary l op r rc ihl ihr =>
    obtain ⟨l1, h1⟩ := ihl fun l' r' rc' hm => h l' r' rc' (by simp [allChildren, hm])
    obtain ⟨r1, h2⟩ := ihr fun l' r' rc' hm => h l' r' rc' (by simp [allChildren, hm])
    cases op with
    | add => exact ⟨_, by simp only [tryToExpression, h1, h2, bind, Except.bind]; rfl⟩
    | sub => exact ⟨_, by simp only [tryToExpression, h1, h2, bind, Except.bind]; rfl⟩
    | mul => exact ⟨_, by simp only [tryToExpression, h1, h2, bind, Except.bind]; rfl⟩
    | div => exact absurd (by simp [allChildren]) (h l r rc)

/-! ### An example: `(x - y) / 3` over 7, with `x = 5` and `y` between 0 and 3 -/

instance : Fact (Nat.Prime 7) := ⟨by decide⟩

/-- `x - y`. -/
def sampleDifference : SymExpr 7 String :=
  (fromSymbol "x" (RangeConstraint.fromRange 0 6)).minus (fromSymbol "y" (RangeConstraint.fromRange 0 3))

/-- The expression. -/
def sampleSymExpr : SymExpr 7 String :=
  .binary sampleDifference .div (.concrete 3) RangeConstraint.unconstrained

theorem C81_sample :
    sampleDifference.fieldDiv (.concrete 3) = .ok sampleSymExpr ∧
    sampleSymExpr.Is (fun s => if s = "x" then 5 else 2) 1 ∧
    (∃ e', substitute "x" (.concrete 5) sampleSymExpr = .ok e' ∧ e'.Is (fun _ => 2) 1) := by
  have h1 : sampleDifference.fieldDiv (.concrete 3) = .ok sampleSymExpr := by decide +kernel
  have h2 : sampleSymExpr.Is (fun s => if s = "x" then 5 else 2) 1 := by
    obtain ⟨⟨c, hc, hi⟩, _⟩ := C81_division (env := fun s => if s = "x" then (5 : ZMod 7) else 2)
      (C81_operations (a := fromSymbol "x" (RangeConstraint.fromRange 0 6))
        (b := fromSymbol "y" (RangeConstraint.fromRange 0 3)) (C81_symbol (by decide +kernel))
        (C81_symbol (by decide +kernel))).2.1 (is_concrete _ (3 : ZMod 7)) (by decide)
    have : c = sampleSymExpr := by
      have := hc.symm.trans h1
      simpa using this
    rw [this] at hi
    have hv : ((if ("x" : String) = "x" then (5 : ZMod 7) else 2) - (if ("y" : String) = "x" then 5 else 2)) / 3 = 1 := by
      decide +kernel
    rw [hv] at hi
    exact hi
  refine ⟨h1, h2, C81_substitute (is_concrete _ 5) ?_⟩
  refine is_congr ?_ h2
  intro s _
  by_cases hs : s = "x"
  · subst hs; simp
  · simp [hs]

end Verif
