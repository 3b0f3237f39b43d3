import Verif.Spec.SymbolicValue
import Verif.Proofs.RangeConstraint

/-!
# Operations on values known at run time
-/

set_option linter.unusedSectionVars false
set_option linter.unusedSimpArgs false

namespace Verif

open RangeConstraint

variable {p : ℕ} [Fact p.Prime] {S S' : Type}

namespace SymExpr

/-- What an operator does with two values. -/
def opValue : SymOp → ZMod p → ZMod p → Option (ZMod p)
  | .add, x, y => some (x + y)
  | .sub, x, y => some (x - y)
  | .mul, x, y => some (x * y)
  | .div, x, y => if y = 0 then none else some (x / y)

theorem value_binary_inv {env : S → ZMod p} {l r : SymExpr p S} {op : SymOp} {rc : RangeConstraint p} {v : ZMod p}
    (h : (SymExpr.binary l op r rc).value env = some v) :
    ∃ x y, l.value env = some x ∧ r.value env = some y ∧ opValue op x y = some v := by
  simp only [value] at h
  cases hl : l.value env with
  | none => simp [hl] at h
  | some x =>
    cases hr : r.value env with
    | none => simp [hl, hr] at h
    | some y =>
      refine ⟨x, y, rfl, rfl, ?_⟩
      simp only [hl, hr] at h
      cases op <;> exact h

theorem value_binary {env : S → ZMod p} {l r : SymExpr p S} {op : SymOp} {rc : RangeConstraint p} {x y : ZMod p}
    (hl : l.value env = some x) (hr : r.value env = some y) :
    (SymExpr.binary l op r rc).value env = opValue op x y := by
  simp only [value, hl, hr]
  cases op <;> rfl

theorem is_binary {env : S → ZMod p} {l r : SymExpr p S} {op : SymOp} {rc : RangeConstraint p} {x y v : ZMod p}
    (hl : l.Is env x) (hr : r.Is env y) (hv : opValue op x y = some v) (hrc : rc.allowsValue v = true) :
    (SymExpr.binary l op r rc).Is env v := by
  have h := value_binary (rc := rc) (op := op) hl.1 hr.1
  refine ⟨h.trans hv, hl.2, hr.2, fun w hw => ?_⟩
  rw [h, hv] at hw
  cases hw
  exact hrc

theorem is_binary_inv {env : S → ZMod p} {l r : SymExpr p S} {op : SymOp} {rc : RangeConstraint p} {v : ZMod p}
    (h : (SymExpr.binary l op r rc).Is env v) :
    ∃ x y, l.Is env x ∧ r.Is env y ∧ opValue op x y = some v ∧ rc.allowsValue v = true := by
  obtain ⟨x, y, hl, hr, hv⟩ := value_binary_inv h.1
  exact ⟨x, y, ⟨hl, h.2.1⟩, ⟨hr, h.2.2.1⟩, hv, h.2.2.2 v h.1⟩

theorem is_neg {env : S → ZMod p} {e : SymExpr p S} {rc : RangeConstraint p} {x : ZMod p} (he : e.Is env x)
    (hrc : rc.allowsValue (-x) = true) : (SymExpr.unaryNeg e rc).Is env (-x) := by
  have h : (SymExpr.unaryNeg e rc).value env = some (-x) := by simp only [value, he.1, Option.map_some]
  refine ⟨h, he.2, fun w hw => ?_⟩
  rw [h] at hw
  cases hw
  exact hrc

theorem is_neg_inv {env : S → ZMod p} {e : SymExpr p S} {rc : RangeConstraint p} {v : ZMod p}
    (h : (SymExpr.unaryNeg e rc).Is env v) : ∃ x, e.Is env x ∧ v = -x ∧ rc.allowsValue v = true := by
  have h1 := h.1
  simp only [value, Option.map_eq_some_iff] at h1
  obtain ⟨x, hx, rfl⟩ := h1
  exact ⟨x, ⟨hx, h.2.1⟩, rfl, h.2.2 _ h.1⟩

theorem is_concrete (env : S → ZMod p) (n : ZMod p) : (SymExpr.concrete n : SymExpr p S).Is env n := ⟨rfl, trivial⟩

theorem is_concrete_inv {env : S → ZMod p} {n v : ZMod p} (h : (SymExpr.concrete n : SymExpr p S).Is env v) : v = n := by
  have := h.1
  simpa [value] using this.symm

theorem is_number {env : S → ZMod p} {e : SymExpr p S} {n v : ZMod p} (hn : e.tryToNumber = some n) (h : e.Is env v) :
    v = n := by
  cases e <;> simp only [tryToNumber, Option.some.injEq, reduceCtorEq] at hn
  subst hn
  exact is_concrete_inv h

theorem is_range {env : S → ZMod p} {e : SymExpr p S} {v : ZMod p} (h : e.Is env v) : e.range.allowsValue v = true := by
  cases e with
  | concrete n =>
    rw [is_concrete_inv h]
    exact (allowsValue_iff _ _).2 ((fromValue_allows n n).2 rfl)
  | symbol s rc =>
    have := h.1
    simp only [value, Option.some.injEq] at this
    subst this
    exact h.2
  | binary l op r rc => exact h.2.2.2 v h.1
  | unaryNeg e rc => exact h.2.2 v h.1

theorem sum_range {env : S → ZMod p} {a b : SymExpr p S} {x y : ZMod p} (ha : a.Is env x) (hb : b.Is env y) :
    (a.range.combineSum b.range).allowsValue (x + y) = true :=
  (allowsValue_iff _ _).2 (combineSum_allows ((allowsValue_iff _ _).1 (is_range ha)) ((allowsValue_iff _ _).1 (is_range hb)))

theorem neg_range {rc : RangeConstraint p} {x : ZMod p} (h : rc.allowsValue x = true) :
    (rc.multiple (-1)).allowsValue (-x) = true := by
  rw [allowsValue_iff] at h ⊢
  have := multiple_allows (f := -1) h
  simpa using this

theorem known_number {e : SymExpr p S} {n : ZMod p} {env : S → ZMod p} {v : ZMod p}
    (h : decide (e.tryToNumber = some n) = true) (hv : e.Is env v) : v = n :=
  is_number (by simpa using h) hv

variable [DecidableEq S]

theorem is_plus {env : S → ZMod p} {a b : SymExpr p S} {x y : ZMod p} (ha : a.Is env x) (hb : b.Is env y) :
    (a.plus b).Is env (x + y) := by
  unfold plus
  split
  · rename_i h
    rw [known_number h ha, zero_add]
    exact hb
  split
  · rename_i h
    rw [known_number h hb, add_zero]
    exact ha
  have gen : (SymExpr.binary a .add b (a.range.combineSum b.range)).Is env (x + y) :=
    is_binary ha hb rfl (sum_range ha hb)
  have cancel : ∀ {e : SymExpr p S} {rc : RangeConstraint p} {u w : ZMod p}, (SymExpr.unaryNeg e rc).Is env u → e.Is env w →
      u + w = 0 := by
    intro e rc u w h1 h2
    obtain ⟨z, hz, rfl, _⟩ := is_neg_inv h1
    have : z = w := by simpa using hz.1.symm.trans h2.1
    rw [this, neg_add_cancel]
  split
  · rw [is_concrete_inv ha, is_concrete_inv hb]
    exact is_concrete env _
  · rename_i e rc _ _
    split
    · rename_i heq
      subst heq
      rw [cancel ha hb]
      exact is_concrete env _
    · split
      · split
        · rename_i heq
          subst heq
          rw [add_comm, cancel hb ha]
          exact is_concrete env _
        · exact gen
      · exact gen
  · split
    · rename_i heq
      subst heq
      rw [add_comm, cancel hb ha]
      exact is_concrete env _
    · exact gen
  · exact gen

theorem is_negate {env : S → ZMod p} {e : SymExpr p S} {x : ZMod p} (h : e.Is env x) : e.negate.Is env (-x) := by
  induction e generalizing x with
  | concrete n =>
    rw [is_concrete_inv h]
    exact is_concrete env _
  | symbol s rc => exact is_neg h (neg_range (is_range h))
  | unaryNeg e rc _ =>
    obtain ⟨z, hz, rfl, _⟩ := is_neg_inv h
    rw [neg_neg]
    exact hz
  | binary l op r rc ihl ihr =>
    obtain ⟨y, z, hy, hz, hv, hrc⟩ := is_binary_inv h
    cases op with
    | add =>
      simp only [opValue, Option.some.injEq] at hv
      rw [← hv, neg_add]
      exact is_plus (ihl hy) (ihr hz)
    | sub =>
      simp only [opValue, Option.some.injEq] at hv
      refine is_binary hz hy ?_ (neg_range hrc)
      rw [← hv, neg_sub]
      rfl
    | mul =>
      simp only [opValue, Option.some.injEq] at hv
      simp only [negate]
      split
      · refine is_binary (ihl hy) hz ?_ (neg_range hrc)
        rw [← hv]
        simp [opValue]
      · split
        · refine is_binary hy (ihr hz) ?_ (neg_range hrc)
          rw [← hv]
          simp [opValue]
        · exact is_neg h (neg_range hrc)
    | div => exact is_neg h (neg_range hrc)

theorem is_minus {env : S → ZMod p} {a b : SymExpr p S} {x y : ZMod p} (ha : a.Is env x) (hb : b.Is env y) :
    (a.minus b).Is env (x - y) := by
  unfold minus
  split
  · rename_i h
    rw [known_number h ha, zero_sub]
    exact is_negate hb
  split
  · rename_i h
    rw [known_number h hb, sub_zero]
    exact ha
  split
  · rename_i h1 h2
    rw [is_number h1 ha, is_number h2 hb]
    exact is_concrete env _
  · split
    · rename_i heq
      subst heq
      have : x = y := by simpa using ha.1.symm.trans hb.1
      rw [this, sub_self]
      exact is_concrete env _
    · refine is_binary ha hb rfl ?_
      rw [sub_eq_add_neg, allowsValue_iff]
      exact combineSum_allows ((allowsValue_iff _ _).1 (is_range ha))
        (neg_allows ((allowsValue_iff _ _).1 (is_range hb)))

theorem is_times {env : S → ZMod p} {a b : SymExpr p S} {x y : ZMod p} (ha : a.Is env x) (hb : b.Is env y) :
    (a.times b).Is env (x * y) := by
  unfold times
  split
  · rename_i h1 h2
    rw [is_number h1 ha, is_number h2 hb]
    exact is_concrete env _
  split
  · rename_i h
    rw [Bool.or_eq_true] at h
    rcases h with h | h
    · rw [known_number h ha, zero_mul]
      exact is_concrete env _
    · rw [known_number h hb, mul_zero]
      exact is_concrete env _
  split
  · rename_i h
    rw [known_number h ha, one_mul]
    exact hb
  split
  · rename_i h
    rw [known_number h hb, mul_one]
    exact ha
  split
  · rename_i h
    rw [known_number h ha, neg_one_mul]
    exact is_negate hb
  split
  · rename_i h
    rw [known_number h hb, mul_neg_one]
    exact is_negate ha
  · refine is_binary ha hb rfl ?_
    rw [allowsValue_iff]
    exact combineProduct_allows ((allowsValue_iff _ _).1 (is_range ha)) ((allowsValue_iff _ _).1 (is_range hb))

theorem unconstrained_ok (v : ZMod p) : (unconstrained : RangeConstraint p).allowsValue v = true :=
  (allowsValue_iff _ _).2 (unconstrained_allows v)

theorem is_fieldDiv {env : S → ZMod p} {a b : SymExpr p S} {x y : ZMod p} (ha : a.Is env x) (hb : b.Is env y) (hy : y ≠ 0) :
    ∃ c, a.fieldDiv b = .ok c ∧ c.Is env (x / y) := by
  unfold fieldDiv
  split
  · rename_i h1 h2
    rw [is_number h1 ha]
    have := is_number h2 hb
    subst this
    rw [if_neg hy]
    exact ⟨_, rfl, is_concrete env _⟩
  split
  · rename_i h
    rw [known_number h ha, zero_div]
    exact ⟨_, rfl, is_concrete env _⟩
  split
  · rename_i h
    rw [known_number h hb, div_one]
    exact ⟨_, rfl, ha⟩
  split
  · rename_i h
    rw [known_number h hb, div_neg, div_one]
    exact ⟨_, rfl, is_negate ha⟩
  · exact ⟨_, rfl, is_binary ha hb (by simp [opValue, hy]) (unconstrained_ok _)⟩

theorem fieldDiv_panic {a b : SymExpr p S} (h : a.fieldDiv b = .error .assertion) : b = .concrete 0 := by
  unfold fieldDiv at h
  split at h
  · rename_i x y h1 h2
    split at h
    · rename_i hy
      subst hy
      cases b <;> simp only [tryToNumber, Option.some.injEq, reduceCtorEq] at h2
      rw [h2]
    · cases h
  · repeat' split at h
    all_goals cases h

theorem is_fieldInverse {env : S → ZMod p} {a : SymExpr p S} {x : ZMod p} (ha : a.Is env x) (hx : x ≠ 0) :
    ∃ c, a.fieldInverse = .ok c ∧ c.Is env x⁻¹ := by
  have gen : (SymExpr.binary (.concrete 1) .div a RangeConstraint.unconstrained).Is env x⁻¹ :=
    is_binary (is_concrete env 1) ha (by simp [opValue, hx]) (unconstrained_ok _)
  cases a with
  | concrete n =>
    have := is_concrete_inv ha
    subst this
    refine ⟨_, by simp only [fieldInverse, if_neg hx]; rfl, ?_⟩
    rw [← one_div]
    exact is_concrete env _
  | symbol s rc => exact ⟨_, rfl, gen⟩
  | unaryNeg e rc => exact ⟨_, rfl, gen⟩
  | binary l op r rc =>
    cases op with
    | add => exact ⟨_, rfl, gen⟩
    | sub => exact ⟨_, rfl, gen⟩
    | mul => exact ⟨_, rfl, gen⟩
    | div =>
      obtain ⟨y, z, hy, hz, hv, _⟩ := is_binary_inv ha
      simp only [opValue] at hv
      split at hv
      · cases hv
      · simp only [Option.some.injEq] at hv
        subst hv
        have hy0 : y ≠ 0 := by rintro rfl; simp at hx
        exact ⟨_, rfl, is_binary hz hy (by simp [opValue, hy0]) (unconstrained_ok _)⟩

theorem is_fromSymbol {env : S → ZMod p} {s : S} {rc : RangeConstraint p} (h : rc.allowsValue (env s) = true) :
    (fromSymbol s rc).Is env (env s) := by
  unfold fromSymbol
  split
  · rename_i v hv
    have := (tryToSingleValue_eq_some hv (env s)).1 ((allowsValue_iff _ _).1 h)
    rw [this]
    exact is_concrete env _
  · exact ⟨rfl, h⟩

theorem is_applyOp {env : S → ZMod p} {op : SymOp} {a b : SymExpr p S} {x y v : ZMod p} (ha : a.Is env x) (hb : b.Is env y)
    (hv : opValue op x y = some v) : ∃ c, applyOp op a b = .ok c ∧ c.Is env v := by
  cases op with
  | add => cases hv; exact ⟨_, rfl, is_plus ha hb⟩
  | sub => cases hv; exact ⟨_, rfl, is_minus ha hb⟩
  | mul => cases hv; exact ⟨_, rfl, is_times ha hb⟩
  | div =>
    simp only [opValue] at hv
    split at hv
    · cases hv
    · cases hv
      rename_i hy
      exact is_fieldDiv ha hb hy

/-- Other values of symbols that do not occur do not matter. -/
theorem is_congr {env env' : S → ZMod p} {e : SymExpr p S} {v : ZMod p} (heq : ∀ s, e.Mentions s → env s = env' s)
    (h : e.Is env v) : e.Is env' v := by
  induction e generalizing v with
  | concrete n =>
    rw [is_concrete_inv h]
    exact is_concrete env' n
  | symbol s rc =>
    have hs := heq s rfl
    refine ⟨?_, ?_⟩
    · have := h.1
      simpa [value, hs] using this
    · have := h.2
      simpa [Annotated, hs] using this
  | unaryNeg e rc ih =>
    obtain ⟨x, hx, rfl, hrc⟩ := is_neg_inv h
    exact is_neg (ih (fun s hs => heq s hs) hx) hrc
  | binary l op r rc ihl ihr =>
    obtain ⟨x, y, hx, hy, hv, hrc⟩ := is_binary_inv h
    exact is_binary (ihl (fun s hs => heq s (.inl hs)) hx) (ihr (fun s hs => heq s (.inr hs)) hy) hv hrc

/-- A substitution: with the value of the substitution for the symbol, the value is the same. There is no result exactly if the
symbol does not occur. -/
theorem is_computeSubstitution {env : S → ZMod p} {x : S} {sub e : SymExpr p S} {w v : ZMod p} (hsub : sub.Is env w)
    (h : e.Is (Function.update env x w) v) :
    (computeSubstitution x sub e = .ok none ∧ ¬ e.Mentions x) ∨
    ∃ e', computeSubstitution x sub e = .ok (some e') ∧ e.Mentions x ∧ e'.Is env v := by
  induction e generalizing v with
  | concrete n => exact .inl ⟨rfl, id⟩
  | symbol s rc =>
    by_cases hs : s = x
    · subst hs
      refine .inr ⟨sub, by simp [computeSubstitution], rfl, ?_⟩
      have := h.1
      simp only [value, Function.update_self, Option.some.injEq] at this
      rw [← this]
      exact hsub
    · exact .inl ⟨by simp [computeSubstitution, hs], hs⟩
  | unaryNeg e rc ih =>
    obtain ⟨z, hz, rfl, hrc⟩ := is_neg_inv h
    rcases ih hz with ⟨h1, h2⟩ | ⟨e', h1, h2, h3⟩
    · exact .inl ⟨by simp [computeSubstitution, h1, bind, Except.bind], h2⟩
    · exact .inr ⟨e'.negate, by simp [computeSubstitution, h1, bind, Except.bind], h2, is_negate h3⟩
  | binary l op r rc ihl ihr =>
    obtain ⟨y, z, hy, hz, hv, hrc⟩ := is_binary_inv h
    have back : ∀ {e : SymExpr p S} {u : ZMod p}, ¬ e.Mentions x → e.Is (Function.update env x w) u → e.Is env u := by
      intro e u hne hu
      refine is_congr (fun s hs => ?_) hu
      rw [Function.update_of_ne]
      rintro rfl
      exact hne hs
    rcases ihl hy with ⟨h1, h2⟩ | ⟨l', h1, h2, h3⟩ <;> rcases ihr hz with ⟨k1, k2⟩ | ⟨r', k1, k2, k3⟩
    · exact .inl ⟨by simp [computeSubstitution, h1, k1, bind, Except.bind], not_or.2 ⟨h2, k2⟩⟩
    · obtain ⟨c, hc, hc'⟩ := is_applyOp (back h2 hy) k3 hv
      exact .inr ⟨c, by simp [computeSubstitution, h1, k1, bind, Except.bind, hc, Except.map], .inr k2, hc'⟩
    · obtain ⟨c, hc, hc'⟩ := is_applyOp h3 (back k2 hz) hv
      exact .inr ⟨c, by simp [computeSubstitution, h1, k1, bind, Except.bind, hc, Except.map], .inl h2, hc'⟩
    · obtain ⟨c, hc, hc'⟩ := is_applyOp h3 k3 hv
      exact .inr ⟨c, by simp [computeSubstitution, h1, k1, bind, Except.bind, hc, Except.map], .inl h2, hc'⟩

theorem is_substitute {env : S → ZMod p} {x : S} {sub e : SymExpr p S} {w v : ZMod p} (hsub : sub.Is env w)
    (h : e.Is (Function.update env x w) v) : ∃ e', substitute x sub e = .ok e' ∧ e'.Is env v := by
  rcases is_computeSubstitution hsub h with ⟨h1, h2⟩ | ⟨e', h1, h2, h3⟩
  · refine ⟨e, by simp [substitute, h1, bind, Except.bind], is_congr (fun s hs => ?_) h⟩
    rw [Function.update_of_ne]
    rintro rfl
    exact h2 hs
  · exact ⟨e', by simp [substitute, h1, bind, Except.bind], h3⟩

omit [DecidableEq S]

theorem is_tryTransform {env : S' → ZMod p} {f : S → Option S'} {g : S → ZMod p} {e : SymExpr p S} {e' : SymExpr p S'}
    {v : ZMod p} (hg : ∀ s s', f s = some s' → g s = env s') (h : e.tryTransform f = some e') (hv : e.Is g v) : e'.Is env v := by
  induction e generalizing e' v with
  | concrete n =>
    simp only [tryTransform, Option.some.injEq] at h
    subst h
    rw [is_concrete_inv hv]
    exact is_concrete env n
  | symbol s rc =>
    simp only [tryTransform, Option.map_eq_some_iff] at h
    obtain ⟨s', hs, rfl⟩ := h
    have h1 := hv.1
    have h2 := hv.2
    simp only [value, Option.some.injEq] at h1
    simp only [Annotated] at h2
    rw [hg s s' hs] at h1 h2
    rw [← h1]
    classical exact is_fromSymbol h2
  | unaryNeg e rc ih =>
    simp only [tryTransform, Option.map_eq_some_iff] at h
    obtain ⟨e1, h1, rfl⟩ := h
    obtain ⟨x, hx, rfl, hrc⟩ := is_neg_inv hv
    exact is_neg (ih h1 hx) hrc
  | binary l op r rc ihl ihr =>
    simp only [tryTransform, Option.bind_eq_bind, Option.bind_eq_some_iff, Option.some.injEq] at h
    obtain ⟨l', h1, r', h2, rfl⟩ := h
    obtain ⟨x, y, hx, hy, hop, hrc⟩ := is_binary_inv hv
    exact is_binary (ihl h1 hx) (ihr h2 hy) hop hrc

theorem tryTransform_isSome (f : S → Option S') (e : SymExpr p S) :
    (∃ e', e.tryTransform f = some e') ↔ ∀ s, e.Mentions s → ∃ s', f s = some s' := by
  induction e with
  | concrete n => simp [tryTransform, Mentions]
  | symbol s rc =>
    simp only [tryTransform, Option.map_eq_some_iff, Mentions]
    constructor
    · rintro ⟨_, s', h, _⟩ t rfl
      exact ⟨s', h⟩
    · intro h
      obtain ⟨s', hs⟩ := h s rfl
      exact ⟨_, s', hs, rfl⟩
  | unaryNeg e rc ih =>
    simp only [tryTransform, Option.map_eq_some_iff, Mentions]
    rw [← ih]
    constructor
    · rintro ⟨_, e', h, _⟩
      exact ⟨e', h⟩
    · rintro ⟨e', h⟩
      exact ⟨_, e', h, rfl⟩
  | binary l op r rc ihl ihr =>
    simp only [tryTransform, Option.bind_eq_bind, Option.bind_eq_some_iff, Option.some.injEq, Mentions]
    constructor
    · rintro ⟨_, l', h1, r', h2, _⟩ s (hs | hs)
      · exact ihl.1 ⟨_, h1⟩ s hs
      · exact ihr.1 ⟨_, h2⟩ s hs
    · intro h
      obtain ⟨l', h1⟩ := ihl.2 fun s hs => h s (.inl hs)
      obtain ⟨r', h2⟩ := ihr.2 fun s hs => h s (.inr hs)
      exact ⟨_, l', h1, r', h2, rfl⟩

end SymExpr

end Verif
