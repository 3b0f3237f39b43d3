import Verif.Proofs.Roots
import Verif.Props.Supported

/-! # Property C102: a product of linear factors in one variable is solved for its roots -/

set_option linter.unusedSectionVars false

namespace Verif

open GExpr RangeConstraint Spec

variable {p : ℕ} [Fact p.Prime] {V : Type} [LinearOrder V]

/-- C102: solving a product of linear factors in `x`. The roots that are in the interval known for `x` have all or none of
their bits in the known mask. A contradiction is reported exactly if no root is possible. Otherwise there is one effect,
about `x`: it is the assignment of a root, or a range constraint, and what it allows are the values between two possible
roots whose bits are bits of possible roots. -/
theorem C102_product (rc : V → RangeConstraint p) {x : V} {S : List (ZMod p)} {e : GExpr p V} (h : ProductOf x S e)
    (hw : WF e)
    (hm : ∀ s ∈ S, Between (rc x).min (rc x).max s → BitsWithin (rc x).mask s.val ∨
      (s ≠ 0 ∧ ∀ i, ¬ ((rc x).mask.testBit i = true ∧ s.val.testBit i = true))) :
    ((∃ err, GExpr.solve rc e = .ok (.error err)) ↔ ∀ s ∈ S, (rc x).allowsValue s = false) ∧
    ∀ r, GExpr.solve rc e = .ok (.ok r) → ∃ eff, r.effects = [eff] ∧
      ((∃ s ∈ S, (rc x).allowsValue s = true ∧ eff = .assignment x s ∧
          ∀ t ∈ S, (rc x).allowsValue t = true → t = s) ∨
        ∃ R, eff = .rangeConstraint x R ∧ ∀ v, R.allowsValue v = true ↔
          (∃ s ∈ S, ∃ t ∈ S, (rc x).allowsValue s = true ∧ (rc x).allowsValue t = true ∧
            s.val ≤ v.val ∧ v.val ≤ t.val) ∧
          ∀ i, v.val.testBit i = true → ∃ s ∈ S, (rc x).allowsValue s = true ∧ s.val.testBit i = true) := by
  rcases product_solve rc h hm hw with ⟨h1, err, h2⟩ | ⟨r, eff, R, h1, h2, h3, h4, h5⟩
  · refine ⟨⟨fun _ s hs => by simpa using h1 s hs, fun _ => ⟨err, h2⟩⟩, ?_⟩
    intro r hr
    rw [h2] at hr
    cases hr
  · refine ⟨⟨?_, ?_⟩, ?_⟩
    · rintro ⟨err, he⟩
      rw [h1] at he
      cases he
    · intro hn
      have := h5.minMem
      rw [List.mem_filter, hn _ (List.mem_of_mem_filter h5.minMem)] at this
      cases this.2
    · intro r' hr
      rw [h1] at hr
      cases hr
      refine ⟨eff, h2, ?_⟩
      rcases h4 with rfl | ⟨s, rfl, rfl⟩
      · right
        refine ⟨R, rfl, fun v => ?_⟩
        rw [hull_allows h5]
        simp only [List.mem_filter]
        constructor
        · rintro ⟨⟨s, hs, t, ht, g1, g2⟩, g3⟩
          refine ⟨⟨s, hs.1, t, ht.1, hs.2, ht.2, g1, g2⟩, fun i hi => ?_⟩
          obtain ⟨u, hu, g4⟩ := g3 i hi
          exact ⟨u, hu.1, hu.2, g4⟩
        · rintro ⟨⟨s, hs, t, ht, ks, kt, g1, g2⟩, g3⟩
          refine ⟨⟨s, ⟨hs, ks⟩, t, ⟨ht, kt⟩, g1, g2⟩, fun i hi => ?_⟩
          obtain ⟨u, hu, ku, g4⟩ := g3 i hi
          exact ⟨u, ⟨hu, ku⟩, g4⟩
      · left
        have hs := h5.minMem
        rw [List.mem_filter] at hs
        refine ⟨s, hs.1, hs.2, rfl, fun t ht kt => ?_⟩
        have := h5.bounds t (List.mem_filter.2 ⟨ht, kt⟩)
        exact ZMod.val_injective p (le_antisymm this.2 this.1)

/-- C102: `x * (x - 1) = 0`, in any form. If the range that is known for `x` allows 0 and 1, then what is deduced is exactly
that `x` is 0 or 1; if it allows one of them, `x` has that value; if it allows none, there is a contradiction. -/
theorem C102_boolean (rc : V → RangeConstraint p) {x : V} {S : List (ZMod p)} {e : GExpr p V} (h : ProductOf x S e)
    (hw : WF e) (hS : ∀ s, s ∈ S ↔ s = 0 ∨ s = 1) :
    ((rc x).allowsValue 0 = false → (rc x).allowsValue 1 = false →
      ∃ err, GExpr.solve rc e = .ok (.error err)) ∧
    ∀ r, GExpr.solve rc e = .ok (.ok r) → ∃ eff, r.effects = [eff] ∧
      ((∃ s, (s = 0 ∨ s = 1) ∧ (rc x).allowsValue s = true ∧ eff = .assignment x s ∧
          ∀ t, (t = 0 ∨ t = 1) → (rc x).allowsValue t = true → t = s) ∨
        ∃ R, eff = .rangeConstraint x R ∧ ∀ v, R.allowsValue v = true ↔
          (v = 0 ∨ v = 1) ∧ (rc x).allowsValue v = true) := by
  have hp : 1 < p := (Fact.out : p.Prime).one_lt
  have : Fact (1 < p) := ⟨hp⟩
  have v1 : (1 : ZMod p).val = 1 := ZMod.val_one p
  have b1 : ∀ i, Nat.testBit 1 i = true ↔ i = 0 := by
    intro i; rw [Nat.testBit_one_eq_true_iff_self_eq_zero]
  have hm : ∀ s ∈ S, Between (rc x).min (rc x).max s → BitsWithin (rc x).mask s.val ∨
      (s ≠ 0 ∧ ∀ i, ¬ ((rc x).mask.testBit i = true ∧ s.val.testBit i = true)) := by
    intro s hs _
    rcases (hS s).1 hs with rfl | rfl
    · left; intro i; simp
    · rw [v1]
      by_cases hb : (rc x).mask.testBit 0 = true
      · left
        intro i hi
        rw [(b1 i).1 hi]; exact hb
      · right
        refine ⟨one_ne_zero, ?_⟩
        rintro i ⟨h1, h2⟩
        rw [(b1 i).1 h2] at h1
        exact hb h1
  obtain ⟨h1, h2⟩ := C102_product rc h hw hm
  refine ⟨?_, ?_⟩
  · intro n0 n1
    apply h1.2
    intro s hs
    rcases (hS s).1 hs with rfl | rfl
    · exact n0
    · exact n1
  · intro r hr
    obtain ⟨eff, g1, g2⟩ := h2 r hr
    refine ⟨eff, g1, ?_⟩
    rcases g2 with ⟨s, hs, ks, g2, g3⟩ | ⟨R, g2, g3⟩
    · exact .inl ⟨s, (hS s).1 hs, ks, g2, fun t ht => g3 t ((hS t).2 ht)⟩
    · right
      refine ⟨R, g2, fun v => ?_⟩
      rw [g3]
      constructor
      · rintro ⟨⟨s, hs, t, ht, ks, kt, l1, l2⟩, -⟩
        rcases (hS s).1 hs with rfl | rfl <;> rcases (hS t).1 ht with rfl | rfl
        · have : v = 0 := ZMod.val_injective p (by rw [ZMod.val_zero] at *; omega)
          subst this; exact ⟨.inl rfl, ks⟩
        · rw [ZMod.val_zero] at l1
          rw [v1] at l2
          rcases Nat.lt_or_ge v.val 1 with h3 | h3
          · have : v = 0 := ZMod.val_injective p (by rw [ZMod.val_zero]; omega)
            subst this; exact ⟨.inl rfl, ks⟩
          · have : v = 1 := ZMod.val_injective p (by rw [v1]; omega)
            subst this; exact ⟨.inr rfl, kt⟩
        · rw [v1] at l1
          rw [ZMod.val_zero] at l2
          omega
        · rw [v1] at l1 l2
          have : v = 1 := ZMod.val_injective p (by rw [v1]; omega)
          subst this; exact ⟨.inr rfl, ks⟩
      · rintro ⟨hv, kv⟩
        have hv' := (hS v).2 hv
        exact ⟨⟨v, hv', v, hv', kv, kv, le_refl _, le_refl _⟩, fun i hi => ⟨v, hv', kv, hi⟩⟩

/-- C102: after `solve`, in every history, for a constraint of the solver that is a product of linear factors in `x`, whose
roots have all or none of their bits in the mask of `x`: some root is still allowed, every bit of a value that is still
allowed for `x` is a bit of a root that is allowed, and if the interval of `x` does not wrap around, the value is between
two such roots. -/
theorem C102_settled (bus : Bus p) (h : Handler p) (hs : h.Sound bus)
    (ops : List (SolverOp p V)) (ch : Choices p V) (hw : ∀ op ∈ ops, op.WF)
    (outs : List (SolverOut p V)) (s : Solver p V)
    (ho : runOps h (ops ++ [.solve ch]) Solver.new = .ok (outs, s))
    {e : GExpr p (SVar V)} (he : e ∈ s.cs.ix.sys.algebraic) {x : SVar V} {S : List (ZMod p)} (hx : ProductOf x S e)
    (hm : ∀ t ∈ S, Between (s.rcs x).min (s.rcs x).max t → BitsWithin (s.rcs x).mask t.val ∨
      (t ≠ 0 ∧ ∀ i, ¬ ((s.rcs x).mask.testBit i = true ∧ t.val.testBit i = true))) :
    (∃ t ∈ S, (s.rcs x).allowsValue t = true) ∧ ∀ v, (s.rcs x).allowsValue v = true →
      (∀ i, v.val.testBit i = true → ∃ t ∈ S, (s.rcs x).allowsValue t = true ∧ t.val.testBit i = true) ∧
      ((s.rcs x).min.val ≤ (s.rcs x).max.val → ∃ t ∈ S, ∃ u ∈ S, (s.rcs x).allowsValue t = true ∧
        (s.rcs x).allowsValue u = true ∧ t.val ≤ v.val ∧ v.val ≤ u.val) := by
  have hwf : WF e := by
    refine (Solver.runOps_settled hs Solver.inv_new Solver.settled_new ?_ ho).1.wf.1 _ he
    intro op hop
    rcases List.mem_append.1 hop with hop | hop
    · exact hw op hop
    · rw [List.mem_singleton.1 hop]
      trivial
  obtain ⟨-, r, hr, hnews⟩ := (C99_fixpoint bus h hs ops ch hw outs s ho).1 _ he
  rcases product_solve s.rcs hx hm hwf with ⟨-, err, h2⟩ | ⟨r', eff, R, h1, h2, h3, h4, h5⟩
  · rw [h2] at hr; cases hr
  rw [h1] at hr
  cases hr
  have hn := hnews eff (by rw [h2]; simp)
  rcases h4 with rfl | ⟨t, rfl, rfl⟩
  swap
  · exact hn.elim
  change (s.rcs x).conjunction R = s.rcs x at hn
  have h0 := List.mem_filter.1 h5.minMem
  have h6 : R.allowsValue R.min = true :=
    (hull_allows h5 _).2 ⟨⟨_, h5.minMem, _, h5.minMem, le_refl _, le_refl _⟩, fun i hi => ⟨_, h5.minMem, hi⟩⟩
  have hc := C100_conjunction (s.rcs x) R h0.2 h6
  refine ⟨⟨_, h0⟩, fun v hv => ⟨?_, fun hle => ?_⟩⟩
  · intro i hi
    obtain ⟨-, g2, -⟩ := hc.1 v (by rw [hn]; exact hv)
    obtain ⟨t, ht, g3⟩ := (h5.bits i).1 (g2 i hi)
    have ht' := List.mem_filter.1 ht
    exact ⟨t, ht'.1, ht'.2, g3⟩
  · have g := (hc.2 ?_ v).1 (by rw [hn]; exact hv)
    · obtain ⟨⟨t, ht, u, hu, l1, l2⟩, -⟩ := (hull_allows h5 v).1 g.2
      have ht' := List.mem_filter.1 ht
      have hu' := List.mem_filter.1 hu
      exact ⟨t, ht'.1, u, hu'.1, ht'.2, hu'.2, l1, l2⟩
    · refine ⟨fmax (s.rcs x).min R.min, fmin (s.rcs x).max R.max, fun w => ?_⟩
      simp only [← inCyc_iff_between, inCyc_iff]
      have g1 := ((allowsValue_iff _ _).1 h0.2).1
      rw [inCyc_iff, if_pos hle] at g1
      have g2 := h5.le
      rw [if_pos hle, if_pos g2, val_fmax, val_fmin]
      have e1 : Nat.max (s.rcs x).min.val R.min.val = max (s.rcs x).min.val R.min.val := rfl
      have e2 : Nat.min (s.rcs x).max.val R.max.val = min (s.rcs x).max.val R.max.val := rfl
      rw [e1, e2, if_pos (by omega)]
      omega

/-- C102: after `solve`, in every history: if a constraint of the solver is `x * (x - 1) = 0`, in any form, then only 0 and
1 are still allowed for `x`. -/
theorem C102_settled_boolean (bus : Bus p) (h : Handler p) (hs : h.Sound bus)
    (ops : List (SolverOp p V)) (ch : Choices p V) (hw : ∀ op ∈ ops, op.WF)
    (outs : List (SolverOut p V)) (s : Solver p V)
    (ho : runOps h (ops ++ [.solve ch]) Solver.new = .ok (outs, s))
    {e : GExpr p (SVar V)} (he : e ∈ s.cs.ix.sys.algebraic) {x : SVar V} {S : List (ZMod p)} (hx : ProductOf x S e)
    (hS : ∀ s, s ∈ S ↔ s = 0 ∨ s = 1) (v : ZMod p) (hv : (s.rcs x).allowsValue v = true) : v = 0 ∨ v = 1 := by
  have : Fact (1 < p) := ⟨(Fact.out : p.Prime).one_lt⟩
  have v1 : (1 : ZMod p).val = 1 := ZMod.val_one p
  have b : ∀ s ∈ S, ∀ i, s.val.testBit i = true → i = 0 := by
    intro s hs i hi
    rcases (hS s).1 hs with rfl | rfl
    · simp at hi
    · rw [v1] at hi
      exact Nat.testBit_one_eq_true_iff_self_eq_zero.1 hi
  have g := ((C102_settled bus h hs ops ch hw outs s ho he hx (fun t ht _ => ?_)).2 v hv).1
  · have h2 : v.val < 2 := by
      refine Nat.lt_pow_two_of_testBit (n := 1) _ fun i hi => ?_
      rw [Bool.eq_false_iff]
      intro h3
      obtain ⟨t, ht, -, h4⟩ := g i h3
      have := b t ht i h4
      omega
    rcases Nat.lt_or_ge v.val 1 with h3 | h3
    · exact .inl (ZMod.val_injective p (by rw [ZMod.val_zero]; omega))
    · exact .inr (ZMod.val_injective p (by rw [v1]; omega))
  · rcases (hS t).1 ht with rfl | rfl
    · left; intro i; simp
    · by_cases hb : (s.rcs x).mask.testBit 0 = true
      · left
        intro i hi
        rw [b 1 ht i hi]; exact hb
      · right
        refine ⟨one_ne_zero, ?_⟩
        rintro i ⟨h1, h2⟩
        rw [b 1 ht i h2] at h1
        exact hb h1

/-! ### Concrete instances -/

/-- `(x0 - 1) * (2 * x0 + 3) = 0`, with the roots 1 and 7 in the field with 17 elements. -/
def rootsSample : GExpr 17 ℕ := mk [(mk [] [(0, 1)] (-1), mk [] [(0, 2)] 3)] [] 0

example : rootsSample = (var 0 - const 1) * (scale 2 (var 0) + const 3) := by decide +kernel
example : ProductOf 0 [1, 7] rootsSample :=
  .product (S := [1]) (T := [7]) (.factor (by decide) (by decide)) (.factor (by decide) (by decide))
/-- Both roots are possible. -/
example : (GExpr.solve (fun _ => .unconstrained) rootsSample).toOption.bind (fun r => r.toOption.map (·.effects)) =
    some [.rangeConstraint 0 ⟨7, 1, 7⟩] := by decide +kernel
/-- One root is possible. -/
example : (GExpr.solve (fun _ => .fromRange 0 4) rootsSample).toOption.bind (fun r => r.toOption.map (·.effects)) =
    some [.assignment 0 1] := by decide +kernel
/-- No root is possible. -/
example : GExpr.solve (fun _ => .fromRange 2 4) rootsSample = .ok (.error .constraintUnsatisfiable) ∨
    GExpr.solve (fun _ => .fromRange 2 4) rootsSample = .ok (.error .conflictingRangeConstraints) := by decide +kernel
example : ProductOf 0 [0, 1] (mk [(mk [] [(0, 1)] 0, mk [] [(0, 1)] (-1))] [] 0 : GExpr 17 ℕ) :=
  .product (S := [0]) (T := [1]) (.factor (by decide) (by decide)) (.factor (by decide) (by decide))

/-- A history in which such constraints remain: `x0 * (x0 - 1) = 0` and `x1 * (x1 - 4) = 0`. -/
def rootsHistory : List (SolverOp 17 ℕ) :=
  [.addAlgebraic [mk [(mk [] [(0, 1)] 0, mk [] [(0, 1)] (-1))] [] 0, mk [(mk [] [(1, 1)] 0, mk [] [(1, 1)] (-4))] [] 0],
    .solve (plainChoices 17 ℕ)]

example : (solverState (runOps defaultHandler rootsHistory Solver.new)).map (fun r =>
    (decide (mk [(mk [] [(.original 0, 1)] 0, mk [] [(.original 0, 1)] (-1))] [] 0 ∈ r.1),
      decide (mk [(mk [] [(.original 1, 1)] 0, mk [] [(.original 1, 1)] (-4))] [] 0 ∈ r.1), r.2)) =
    some (true, true, .fromRange 0 1, ⟨4, 0, 4⟩) := by
  decide +kernel

end Verif
