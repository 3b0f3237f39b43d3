import Verif.Proofs.Solve
import Verif.Proofs.ConstraintSystem
import Verif.Proofs.ExhaustiveSearch
import Verif.Proofs.Linearizer

/-! Helper lemmas for the solver: widths, and which effects a constraint can have. -/

set_option linter.unusedSectionVars false

namespace Verif

variable {p : ℕ} [Fact p.Prime]

theorem rangeWidth_val (min max : ZMod p) : rangeWidth min max =
    if min.val ≤ max.val then max.val - min.val + 1 else p + max.val - min.val + 1 := by
  rw [rangeWidth_eq, val_sub_eq]
  split <;> rfl

theorem rangeWidth_shift (min max s : ZMod p) :
    rangeWidth (min + s) (max + s) = rangeWidth min max := by
  rw [rangeWidth_eq, rangeWidth_eq, add_sub_add_right_eq_sub]

namespace RangeConstraint

theorem intervalIntersection_width {a b i : ZMod p × ZMod p}
    (h : intervalIntersection a b = some i) : rangeWidth i.1 i.2 ≤ rangeWidth a.1 a.2 := by
  have key : ∀ s : ZMod p, fle (a.1 + -s) (a.2 + -s) →
      fle (fmax (a.1 + -s) (b.1 + -s)) (fmin (a.2 + -s) (b.2 + -s)) →
      rangeWidth (fmax (a.1 + -s) (b.1 + -s) + s) (fmin (a.2 + -s) (b.2 + -s) + s) ≤
        rangeWidth a.1 a.2 := by
    intro s h1 h2
    rw [rangeWidth_shift, ← rangeWidth_shift a.1 a.2 (-s), rangeWidth_val, rangeWidth_val]
    unfold fle at h1 h2
    rw [if_pos h1, if_pos h2]
    rw [val_fmax, val_fmin] at h2 ⊢
    have := Nat.le_max_left (a.1 + -s).val (b.1 + -s).val
    have := Nat.min_le_left (a.2 + -s).val (b.2 + -s).val
    simp only [Nat.max_def, Nat.min_def] at *
    omega
  unfold intervalIntersection at h
  simp only at h
  split at h
  · rename_i shift aS bS hm
    split at h
    · rename_i hle
      cases h
      rw [Option.or_eq_some_iff] at hm
      rcases hm with hm | ⟨-, hm⟩
      · split at hm
        · rename_i hh
          simp only [Option.some.injEq, Prod.mk.injEq] at hm
          obtain ⟨rfl, rfl, rfl⟩ := hm
          exact key _ hh.1 hle
        · cases hm
      · split at hm
        · rename_i hh
          simp only [Option.some.injEq, Prod.mk.injEq] at hm
          obtain ⟨rfl, rfl, rfl⟩ := hm
          exact key _ hh.1 hle
        · cases hm
    · cases h
  · split at h
    · cases h; exact le_rfl
    · cases h; omega

theorem conjunction_width (a b : RangeConstraint p) : (a.conjunction b).width ≤ a.width := by
  have h0 : rangeWidth ((intervalIntersection (a.min, a.max) (b.min, b.max)).getD (0, 0)).1
      ((intervalIntersection (a.min, a.max) (b.min, b.max)).getD (0, 0)).2 ≤ a.width := by
    cases h : intervalIntersection (a.min, a.max) (b.min, b.max) with
    | none =>
      have := a.width_pos
      simp only [Option.getD_none]
      rw [rangeWidth_eq]
      simpa using Nat.succ_le_of_lt this
    | some i => exact intervalIntersection_width h
  unfold conjunction
  simp only
  generalize (intervalIntersection (a.min, a.max) (b.min, b.max)).getD (0, 0) = i at h0 ⊢
  obtain ⟨min, max⟩ := i
  simp only at h0 ⊢
  refine le_trans ?_ h0
  unfold width
  simp only
  split
  · rename_i hm
    have hv : (((a.mask &&& b.mask : ℕ) : ZMod p)).val = a.mask &&& b.mask := val_cast_of_lt hm
    split
    · rename_i hle
      unfold fle at hle
      simp only [rangeWidth_val, val_fmin, hv, if_pos hle, Nat.min_def]
      split_ifs <;> omega
    · rename_i hle
      unfold fle at hle
      split
      · simp only [rangeWidth_val, val_fmin, hv, if_neg hle, Nat.min_def, ZMod.val_zero]
        have := ZMod.val_lt min
        split_ifs <;> omega
      · exact le_rfl
  · exact le_rfl

theorem not_disjoint_fromValue {r : RangeConstraint p} {a : ZMod p}
    (h : r.isDisjoint (.fromValue a) = false) :
    InCyc r.min r.max a ∧ ((a = 0 ∧ r.Allows 0) ∨ r.mask &&& a.val ≠ 0) := by
  unfold isDisjoint at h
  simp only [Bool.or_eq_false_iff, Bool.and_eq_false_iff, Bool.not_eq_false', Bool.and_eq_true,
    decide_eq_false_iff_not, allowsValue_iff, fromValue_allows] at h
  obtain ⟨h1, h2⟩ := h
  constructor
  · unfold intervalIntersection fromValue at h2
    simp only [fle, add_neg_cancel, ZMod.val_zero, Nat.zero_le, le_refl, and_true, ↓reduceIte,
      Option.some_or] at h2
    split at h2
    · rename_i hh
      rw [val_fmax, val_fmin] at hh
      unfold InCyc
      have : (a - r.min).val ≤ (r.max - r.min).val := by
        simp only [ZMod.val_zero, Nat.max_def, Nat.min_def, ← sub_eq_add_neg] at hh
        split_ifs at hh <;> omega
      exact this
    · simp at h2
  · rcases h1 with h1 | h1
    · exact Or.inl ⟨h1.2.symm, h1.1⟩
    · exact Or.inr (by simpa [fromValue] using h1)

/-- If two values pass the test, so does the range constraint shifted by their difference. -/
theorem not_disjoint_shift {r : RangeConstraint p} {a b : ZMod p}
    (ha : r.isDisjoint (.fromValue a) = false) (hb : r.isDisjoint (.fromValue b) = false) :
    (r.combineSum (.fromValue (a + -b))).isDisjoint r = false := by
  obtain ⟨a1, a2⟩ := not_disjoint_fromValue ha
  obtain ⟨b1, -⟩ := not_disjoint_fromValue hb
  have hval : InCyc (fromValue (a + -b) : RangeConstraint p).min (fromValue (a + -b)).max (a + -b) := by
    unfold InCyc fromValue; simp
  have hc : InCyc (r.combineSum (.fromValue (a + -b))).min (r.combineSum (.fromValue (a + -b))).max
      a := by
    unfold combineSum
    simp only
    by_cases hw : r.width + (fromValue (a + -b)).width ≤ (unconstrained : RangeConstraint p).width
    · simp only [if_pos hw]
      have := inCyc_add b1 hval (by rwa [unconstrained_width] at hw)
      rwa [show b + (a + -b) = a by ring] at this
    · simp only [if_neg hw]
      exact inCyc_full a
  have hint : (intervalIntersection ((r.combineSum (.fromValue (a + -b))).min,
      (r.combineSum (.fromValue (a + -b))).max) (r.min, r.max)).isNone = false := by
    obtain ⟨i, hi, -⟩ := intervalIntersection_sound (a := ((r.combineSum (.fromValue (a + -b))).min,
      (r.combineSum (.fromValue (a + -b))).max)) (b := (r.min, r.max)) hc a1
    rw [hi]; rfl
  unfold isDisjoint
  rw [hint, Bool.or_false]
  simp only [Bool.and_eq_false_iff, Bool.not_eq_false', Bool.and_eq_true, decide_eq_false_iff_not,
    allowsValue_iff]
  rcases a2 with ⟨rfl, h0⟩ | hm
  · left
    exact ⟨⟨hc, by rw [ZMod.val_zero]; exact InMask.zero _⟩, h0⟩
  · right
    intro hz
    obtain ⟨i, hi⟩ := Nat.exists_testBit_of_ne_zero hm
    rw [Nat.testBit_and, Bool.and_eq_true] at hi
    have hcm : ((r.combineSum (.fromValue (a + -b))).mask).testBit i = true := by
      have h1 : (if r.mask + (fromValue (a + -b) : RangeConstraint p).mask ≥ p then
          (unconstrained : RangeConstraint p).mask
          else (r.mask + (fromValue (a + -b) : RangeConstraint p).mask) ||| r.mask |||
            (fromValue (a + -b) : RangeConstraint p).mask).testBit i = true := by
        split
        · exact (unconstrained_allows a).2 i hi.2
        · rw [Nat.testBit_or, Nat.testBit_or, hi.1]; simp
      have h2 : (fromRange (r.combineSum (.fromValue (a + -b))).min
          (r.combineSum (.fromValue (a + -b))).max).mask.testBit i = true :=
        inMask_fromRange hc i hi.2
      have h3 : (r.combineSum (.fromValue (a + -b))).mask = if fle
          (r.combineSum (.fromValue (a + -b))).min (r.combineSum (.fromValue (a + -b))).max then
          (if r.mask + (fromValue (a + -b) : RangeConstraint p).mask ≥ p then
          (unconstrained : RangeConstraint p).mask
          else (r.mask + (fromValue (a + -b) : RangeConstraint p).mask) ||| r.mask |||
            (fromValue (a + -b) : RangeConstraint p).mask) &&&
            (fromRange (r.combineSum (.fromValue (a + -b))).min
              (r.combineSum (.fromValue (a + -b))).max).mask else
          (if r.mask + (fromValue (a + -b) : RangeConstraint p).mask ≥ p then
          (unconstrained : RangeConstraint p).mask
          else (r.mask + (fromValue (a + -b) : RangeConstraint p).mask) ||| r.mask |||
            (fromValue (a + -b) : RangeConstraint p).mask) := rfl
      rw [h3]
      split
      · rw [Nat.testBit_and, h1, h2]; rfl
      · exact h1
    have : ((r.combineSum (.fromValue (a + -b))).mask &&& r.mask).testBit i = true := by
      rw [Nat.testBit_and, hcm, hi.1]; rfl
    rw [hz] at this
    simp at this

end RangeConstraint

namespace GExpr

variable {V : Type} [LinearOrder V] {rc : V → RangeConstraint p}

/-- Assignments pass the test against the range constraint; there are no conditional assignments
or assertions. -/
def SimpleEffect (rc : V → RangeConstraint p) : Effect p V → Prop
  | .assignment v a => (rc v).isDisjoint (.fromValue a) = false
  | .rangeConstraint _ _ => True
  | _ => False

theorem transferLoop_simple {e : GExpr p V} : ∀ {l : List (V × ZMod p)} {effects : List (Effect p V)},
    transferLoop rc e l = .ok effects → ∀ eff ∈ effects, SimpleEffect rc eff := by
  intro l
  induction l with
  | nil => intro effects h; rw [transferLoop] at h; cases h; simp
  | cons x t ih =>
    intro effects h
    rw [transferLoop] at h
    split at h
    · cases h
    · cases h
    · rename_i h1 h2; cases h; exact ih h2
    · rename_i h1 h2
      split at h
      · cases h; exact ih h2
      · cases h
        intro eff he
        rcases List.mem_cons.1 he with rfl | he
        · trivial
        · exact ih h2 eff he

theorem solve_simple {e : GExpr p V} : ∀ {r : ProcessResult p V}, solve rc e = .ok (.ok r) →
    ∀ eff ∈ r.effects, SimpleEffect rc eff := by
  induction e using ind with
  | h q l c ih =>
    intro r h
    rcases q with _ | ⟨⟨a, b⟩, _ | ⟨cd, q⟩⟩
    · rcases l with _ | ⟨x, l⟩
      · rw [solve] at h
        split at h
        · cases h
        split at h
        · cases h
        · cases h; simp
      · rw [solve] at h
        split at h
        · cases h
        unfold solveAffine at h
        split at h
        · rename_i v k hl
          split at h
          · cases h
          unfold assignmentIfSatisfies at h
          split at h
          · cases h
          · rename_i hd
            cases h
            intro eff he
            simp only [List.mem_singleton] at he
            subst he
            simpa [SimpleEffect] using hd
        · unfold transferConstraints at h
          split at h
          · cases h
          cases ht : transferLoop rc (mk [] (x :: l) c) (mk [] (x :: l) c).linear with
          | error y => rw [ht] at h; cases h
          | ok effects => rw [ht] at h; cases h; exact transferLoop_simple ht
    · rcases l with _ | ⟨x, l⟩
      · rw [solve] at h
        split at h
        · cases h
        split at h
        · cases h; simp [ProcessResult.empty]
        split at h
        · cases h
        · cases h
        · rename_i ra rb h1 h2
          have ha : ∀ r, solve rc a = .ok (.ok r) → ∀ eff ∈ r.effects, SimpleEffect rc eff :=
            fun r => (ih (a, b) (by simp)).1
          have hb : ∀ r, solve rc b = .ok (.ok r) → ∀ eff ∈ r.effects, SimpleEffect rc eff :=
            fun r => (ih (a, b) (by simp)).2
          simp only [Except.ok.injEq] at h
          unfold combineSolutions at h
          split at h
          · subst h; exact hb _ h2
          · subst h; exact ha _ h1
          · rename_i left right
            cases h
            have hL := ha _ h1
            have hR := hb _ h2
            have hrc : ∀ eff ∈ (combineRangeConstraints left right).effects,
                SimpleEffect rc eff := by
              intro eff he
              unfold combineRangeConstraints at he
              simp only [List.mem_map] at he
              obtain ⟨y, -, rfl⟩ := he
              trivial
            cases hc : combineToConditionalAssignment rc left right with
            | none => exact hrc
            | some r' =>
              exfalso
              unfold combineToConditionalAssignment at hc
              split at hc
              · rename_i v a' w b' hl hr
                split at hc
                · cases hc
                rename_i hvw
                simp only [ne_eq, not_not] at hvw
                subst hvw
                rw [hl] at hL
                rw [hr] at hR
                have h5 : (rc v).isDisjoint (.fromValue a') = false :=
                  hL (.assignment v a') (by simp)
                have h6 : (rc v).isDisjoint (.fromValue b') = false :=
                  hR (.assignment v b') (by simp)
                have := RangeConstraint.not_disjoint_shift h5 h6
                simp only [this, Bool.not_false, ↓reduceIte] at hc
                cases hc
              · cases hc
      · rw [solve] at h
        · split at h
          · cases h
          · cases h; simp [ProcessResult.empty]
        · simp
    · rw [solve] at h
      · split at h
        · cases h
        · cases h; simp [ProcessResult.empty]
      · simp

theorem solveFields_simple : ∀ {l : List (GExpr p V × RangeConstraint p)}
    {effects : List (Effect p V)}, solveFields rc l = .ok effects →
    ∀ eff ∈ effects, ∃ v r, eff = .rangeConstraint v r ∧ ∃ x ∈ l, v ∈ vars x.1 := by
  have hv : ∀ (e : GExpr p V) (r : RangeConstraint p) (vs : List V) (effects : List (Effect p V)),
      solveFieldVars rc e r vs = .ok effects →
      ∀ eff ∈ effects, ∃ v r, eff = .rangeConstraint v r ∧ v ∈ vs := by
    intro e r vs
    induction vs with
    | nil => intro effects h; rw [solveFieldVars] at h; cases h; simp
    | cons v vs ih =>
      intro effects h
      rw [solveFieldVars] at h
      cases h1 : solveFieldVar rc e r v with
      | error x => rw [h1] at h; cases h
      | ok o =>
        rw [h1, ok_bind] at h
        cases h2 : solveFieldVars rc e r vs with
        | error x => rw [h2] at h; cases h
        | ok es =>
          rw [h2, ok_bind] at h
          cases h
          intro eff he
          rcases List.mem_append.1 he with he | he
          · rw [Option.mem_toList] at he
            subst he
            unfold solveFieldVar at h1
            split at h1
            · cases h1
            split at h1
            · cases h1
            · cases h1
            · simp only [Except.ok.injEq] at h1
              split at h1
              · cases h1
              · cases h1; exact ⟨v, _, rfl, by simp⟩
          · obtain ⟨v', r', h3, h4⟩ := ih _ h2 eff he
            exact ⟨v', r', h3, by simp [h4]⟩
  intro l
  induction l with
  | nil => intro effects h; rw [solveFields] at h; cases h; simp
  | cons x t ih =>
    obtain ⟨e, r⟩ := x
    intro effects h
    rw [solveFields] at h
    split at h
    · cases h1 : solveFieldVars rc e r e.vars with
      | error x => rw [h1] at h; cases h
      | ok es =>
        rw [h1, ok_bind] at h
        cases h2 : solveFields rc t with
        | error x => rw [h2] at h; cases h
        | ok fs =>
          rw [h2, ok_bind] at h
          cases h
          intro eff he
          rcases List.mem_append.1 he with he | he
          · obtain ⟨v, r', h3, h4⟩ := hv _ _ _ _ h1 eff he
            exact ⟨v, r', h3, (e, r), by simp, h4⟩
          · obtain ⟨v, r', h3, y, hy, h4⟩ := ih h2 eff he
            exact ⟨v, r', h3, y, by simp [hy], h4⟩
    · intro eff he
      obtain ⟨v, r', h3, y, hy, h4⟩ := ih h eff he
      exact ⟨v, r', h3, y, by simp [hy], h4⟩

theorem solveBus_simple {h : Handler p} {b : BusInteraction (GExpr p V)}
    {effects : List (Effect p V)} (ho : solveBus rc h b = .ok (.ok effects)) :
    ∀ eff ∈ effects, ∃ v r, eff = .rangeConstraint v r ∧ v ∈ busVars b := by
  unfold solveBus at ho
  cases hc : handleChecked h (toRangeConstraints rc b) with
  | error x => rw [hc] at ho; cases ho
  | ok oc =>
    rw [hc, ok_bind] at ho
    cases oc with
    | error x => cases ho
    | ok new =>
      simp only at ho
      cases hz : zipEq b.fields new.fields with
      | error x => rw [hz] at ho; cases ho
      | ok pairs =>
        rw [hz, ok_bind] at ho
        cases hf : solveFields rc pairs with
        | error x => rw [hf] at ho; cases ho
        | ok es =>
          rw [hf, ok_bind] at ho
          cases ho
          intro eff he
          obtain ⟨v, r, h1, x, hx, h2⟩ := solveFields_simple hf eff he
          refine ⟨v, r, h1, ?_⟩
          unfold zipEq at hz
          split at hz
          · cases hz
            exact List.mem_flatMap.2 ⟨x.1, (List.of_mem_zip hx).1, h2⟩
          · cases hz

end GExpr

/-! ### Variables of the results of the exhaustive search -/

section
open GExpr
variable {V : Type} [LinearOrder V] {rc : V → RangeConstraint p} {h : Handler p}

theorem insertRc_keys {v : V} {r : RangeConstraint p} {m m' : List (V × RangeConstraint p)}
    (hm : insertRc v r m = some m') : ∀ x ∈ m', x.1 = v ∨ ∃ y ∈ m, x.1 = y.1 := by
  induction m generalizing m' with
  | nil => cases hm; simp
  | cons a t ih =>
    obtain ⟨w, s⟩ := a
    rw [insertRc] at hm
    split at hm
    · split at hm
      · cases hm
      · cases hm
        intro x hx
        rcases List.mem_cons.1 hx with rfl | hx
        · exact Or.inr ⟨(w, s), by simp, rfl⟩
        · exact Or.inr ⟨x, by simp [hx], rfl⟩
    · split at hm
      · cases hm
        intro x hx
        rcases List.mem_cons.1 hx with rfl | hx
        · exact Or.inl rfl
        · exact Or.inr ⟨x, hx, rfl⟩
      · obtain ⟨t', ht, rfl⟩ := Option.map_eq_some_iff.1 hm
        intro x hx
        rcases List.mem_cons.1 hx with rfl | hx
        · exact Or.inr ⟨(w, s), by simp, rfl⟩
        · rcases ih ht x hx with h | ⟨y, hy, h⟩
          · exact Or.inl h
          · exact Or.inr ⟨y, by simp [hy], h⟩

theorem insertRcs_keys {l m m' : List (V × RangeConstraint p)} (hm : insertRcs l m = some m') :
    ∀ x ∈ m', (∃ y ∈ l, x.1 = y.1) ∨ ∃ y ∈ m, x.1 = y.1 := by
  induction l generalizing m with
  | nil => cases hm; exact fun x hx => Or.inr ⟨x, hx, rfl⟩
  | cons a t ih =>
    rw [insertRcs] at hm
    obtain ⟨m1, h1, h2⟩ := Option.bind_eq_some_iff.1 hm
    intro x hx
    rcases ih h2 x hx with ⟨y, hy, h⟩ | ⟨y, hy, h⟩
    · exact Or.inl ⟨y, by simp [hy], h⟩
    · rcases insertRc_keys h1 y hy with h' | ⟨z, hz, h'⟩
      · exact Or.inl ⟨a, by simp, h.trans h'⟩
      · exact Or.inr ⟨z, hz, h.trans h'⟩

/-- The variables of a constraint. -/
def refVars : ConstraintRef p V → List V
  | .alg e => vars e
  | .bus b => busVars b

theorem solveUnder_keys {a : List (V × ZMod p)} {c : ConstraintRef p V}
    {effects : List (Effect p V)} (hw : c.WF) (ho : solveUnder rc h a c = .ok (some effects)) :
    ∀ eff ∈ effects, ∀ v r, effectToRangeConstraint eff = some (v, r) → v ∈ refVars c := by
  intro eff he v r hv
  cases c with
  | alg e =>
    rw [solveUnder] at ho
    obtain ⟨o, h1, h2⟩ := solve_spec (rc := rc) (wf_substAssignment a (e := e) hw)
    rw [h1, ok_bind] at ho
    cases o with
    | error x => cases ho
    | ok q =>
      cases ho
      exact (vars_substAssignment (h2.inVars eff he v r hv)).1
  | bus b =>
    rw [solveUnder] at ho
    cases h1 : solveBus rc h (b.map (substAssignment a)) with
    | error x => rw [h1] at ho; cases ho
    | ok o =>
      rw [h1, ok_bind] at ho
      cases o with
      | error x => cases ho
      | ok q =>
        cases ho
        obtain ⟨v', r', h2, h3⟩ := solveBus_simple h1 eff he
        subst h2
        cases hv
        unfold busVars at h3
        obtain ⟨e, he', h4⟩ := List.mem_flatMap.1 h3
        have : ∃ e' ∈ b.fields, e = substAssignment a e' := by
          simp only [BusInteraction.fields, BusInteraction.map, List.mem_cons, List.mem_map] at he'
          rcases he' with rfl | rfl | ⟨e', h5, rfl⟩
          · exact ⟨_, by simp [BusInteraction.fields], rfl⟩
          · exact ⟨_, by simp [BusInteraction.fields], rfl⟩
          · exact ⟨e', by simp [BusInteraction.fields, h5], rfl⟩
        obtain ⟨e', h5, rfl⟩ := this
        exact List.mem_flatMap.2 ⟨e', h5, (vars_substAssignment h4).1⟩

theorem solveAllUnder_keys {a : List (V × ZMod p)} {cs : List (ConstraintRef p V)}
    {effects : List (Effect p V)} (hw : ∀ c ∈ cs, c.WF)
    (ho : solveAllUnder rc h a cs = .ok (some effects)) :
    ∀ eff ∈ effects, ∀ v r, effectToRangeConstraint eff = some (v, r) → ∃ c ∈ cs, v ∈ refVars c := by
  induction cs generalizing effects with
  | nil => cases ho; simp
  | cons c t ih =>
    rw [solveAllUnder] at ho
    cases h1 : solveUnder rc h a c with
    | error x => rw [h1] at ho; cases ho
    | ok o =>
      rw [h1, ok_bind] at ho
      cases o with
      | none => cases ho
      | some e1 =>
        simp only at ho
        cases h2 : solveAllUnder rc h a t with
        | error x => rw [h2] at ho; cases ho
        | ok o2 =>
          rw [h2, ok_bind] at ho
          cases o2 with
          | none => cases ho
          | some e2 =>
            cases ho
            intro eff he v r hv
            rcases List.mem_append.1 he with he | he
            · exact ⟨c, by simp, solveUnder_keys (hw c (by simp)) h1 eff he v r hv⟩
            · obtain ⟨c', hc', h3⟩ := ih (fun c hc => hw c (by simp [hc])) h2 eff he v r hv
              exact ⟨c', by simp [hc'], h3⟩

variable {s : Indexed p V}

theorem refAt_vars {t : ConstraintSystem p V} {x : Item} {c : ConstraintRef p V}
    (hx : refAt t x = some c) : ∀ v ∈ refVars c, v ∈ t.vars := by
  intro v hv
  unfold ConstraintSystem.vars
  cases c with
  | alg e =>
    exact List.mem_append_left _ (List.mem_flatMap.2 ⟨e, (refAt_mem hx).1 e rfl, hv⟩)
  | bus b =>
    exact List.mem_append_right _ (List.mem_flatMap.2 ⟨b, (refAt_mem hx).2 b rfl, hv⟩)

theorem deriveNewRangeConstraints_keys (hi : s.Inv) (hw : s.sys.WF) {a : List (V × ZMod p)}
    {m : List (V × RangeConstraint p)} (ho : deriveNewRangeConstraints s a rc h = .ok (some m)) :
    ∀ x ∈ m, x.1 ∈ s.sys.vars ∨ x.1 ∈ a.map (·.1) := by
  unfold deriveNewRangeConstraints at ho
  rw [Indexed.constraintsReferencing_ok hi, ok_bind] at ho
  cases h1 : solveAllUnder rc h a
      ((s.itemsReferencing (a.map (·.1))).filterMap (refAt s.sys)) with
  | error x => rw [h1] at ho; cases ho
  | ok o1 =>
    rw [h1, ok_bind] at ho
    cases o1 with
    | none => cases ho
    | some effects =>
      have ho : insertRcs (effects.filterMap effectToRangeConstraint ++
        a.map fun x => (x.1, RangeConstraint.fromValue x.2)) [] = some m := by
        injection ho
      intro x hx
      rcases insertRcs_keys ho x hx with ⟨y, hy, h2⟩ | ⟨y, hy, h2⟩
      · rcases List.mem_append.1 hy with hy | hy
        · obtain ⟨eff, he, hy⟩ := List.mem_filterMap.1 hy
          obtain ⟨c, hc, h3⟩ := solveAllUnder_keys (fun c hc => by
            obtain ⟨z, -, hz⟩ := List.mem_filterMap.1 hc
            exact refAt_wf hw hz) h1 eff he y.1 y.2 hy
          obtain ⟨z, -, hz⟩ := List.mem_filterMap.1 hc
          left
          rw [h2]
          exact refAt_vars hz _ h3
        · obtain ⟨z, hz, rfl⟩ := List.mem_map.1 hy
          right
          rw [h2]
          exact List.mem_map.2 ⟨z, hz, rfl⟩
      · cases hy

theorem deriveAll_sound {as : List (List (V × ZMod p))} {ms : List (List (V × RangeConstraint p))}
    (ho : deriveAll s rc h as = .ok ms) {m : List (V × RangeConstraint p)} (hm : m ∈ ms) :
    ∃ a ∈ as, deriveNewRangeConstraints s a rc h = .ok (some m) := by
  induction as generalizing ms with
  | nil => cases ho; cases hm
  | cons b t ih =>
    unfold deriveAll at ho
    cases h1 : deriveNewRangeConstraints s b rc h with
    | error x => rw [h1] at ho; cases ho
    | ok o1 =>
      rw [h1, ok_bind] at ho
      cases h2 : deriveAll s rc h t with
      | error x => rw [h2] at ho; cases ho
      | ok rs =>
        rw [h2] at ho
        cases ho
        rcases List.mem_append.1 hm with hm | hm
        · cases o1 with
          | none => cases hm
          | some m' => simp at hm; subst hm; exact ⟨b, by simp, h1⟩
        · obtain ⟨a, ha, h3⟩ := ih h2 hm
          exact ⟨a, by simp [ha], h3⟩

theorem disjunctionFold_keys {ms : List (List (V × RangeConstraint p))}
    {acc : List (V × RangeConstraint p)} :
    ∀ x ∈ disjunctionFold rc ms acc, ∃ y ∈ acc, x.1 = y.1 := by
  induction ms generalizing acc with
  | nil => exact fun x hx => ⟨x, hx, rfl⟩
  | cons new t ih =>
    rw [disjunctionFold]
    cases hd : disjunctionStep rc acc new with
    | none => intro x hx; cases hx
    | some acc' =>
      intro x hx
      obtain ⟨y, hy, h1⟩ := ih x hx
      unfold disjunctionStep at hd
      simp only at hd
      split at hd
      · cases hd
      · cases hd
        obtain ⟨z, hz, rfl⟩ := List.mem_map.1 (List.mem_filter.1 hy).1
        exact ⟨z, hz, h1⟩

theorem exhaustiveSearchOn_keys (hi : s.Inv) (hw : s.sys.WF) {vs : List V}
    {m : List (V × RangeConstraint p)} (ho : exhaustiveSearchOn s vs rc h = .ok (.ok m)) :
    ∀ x ∈ m, x.1 ∈ s.sys.vars ∨ x.1 ∈ vs := by
  unfold exhaustiveSearchOn at ho
  cases h1 : allPossibleAssignments rc vs with
  | error x => rw [h1] at ho; cases ho
  | ok as =>
    rw [h1, ok_bind] at ho
    cases h2 : deriveAll s rc h as with
    | error x => rw [h2] at ho; cases ho
    | ok ms =>
      rw [h2, ok_bind] at ho
      cases ms with
      | nil => cases ho
      | cons first rest =>
        cases ho
        intro x hx
        obtain ⟨y, hy, h3⟩ := disjunctionFold_keys x hx
        obtain ⟨a, ha, h4⟩ := deriveAll_sound h2 (m := first) (by simp)
        rw [h3]
        rcases deriveNewRangeConstraints_keys hi hw h4 y hy with h5 | h5
        · exact Or.inl h5
        · exact Or.inr (((allPossibleAssignments_sound h1 ha).2 _).1 h5)

theorem mem_insertBySize {v w : V} {l : List V} : w ∈ insertBySize rc v l ↔ w = v ∨ w ∈ l := by
  induction l with
  | nil => simp [insertBySize]
  | cons x t ih =>
    rw [insertBySize]
    split
    · simp
    · rw [List.mem_cons, ih, List.mem_cons]; tauto

theorem mem_foldr_insertBySize {w : V} {l : List V} :
    w ∈ l.foldr (insertBySize rc) [] ↔ w ∈ l := by
  induction l with
  | nil => simp
  | cons x t ih => rw [List.foldr_cons, mem_insertBySize, ih, List.mem_cons]

theorem bruteForceCandidates_vars {t : ConstraintSystem p V} {vs : List V}
    (hv : vs ∈ bruteForceCandidates t rc) : ∀ v ∈ vs, v ∈ t.vars := by
  unfold bruteForceCandidates at hv
  rw [List.mem_eraseDups, List.mem_filter, List.mem_filterMap] at hv
  obtain ⟨⟨ws, hws, hc⟩, -⟩ := hv
  rw [List.mem_eraseDups, List.mem_map] at hws
  obtain ⟨e, he, rfl⟩ := hws
  have hsub : ∀ v ∈ varSet e, v ∈ t.vars := by
    intro v hv
    have hv : v ∈ vars e := by simpa [varSet, mem_btreeSet] using hv
    unfold ConstraintSystem.vars
    rcases List.mem_append.1 he with he | he
    · exact List.mem_append_left _ (List.mem_flatMap.2 ⟨e, he, hv⟩)
    · obtain ⟨b, hb, he⟩ := List.mem_flatMap.1 he
      exact List.mem_append_right _ (List.mem_flatMap.2 ⟨b, hb, List.mem_flatMap.2 ⟨e, he, hv⟩⟩)
  intro v hv
  unfold candidateFor at hc
  split at hc
  · cases hc; exact hsub v hv
  · simp only at hc
    split at hc
    · cases hc
      rw [mem_btreeSet] at hv
      exact hsub v (mem_foldr_insertBySize.1 (List.mem_of_mem_take hv))
    · cases hc

/-! ### Substitutions -/

theorem affine_subst (x : V) {s e : GExpr p V} (hs : s.isAffine = true) (he : e.isAffine = true) :
    (GExpr.subst x s e).isAffine = true := by
  obtain ⟨q, l, c⟩ := e
  have hq : q = [] := isAffine_iff.1 he
  subst hq
  rw [GExpr.subst]
  split
  · exact he
  · simp only [substQ]
    apply affine_add
    · rw [isAffine_iff]
      simp [removeQuadraticTermsAddingToZero, removePairs, quadratic]
    · have : ∀ (l : List (V × ZMod p)) (acc : GExpr p V), acc.isAffine = true →
          (l.foldl (fun acc e => if e.1 = x then add acc (scale e.2 s) else acc) acc).isAffine
            = true := by
        intro l
        induction l with
        | nil => exact fun acc h => h
        | cons a t ih =>
          intro acc h
          rw [List.foldl_cons]
          apply ih
          split
          · exact affine_add h (affine_scale _ hs)
          · exact h
      exact this l _ (affine_const 0)

theorem applySubsts_inv {l : List (V × GExpr p V)} : ∀ {s : Indexed p V}, s.Inv →
    (s.applySubsts l).Inv ∧ (s.applySubsts l).sys.algebraic =
      s.sys.algebraic.map fun e => l.foldl (fun e x => GExpr.subst x.1 x.2 e) e := by
  unfold Indexed.applySubsts
  induction l with
  | nil => intro s h; simp [h]
  | cons a t ih =>
    intro s h
    obtain ⟨h1, h2⟩ := ih (Indexed.inv_subst h a.1 a.2)
    refine ⟨h1, ?_⟩
    rw [List.foldl_cons, h2, Indexed.subst_sys h]
    simp [ConstraintSystem.mapExpr, Function.comp_def]

theorem applySubstitutionsToExpressions_eq (es : List (GExpr p V)) (l : List (V × GExpr p V)) :
    applySubstitutionsToExpressions es l =
      es.map fun e => l.foldl (fun e x => GExpr.subst x.1 x.2 e) e :=
  (applySubsts_inv (Indexed.inv_ofSystem ⟨es, [], []⟩)).2

end

end Verif
