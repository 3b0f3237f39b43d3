import Verif.Proofs.RuleFinite
import Verif.Proofs.RuleTerminationRounds

/-! Helper lemmas for the termination of one round of the rule driver: the expressions, variables, range
constraints and counters of all facts are from finite sets. -/

set_option linter.unusedSectionVars false

namespace Verif

open RangeConstraint GExpr

variable {p : ℕ} {V : Type} [LinearOrder V] [Fact p.Prime]

/-! ### Expressions -/

/-- Factors of products, heads and tails are in the set. -/
def ClosedSet (S : Set (GExpr p V)) : Prop :=
  ∀ e ∈ S, (∀ l r, e = mk [(l, r)] [] 0 → l ∈ S ∧ r ∈ S) ∧
    (∀ a b q l c, e = mk ((a, b) :: q) l c → mk [(a, b)] [] 0 ∈ S ∧ mk q l c ∈ S) ∧
    ∀ vk l c, e = mk [] (vk :: l) c → mk [] [vk] 0 ∈ S ∧ mk [] l c ∈ S

theorem ClosedSet.union {S T : Set (GExpr p V)} (hS : ClosedSet S) (hT : ClosedSet T) :
    ClosedSet (S ∪ T) := by
  rintro e (h | h)
  · obtain ⟨h1, h2, h3⟩ := hS e h
    exact ⟨fun l r he => ⟨Or.inl (h1 l r he).1, Or.inl (h1 l r he).2⟩,
      fun a b q l c he => ⟨Or.inl (h2 a b q l c he).1, Or.inl (h2 a b q l c he).2⟩,
      fun vk l c he => ⟨Or.inl (h3 vk l c he).1, Or.inl (h3 vk l c he).2⟩⟩
  · obtain ⟨h1, h2, h3⟩ := hT e h
    exact ⟨fun l r he => ⟨Or.inr (h1 l r he).1, Or.inr (h1 l r he).2⟩,
      fun a b q l c he => ⟨Or.inr (h2 a b q l c he).1, Or.inr (h2 a b q l c he).2⟩,
      fun vk l c he => ⟨Or.inr (h3 vk l c he).1, Or.inr (h3 vk l c he).2⟩⟩

theorem closed_constants (c : ZMod p) : ClosedSet ({mk [] [] c} : Set (GExpr p V)) := by
  intro e he
  rw [Set.mem_singleton_iff] at he
  subst he
  exact ⟨fun l r h => by simp at h, fun a b q l c h => by simp at h, fun vk l c h => by simp at h⟩

theorem exists_closed (n : ℕ) : ∀ e : GExpr p V, sizeOf e ≤ n →
    ∃ S : Set (GExpr p V), S.Finite ∧ e ∈ S ∧ ClosedSet S := by
  induction n with
  | zero => intro e he; obtain ⟨q, l, c⟩ := e; simp at he
  | succ n ih =>
    rintro ⟨_ | ⟨⟨a, b⟩, q⟩, l, c⟩ he
    · rcases l with _ | ⟨vk, l⟩
      · exact ⟨_, Set.finite_singleton _, rfl, closed_constants c⟩
      · obtain ⟨S, hf, hm, hc⟩ := ih (mk [] l c) (by simp at he ⊢; omega)
        have h0 := closed_constants (p := p) (V := V) 0
        refine ⟨insert (mk [] (vk :: l) c) (insert (mk [] [vk] 0) ({mk [] [] 0} ∪ S)),
          (((Set.finite_singleton _).union hf).insert _).insert _, Set.mem_insert _ _, ?_⟩
        have hu := h0.union hc
        intro e he
        rcases he with rfl | rfl | he
        · refine ⟨fun l r h => by simp at h, fun a b q l c h => by simp at h, ?_⟩
          intro vk' l' c' h
          simp only [GExpr.mk.injEq, List.cons.injEq, true_and] at h
          obtain ⟨⟨rfl, rfl⟩, rfl⟩ := h
          exact ⟨by simp, by simp [hm]⟩
        · refine ⟨fun l r h => by simp at h, fun a b q l c h => by simp at h, ?_⟩
          intro vk' l' c' h
          simp only [GExpr.mk.injEq, List.cons.injEq, true_and] at h
          obtain ⟨⟨rfl, rfl⟩, rfl⟩ := h
          exact ⟨by simp, by simp⟩
        · obtain ⟨h1, h2, h3⟩ := hu e he
          have up : ∀ x, x ∈ ({mk [] [] 0} ∪ S : Set (GExpr p V)) →
              x ∈ insert (mk [] (vk :: l) c) (insert (mk [] [vk] 0) ({mk [] [] 0} ∪ S)) :=
            fun x hx => Or.inr (Or.inr hx)
          exact ⟨fun l r he => ⟨up _ (h1 l r he).1, up _ (h1 l r he).2⟩,
            fun a b q l c he => ⟨up _ (h2 a b q l c he).1, up _ (h2 a b q l c he).2⟩,
            fun vk l c he => ⟨up _ (h3 vk l c he).1, up _ (h3 vk l c he).2⟩⟩
    · obtain ⟨S, hf, hm, hc⟩ := ih (mk q l c) (by simp at he ⊢; omega)
      obtain ⟨Sa, hfa, hma, hca⟩ := ih a (by simp at he ⊢; omega)
      obtain ⟨Sb, hfb, hmb, hcb⟩ := ih b (by simp at he ⊢; omega)
      have h0 := closed_constants (p := p) (V := V) 0
      obtain ⟨U, hU⟩ : ∃ U : Set (GExpr p V), U = {mk [] [] 0} ∪ S ∪ Sa ∪ Sb := ⟨_, rfl⟩
      have hu : ClosedSet U := hU ▸ ((h0.union hc).union hca).union hcb
      have m0 : mk [] [] 0 ∈ U := by simp [hU]
      have m1 : mk q l c ∈ U := by simp [hU, hm]
      have m2 : a ∈ U := by simp [hU, hma]
      have m3 : b ∈ U := by simp [hU, hmb]
      have fU : U.Finite := hU ▸ (((Set.finite_singleton _).union hf).union hfa).union hfb
      clear hU
      have up : ∀ x, x ∈ U →
          x ∈ insert (mk ((a, b) :: q) l c) (insert (mk [(a, b)] [] 0) U) :=
        fun x hx => Or.inr (Or.inr hx)
      refine ⟨insert (mk ((a, b) :: q) l c) (insert (mk [(a, b)] [] 0) U),
        (fU.insert _).insert _, Set.mem_insert _ _, ?_⟩
      intro e he
      rcases he with rfl | rfl | he
      · refine ⟨?_, ?_, fun vk l c h => by simp at h⟩
        · intro l' r' h
          simp only [GExpr.mk.injEq, List.cons.injEq, Prod.mk.injEq] at h
          obtain ⟨⟨⟨rfl, rfl⟩, -⟩, -⟩ := h
          exact ⟨up _ m2, up _ m3⟩
        · intro a' b' q' l' c' h
          simp only [GExpr.mk.injEq, List.cons.injEq, Prod.mk.injEq] at h
          obtain ⟨⟨⟨rfl, rfl⟩, rfl⟩, rfl, rfl⟩ := h
          exact ⟨by simp, up _ m1⟩
      · refine ⟨?_, ?_, fun vk l c h => by simp at h⟩
        · intro l' r' h
          simp only [GExpr.mk.injEq, List.cons.injEq, Prod.mk.injEq] at h
          obtain ⟨⟨⟨rfl, rfl⟩, -⟩, -⟩ := h
          exact ⟨up _ m2, up _ m3⟩
        · intro a' b' q' l' c' h
          simp only [GExpr.mk.injEq, List.cons.injEq, Prod.mk.injEq] at h
          obtain ⟨⟨⟨rfl, rfl⟩, rfl⟩, rfl, rfl⟩ := h
          exact ⟨by simp, up _ m0⟩
      · obtain ⟨h1, h2, h3⟩ := hu e he
        exact ⟨fun l r he => ⟨up _ (h1 l r he).1, up _ (h1 l r he).2⟩,
          fun a b q l c he => ⟨up _ (h2 a b q l c he).1, up _ (h2 a b q l c he).2⟩,
          fun vk l c he => ⟨up _ (h3 vk l c he).1, up _ (h3 vk l c he).2⟩⟩

theorem exists_closed_list (es : List (GExpr p V)) :
    ∃ S : Set (GExpr p V), S.Finite ∧ (∀ e ∈ es, e ∈ S) ∧ ClosedSet S := by
  induction es with
  | nil => exact ⟨∅, Set.finite_empty, by simp, by intro e he; cases he⟩
  | cons e es ih =>
    obtain ⟨S, h1, h2, h3⟩ := ih
    obtain ⟨T, g1, g2, g3⟩ := exists_closed _ e le_rfl
    refine ⟨S ∪ T, h1.union g1, fun x hx => ?_, h3.union g3⟩
    rcases List.mem_cons.1 hx with rfl | hx
    · exact Or.inr g2
    · exact Or.inl (h2 x hx)

theorem ClosedSet.isProduct {S : Set (GExpr p V)} (hS : ClosedSet S) {e l r : GExpr p V}
    (he : e ∈ S) (h : IsProduct e l r) : l ∈ S ∧ r ∈ S := by
  rcases h with h | h
  · exact (hS e he).1 l r h
  · exact ((hS e he).1 r l h).symm

theorem ClosedSet.split {S : Set (GExpr p V)} (hS : ClosedSet S) {e hd tl : GExpr p V}
    (hw : WF e) (he : e ∈ S) (h : e.trySplitHeadTail = some (hd, tl)) : hd ∈ S ∧ tl ∈ S := by
  rcases split_cases hw h with ⟨a, b, q, l, c, rfl, rfl, rfl⟩ | ⟨v, k, l, c, rfl, rfl, rfl⟩
  · exact (hS _ he).2.1 a b q l c rfl
  · exact (hS _ he).2.2 (v, k) l c rfl

/-! ### Range constraints -/

/-- The mask has at most `k` bits. -/
def RangeConstraint.Bits (k : ℕ) (r : RangeConstraint p) : Prop := r.mask < 2 ^ k

variable {k : ℕ} (hk : p ≤ 2 ^ k)

theorem finite_bits (k : ℕ) : {r : RangeConstraint p | r.Bits k}.Finite := by
  have hK : {k : ZMod p | True}.Finite := Set.toFinite _
  refine (((Set.finite_lt_nat (2 ^ k)).prod (hK.prod hK)).image fun x =>
    (⟨x.1, x.2.1, x.2.2⟩ : RangeConstraint p)).subset ?_
  rintro ⟨m, a, b⟩ h
  exact ⟨⟨m, a, b⟩, ⟨h, trivial, trivial⟩, rfl⟩

include hk

theorem bits_mask {n : ℕ} (hn : n < p) : maskFromBits (numBits n) < 2 ^ k := by
  have h1 : numBits n ≤ k := (numBits_le_iff n k).2 (by omega)
  have h2 : 2 ^ numBits n ≤ 2 ^ k := Nat.pow_le_pow_right (by omega) h1
  have h3 : 0 < 2 ^ numBits n := by positivity
  unfold maskFromBits
  omega

theorem bits_fromRange (a b : ZMod p) : (fromRange a b).Bits k := by
  unfold fromRange RangeConstraint.Bits
  simp only
  split
  · exact bits_mask hk (ZMod.val_lt b)
  · exact bits_mask hk (ZMod.val_lt _)

theorem bits_fromValue (a : ZMod p) : (fromValue a).Bits k := by
  have := ZMod.val_lt a
  show a.val < 2 ^ k
  omega

theorem bits_unconstrained : (unconstrained : RangeConstraint p).Bits k := bits_fromRange hk _ _

theorem bits_combineSum {a b : RangeConstraint p} (ha : a.Bits k) (hb : b.Bits k) :
    (a.combineSum b).Bits k := by
  have h1 : ∀ min max : ZMod p, (if fle min max then
      (if a.mask + b.mask ≥ p then (unconstrained : RangeConstraint p).mask
        else (a.mask + b.mask) ||| a.mask ||| b.mask) &&& (fromRange min max).mask
      else if a.mask + b.mask ≥ p then (unconstrained : RangeConstraint p).mask
        else (a.mask + b.mask) ||| a.mask ||| b.mask) < 2 ^ k := by
    intro min max
    have h2 : (if a.mask + b.mask ≥ p then (unconstrained : RangeConstraint p).mask
        else (a.mask + b.mask) ||| a.mask ||| b.mask) < 2 ^ k := by
      split
      · exact bits_unconstrained hk
      · exact Nat.or_lt_two_pow (Nat.or_lt_two_pow (by omega) ha) hb
    split
    · exact lt_of_le_of_lt Nat.and_le_left h2
    · exact h2
  show (a.combineSum b).mask < 2 ^ k
  unfold combineSum
  simp only
  generalize (if a.width + b.width ≤ (unconstrained : RangeConstraint p).width
    then (a.min + b.min, a.max + b.max)
    else ((unconstrained : RangeConstraint p).min, (unconstrained : RangeConstraint p).max)) = mm
  exact h1 mm.1 mm.2

theorem bits_multiple {a : RangeConstraint p} (c : ZMod p) : (a.multiple c).Bits k := by
  unfold multiple RangeConstraint.Bits
  extract_lets m
  have hm : ∀ x, m = some x → x < 2 ^ k := by
    intro x hx
    simp only [m, Option.bind_eq_some_iff] at hx
    obtain ⟨e, -, hx⟩ := hx
    split at hx
    · cases hx; omega
    · cases hx
  split
  rename_i lo hi _
  simp only
  cases hmm : m with
  | none => exact bits_fromRange hk _ _
  | some x => exact hm x hmm

theorem bits_combineProduct {a b : RangeConstraint p} : (a.combineProduct b).Bits k := by
  unfold combineProduct
  split
  · exact bits_multiple hk _
  · split
    · exact bits_multiple hk _
    · split
      · exact bits_fromRange hk _ _
      · exact bits_unconstrained hk

theorem bits_square {a : RangeConstraint p} : a.square.Bits k := by
  unfold square
  extract_lets m
  split
  · exact bits_fromRange hk _ _
  · exact bits_combineProduct hk

omit hk in
theorem bits_disjunction {a b : RangeConstraint p} (ha : a.Bits k) (hb : b.Bits k) :
    (a.disjunction b).Bits k := by
  have h : a.mask ||| b.mask < 2 ^ k := Nat.or_lt_two_pow ha hb
  unfold disjunction
  extract_lets m lo hi
  split <;> split <;> (try split) <;> exact h

/-! ### Facts -/

/-- The lists of new constraints in requests for a replacement. -/
def NewLists (inp : RuleInput p V) (E : GExpr p V → Prop) (S : V → Prop)
    (R : RangeConstraint p → Prop) (l : List (GExpr p V)) : Prop :=
  (∃ e, E e ∧ ∃ c1 v1, S v1 ∧ ∃ x1, E x1 ∧ ∃ r1, R r1 ∧ ∃ c2 v2, S v2 ∧ ∃ x2, E x2 ∧ ∃ r2, R r2 ∧
    ∃ fr, freeVariableParts e c1 v1 x1 r1 c2 v2 x2 r2 = some fr ∧
    ∃ w, inp.fresh w (.quotientOrZero (neg fr.2) fr.1) ∧
      l = [freeVariableReplacement w fr.1 fr.2]) ∨
  (∃ res, S res ∧ ∃ vs : List V, (vs.length ≤ 4 ∧ ∀ v ∈ vs, S v) ∧
    ∃ w, inp.fresh w (.quotientOrZero one (sum (vs.map var))) ∧
      l = equalZeroReplacement res w vs) ∨
  ∃ x, E x ∧ ∃ a, E a ∧ ∃ b, E b ∧ l = [mul x (add a b)]

omit hk in
theorem newLists_finite {inp : RuleInput p V} {E : GExpr p V → Prop} {S : V → Prop}
    {R : RangeConstraint p → Prop} (hfresh : ∀ m, {w | inp.fresh w m}.Finite)
    (hE : {e | E e}.Finite) (hS : {v | S v}.Finite) (hR : {r | R r}.Finite) :
    {l | NewLists inp E S R l}.Finite := by
  have step : ∀ {α β : Type} {P : α → Prop} {Q : α → β → Prop}, {a | P a}.Finite →
      (∀ a, {b | Q a b}.Finite) → {b | ∃ a, P a ∧ Q a b}.Finite := by
    intro α β P Q h1 h2
    refine (h1.biUnion fun a _ => h2 a).subset ?_
    rintro b ⟨a, ha, hb⟩
    exact Set.mem_biUnion ha hb
  have field : ∀ {β : Type} {Q : ZMod p → β → Prop}, (∀ a, {b | Q a b}.Finite) →
      {b | ∃ a, Q a b}.Finite := by
    intro β Q h
    refine (Set.finite_iUnion h).subset ?_
    rintro b ⟨a, hb⟩
    exact Set.mem_iUnion.2 ⟨a, hb⟩
  refine Set.Finite.union ?_ (Set.Finite.union ?_ ?_)
  · refine step hE fun e => field fun c1 => step hS fun v1 => step hE fun x1 => step hR fun r1 =>
      field fun c2 => step hS fun v2 => step hE fun x2 => step hR fun r2 => ?_
    refine step ?_ fun fr => step (hfresh _) fun w => Set.finite_singleton _
    refine (Set.finite_range fun _ : Unit =>
      (freeVariableParts e c1 v1 x1 r1 c2 v2 x2 r2).getD (one, one)).subset ?_
    intro fr (hfr : _ = some fr)
    exact ⟨(), by simp only [hfr]; rfl⟩
  · exact step hS fun res => step (finite_lists hS 4) fun vs => step (hfresh _) fun w =>
      Set.finite_singleton _
  · exact step hE fun x => step hE fun a => step hE fun b => Set.finite_singleton _

/-- The sets the components of all facts are from. -/
def factSets (inp : RuleInput p V) (E : GExpr p V → Prop) (S : V → Prop) (k M : ℕ) :
    FactSets p V :=
  ⟨E, S, RangeConstraint.Bits k, M, NewLists inp E S (RangeConstraint.Bits k)⟩

theorem in_of_derives {inp : RuleInput p V} (hwf : inp.WF) {E : Set (GExpr p V)} {S : V → Prop}
    {M : ℕ} (hE : ClosedSet E) (h1 : ∀ e ∈ inp.constraints, e ∈ E)
    (h2 : ∀ x ∈ inp.exprRanges, x.1 ∈ E ∧ x.2.Bits k)
    (h3 : ∀ x ∈ inp.varRanges, S x.1 ∧ x.2.Bits k) (h4 : ∀ v ∈ inp.single, S v)
    (hS : ∀ e ∈ E, ∀ v ∈ e.vars, S v) (hM : ∀ e ∈ E, e.linear.length ≤ M) {f : RFact p V}
    (h : Derives inp f) : f.In (factSets inp (· ∈ E) S k M) := by
  have shape : ∀ {f}, Derives inp f → f.Shape inp := fun h => shape_of_derives hwf h
  have av : ∀ (v : V) (c o : ZMod p), v ∈ (mk [] [(v, c)] o : GExpr p V).vars := by
    intro v c o; rw [vars_affine]; exact ⟨c, by simp⟩
  induction h with
  | initial h => exact h1 _ h
  | varRange h => exact h3 _ h
  | exprRange h => exact (h2 _ h).1
  | contains h hv ih => exact ⟨ih, hS _ ih _ hv⟩
  | product h hp ih =>
    exact ⟨ih, hE.isProduct ih (shape (.product h hp)).2⟩
  | affine h ha ih =>
    refine ⟨ih, hS _ ih _ ?_⟩
    rw [(shape (.affine h ha)).1]; exact av _ _ _
  | headTail h hs ih => exact ⟨ih, hE.split (shape h) ih hs⟩
  | rangeInitial h => exact h2 _ h
  | rangeSquare h hlr hl ih ihl => exact ⟨ih.1, bits_square hk⟩
  | rangeProduct h hlr hl hr ih ihl ihr => exact ⟨ih.1, bits_combineProduct hk⟩
  | rangeLinear h hv ih ihv => exact ⟨ih.1, bits_multiple hk _⟩
  | rangeSum h hh ht ih ihh iht => exact ⟨ih.1, bits_combineSum hk ihh.2 iht.2⟩
  | rangeConstant h ih => exact ⟨ih, bits_fromValue hk _⟩
  | updateAffine h ha hc ih iha => exact ⟨iha.2, bits_multiple hk _⟩
  | updateProduct h hlr hl hr ih ihl ihr =>
    exact ⟨ihl.2, bits_disjunction (bits_fromValue hk _) (bits_fromValue hk _)⟩
  | single h => exact h4 _ h
  | replaceFreeVariables h g1 g2 hr hw ih ih1 ih2 =>
    obtain ⟨a1, a2, a3, a4, a5⟩ := ih
    exact ⟨a1, Or.inl ⟨_, a1, _, _, a2, _, a3, _, ih1.2, _, _, a4, _, a5, _, ih2.2, _, hr, _, hw,
      rfl⟩⟩
  | replaceEqualZero h hw ih =>
    obtain ⟨a1, a2, a3, a4, a5⟩ := ih
    exact ⟨a1.le, a2, Or.inr (Or.inl ⟨_, a3, _, ⟨a4.le, a5⟩, _, hw, rfl⟩)⟩
  | replaceProducts g1 g2 hlt ha hb ha0 hb0 hsum ih1 ih2 iha ihb =>
    refine ⟨by simp, ?_, Or.inr (Or.inr ⟨_, ih1.2.1, _, ih1.2.2, _, ih2.2.2, rfl⟩)⟩
    intro e he
    simp only [List.mem_cons, List.not_mem_nil, or_false] at he
    rcases he with rfl | rfl
    · exact ih1.1
    · exact ih2.1
  | negatedBase h hl hr hv ih ihl ihr ihv =>
    exact ⟨ih.1, ihl.2, ih.2.1, ihv.2, ihr.2.2, Nat.zero_le _⟩
  | negatedStep h hp hd hl hr hv ih ihp ihd ihl ihr ihv =>
    have := (shape (.negatedStep h hp hd hl hr hv)).2.2.2.2.2.1
    have := hM _ ih.2.1
    exact ⟨ih.1, ihl.2, ih.2.1, ihv.2, ihr.2.2, by simp only [factSets]; omega⟩
  | negatedFinal h hp hd hl hr ih ihp ihd ihl ihr =>
    have := (shape (.negatedFinal h hp hd hl hr)).2.2.2.2.2.1
    have := hM _ ih.2.1
    exact ⟨ih.1, ihl.2, ih.2.1, ihr.2, by simp only [factSets]; omega⟩
  | negatedFinalNegated h hp hd hl hr hv ih ihp ihd ihl ihr ihv =>
    obtain ⟨-, l, -, ⟨f, hf, -⟩, -, -, hlen, -⟩ := shape (.negatedFinalNegated h hp hd hl hr hv)
    have := hM _ (hE.isProduct ih.1 hf).1
    exact ⟨ih.1, ihl.2, ihv.2, ihr.2.2, by simp only [factSets]; omega⟩
  | equalZeroCheck g0 g1 g2 g3 g4 g5 g5' hk0 ho0 g6 g6' g7 g7' g8 g8' hres hm0 hm1 hm2 hm3 ha0 ha1
      ha2 ha3 hr0 hr1 hr2 hr3 hsum g9 g9' i0 i1 i2 i3 i4 i5 i5' i6 i6' i7 i7' i8 i8' ires im0 im1
      im2 im3 ia0 ia1 ia2 ia3 i9 i9' =>
    refine ⟨rfl, ?_, ires, rfl, ?_⟩
    · intro e he
      simp only [List.mem_cons, List.not_mem_nil, or_false] at he
      rcases he with rfl | rfl | rfl | rfl | rfl | rfl | rfl | rfl | rfl | rfl
      exacts [i0.1, i1.1, i2.1, i3.1, i4.1, i5.1, i6.1, i7.1, i8.1, i9.1]
    · intro e he
      simp only [List.mem_cons, List.not_mem_nil, or_false] at he
      rcases he with rfl | rfl | rfl | rfl
      exacts [ia0.1, ia1.1, ia2.1, ia3.1]
  | countConstant h ih => exact ⟨ih, by simp⟩
  | countFound ht h hh iht ih ihh =>
    exact ⟨ih.1, by simpa using ihh.2⟩
  | quadraticPair g1 g2 hlt hd ho hc ih1 ih2 =>
    exact ⟨ih1.2, ih2.2, hS _ ih1.2 _ (mem_vars_of_lookup hc), hS _ ih2.2 _ (differ_right hd)⟩
  | exprConstraint h ih => exact ih
  | zeroConstraint h ih => exact ih
  | linear h ih => exact ih
  | constant h hk ih => exact ih
  | isAffineConstant h ih => exact ih
  | solvable h ih => exact ih
  | exactlyOneSet h hs hb hfc ih ihs ihb => exact ih
  | equivalence h ih => exact ih
  | substituteLeft h hv ih => exact ih
  | productSymm h ih => exact ⟨ih.1, ih.2.2, ih.2.1⟩
  | exprLeft h ih => exact ih.2.1
  | exprRight h ih => exact ih.2.2
  | exprHead h ih => exact ih.2.1
  | exprTail h ih => exact ih.2.2
  | simpleSumCons h ht hh ih iht ihh => exact ih.1
  | simpleSumAffine h ih => exact ih.1
  | isAffineCons h hh ht ih ihh iht => exact ih.1
  | hasSummandHead h ih => exact ⟨ih.1, ih.2.1⟩
  | hasSummandTail h ht ih iht => exact ⟨ih.1, iht.2⟩
  | differHead h ih => exact ⟨ih.1, ih.2.2, ih.2.1⟩
  | differTail ht g1 g2 iht ih1 ih2 => exact ⟨ih1.1, ih2.1, iht.2.2⟩
  | affinelyRelated g1 g2 ih1 ih2 => exact ⟨ih1.1, ih2.1⟩
  | affinelyRelatedCons ht g1 l1 g2 l2 iht ih1 ihl1 ih2 ihl2 => exact ⟨ih1.1, ih2.1⟩
  | hasProductSummand h hp ih ihp => exact ⟨ih.1, ihp.2⟩
  | hasProductSummandSymm h ih => exact ⟨ih.1, ih.2.2, ih.2.1⟩
  | productConstraint h hp ih ihp => exact ihp
  | subsetBase g1 g2 b1 b2 ih1 ih2 ihb1 ihb2 => exact ⟨ih1.1, ih2.1⟩
  | subsetBoth ht g1 l1 hb g2 l2 iht ih1 ihl1 ihb ih2 ihl2 => exact ⟨ih1.1, ih2.1⟩
  | subsetRight ht g2 hb iht ih2 ihb => exact ⟨iht.1, ih2.1⟩
  | allBooleanBase h hb ih ihb => exact ih.1
  | allBooleanCons h hh ht ih ihh iht => exact ih.1
  | booleanVar h ih => exact ih.1
  | booleanExpr h ha hc ih iha => exact ⟨ih.1, ih.2.2⟩
  | singleIn h hc ha ih ihc iha => exact ihc
  | largestPair g1 g2 hlt hmax ih1 ih2 => exact ⟨ih1.1, ih1.2, ih2.2⟩
  | freeVariableCandidate h ha g1 l1 g2 hx2 hx1 l2 ih iha ih1 ihl1 ih2 ihl2 =>
    exact ⟨ih.1, ih.2.1, ih1.2.1, ih.2.2, ih2.2.1⟩
  | plusMinus h ha hc ho ih iha => exact ⟨ih.1, ih.2.1, iha.2⟩
  | diffMarker h hl hr g1 g2 ih ihl ihr ih1 ih2 => exact ⟨ih.1, ihl.2, ih1.2.1, ih1.2.2, ih2.2⟩
  | assignment h hs ih ihs => exact ihs.2
  | entailsZero h hs hh ht hh0 ht0 hsum ih ihs ihh iht => exact ihs.2
  | zeroHead h ih => exact ih.1
  | zeroTail h ih => exact ih.2
  | countOther ht h hh hc iht ih ihh => exact ⟨ih.1, iht.2⟩
  | assignOneHot g1 a1 hb a2 hc hs hl _ _ _ _ _ _ ihl => exact ihl.2
  | quadraticCandidate h ha hi hn ih iha ihi => exact ⟨ih.1, ih.2.2⟩
  | quadraticEquivalence h g1 g2 hd ih ih1 ih2 => exact ih.2.2
  | substituteRight h hv ih => exact ih.symm

omit hk in
/-- Finitely many facts can be derived. -/
theorem derives_finite {inp : RuleInput p V} (hwf : inp.WF)
    (hfresh : ∀ m, {w | inp.fresh w m}.Finite) : {f | Derives inp f}.Finite := by
  obtain ⟨E, hf, hmem, hE⟩ := exists_closed_list (inp.constraints ++ inp.exprRanges.map Prod.fst)
  obtain ⟨B, hB⟩ : ∃ B, B = p + ((inp.exprRanges.map fun x => x.2.mask).sum +
    (inp.varRanges.map fun x => x.2.mask).sum) + 1 := ⟨_, rfl⟩
  have hpow : B < 2 ^ B := Nat.lt_two_pow_self
  have hS : {v | (∃ e ∈ E, v ∈ e.vars) ∨ v ∈ inp.varRanges.map Prod.fst ∨ v ∈ inp.single}.Finite := by
    refine Set.Finite.union ?_ (Set.Finite.union (List.finite_toSet _) (List.finite_toSet _))
    refine (hf.biUnion fun e _ => List.finite_toSet e.vars).subset ?_
    rintro v ⟨e, he, hv⟩
    exact Set.mem_biUnion he hv
  obtain ⟨M, hM⟩ : ∃ M, ∀ e ∈ E, e.linear.length ≤ M := by
    obtain ⟨M, hM⟩ := (hf.image fun e => e.linear.length).bddAbove
    exact ⟨M, fun e he => hM ⟨e, he, rfl⟩⟩
  have hfin := facts_finite (A := factSets inp (· ∈ E)
    (fun v => (∃ e ∈ E, v ∈ e.vars) ∨ v ∈ inp.varRanges.map Prod.fst ∨ v ∈ inp.single) B M)
    hf hS (finite_bits B) (newLists_finite hfresh hf hS (finite_bits B))
  refine hfin.subset fun f hd => in_of_derives (k := B) (by omega) hwf hE ?_ ?_ ?_ ?_ ?_ hM hd
  · exact fun e he => hmem e (by simp [he])
  · intro x hx
    refine ⟨hmem _ (List.mem_append_right _ (List.mem_map.2 ⟨x, hx, rfl⟩)), ?_⟩
    have := List.single_le_sum (l := inp.exprRanges.map fun x => x.2.mask) (by simp) x.2.mask
      (List.mem_map.2 ⟨x, hx, rfl⟩)
    show x.2.mask < 2 ^ B
    omega
  · intro x hx
    refine ⟨Or.inr (Or.inl (List.mem_map.2 ⟨x, hx, rfl⟩)), ?_⟩
    have := List.single_le_sum (l := inp.varRanges.map fun x => x.2.mask) (by simp) x.2.mask
      (List.mem_map.2 ⟨x, hx, rfl⟩)
    show x.2.mask < 2 ^ B
    omega
  · exact fun v hv => Or.inr (Or.inr hv)
  · exact fun e he v hv => Or.inl ⟨e, he, hv⟩

end Verif
