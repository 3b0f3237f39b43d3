import Verif.Spec.Inlined
import Verif.Proofs.Inliner
import Verif.Proofs.Splitter

set_option linter.unusedSectionVars false

/-! # Inlining goes on until nothing more can be inlined -/

namespace Verif

open GExpr

variable {p : ℕ} {V : Type} [LinearOrder V]

namespace Inlined

/-! ### Degrees -/

theorem foldl_max_mem (l : List ℕ) (a : ℕ) : l.foldl Nat.max a = a ∨ l.foldl Nat.max a ∈ l := by
  induction l generalizing a with
  | nil => exact Or.inl rfl
  | cons b t ih =>
    rw [List.foldl_cons]
    rcases ih (Nat.max a b) with h | h
    · rw [h]
      rcases Nat.le_total a b with hab | hab
      · right; rw [show Nat.max a b = b from Nat.max_eq_right hab]; exact List.mem_cons_self
      · left; exact Nat.max_eq_left hab
    · exact Or.inr (List.mem_cons_of_mem _ h)

theorem termDegree_virtual (x : V) (d : ℕ) : ∀ e : GExpr p V, TermDegree x d e (virtualDegree x d e)
  | mk q l c => by
    rw [virtualDegree]
    rcases foldl_max_mem (virtualDegrees x d q ++ l.map fun e => if e.1 = x then d else 1) 0 with
      h | h
    · rw [h]; exact .constant _
    · rcases List.mem_append.1 h with h | h
      · rw [virtualDegrees_eq] at h ⊢
        obtain ⟨⟨a, b⟩, hab, he⟩ := List.mem_map.1 h
        rw [← he]
        have := hab
        exact .product _ _ _ a b _ _ hab (termDegree_virtual x d a) (termDegree_virtual x d b)
      · obtain ⟨⟨v, k⟩, hv, he⟩ := List.mem_map.1 h
        rw [← he]
        by_cases hx : v = x
        · subst hx; simp only [if_true]; exact .replaced _ _ _ k hv
        · simp only [hx, if_false]; exact .other _ _ _ v k hv hx
termination_by e => sizeOf e
decreasing_by
  all_goals
    have := List.sizeOf_lt_of_mem hab
    simp at this ⊢
    omega

/-! ### Solving -/

variable [Fact p.Prime]

theorem addEntry_filter {x : V} {k : ZMod p} : ∀ {l : List (V × ZMod p)},
    l.Pairwise (fun e f => e.1 < f.1) → (∀ e ∈ l, e.2 ≠ 0) → (x, k) ∈ l →
    ((Linear.addEntry x (-k) l).filter fun e => e.2 ≠ 0) = l.filter fun t => t.1 ≠ x
  | [], _, _, h => by cases h
  | (w, d) :: t, hs, hn, h => by
    rw [List.pairwise_cons] at hs
    have hn' : ∀ e ∈ t, e.2 ≠ 0 := fun e he => hn e (List.mem_cons_of_mem _ he)
    have hd : d ≠ 0 := hn (w, d) List.mem_cons_self
    rw [Linear.addEntry]
    by_cases hw : x = w
    · subst hw
      have hk : k = d := by
        rcases List.mem_cons.1 h with h | h
        · cases h; rfl
        · exact absurd (hs.1 _ h) (lt_irrefl _)
      subst hk
      rw [if_pos rfl, List.filter_cons, List.filter_cons]
      simp only [add_neg_cancel, ne_eq, not_true_eq_false, decide_false, Bool.false_eq_true,
        if_false]
      rw [List.filter_eq_self.2, List.filter_eq_self.2]
      · intro e he
        have := hs.1 e he
        simp [ne_of_gt this]
      · intro e he
        simp [hn' e he]
    · have hm : (x, k) ∈ t := by
        rcases List.mem_cons.1 h with h | h
        · cases h; exact absurd rfl hw
        · exact h
      have hlt : ¬ x < w := not_lt_of_gt (hs.1 _ hm)
      rw [if_neg hw, if_neg hlt, List.filter_cons, List.filter_cons,
        addEntry_filter hs.2 hn' hm]
      simp [hd, Ne.symm hw]

theorem sub_own {e : GExpr p V} (hw : WF e) {x : V} {k : ZMod p} (hx : (x, k) ∈ e.linear) :
    e - scale k (var x) = without x e := by
  cases hw with
  | mk q l c _ _ _ _ hs hn =>
    have hk : k ≠ 0 := hn _ hx
    show add (mk q l c) (neg (scale k (var x))) = _
    rw [var, scale, if_neg hk, neg, add]
    simp only [quadratic, linear, constant, scaleQ, negQ, List.map_cons, List.map_nil,
      List.foldl_cons, List.foldl_nil, Splitter.combineRemovingZeros_nil, one_mul, zero_mul, neg_zero,
      add_zero, without]
    rw [addEntry_filter hs hn hx]

theorem trySolveFor_linear {e : GExpr p V} (hw : WF e) {x : V} (hx : LinearIn x e) :
    ∃ k : ZMod p, trySolveFor e x = .ok (some (scale (-k⁻¹) (without x e))) := by
  obtain ⟨⟨k, hk⟩, hq⟩ := hx
  have hk0 : k ≠ 0 ∧ coefficientOf e x = some k := by
    cases hw with
    | mk q l c _ _ _ _ hs hn => exact ⟨hn _ hk, lookup_of_mem hs hk⟩
  refine ⟨k, ?_⟩
  unfold trySolveFor
  rw [hk0.2]
  simp only [if_neg hk0.1, sub_own hw hk]
  rw [if_neg]
  intro hm
  have ho := mem_vars_iff_occurs.1 hm
  unfold without at ho
  cases ho with
  | linear q l c k h => simp at h
  | left q l c a b h h' => exact (hq _ h).1 h'
  | right q l c a b h h' => exact (hq _ h).2 h'

theorem findInlinable_complete {e : GExpr p V} {x : V} {r : GExpr p V}
    (h : trySolveFor e x = .ok (some r)) : ∀ {l : List V} {o : List (V × GExpr p V)},
    findInlinable e l = .ok o → x ∈ l → (x, r) ∈ o
  | [], o, _, hx => by cases hx
  | y :: t, o, ho, hx => by
    rw [findInlinable] at ho
    cases hy : trySolveFor e y with
    | error z => rw [hy] at ho; cases ho
    | ok oy =>
      rw [hy, ok_bind] at ho
      cases oy with
      | none =>
        simp only at ho
        rcases List.mem_cons.1 hx with rfl | hx
        · rw [h] at hy; cases hy
        · exact findInlinable_complete h ho hx
      | some rhs =>
        simp only at ho
        split at ho
        · cases ho
        · cases ht : findInlinable e t with
          | error z => rw [ht] at ho; cases ho
          | ok rest =>
            rw [ht, ok_bind] at ho
            cases ho
            rcases List.mem_cons.1 hx with rfl | hx
            · rw [h] at hy; cases hy; exact List.mem_cons_self
            · exact List.mem_cons_of_mem _ (findInlinable_complete h ht hx)

/-! ### The loop -/

/-- All substitutions are made in all constraints. -/
def Applied (s0 : ConstraintSystem p V) (st : InlineState p V) : Prop :=
  st.ix.sys.algebraic = s0.algebraic.map (substituteAll st.subs)

/-- The constraint with index `i` offers nothing to inline. -/
def Settled (should : ShouldInline p V) (st : InlineState p V) (i : ℕ) : Prop :=
  ∀ e, st.ix.sys.algebraic[i]? = some e → ∀ x r, x ∈ e.linear.map (·.1) →
    trySolveFor e x = .ok (some r) → should x r st.ix = .ok false

/-- Outcome of a part of the run for the constraints `is`. -/
def Outcome (should : ShouldInline p V) (s0 : ConstraintSystem p V) (st : InlineState p V)
    (is : List ℕ) (r : Except Panic (InlineState p V)) : Prop :=
  ∀ st', r = .ok st' → Applied s0 st' ∧
    (st'.subs.length = st.subs.length → st' = st ∧ ∀ i ∈ is, Settled should st i)

theorem inlineFirst_outcome (should : ShouldInline p V) {s0 : ConstraintSystem p V}
    {st : InlineState p V} (h : InlineInv s0 st) (ha : Applied s0 st) {i : ℕ} {e : GExpr p V}
    (hi : st.ix.sys.algebraic[i]? = some e) : ∀ (l : List (V × GExpr p V)),
    (∀ y ∈ l, trySolveFor e y.1 = .ok (some y.2)) → ∀ st', inlineFirst should i st l = .ok st' →
    Applied s0 st' ∧ (st'.subs.length = st.subs.length →
      st' = st ∧ ∀ y ∈ l, should y.1 y.2 st.ix = .ok false)
  | [], _, st', hr => by cases hr; exact ⟨ha, fun _ => ⟨rfl, by simp⟩⟩
  | (x, r) :: t, hl, st', hr => by
    have ih := inlineFirst_outcome should h ha hi t fun y hy => hl y (List.mem_cons_of_mem _ hy)
    rw [inlineFirst] at hr
    cases hsh : should x r st.ix with
    | error z => rw [hsh] at hr; cases hr
    | ok b =>
      rw [hsh, ok_bind] at hr
      cases b with
      | false =>
        obtain ⟨h1, h2⟩ := ih st' hr
        refine ⟨h1, fun hlen => ?_⟩
        obtain ⟨h3, h4⟩ := h2 hlen
        refine ⟨h3, fun y hy => ?_⟩
        rcases List.mem_cons.1 hy with rfl | hy
        · exact hsh
        · exact h4 y hy
      | true =>
        cases hr
        have hstep := inline_step h hi (hl (x, r) List.mem_cons_self)
        have hlen := hstep.removedLen
        simp only [List.length_cons, h.removedLen] at hlen
        have hins : subsInsert x r st.subs = (x, r) :: st.subs := by
          rw [subsInsert] at hlen ⊢
          rw [List.length_cons] at hlen
          rw [List.filter_eq_self.2]
          exact List.length_filter_eq_length_iff.1 (by omega)
        refine ⟨?_, fun hlen' => ?_⟩
        · unfold Applied at ha ⊢
          show (st.ix.subst x r).sys.algebraic = s0.algebraic.map (substituteAll (subsInsert x r st.subs))
          rw [hins, Indexed.subst_sys h.ix]
          show st.ix.sys.algebraic.map (GExpr.subst x r) = _
          rw [ha, List.map_map]
          rfl
        · have hlen' : (subsInsert x r st.subs).length = st.subs.length := hlen'
          omega

theorem inlineAt_outcome (should : ShouldInline p V) {s0 : ConstraintSystem p V}
    {st : InlineState p V} (h : InlineInv s0 st) (ha : Applied s0 st) (i : ℕ) :
    Outcome should s0 st [i] (inlineAt should i st) := by
  intro st' hr
  rw [inlineAt] at hr
  cases he : st.ix.sys.algebraic[i]? with
  | none => rw [he] at hr; cases hr
  | some e =>
    rw [he] at hr
    obtain ⟨r, hf, hf'⟩ := findInlinable_spec (h.wf.1 e (List.mem_iff_getElem?.2 ⟨i, he⟩))
      ((e.linear.map (·.1)).reverse)
    simp only [findInlinableVariables, hf, ok_bind] at hr
    obtain ⟨h1, h2⟩ := inlineFirst_outcome should h ha he r hf' st' hr
    refine ⟨h1, fun hlen => ?_⟩
    obtain ⟨h3, h4⟩ := h2 hlen
    refine ⟨h3, fun j hj => ?_⟩
    rw [List.mem_singleton] at hj
    subst hj
    intro e' he' x rhs hx hs
    rw [he] at he'
    cases he'
    exact h4 (x, rhs) (findInlinable_complete hs hf (List.mem_reverse.2 hx))

theorem inlinePass_outcome (should : ShouldInline p V) {s0 : ConstraintSystem p V} :
    ∀ (l : List ℕ), (∀ i ∈ l, i < s0.algebraic.length) → ∀ {st : InlineState p V},
    InlineInv s0 st → Applied s0 st → Outcome should s0 st l (inlinePass should l st)
  | [], _, st, h, ha => by
    intro st' hr
    cases hr
    exact ⟨ha, fun _ => ⟨rfl, by simp⟩⟩
  | i :: t, hl, st, h, ha => by
    intro st' hr
    rw [inlinePass] at hr
    cases hs : inlineAt should i st with
    | error z => rw [hs] at hr; cases hr
    | ok st1 =>
      rw [hs, ok_bind] at hr
      obtain ⟨a1, a2⟩ := inlineAt_outcome should h ha i st1 hs
      obtain ⟨k1, k2, -⟩ := (inlineAt_spec should h (hl i (by simp))).1 st1 hs
      have hl' : ∀ j ∈ t, j < s0.algebraic.length := fun j hj => hl j (List.mem_cons_of_mem _ hj)
      obtain ⟨b1, b2⟩ := inlinePass_outcome should t hl' k1 a1 st' hr
      obtain ⟨-, m2, -⟩ := (inlinePass_spec should t hl' k1).1 st' hr
      refine ⟨b1, fun hlen => ?_⟩
      obtain ⟨a3, a4⟩ := a2 (by omega)
      subst a3
      obtain ⟨b3, b4⟩ := b2 hlen
      refine ⟨b3, fun j hj => ?_⟩
      rcases List.mem_cons.1 hj with rfl | hj
      · exact a4 _ (by simp)
      · exact b4 j hj

theorem inlineLoop_outcome (should : ShouldInline p V) {s0 : ConstraintSystem p V} :
    ∀ (fuel : ℕ) {st st' : InlineState p V}, InlineInv s0 st → Applied s0 st →
    inlineLoop should s0.algebraic.length fuel st = .ok (some st') →
    Applied s0 st' ∧ ∀ i < s0.algebraic.length, Settled should st' i
  | 0, st, st', _, _, hr => by cases hr
  | n + 1, st, st', h, ha, hr => by
    have hl : ∀ i ∈ (List.range s0.algebraic.length).reverse, i < s0.algebraic.length :=
      fun i hi => by simpa using hi
    rw [inlineLoop] at hr
    cases hs : inlinePass should (List.range s0.algebraic.length).reverse st with
    | error z => rw [hs] at hr; cases hr
    | ok st1 =>
      rw [hs, ok_bind] at hr
      obtain ⟨k1, k2⟩ := inlinePass_outcome should _ hl h ha st1 hs
      obtain ⟨m1, -⟩ := (inlinePass_spec should _ hl h).1 st1 hs
      split at hr
      · rename_i hlen
        cases hr
        obtain ⟨k3, k4⟩ := k2 hlen
        subst k3
        exact ⟨k1, fun i hi => k4 i (by simpa using hi)⟩
      · exact inlineLoop_outcome should n m1 k1 hr

theorem virtualDegree_mono {x : V} {d d' : ℕ} (h : d ≤ d') : ∀ e : GExpr p V,
    virtualDegree x d e ≤ virtualDegree x d' e
  | mk q l c => by
    rw [virtualDegree_le_iff]
    obtain ⟨h1, h2⟩ := virtualDegree_le_iff.1 (le_refl (virtualDegree x d' (mk q l c)))
    refine ⟨fun ab hab => ?_, fun e he => ?_⟩
    · refine (Nat.add_le_add ?_ ?_).trans (h1 ab hab)
      · exact virtualDegree_mono h ab.1
      · exact virtualDegree_mono h ab.2
    · refine le_trans ?_ (h2 e he)
      split
      · exact h
      · exact le_refl _
termination_by e => sizeOf e
decreasing_by
  all_goals
    obtain ⟨a, b⟩ := ab
    have := List.sizeOf_lt_of_mem hab
    simp at this ⊢
    omega

theorem degreeQ_ge : ∀ {q : List (GExpr p V × GExpr p V)} {ab : GExpr p V × GExpr p V}, ab ∈ q →
    ab.1.degree + ab.2.degree ≤ degreeQ q
  | (a, b) :: t, ab, h => by
    rw [degreeQ]
    rcases List.mem_cons.1 h with rfl | h
    · exact Nat.le_max_left _ _
    · exact (degreeQ_ge h).trans (Nat.le_max_right _ _)

theorem virtualDegree_le_degree {x : V} {d : ℕ} : ∀ {e : GExpr p V}, ¬ e.Occurs x →
    virtualDegree x d e ≤ e.degree
  | mk q l c, hx => by
    rw [virtualDegree_le_iff, degree]
    refine ⟨fun ab hab => ?_, fun e he => ?_⟩
    · refine le_trans (Nat.add_le_add ?_ ?_) ((degreeQ_ge hab).trans (Nat.le_max_left _ _))
      · exact virtualDegree_le_degree fun h => hx (.left _ _ _ ab.1 ab.2 hab h)
      · exact virtualDegree_le_degree fun h => hx (.right _ _ _ ab.1 ab.2 hab h)
    · have h1 : e.1 ≠ x := fun h => hx (.linear _ _ _ e.2 (by rw [← h]; exact he))
      have h2 : l.isEmpty = false := by cases l; cases he; rfl
      rw [if_neg h1, h2]
      exact Nat.le_max_right _ _
termination_by e => sizeOf e
decreasing_by
  all_goals
    obtain ⟨a, b⟩ := ab
    have := List.sizeOf_lt_of_mem hab
    simp at this ⊢
    omega

/-- What the degree bound forbids. -/
theorem refused {bound : DegreeBound} {x : V} {r : GExpr p V} {ix : Indexed p V} (hi : ix.Inv)
    (hb : belowDegreeBound bound x r ix = .ok false) :
    (∃ c ∈ ix.sys.algebraic, bound.identities < virtualDegree x r.degree c) ∨
    ∃ b ∈ ix.sys.bus, ∃ f ∈ b.fields, bound.busInteractions < virtualDegree x r.degree f := by
  rw [belowDegreeBound, Indexed.constraintsReferencing_ok hi] at hb
  simp only [ok_bind] at hb
  have hall := Except.ok.inj hb
  rw [List.all_eq_false] at hall
  obtain ⟨c, hc, hc'⟩ := hall
  obtain ⟨ref, -, h2⟩ := List.mem_filterMap.1 hc
  cases ref with
  | alg i =>
    cases hi : ix.sys.algebraic[i]? with
    | none => simp [refAt, hi] at h2
    | some e =>
      simp only [refAt, hi, Option.map_some, Option.some.injEq] at h2
      subst h2
      simp only [refBelowBound, decide_eq_true_eq, not_le] at hc'
      exact Or.inl ⟨e, List.mem_of_getElem? hi, hc'⟩
  | bus i =>
    cases hi : ix.sys.bus[i]? with
    | none => simp [refAt, hi] at h2
    | some b =>
      simp only [refAt, hi, Option.map_some, Option.some.injEq] at h2
      subst h2
      simp only [refBelowBound, List.all_eq_true, decide_eq_true_eq, not_forall, not_le] at hc'
      obtain ⟨f, hf, hf'⟩ := hc'
      exact Or.inr ⟨b, List.mem_of_getElem? hi, f, hf, hf'⟩
  | derived i => simp [refAt] at h2

/-- Systems within the bound stay there, with the constraints that are removed in the end. -/
theorem within {s : Indexed p V} (hi : s.Inv) (hw : s.sys.WF) {bound : DegreeBound} {fuel : ℕ}
    {should : ShouldInline p V} (hb : RespectsBound bound should)
    (h0 : ∀ e ∈ s.sys.algebraic, e.degree ≤ bound.identities)
    (h1 : ∀ b ∈ s.sys.bus, ∀ e ∈ b.fields, e.degree ≤ bound.busInteractions)
    {ix : Indexed p V} {subs : List (V × GExpr p V)}
    (h : replaceConstrainedWitnessColumns fuel s should = .ok (some (ix, subs))) :
    (∀ e ∈ s.sys.algebraic.map (substituteAll subs), e.degree ≤ bound.identities) ∧
    ∀ b ∈ ix.sys.bus, ∀ e ∈ b.fields, e.degree ≤ bound.busInteractions := by
  rw [replaceConstrainedWitnessColumns] at h
  have hinit := inlineInv_init hi hw
  cases hs : inlineLoop should s.sys.algebraic.length fuel ⟨s, [], []⟩ with
  | error z => rw [hs] at h; cases h
  | ok o =>
    rw [hs, ok_bind] at h
    cases o with
    | none => cases h
    | some st =>
      simp only at h
      split at h
      · cases h
        have ha0 : Applied s.sys (⟨s, [], []⟩ : InlineState p V) := by
          unfold Applied substituteAll
          simp
        obtain ⟨a1, -⟩ := inlineLoop_outcome should fuel hinit ha0 hs
        obtain ⟨-, k2⟩ := (inlineLoop_spec should fuel hinit).1 st hs
        have hd := k2 bound hb ⟨fun e he => Or.inr he, fun b hb => Or.inr hb⟩
        unfold Applied at a1
        rw [← a1]
        refine ⟨fun e he => ?_, fun b hb => ?_⟩
        · exact (hd.alg e he).elim (fun h => h) (h0 e)
        · exact (hd.bus b hb).elim (fun h => h) (h1 b)
      · cases h

theorem virtualDegree_one (x : V) {d : ℕ} (hd : d ≤ 1) : ∀ e : GExpr p V,
    virtualDegree x d e ≤ e.degree
  | mk q l c => by
    rw [virtualDegree_le_iff, degree]
    refine ⟨fun ab hab => ?_, fun e he => ?_⟩
    · refine le_trans (Nat.add_le_add ?_ ?_) ((degreeQ_ge hab).trans (Nat.le_max_left _ _))
      · exact virtualDegree_one x hd ab.1
      · exact virtualDegree_one x hd ab.2
    · have h2 : l.isEmpty = false := by cases l; cases he; rfl
      rw [h2]
      refine le_trans ?_ (Nat.le_max_right _ _)
      split
      · exact hd
      · exact le_refl _
termination_by e => sizeOf e
decreasing_by
  all_goals
    obtain ⟨a, b⟩ := ab
    have := List.sizeOf_lt_of_mem hab
    simp at this ⊢
    omega

theorem complete {s : Indexed p V} (hi : s.Inv) (hw : s.sys.WF) {bound : DegreeBound} {fuel : ℕ}
    {should : ShouldInline p V}
    (hb : ∀ x e t, should x e t = .ok false → belowDegreeBound bound x e t = .ok false)
    {ix : Indexed p V} {subs : List (V × GExpr p V)}
    (h : replaceConstrainedWitnessColumns fuel s should = .ok (some (ix, subs))) :
    (∀ e ∈ ix.sys.algebraic, e ∈ s.sys.algebraic.map (substituteAll subs)) ∧
    ∀ e ∈ s.sys.algebraic.map (substituteAll subs), ∀ x, LinearIn x e →
    (∃ c ∈ s.sys.algebraic.map (substituteAll subs),
      bound.identities < virtualDegree x (without x e).degree c) ∨
    ∃ b ∈ ix.sys.bus, ∃ f ∈ b.fields,
      bound.busInteractions < virtualDegree x (without x e).degree f := by
  rw [replaceConstrainedWitnessColumns] at h
  have hinit := inlineInv_init hi hw
  cases hs : inlineLoop should s.sys.algebraic.length fuel ⟨s, [], []⟩ with
  | error z => rw [hs] at h; cases h
  | ok o =>
    rw [hs, ok_bind] at h
    cases o with
    | none => cases h
    | some st =>
      simp only at h
      split at h
      · cases h
        have ha0 : Applied s.sys (⟨s, [], []⟩ : InlineState p V) := by
          unfold Applied substituteAll
          simp
        obtain ⟨h1, h2⟩ := inlineLoop_outcome should fuel hinit ha0 hs
        obtain ⟨k1, -⟩ := (inlineLoop_spec should fuel hinit).1 st hs
        unfold Applied at h1
        rw [← h1]
        refine ⟨fun e he => ?_, fun e he x hx => ?_⟩
        · obtain ⟨i, hi, -⟩ := mem_retainFrom.1 he
          exact List.mem_iff_getElem?.2 ⟨i, hi⟩
        · obtain ⟨i, hi'⟩ := List.mem_iff_getElem?.1 he
          obtain ⟨k, hk⟩ := trySolveFor_linear (k1.wf.1 e he) hx
          have hlt : i < s.sys.algebraic.length := by
            have := (List.getElem?_eq_some_iff.1 hi').1
            rw [k1.len] at this
            exact this
          have hkey : x ∈ e.linear.map (·.1) := by
            obtain ⟨c, hc⟩ := hx.1
            exact List.mem_map.2 ⟨_, hc, rfl⟩
          have href := refused k1.ix (hb _ _ _ (h2 i hlt e hi' x _ hkey hk))
          have hmono := fun c : GExpr p V => virtualDegree_mono (x := x)
            (degree_scale_le (-k⁻¹) (without x e)) c
          rcases href with ⟨c, c1, c2⟩ | ⟨b, b1, f, f1, f2⟩
          · exact Or.inl ⟨c, c1, c2.trans_le (hmono c)⟩
          · exact Or.inr ⟨b, b1, f, f1, f2.trans_le (hmono f)⟩
      · cases h

end Inlined

end Verif
