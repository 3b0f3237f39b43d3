import Verif.Proofs.RuleDriver
import Verif.Proofs.RulesReplace
import Verif.Proofs.Splitter
import Verif.Proofs.TerminationBase

/-! Helper lemmas for the termination of the rule driver: which variables the facts mention and what
the replacements do to the number of constraints and variables. -/

set_option linter.unusedSectionVars false

namespace Verif

open RangeConstraint GExpr

variable {p : ℕ} {V : Type} [LinearOrder V] [Fact p.Prime] {inp : RuleInput p V}

theorem rights_mem {m : List (EitherOrBoth (V × ZMod p))} {x : V × ZMod p}
    (h : EitherOrBoth.right x ∈ m) : x ∈ rights m := by
  induction m with
  | nil => cases h
  | cons y m ih =>
    rcases List.mem_cons.1 h with rfl | h
    · simp [rights]
    · have := ih h
      cases y <;> simp [rights, this]

theorem differ_right {a b : GExpr p V} {v1 v2 : V} {f : ZMod p}
    (h : differInExactlyOneVariable a b = some (v1, v2, f)) : v2 ∈ b.vars := by
  unfold differInExactlyOneVariable at h
  split at h
  · cases h
  extract_lets cand at h
  obtain ⟨cand', hcand⟩ : ∃ c', c' = cand := ⟨_, rfl⟩
  rw [← hcand] at h
  split at h
  · cases h
  rename_i lv rv fac
  split at h
  · cases h
  split at h
  · cases h
  cases h
  have key : ∀ c : ZMod p, EitherOrBoth.right (v2, c) ∈ mergeJoin a.linear b.linear →
      v2 ∈ b.vars := by
    intro c hc
    have := rights_mem hc
    rw [(mergeJoin_spec _ _).2.1] at this
    obtain ⟨q, l, k⟩ := b
    exact mem_vars_mk.2 (Or.inr ⟨c, this⟩)
  have sub : ∀ x, x ∈ (mergeJoin a.linear b.linear).filter (fun x => !x.isBoth) →
      x ∈ mergeJoin a.linear b.linear := fun x hx => (List.mem_filter.1 hx).1
  unfold cand at hcand
  split at hcand
  · rename_i lv lc rv rc hl
    simp only [Option.some.injEq, Prod.mk.injEq] at hcand
    obtain ⟨-, rfl, -⟩ := hcand
    exact key rc (sub _ (by rw [hl]; simp))
  · rename_i rv rc lv lc hl
    simp only [Option.some.injEq, Prod.mk.injEq] at hcand
    obtain ⟨-, rfl, -⟩ := hcand
    exact key rc (sub _ (by rw [hl]; simp))
  · cases hcand

theorem IsProduct.vars {e l r : GExpr p V} (h : IsProduct e l r) (v : V) :
    v ∈ e.vars ↔ v ∈ l.vars ∨ v ∈ r.vars := by
  rcases h with rfl | rfl <;> rw [mem_vars_mk] <;> simp [or_comm]

theorem IsProduct.count {e l r : GExpr p V} (h : IsProduct e l r) (v : V) :
    e.vars.count v = l.vars.count v + r.vars.count v := by
  rcases h with rfl | rfl <;> rw [vars_eq] <;> simp [Nat.add_comm]

theorem IsProduct.unique {e l r l' r' : GExpr p V} (h : IsProduct e l r) (h' : IsProduct e l' r') :
    (l = l' ∧ r = r') ∨ (l = r' ∧ r = l') := by
  rcases h with rfl | rfl <;> rcases h' with h' | h' <;> cases h' <;> simp

theorem IsProduct.quadratic_ne {e l r : GExpr p V} (h : IsProduct e l r) : e.quadratic ≠ [] := by
  rcases h with rfl | rfl <;> simp [quadratic]

/-- The variable occurs at least twice in one constraint. -/
def RuleInput.Twice (inp : RuleInput p V) (v : V) : Prop :=
  ∃ e ∈ inp.constraints, 2 ≤ e.vars.count v

/-- The variables mentioned by a fact. -/
def RFact.Within (inp : RuleInput p V) (S : V → Prop) : RFact p V → Prop
  | .algebraicConstraint e | .expression e | .equalZero e => ∀ v ∈ e.vars, S v
  | .containsVariable _ v | .affineExpression _ _ v _ | .linearExpression _ v _ |
    .solvable _ v _ | .updateRangeConstraintOnVar v _ | .assignment v _ => S v
  | .product _ l r | .productConstraint _ l r | .entailsZeroHeadAndTail l r | .sumHeadTail _ l r =>
    (∀ v ∈ l.vars, S v) ∧ ∀ v ∈ r.vars, S v
  | .affinelyRelated e1 _ e2 _ => ∀ v ∈ e2.vars, v ∈ e1.vars
  | .quadraticEquivalenceCandidate _ r _ => ∀ v ∈ r.vars, S v ∧ inp.Twice v
  | .quadraticEquivalenceCandidatePair _ _ _ v1 v2 | .quadraticEquivalence v1 v2 |
    .equivalence v1 v2 | .substituteByVariable v1 v2 =>
    (S v1 ∧ inp.Twice v1) ∧ (S v2 ∧ inp.Twice v2)
  | _ => True

theorem within_of_derives (hwf : inp.WF) {S : V → Prop}
    (h1 : ∀ e ∈ inp.constraints, ∀ v ∈ e.vars, S v)
    (h2 : ∀ x ∈ inp.exprRanges, ∀ v ∈ x.1.vars, S v) {f : RFact p V} (h : Derives inp f) :
    f.Within inp S := by
  have shape : ∀ {f}, Derives inp f → f.Shape inp := fun h => shape_of_derives hwf h
  have av : ∀ (v : V) (c o : ZMod p), v ∈ (mk [] [(v, c)] o : GExpr p V).vars := by
    intro v c o; rw [vars_affine]; exact ⟨c, by simp⟩
  induction h with
  | initial h => exact h1 _ h
  | exprConstraint h ih => exact ih
  | exprRange h => exact h2 _ h
  | zeroConstraint h ih => exact ih
  | contains h hv ih => exact ih _ hv
  | product h hp ih =>
    have := (shape (.product h hp)).2
    exact ⟨fun v hv => ih v ((this.vars v).2 (Or.inl hv)),
      fun v hv => ih v ((this.vars v).2 (Or.inr hv))⟩
  | productSymm h ih => exact ih.symm
  | exprLeft h ih => exact ih.1
  | exprRight h ih => exact ih.2
  | affine h ha ih =>
    have := (shape (.affine h ha)).1
    refine ih _ ?_
    rw [this]; exact av _ _ _
  | linear h ih => exact ih
  | headTail h hs ih =>
    have := vars_split (shape h) hs
    exact ⟨fun v hv => ih v ((this v).2 (Or.inl hv)), fun v hv => ih v ((this v).2 (Or.inr hv))⟩
  | exprHead h ih => exact ih.1
  | exprTail h ih => exact ih.2
  | affinelyRelated h1 h2 ih1 ih2 =>
    intro v hv
    rw [(shape h1).1]
    rw [(shape h2).1, vars_affine] at hv
    obtain ⟨k, hk⟩ := hv
    simp only [List.mem_singleton, Prod.mk.injEq] at hk
    obtain ⟨rfl, rfl⟩ := hk
    exact av _ _ _
  | affinelyRelatedCons ht g1 l1 g2 l2 iht ih1 ihl1 ih2 ihl2 =>
    intro v hv
    have s1 := shape g1
    have s2 := shape g2
    rw [vars_split s1.1 s1.2]
    rw [vars_split s2.1 s2.2] at hv
    rcases hv with hv | hv
    · left
      rw [(shape l1).1]
      rw [(shape l2).1, vars_affine] at hv
      obtain ⟨k, hk⟩ := hv
      simp only [List.mem_singleton, Prod.mk.injEq] at hk
      obtain ⟨rfl, rfl⟩ := hk
      exact av _ _ _
    · exact Or.inr (iht v hv)
  | productConstraint h hp ih ihp => exact ihp
  | updateAffine h ha hc ih iha => exact iha
  | updateProduct h hlr hl hr ih ihl ihr => exact ihl
  | solvable h ih => exact ih
  | assignment h hs ih ihs => exact ihs
  | entailsZero h hs hh ht hh0 ht0 hsum ih ihs => exact ihs
  | zeroHead h ih => exact ih.1
  | zeroTail h ih => exact ih.2
  | assignOneHot g1 a1 hb a2 hc hs hl _ _ _ _ _ _ ihl => exact ihl
  | quadraticCandidate h ha hi hn ih iha =>
    intro v hv
    refine ⟨ih.2 v hv, _, (shape h).1, ?_⟩
    rw [(shape h).2.count]
    have a := List.count_pos_iff.2 hv
    have b := List.count_pos_iff.2 (iha v hv)
    omega
  | quadraticPair h1 h2 hlt hd ho hc ih1 ih2 =>
    exact ⟨ih1 _ (mem_vars_of_lookup hc), ih2 _ (differ_right hd)⟩
  | quadraticEquivalence h h1 h2 hd ih => exact ih
  | equivalence h ih => exact ih
  | substituteLeft h hv ih => exact ih
  | substituteRight h hv ih => exact ih.symm
  | _ => trivial

/-! ### The comparison with zero -/

theorem negated_vars (hwf : inp.WF) {e l : GExpr p V} {m v r : V} {n : ℕ}
    (h : Derives inp (.negatedDiffMarkerConstraint e m l v r n)) : v ∈ e.vars ∧ r ∈ e.vars ∧
      ∃ f, IsProduct e l f ∧ l.quadratic = [] ∧ l.constant = 1 ∧ f.quadratic ≠ [] := by
  have sh := shape_of_derives hwf h
  have key : ∀ {f r2 : GExpr p V}, Derives inp (.productConstraint e l f) →
      Derives inp (.plusMinusResult f r2 r) → Derives inp (.linearExpression r2 v (-1)) →
      v ∈ e.vars ∧ r ∈ e.vars ∧
      ∃ f, IsProduct e l f ∧ l.quadratic = [] ∧ l.constant = 1 ∧ f.quadratic ≠ [] := by
    intro f r2 h1 h2 h3
    have s1 := (shape_of_derives hwf h1).2
    have s2 := (shape_of_derives hwf h2).1
    have s3 := (shape_of_derives hwf h3).1
    refine ⟨(s1.vars v).2 (Or.inr ((s2.vars v).2 (Or.inl ?_))),
      (s1.vars r).2 (Or.inr ((s2.vars r).2 (Or.inr ?_))), f, s1, sh.2.2.2.1, sh.2.2.2.2.1,
      s2.quadratic_ne⟩
    · rw [s3, vars_affine]; exact ⟨-1, by simp⟩
    · rw [vars_affine]; exact ⟨2, by simp⟩
  cases h with
  | negatedBase h hl hr hv => exact key h hr hv
  | negatedStep h hp hd hl hr hv => exact key h hr hv

theorem negatedFinal_shape (hwf : inp.WF) {e l : GExpr p V} {m r : V} {n : ℕ}
    (h : Derives inp (.negatedDiffMarkerConstraintFinal e m l r n)) :
      ∃ f, IsProduct e l f ∧ l.quadratic = [] ∧ f.quadratic = [] := by
  have sh := shape_of_derives hwf h
  cases h with
  | negatedFinal h hp hd hl hr =>
    refine ⟨_, (shape_of_derives hwf h).2, sh.2.2.2.1, ?_⟩
    rw [(shape_of_derives hwf hr).1]; rfl

theorem negatedFinalNegated_vars (hwf : inp.WF) {e : GExpr p V} {m v r : V} {n : ℕ}
    (h : Derives inp (.negatedDiffMarkerConstraintFinalNegated e m v r n)) : v ∈ e.vars := by
  cases h with
  | negatedFinalNegated h hp hd hl hr hv =>
    have s1 := (shape_of_derives hwf h).2
    have s2 := (shape_of_derives hwf hr).1
    have s3 := (shape_of_derives hwf hv).1
    refine (s1.vars v).2 (Or.inr ((s2.vars v).2 (Or.inl ?_)))
    rw [s3, vars_affine]; exact ⟨-1, by simp⟩

theorem diffMarker_shape (hwf : inp.WF) {e e2 : GExpr p V} {m r d : V}
    (h : Derives inp (.diffMarkerConstraint e m e2 r d)) :
      ∃ l f, IsProduct e l f ∧ l.quadratic = [] ∧ l.constant = 0 ∧ f.quadratic ≠ [] := by
  cases h with
  | diffMarker h hl hr h1 h2 =>
    refine ⟨_, _, (shape_of_derives hwf h).2, ?_, ?_, ?_⟩
    · rw [(shape_of_derives hwf hl).1]; rfl
    · rw [(shape_of_derives hwf hl).1]; rfl
    · have s := shape_of_derives hwf hr
      rw [(quadratic_split s.1 s.2).1]
      have := (shape_of_derives hwf h1).1.quadratic_ne
      simp [this]

/-- The comparison with zero consists of at least three different constraints, which contain its
variables. -/
theorem equalZeroCheck_shape (hwf : inp.WF) {constrs : List (GExpr p V)} {res : V} {vars : List V}
    (h : Derives inp (.equalZeroCheck constrs res vars)) :
    3 ≤ constrs.toFinset.card ∧ (∃ e ∈ constrs, res ∈ e.vars) ∧
      ∀ v ∈ vars, ∃ e ∈ constrs, v ∈ e.vars := by
  cases h with
  | @equalZeroCheck c0 c1 c2 c3 c4 c5 c6 c7 c8 c9 m0 m1 m2 m3 a0 a1 a2 a3 _ dv _ _ _ _ _ _ _ _ _
      _ _ _ _ _ _ h0 h1 h2 h3 h4 h5 =>
    obtain ⟨v0, r0, f0, p0, q0, k0, z0⟩ := negated_vars hwf h0
    obtain ⟨v1, -⟩ := negated_vars hwf h1
    obtain ⟨v2, -⟩ := negated_vars hwf h2
    obtain ⟨f3, p3, q3, z3⟩ := negatedFinal_shape hwf h3
    have v4 := negatedFinalNegated_vars hwf h4
    obtain ⟨l5, f5, p5, q5, k5, z5⟩ := diffMarker_shape hwf h5
    refine ⟨?_, ⟨c0, by simp, r0⟩, ?_⟩
    · have n03 : c0 ≠ c3 := by
        rintro rfl
        rcases p0.unique p3 with ⟨-, e⟩ | ⟨-, e⟩
        · exact z0 (e ▸ z3)
        · exact z0 (e ▸ q3)
      have n05 : c0 ≠ c5 := by
        rintro rfl
        rcases p0.unique p5 with ⟨e, -⟩ | ⟨e, -⟩
        · rw [e, k5] at k0; exact zero_ne_one k0
        · exact z5 (e ▸ q0)
      have n35 : c3 ≠ c5 := by
        rintro rfl
        rcases p5.unique p3 with ⟨-, e⟩ | ⟨-, e⟩
        · exact z5 (e ▸ z3)
        · exact z5 (e ▸ q3)
      have : ({c0, c3, c5} : Finset (GExpr p V)) ⊆
          [c0, c1, c2, c3, c4, c5, c6, c7, c8, c9].toFinset := by
        intro x hx
        simp only [Finset.mem_insert, Finset.mem_singleton] at hx
        rcases hx with rfl | rfl | rfl <;> simp only [List.mem_toFinset, List.mem_cons, true_or, or_true]
      have h3 : ({c0, c3, c5} : Finset (GExpr p V)).card = 3 := by
        rw [Finset.card_eq_three]; exact ⟨c0, c3, c5, n03, n05, n35, rfl⟩
      exact h3 ▸ Finset.card_le_card this
    · intro v hv
      simp only [List.mem_cons, List.not_mem_nil, or_false] at hv
      rcases hv with rfl | rfl | rfl | rfl
      · exact ⟨c4, by simp, v4⟩
      · exact ⟨c2, by simp, v2⟩
      · exact ⟨c1, by simp, v1⟩
      · exact ⟨c0, by simp, v0⟩

/-! ### What a replacement does -/

/-- A replacement removes the variables `gone`, which occur nowhere else, adds the variables `new`,
and makes the total smaller. -/
structure ReplacementAction.Shrinks (inp : RuleInput p V) (r : ReplacementAction p V)
    (gone new : List V) : Prop where
  nodup : gone.Nodup
  single : ∀ v ∈ gone, v ∈ inp.single ∧ ∃ e ∈ r.replace, v ∈ e.vars ∧ e ∈ inp.constraints
  vars : ∀ e ∈ r.replaceBy, ∀ v ∈ e.vars,
    v ∈ new ∨ (v ∉ gone ∧ ∃ f ∈ r.replace, v ∈ f.vars)
  less : 2 * r.replaceBy.length + new.length < 2 * r.replace.toFinset.card + gone.length

theorem squareIfNeeded_vars (x : GExpr p V) (rc : RangeConstraint p) {v : V}
    (h : v ∈ (squareIfNeeded x rc).1.vars) : v ∈ x.vars := by
  unfold squareIfNeeded at h
  split at h
  · exact h
  · rcases vars_mul_subset _ _ h with h | h <;> exact h

theorem shrinks_of_requested (hwf : inp.WF) (hlt : ∀ e, ¬ inp.lt e e)
    (hsingle : ∀ v ∈ inp.single, ∀ e ∈ inp.constraints, e.vars.count v ≤ 1)
    {r : ReplacementAction p V} (hr : r.Requested inp) :
    ∃ gone new, r.Shrinks inp gone new := by
  cases hr with
  | @one e e' h =>
    cases h with
    | @replaceFreeVariables _ v1 v2 x1 x2 c1 c2 rc1 rc2 factor r w h h1 h2 hr hw =>
      obtain ⟨s1, s2, s3, s4, -, -, -, -, s9, s10, s11, s12⟩ := shape_of_derives hwf h
      obtain ⟨-, f2, f3, f4⟩ := free_split (ne_of_lt s1) s11 s12 s9 s10 (hsingle _ s2 _ s4)
        (hsingle _ s3 _ s4)
      obtain ⟨rfl, rfl, -⟩ := freeVariableParts_inv hr
      have w1 : v1 ∈ e.vars ∧ v2 ∈ e.vars := by
        obtain ⟨q, l, c⟩ := e
        constructor
        · rw [mem_vars_mk]
          left
          rcases s11 with h | h
          · exact ⟨_, h, Or.inr (by rw [vars_affine]; exact ⟨c1, by simp⟩)⟩
          · exact ⟨_, h, Or.inl (by rw [vars_affine]; exact ⟨c1, by simp⟩)⟩
        · rw [mem_vars_mk]
          left
          rcases s12 with h | h
          · exact ⟨_, h, Or.inr (by rw [vars_affine]; exact ⟨c2, by simp⟩)⟩
          · exact ⟨_, h, Or.inl (by rw [vars_affine]; exact ⟨c2, by simp⟩)⟩
      refine ⟨[v1, v2], [w], by simpa using ne_of_lt s1, ?_, ?_, ?_⟩
      · intro v hv
        simp only [List.mem_cons, List.not_mem_nil, or_false] at hv
        rcases hv with rfl | rfl
        · exact ⟨s2, e, by simp, w1.1, s4⟩
        · exact ⟨s3, e, by simp, w1.2, s4⟩
      · intro e' he' v hv
        rw [List.mem_singleton.1 he'] at hv
        unfold freeVariableReplacement at hv
        have fin : (v ∈ e.vars ∧ v ≠ v1 ∧ v ≠ v2) →
            v ∈ [w] ∨ (v ∉ [v1, v2] ∧ ∃ f ∈ [e], v ∈ f.vars) := by
          rintro ⟨a, b, c⟩
          exact Or.inr ⟨by simp [b, c], e, by simp, a⟩
        rcases vars_add_subset _ _ hv with hv | hv
        · exact fin (f2 v hv)
        rcases vars_mul_subset _ _ hv with hv | hv
        · rw [vars_var] at hv; exact Or.inl hv
        rcases vars_add_subset _ _ hv with hv | hv
        · exact fin (f3 v (squareIfNeeded_vars _ _ (vars_scale_subset _ _ hv)))
        · exact fin (f4 v (squareIfNeeded_vars _ _ (vars_scale_subset _ _ hv)))
      · simp
  | @many constrs es' h =>
    cases h with
    | @replaceEqualZero _ res vs inv h hw =>
      obtain ⟨h1, h2, h3⟩ := equalZeroCheck_shape hwf h
      refine ⟨[], [inv], List.nodup_nil, by simp, ?_, ?_⟩
      · intro e he v hv
        have hsum : ∀ v ∈ (sum (vs.map var) : GExpr p V).vars,
            v ∈ [inv] ∨ (v ∉ ([] : List V) ∧ ∃ f ∈ constrs, v ∈ f.vars) := by
          refine Splitter.vars_sum_closed ?_
          intro e he v hv
          obtain ⟨u, hu, rfl⟩ := List.mem_map.1 he
          rw [vars_var, List.mem_singleton] at hv
          subst hv
          exact Or.inr ⟨by simp, h3 _ hu⟩
        have hres : ∀ v ∈ (var res : GExpr p V).vars,
            v ∈ [inv] ∨ (v ∉ ([] : List V) ∧ ∃ f ∈ constrs, v ∈ f.vars) := by
          intro v hv
          rw [vars_var, List.mem_singleton] at hv
          subst hv
          exact Or.inr ⟨by simp, h2⟩
        unfold equalZeroReplacement at he
        simp only [List.mem_cons, List.not_mem_nil, or_false] at he
        rcases he with rfl | rfl
        · rcases vars_mul_subset _ _ hv with hv | hv
          · exact hres v hv
          · exact hsum v hv
        · rcases vars_sub_subset _ _ hv with hv | hv
          · rcases vars_add_subset _ _ hv with hv | hv
            · exact hres v hv
            rcases vars_mul_subset _ _ hv with hv | hv
            · rw [vars_var] at hv; exact Or.inl hv
            · exact hsum v hv
          · exfalso
            have : (one : GExpr p V).vars = [] := vars_const 1
            rw [this] at hv
            cases hv
      · show 2 * 2 + 1 < _
        simp only [List.length_nil]
        omega
    | @replaceProducts e1 e2 x a b ra rb h1 h2 hl ha hb ha0 hb0 hsum =>
      have p1 := (shape_of_derives hwf h1).2
      have p2 := (shape_of_derives hwf h2).2
      refine ⟨[], [], List.nodup_nil, by simp, ?_, ?_⟩
      · intro e he v hv
        rw [List.mem_singleton.1 he] at hv
        refine Or.inr ⟨by simp, ?_⟩
        rcases vars_mul_subset _ _ hv with hv | hv
        · exact ⟨e1, by simp, (p1.vars v).2 (Or.inl hv)⟩
        rcases vars_add_subset _ _ hv with hv | hv
        · exact ⟨e1, by simp, (p1.vars v).2 (Or.inr hv)⟩
        · exact ⟨e2, by simp, (p2.vars v).2 (Or.inr hv)⟩
      · have hne : e1 ≠ e2 := by rintro rfl; exact hlt _ hl
        simp [hne]

end Verif
