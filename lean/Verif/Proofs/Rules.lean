import Verif.Spec.Rules
import Verif.Proofs.Inliner
import Mathlib.Tactic.FieldSimp
import Mathlib.Tactic.LinearCombination

set_option linter.unusedSectionVars false

namespace Verif

open RangeConstraint GExpr

variable {p : ℕ} {V : Type} [LinearOrder V] [Fact p.Prime]

/-! ### Shapes -/

theorem tryAsSingleProduct_eq {e l r : GExpr p V} (h : e.tryAsSingleProduct = some (l, r)) :
    e = mk [(l, r)] [] 0 := by
  unfold tryAsSingleProduct at h
  split at h
  · rename_i hc
    obtain ⟨q, ln, c⟩ := e
    obtain ⟨h1, h2⟩ := hc
    simp only [linear, constant, quadratic, List.isEmpty_iff] at h h1 h2
    subst h1 h2
    rcases q with _ | ⟨lr, _ | ⟨x, q⟩⟩
    · cases h
    · cases h; rfl
    · cases h
  · cases h

theorem tryToAffine_eq {e : GExpr p V} {c o : ZMod p} {v : V}
    (h : tryToAffine e = some (c, v, o)) : e = mk [] [(v, c)] o := by
  obtain ⟨q, ln, k⟩ := e
  unfold tryToAffine at h
  split at h
  next => cases h
  next hc =>
    have hq : q = [] := by
      simpa [isAffine, isQuadratic, quadratic] using hc
    simp only [linear, constant] at h
    split at h
    next => cases h; subst hq; rfl
    next => cases h

theorem mul_eq_of_wf {a b : GExpr p V} (ha : a.tryToKnown = none) (hb : b.tryToKnown = none) :
    mul a b = mk [(a, b)] [] 0 := by
  unfold mul; rw [hb, ha]

/-- The two ways an expression can be split. -/
theorem split_cases {e hd tl : GExpr p V} (hw : WF e) (h : e.trySplitHeadTail = some (hd, tl)) :
    (∃ a b q l c, e = mk ((a, b) :: q) l c ∧ hd = mk [(a, b)] [] 0 ∧ tl = mk q l c) ∨
    ∃ v k l c, e = mk [] ((v, k) :: l) c ∧ hd = mk [] [(v, k)] 0 ∧ tl = mk [] l c := by
  obtain ⟨q, l, c⟩ := e
  cases q with
  | cons ab q =>
    obtain ⟨a, b⟩ := ab
    simp only [trySplitHeadTail, Option.some.injEq, Prod.mk.injEq] at h
    obtain ⟨rfl, rfl⟩ := h
    have := (wf_inv hw).1 (a, b) (by simp)
    exact Or.inl ⟨a, b, q, l, c, rfl, mul_eq_of_wf this.2.2.1 this.2.2.2, rfl⟩
  | nil =>
    cases l with
    | nil => simp [trySplitHeadTail] at h
    | cons vk l =>
      obtain ⟨v, k⟩ := vk
      simp only [trySplitHeadTail, Option.some.injEq, Prod.mk.injEq] at h
      obtain ⟨rfl, rfl⟩ := h
      exact Or.inr ⟨v, k, l, c, rfl, rfl, rfl⟩

theorem wf_split {e hd tl : GExpr p V} (hw : WF e) (h : e.trySplitHeadTail = some (hd, tl)) :
    WF hd ∧ WF tl := by
  rcases split_cases hw h with ⟨a, b, q, l, c, rfl, rfl, rfl⟩ | ⟨v, k, l, c, rfl, rfl, rfl⟩
  · obtain ⟨h1, h2, h3⟩ := wf_inv hw
    exact ⟨wf_intro (fun ab hab => h1 ab (by simp at hab; simp [hab])) List.Pairwise.nil (by simp),
      wf_intro (fun ab hab => h1 ab (List.mem_cons_of_mem _ hab)) h2 h3⟩
  · obtain ⟨h1, h2, h3⟩ := wf_inv hw
    exact ⟨wf_intro (by simp) (List.pairwise_singleton _ _) (fun e he => h3 e (by
        simp at he; simp [he])),
      wf_intro (by simp) h2.of_cons (fun e he => h3 e (List.mem_cons_of_mem _ he))⟩

/-- `(l, r)` are the two factors of `e`, in some order. -/
def IsProduct (e l r : GExpr p V) : Prop := e = mk [(l, r)] [] 0 ∨ e = mk [(r, l)] [] 0

theorem IsProduct.symm {e l r : GExpr p V} (h : IsProduct e l r) : IsProduct e r l := Or.symm h

theorem eval_mk_pair (σ : V → ZMod p) (l r : GExpr p V) :
    eval σ (mk [(l, r)] [] 0) = eval σ l * eval σ r := eval_ofQuadratic σ l r

theorem eval_mk_single (σ : V → ZMod p) (v : V) (k c : ZMod p) :
    eval σ (mk [] [(v, k)] c) = k * σ v + c := by
  rw [eval_mk]; simp

theorem IsProduct.eval {e l r : GExpr p V} (h : IsProduct e l r) (σ : V → ZMod p) :
    GExpr.eval σ e = GExpr.eval σ l * GExpr.eval σ r := by
  rcases h with rfl | rfl
  · exact eval_mk_pair σ l r
  · rw [eval_mk_pair, mul_comm]

theorem IsProduct.wf {e l r : GExpr p V} (h : IsProduct e l r) (hw : WF e) : WF l ∧ WF r := by
  rcases h with rfl | rfl
  · have := (wf_inv hw).1 (l, r) (by simp); exact ⟨this.1, this.2.1⟩
  · have := (wf_inv hw).1 (r, l) (by simp); exact ⟨this.2.1, this.1⟩

/-! ### Structural meaning of the facts -/

variable (inp : RuleInput p V)

/-- The variable is known to be boolean. -/
def RuleInput.Bool (v : V) : Prop := (v, fromMask 1) ∈ inp.varRanges

/-- What a fact says about the shape of expressions, independently of any assignment. -/
def RFact.Shape : RFact p V → Prop
  | .algebraicConstraint e => e ∈ inp.constraints
  | .expression e => WF e
  | .equalZero e => WF e
  | .containsVariable e v => v ∈ e.vars
  | .product e l r => WF e ∧ IsProduct e l r
  | .affineExpression e c v o => e = mk [] [(v, c)] o ∧ c ≠ 0
  | .linearExpression e v c => e = mk [] [(v, c)] 0 ∧ c ≠ 0
  | .constant e k => e = mk [] [] k
  | .sumHeadTail e hd tl => WF e ∧ e.trySplitHeadTail = some (hd, tl)
  | .simpleSum e f c => f ≠ 0 ∧ ∃ l, e = mk [] l c ∧ ∀ x ∈ l, x.2 = f
  | .isAffine e => e.quadratic = []
  | .hasSummand e s => WF e ∧ ((∃ ab ∈ e.quadratic, s = mk [ab] [] 0) ∨
      ∃ vc ∈ e.linear, s = mk [] [vc] 0)
  | .differBySummand e1 e2 s => WF e1 ∧ e1.quadratic.Perm (s.quadratic ++ e2.quadratic) ∧
      e1.linear.Perm (s.linear ++ e2.linear) ∧ e1.constant = e2.constant ∧ s.constant = 0
  | .affinelyRelated e1 f e2 c => f ≠ 0 ∧ ∀ σ, eval σ e1 = f * eval σ e2 + c
  | .hasProductSummand e l r => WF e ∧ ((l, r) ∈ e.quadratic ∨ (r, l) ∈ e.quadratic)
  | .productConstraint e l r => e ∈ inp.constraints ∧ IsProduct e l r
  | .booleanAndSubsetOfVars e1 e2 => e1.quadratic = [] ∧ e2.quadratic = [] ∧
      (∀ v ∈ e1.vars, v ∈ e2.vars) ∧ ∀ v ∈ e2.vars, inp.Bool v
  | .affineAndAllVarsBoolean e => e.quadratic = [] ∧ ∀ v ∈ e.vars, inp.Bool v
  | .rangeConstraintOnVar v rc => (v, rc) ∈ inp.varRanges
  | .booleanVar v => inp.Bool v
  | .booleanExpressionConstraint e r => e ∈ inp.constraints ∧ ∃ l f, f ≠ 0 ∧ IsProduct e l r ∧
      ∀ σ, eval σ l = f * eval σ r - f
  | .singleOccurrenceVariable v => v ∈ inp.single
  | .singleOccurrenceVariableInExpr e v => v ∈ inp.single ∧ v ∈ e.vars ∧ e ∈ inp.constraints
  | .largestPair e v1 v2 => v1 < v2 ∧ v1 ∈ inp.single ∧ v2 ∈ inp.single ∧ e ∈ inp.constraints
  | .freeVariableCandidate e c1 v1 x1 c2 v2 x2 => v1 < v2 ∧ v1 ∈ inp.single ∧ v2 ∈ inp.single ∧
      e ∈ inp.constraints ∧ c1 ≠ 0 ∧ c2 ≠ 0 ∧ WF x1 ∧ WF x2 ∧
      x2 ≠ mk [] [(v1, c1)] 0 ∧ x1 ≠ mk [] [(v2, c2)] 0 ∧
      ((x1, mk [] [(v1, c1)] 0) ∈ e.quadratic ∨ (mk [] [(v1, c1)] 0, x1) ∈ e.quadratic) ∧
      ((x2, mk [] [(v2, c2)] 0) ∈ e.quadratic ∨ (mk [] [(v2, c2)] 0, x2) ∈ e.quadratic)
  | .plusMinusResult e e1 v => IsProduct e e1 (mk [] [(v, 2)] (-1)) ∧ WF e
  | .diffMarkerConstraint e m e2 r d => e ∈ inp.constraints ∧ ∃ k k', k ≠ 0 ∧ k' ≠ 0 ∧
      ∀ σ, eval σ e = k * σ m * (eval σ e2 * (2 * σ r - 1) + k' * σ d)
  | .negatedDiffMarkerConstraint e m l v r n => e ∈ inp.constraints ∧ WF l ∧
      (∃ f, IsProduct e l f ∧ r ∈ f.vars) ∧ l.quadratic = [] ∧ l.constant = 1 ∧
      l.linear.length = n + 1 ∧ (∀ σ, eval σ e = eval σ l * (-σ v * (2 * σ r - 1))) ∧
      ((n = 0 ∧ ∀ σ, eval σ l = 1 - σ m) ∨ ∃ n' e' m' l' v', n = n' + 1 ∧
        Derives inp (.negatedDiffMarkerConstraint e' m' l' v' r n') ∧
        ∀ σ, eval σ l = eval σ l' - σ m)
  | .negatedDiffMarkerConstraintFinal e m l r n => e ∈ inp.constraints ∧ WF l ∧
      (∃ f, IsProduct e l f ∧ r ∈ f.vars) ∧ l.quadratic = [] ∧ l.constant = 1 ∧
      l.linear.length = n + 1 ∧
      (∀ σ, eval σ e = eval σ l * σ r) ∧ ∃ n' e' m' l' v', n = n' + 1 ∧
        Derives inp (.negatedDiffMarkerConstraint e' m' l' v' r n') ∧
        ∀ σ, eval σ l = eval σ l' - σ m
  | .negatedDiffMarkerConstraintFinalNegated e m v r n => e ∈ inp.constraints ∧ ∃ l,
      WF l ∧ (∃ f, IsProduct e l f ∧ r ∈ f.vars) ∧ l.quadratic = [] ∧ l.constant = 1 ∧
      l.linear.length = n + 1 ∧
      (∀ σ, eval σ e = eval σ l * ((-σ v + 1) * (2 * σ r - 1))) ∧ ∃ n' e' m' l' v', n = n' + 1 ∧
        Derives inp (.negatedDiffMarkerConstraint e' m' l' v' r n') ∧
        ∀ σ, eval σ l = eval σ l' - σ m
  | .solvable e v k => ∃ c o, e = mk [] [(v, c)] o ∧ c ≠ 0 ∧ k = -o * c⁻¹
  | .entailsZeroHeadAndTail hd tl => WF hd ∧ WF tl
  | .exactlyOneSet e => e ∈ inp.constraints
  | .affineSumCountCoeffs e o f => WF e ∧ e.quadratic = [] ∧ e.constant = -f ∧
      ∀ v, (v, f) ∈ e.linear ↔ o = some v
  | .quadraticEquivalenceCandidate e r o => e ∈ inp.constraints ∧ WF r ∧ ∃ l f, f ≠ 0 ∧
      IsProduct e l r ∧ ∀ σ, eval σ l = f * eval σ r + f * o
  | _ => True

theorem vars_affine {l : List (V × ZMod p)} {c : ZMod p} (v : V) :
    v ∈ (mk [] l c : GExpr p V).vars ↔ ∃ k, (v, k) ∈ l := by
  rw [mem_vars_mk]; simp

theorem vars_split {e hd tl : GExpr p V} (hw : WF e) (h : e.trySplitHeadTail = some (hd, tl)) (v : V) :
    v ∈ e.vars ↔ v ∈ hd.vars ∨ v ∈ tl.vars := by
  rcases split_cases hw h with ⟨a, b, q, l, c, rfl, rfl, rfl⟩ | ⟨w, k, l, c, rfl, rfl, rfl⟩
  · simp only [mem_vars_mk, List.mem_cons, exists_eq_or_imp]
    simp only [List.not_mem_nil, false_and, exists_false, or_false]
    exact or_assoc
  · simp only [vars_affine, List.mem_cons, List.not_mem_nil, or_false, Prod.mk.injEq]
    constructor
    · rintro ⟨x, ⟨rfl, rfl⟩ | h⟩
      · exact Or.inl ⟨x, rfl, rfl⟩
      · exact Or.inr ⟨x, h⟩
    · rintro (⟨x, rfl, rfl⟩ | ⟨x, h⟩)
      · exact ⟨x, Or.inl ⟨rfl, rfl⟩⟩
      · exact ⟨x, Or.inr h⟩

theorem quadratic_split {e hd tl : GExpr p V} (hw : WF e) (h : e.trySplitHeadTail = some (hd, tl)) :
    e.quadratic = hd.quadratic ++ tl.quadratic ∧ e.linear = hd.linear ++ tl.linear ∧
      e.constant = tl.constant ∧ hd.constant = 0 := by
  rcases split_cases hw h with ⟨a, b, q, l, c, rfl, rfl, rfl⟩ | ⟨w, k, l, c, rfl, rfl, rfl⟩ <;>
    simp [quadratic, linear, constant]

theorem eval_of_perm {e1 e2 s : GExpr p V} (h1 : e1.quadratic.Perm (s.quadratic ++ e2.quadratic))
    (h2 : e1.linear.Perm (s.linear ++ e2.linear)) (h3 : e1.constant = e2.constant)
    (h4 : s.constant = 0) (σ : V → ZMod p) : eval σ e1 = eval σ e2 + eval σ s := by
  obtain ⟨q1, l1, c1⟩ := e1
  obtain ⟨q2, l2, c2⟩ := e2
  obtain ⟨q3, l3, c3⟩ := s
  simp only [quadratic, GExpr.linear, GExpr.constant] at h1 h2 h3 h4
  rw [eval_mk, eval_mk, eval_mk, (h1.map _).sum_eq, (h2.map _).sum_eq, h3, h4]
  simp only [List.map_append, List.sum_append]
  ring

variable {inp}

theorem shape_of_derives (hwf : inp.WF) {f : RFact p V} (h : Derives inp f) : f.Shape inp := by
  induction h with
  | initial h => exact h
  | varRange h => exact h
  | exprConstraint h ih => exact hwf.1 _ ih
  | exprRange h => exact hwf.2 _ h
  | zeroConstraint h ih => exact hwf.1 _ ih
  | contains h hv ih => exact hv
  | product h hp ih => exact ⟨ih, Or.inl (tryAsSingleProduct_eq hp)⟩
  | productSymm h ih => exact ⟨ih.1, ih.2.symm⟩
  | exprLeft h ih => exact (ih.2.wf ih.1).1
  | exprRight h ih => exact (ih.2.wf ih.1).2
  | affine h ha ih =>
    have he := tryToAffine_eq ha
    refine ⟨he, ?_⟩
    rw [he] at ih
    exact (wf_inv ih).2.2 (_, _) (List.mem_singleton.2 rfl)
  | linear h ih => exact ih
  | constant h hk ih => exact tryToKnown_eq_some.1 hk
  | headTail h hs ih => exact ⟨ih, hs⟩
  | exprHead h ih => exact (wf_split ih.1 ih.2).1
  | exprTail h ih => exact (wf_split ih.1 ih.2).2
  | simpleSumCons h ht hh ih iht ihh =>
    obtain ⟨hf, l, rfl, hl⟩ := iht
    obtain ⟨rfl, _⟩ := ihh
    rcases split_cases ih.1 ih.2 with ⟨a, b, q, l', c, rfl, e1, e2⟩ | ⟨w, k, l', c, rfl, e1, e2⟩
    · cases e1
    · cases e1; cases e2
      exact ⟨hf, _, rfl, fun x hx => by
        rcases List.mem_cons.1 hx with rfl | hx
        · rfl
        · exact hl x hx⟩
  | simpleSumAffine h ih => exact ⟨ih.2, _, ih.1, by simp⟩
  | isAffineConstant h ih => subst ih; rfl
  | isAffineCons h hh ht ih ihh iht =>
    have := (quadratic_split ih.1 ih.2).1
    obtain ⟨rfl, _⟩ := ihh
    show _ = _
    rw [this, iht]; rfl
  | hasSummandHead h ih =>
    refine ⟨ih.1, ?_⟩
    rcases split_cases ih.1 ih.2 with ⟨a, b, q, l', c, rfl, rfl, rfl⟩ | ⟨w, k, l', c, rfl, rfl, rfl⟩
    · exact Or.inl ⟨(a, b), by simp [quadratic], rfl⟩
    · exact Or.inr ⟨(w, k), by simp [GExpr.linear], rfl⟩
  | hasSummandTail h ht ih iht =>
    refine ⟨ih.1, ?_⟩
    obtain ⟨h1, h2, _, _⟩ := quadratic_split ih.1 ih.2
    rw [h1, h2]
    rcases iht.2 with ⟨ab, hab, e⟩ | ⟨vc, hvc, e⟩
    · exact Or.inl ⟨ab, by simp [hab], e⟩
    · exact Or.inr ⟨vc, by simp [hvc], e⟩
  | differHead h ih =>
    obtain ⟨h1, h2, h3, h4⟩ := quadratic_split ih.1 ih.2
    exact ⟨ih.1, by rw [h1], by rw [h2], h3, h4⟩
  | differTail ht h1 h2 iht ih1 ih2 =>
    obtain ⟨_, t1, t2, t3, t4⟩ := iht
    obtain ⟨a1, a2, a3, a4⟩ := quadratic_split ih1.1 ih1.2
    obtain ⟨b1, b2, b3, b4⟩ := quadratic_split ih2.1 ih2.2
    refine ⟨ih1.1, ?_, ?_, ?_, t4⟩
    · rw [a1, b1]
      refine (t1.append_left _).trans ?_
      rw [← List.append_assoc, ← List.append_assoc]
      exact List.perm_append_comm.append_right _
    · rw [a2, b2]
      refine (t2.append_left _).trans ?_
      rw [← List.append_assoc, ← List.append_assoc]
      exact List.perm_append_comm.append_right _
    · rw [a3, b3, t3]
  | @affinelyRelated e1 e2 f1 f2 v o1 o2 h1 h2 ih1 ih2 =>
    obtain ⟨rfl, hf1⟩ := ih1
    obtain ⟨rfl, hf2⟩ := ih2
    refine ⟨mul_ne_zero hf1 (inv_ne_zero hf2), fun σ => ?_⟩
    rw [eval_mk_single, eval_mk_single]
    field_simp; ring
  | @affinelyRelatedCons e1 e2 f o tl1 tl2 hd1 hd2 v f1 ht h1 l1 h2 l2 iht ih1 ihl1 ih2 ihl2 =>
    obtain ⟨hf, ht⟩ := iht
    refine ⟨hf, fun σ => ?_⟩
    obtain ⟨rfl, _⟩ := ihl1
    obtain ⟨rfl, _⟩ := ihl2
    rw [eval_split σ ih1.2, eval_split σ ih2.2, ht σ, eval_mk_single, eval_mk_single]
    field_simp; ring
  | hasProductSummand h hp ih ihp =>
    refine ⟨ih.1, ?_⟩
    rcases ih.2 with ⟨ab, hab, rfl⟩ | ⟨vc, hvc, rfl⟩
    · rcases ihp.2 with e | e
      · cases e; exact Or.inl hab
      · cases e; exact Or.inr hab
    · rcases ihp.2 with e | e <;> cases e
  | hasProductSummandSymm h ih => exact ⟨ih.1, ih.2.symm⟩
  | productConstraint h hp ih ihp => exact ⟨ih, ihp.2⟩
  | @subsetBase e1 e2 c v o h1 h2 b1 b2 ih1 ih2 ihb1 ihb2 =>
    refine ⟨ihb1.1, ihb2.1, ?_, ihb2.2⟩
    obtain ⟨rfl, _⟩ := ih1
    intro w hw
    rw [vars_affine] at hw
    obtain ⟨k, hk⟩ := hw
    simp at hk
    rw [hk.1]; exact ih2
  | subsetBoth ht h1 l1 hb h2 l2 iht ih1 ihl1 ihb ih2 ihl2 =>
    obtain ⟨t1, t2, t3, t4⟩ := iht
    obtain ⟨rfl, _⟩ := ihl1
    obtain ⟨rfl, _⟩ := ihl2
    refine ⟨?_, ?_, ?_, ?_⟩
    · rw [(quadratic_split ih1.1 ih1.2).1, t1]; rfl
    · rw [(quadratic_split ih2.1 ih2.2).1, t2]; rfl
    · intro w hw
      rw [vars_split ih1.1 ih1.2] at hw
      rw [vars_split ih2.1 ih2.2]
      rcases hw with hw | hw
      · left
        rw [vars_affine] at hw ⊢
        obtain ⟨k, hk⟩ := hw
        simp at hk
        exact ⟨_, by simp [hk.1]; rfl⟩
      · exact Or.inr (t3 w hw)
    · intro w hw
      rw [vars_split ih2.1 ih2.2] at hw
      rcases hw with hw | hw
      · rw [vars_affine] at hw
        obtain ⟨k, hk⟩ := hw
        simp at hk
        rw [hk.1]; exact ihb
      · exact t4 w hw
  | subsetRight ht h2 hb iht ih2 ihb =>
    obtain ⟨t1, t2, t3, t4⟩ := iht
    refine ⟨t1, ihb.1, fun w hw => ?_, ihb.2⟩
    rw [vars_split ih2.1 ih2.2]
    exact Or.inr (t3 w hw)
  | allBooleanBase h hb ih ihb =>
    obtain ⟨rfl, _⟩ := ih
    refine ⟨rfl, fun w hw => ?_⟩
    rw [vars_affine] at hw
    obtain ⟨k, hk⟩ := hw
    simp at hk
    rw [hk.1]; exact ihb
  | allBooleanCons h hh ht ih ihh iht =>
    refine ⟨?_, fun w hw => ?_⟩
    · rw [(quadratic_split ih.1 ih.2).1, ihh.1, iht.1]; rfl
    · rw [vars_split ih.1 ih.2] at hw
      rcases hw with hw | hw
      · exact ihh.2 w hw
      · exact iht.2 w hw
  | rangeInitial h => trivial
  | rangeSquare => trivial
  | rangeProduct => trivial
  | rangeLinear => trivial
  | rangeSum => trivial
  | rangeConstant => trivial
  | updateAffine => trivial
  | updateProduct => trivial
  | booleanVar h ih => exact ih
  | booleanExpr h ha hc ih iha =>
    refine ⟨ih.1, _, _, iha.1, ih.2, fun σ => ?_⟩
    rw [iha.2 σ, hc]; ring
  | single h => exact h
  | singleIn h hc ha ih ihc iha => exact ⟨ih, ihc, iha⟩
  | largestPair h1 h2 hlt hmax ih1 ih2 => exact ⟨hlt, ih1.1, ih2.1, ih1.2.2⟩
  | freeVariableCandidate h ha h1 l1 h2 hx2 hx1 l2 ih iha ih1 ihl1 ih2 ihl2 =>
    obtain ⟨rfl, hc1⟩ := ihl1
    obtain ⟨rfl, hc2⟩ := ihl2
    have w1 : ∀ {x y : GExpr p V} {e : GExpr p V}, WF e →
        ((x, y) ∈ e.quadratic ∨ (y, x) ∈ e.quadratic) → WF x := by
      intro x y e hw hm
      obtain ⟨q, l, c⟩ := e
      rcases hm with hm | hm
      · exact ((wf_inv hw).1 _ hm).1
      · exact ((wf_inv hw).1 _ hm).2.1
    exact ⟨ih.1, ih.2.1, ih.2.2.1, ih.2.2.2, hc1, hc2, w1 ih1.1 ih1.2, w1 ih2.1 ih2.2, hx2, hx1,
      ih1.2, ih2.2⟩
  | replaceFreeVariables => trivial
  | plusMinus h ha hc ho ih iha =>
    obtain ⟨rfl, _⟩ := iha
    subst hc ho
    exact ⟨ih.2, ih.1⟩
  | diffMarker h hl hr h1 h2 ih ihl ihr ih1 ih2 =>
    obtain ⟨rfl, hk⟩ := ihl
    obtain ⟨rfl, hk'⟩ := ih2
    refine ⟨ih.1, _, _, hk, hk', fun σ => ?_⟩
    rw [ih.2.eval σ, eval_split σ ihr.2, ih1.1.eval σ, eval_mk_single, eval_mk_single,
      eval_mk_single]
    ring
  | @negatedBase e dm l r r2 v res h hl hr hv ih ihl ihr ihv =>
    have hwl := (ih.2.wf (hwf.1 _ ih.1)).1
    have hwe := ih.2
    obtain ⟨rfl, _⟩ := ihl
    obtain ⟨rfl, _⟩ := ihv
    refine ⟨ih.1, hwl, ⟨_, ih.2, ?_⟩, rfl, rfl, rfl, fun σ => ?_, Or.inl ⟨rfl, fun σ => ?_⟩⟩
    · rcases ihr.1 with rfl | rfl <;> simp [vars, varsQ]
    · rw [ih.2.eval σ, ihr.1.eval σ, eval_mk_single, eval_mk_single, eval_mk_single]; ring
    · rw [eval_mk_single]; ring
  | @negatedStep e dm l r r2 v res n e' dm' l' v' d h hp hd hl hr hv ih ihp ihd ihl ihr ihv =>
    have hwl := (ih.2.wf (hwf.1 _ ih.1)).1
    obtain ⟨rfl, _⟩ := ihl
    obtain ⟨rfl, _⟩ := ihv
    obtain ⟨_, d1, d2, d3, _⟩ := ihd
    obtain ⟨_, _, _, p1, p2, p3, _, _⟩ := ihp
    have hq : l.quadratic = [] := by
      rw [p1] at d1; simpa [quadratic] using d1
    refine ⟨ih.1, hwl, ⟨_, ih.2, ?_⟩, hq, d3.trans p2, ?_, fun σ => ?_,
      Or.inr ⟨n, e', dm', l', v', rfl, hp, fun σ => ?_⟩⟩
    · rcases ihr.1 with rfl | rfl <;> simp [vars, varsQ]
    · rw [d2.length_eq]; rw [List.length_append, p3]; exact Nat.add_comm _ _
    · rw [ih.2.eval σ, ihr.1.eval σ, eval_mk_single, eval_mk_single]; ring
    · rw [eval_of_perm d1 d2 d3 rfl σ, eval_mk_single]; ring
  | @negatedFinal e dm l r res n e' dm' l' v' d h hp hd hl hr ih ihp ihd ihl ihr =>
    have hwl := (ih.2.wf (hwf.1 _ ih.1)).1
    obtain ⟨rfl, _⟩ := ihl
    obtain ⟨rfl, _⟩ := ihr
    obtain ⟨_, d1, d2, d3, _⟩ := ihd
    obtain ⟨_, _, _, p1, p2, p3, _, _⟩ := ihp
    have hq : l.quadratic = [] := by
      rw [p1] at d1; simpa [quadratic] using d1
    refine ⟨ih.1, hwl, ⟨_, ih.2, ?_⟩, hq, d3.trans p2, ?_, fun σ => ?_,
      ⟨n, e', dm', l', v', rfl, hp, fun σ => ?_⟩⟩
    · simp [vars, varsQ]
    · rw [d2.length_eq]; rw [List.length_append, p3]; exact Nat.add_comm _ _
    · rw [ih.2.eval σ, eval_mk_single]; ring
    · rw [eval_of_perm d1 d2 d3 rfl σ, eval_mk_single]; ring
  | @negatedFinalNegated e dm l r r2 v res n e' dm' l' v' d h hp hd hl hr hv ih ihp ihd ihl ihr ihv =>
    have hwl := (ih.2.wf (hwf.1 _ ih.1)).1
    obtain ⟨rfl, _⟩ := ihl
    obtain ⟨rfl, _⟩ := ihv
    obtain ⟨_, d1, d2, d3, _⟩ := ihd
    obtain ⟨_, _, _, p1, p2, p3, _, _⟩ := ihp
    have hq : l.quadratic = [] := by
      rw [p1] at d1; simpa [quadratic] using d1
    refine ⟨ih.1, l, hwl, ⟨_, ih.2, ?_⟩, hq, d3.trans p2, ?_, fun σ => ?_,
      ⟨n, e', dm', l', v', rfl, hp, fun σ => ?_⟩⟩
    · rcases ihr.1 with rfl | rfl <;> simp [vars, varsQ]
    · rw [d2.length_eq]; rw [List.length_append, p3]; exact Nat.add_comm _ _
    · rw [ih.2.eval σ, ihr.1.eval σ, eval_mk_single, eval_mk_single]; ring
    · rw [eval_of_perm d1 d2 d3 rfl σ, eval_mk_single]; ring
  | equalZeroCheck => trivial
  | replaceEqualZero => trivial
  | replaceProducts => trivial
  | solvable h ih => exact ⟨_, _, ih.1, ih.2, rfl⟩
  | assignment => trivial
  | entailsZero h hs hh ht h0 h1 hsum ih ihs ihh iht => exact wf_split ihs.1 ihs.2
  | zeroHead h ih => exact ih.1
  | zeroTail h ih => exact ih.2
  | exactlyOneSet h hs hb hfc ih ihs ihb => exact ih
  | countConstant h ih => subst ih; exact ⟨wf_const _, rfl, by simp [GExpr.constant], by simp [GExpr.linear]⟩
  | @countFound e hd tl v f ht h hh iht ih ihh =>
    obtain ⟨_, t1, t2, t3⟩ := iht
    obtain ⟨rfl, _⟩ := ihh
    obtain ⟨h1, h2, h3, h4⟩ := quadratic_split ih.1 ih.2
    refine ⟨ih.1, by rw [h1, t1]; rfl, by rw [h3, t2], fun w => ?_⟩
    rw [h2]
    have := t3 w
    simp only [reduceCtorEq, iff_false] at this
    rw [List.mem_append]
    simp only [this, or_false, Option.some.injEq]
    simp [GExpr.linear, eq_comm]
  | @countOther e hd tl o v f c ht h hh hc iht ih ihh =>
    obtain ⟨_, t1, t2, t3⟩ := iht
    obtain ⟨rfl, _⟩ := ihh
    obtain ⟨h1, h2, h3, h4⟩ := quadratic_split ih.1 ih.2
    refine ⟨ih.1, by rw [h1, t1]; rfl, by rw [h3, t2], fun w => ?_⟩
    rw [h2, ← t3 w, List.mem_append, or_iff_right]
    rintro hm
    simp only [GExpr.linear, List.mem_singleton, Prod.mk.injEq] at hm
    exact hc hm.2.symm
  | assignOneHot => trivial
  | @quadraticCandidate e l r f o h ha hi hn ih iha ihi =>
    refine ⟨ih.1, (ih.2.wf (hwf.1 _ ih.1)).2, l, f, iha.1, ih.2, fun σ => ?_⟩
    rw [iha.2 σ]
    have := iha.1
    field_simp
  | quadraticPair => trivial
  | quadraticEquivalence => trivial
  | equivalence => trivial
  | substituteLeft => trivial
  | substituteRight => trivial

end Verif
