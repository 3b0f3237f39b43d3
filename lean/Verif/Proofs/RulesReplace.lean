import Verif.Proofs.RulesSound
import Verif.Proofs.Splitter

set_option linter.unusedSectionVars false

namespace Verif

open RangeConstraint GExpr

variable {p : ℕ} {V : Type} [LinearOrder V] [Fact p.Prime] {inp : RuleInput p V}

/-! ### Range facts depend on the given range constraints only -/

/-- What range facts claim. -/
def RFact.RangeHolds (σ : V → ZMod p) : RFact p V → Prop
  | .rangeConstraintOnExpression e rc => rc.allowsValue (eval σ e) = true
  | .rangeConstraintOnVar v rc => rc.allowsValue (σ v) = true
  | _ => True

theorem rangeHolds_of_derives (hwf : inp.WF) {σ : V → ZMod p} (hσ : inp.RangesHold σ)
    {f : RFact p V} (h : Derives inp f) : f.RangeHolds σ := by
  induction h with
  | varRange h => exact hσ.2 _ h
  | rangeInitial h => exact hσ.1 _ h
  | rangeSquare h hlr hl ih ihl =>
    subst hlr
    show _ = _
    rw [(shape_of_derives hwf h).2.eval σ]
    exact (allowsValue_iff _ _).2 (square_allows ((allowsValue_iff _ _).1 ihl))
  | rangeProduct h hlr hl hr ih ihl ihr =>
    show _ = _
    rw [(shape_of_derives hwf h).2.eval σ]
    exact (allowsValue_iff _ _).2 (combineProduct_allows ((allowsValue_iff _ _).1 ihl)
      ((allowsValue_iff _ _).1 ihr))
  | rangeLinear h hv ih ihv =>
    show _ = _
    rw [(shape_of_derives hwf h).1, eval_mk_single, add_zero, mul_comm]
    exact (allowsValue_iff _ _).2 (multiple_allows ((allowsValue_iff _ _).1 ihv))
  | rangeSum h hh ht ih ihh iht =>
    show _ = _
    rw [eval_split σ (shape_of_derives hwf h).2]
    exact (allowsValue_iff _ _).2 (combineSum_allows ((allowsValue_iff _ _).1 ihh)
      ((allowsValue_iff _ _).1 iht))
  | rangeConstant h ih =>
    refine (allowsValue_iff _ _).2 ((fromValue_allows _ _).2 ?_)
    have : _ = _ := shape_of_derives hwf h
    rw [this]; exact eval_const σ _
  | _ => trivial

/-! ### Combining products -/

theorem combineSum_of_wide {a b : RangeConstraint p} (hw : ¬ a.width + b.width ≤ p) :
    (a.combineSum b).min = 0 ∧ (a.combineSum b).max = -1 ∧
    (a.combineSum b).mask = (if a.mask + b.mask ≥ p then (unconstrained : RangeConstraint p).mask
      else (a.mask + b.mask) ||| a.mask ||| b.mask) &&& (fromRange (0 : ZMod p) (-1)).mask := by
  unfold combineSum
  simp only [unconstrained_width, hw, if_false]
  refine ⟨rfl, rfl, ?_⟩
  rw [if_pos]
  · rfl
  · simp [fle, unconstrained, fromRange]

theorem combineSum_of_narrow {a b : RangeConstraint p} (hw : a.width + b.width ≤ p) :
    (a.combineSum b).min = a.min + b.min ∧ (a.combineSum b).max = a.max + b.max := by
  unfold combineSum
  simp only [unconstrained_width, hw, if_true, and_self]

theorem not_overflow {ra rb : RangeConstraint p} {x y : ZMod p} (ha0 : ra.min = 0)
    (hb0 : rb.min = 0) (h : ¬ (ra.combineSum rb).isUnconstrained) (hx : ra.allowsValue x = true)
    (hy : rb.allowsValue y = true) : x.val + y.val < p := by
  have hp2 := (Fact.out : p.Prime).two_le
  have h1 := allows_min_zero hx ha0
  have h2 := allows_min_zero hy hb0
  have m1 := ((allowsValue_iff _ _).1 hx).2.le
  have m2 := ((allowsValue_iff _ _).1 hy).2.le
  by_contra hge
  apply h
  have hw : ¬ ra.width + rb.width ≤ p := by
    unfold width
    rw [rangeWidth_eq, rangeWidth_eq, ha0, hb0, sub_zero, sub_zero]
    omega
  have hm : ra.mask + rb.mask ≥ p := by omega
  obtain ⟨w1, w2, w3⟩ := combineSum_of_wide hw
  unfold isUnconstrained
  rw [width, w1, w2, w3, if_pos hm]
  simp only [Bool.and_eq_true, decide_eq_true_eq]
  refine ⟨rfl, ?_⟩
  show (unconstrained : RangeConstraint p).mask &&& (unconstrained : RangeConstraint p).mask &&&
    (unconstrained : RangeConstraint p).mask = _
  simp

theorem replaceProducts_inv {e1 e2 : GExpr p V} {ns : List (GExpr p V)}
    (h : Derives inp (.replaceManyBy [e1, e2] ns)) : ∃ x a b ra rb,
      Derives inp (.productConstraint e1 x a) ∧ Derives inp (.productConstraint e2 x b) ∧
      Derives inp (.rangeConstraintOnExpression a ra) ∧
      Derives inp (.rangeConstraintOnExpression b rb) ∧ ra.min = 0 ∧ rb.min = 0 ∧
      ¬ (ra.combineSum rb).isUnconstrained ∧ ns = [mul x (add a b)] := by
  cases h with
  | replaceEqualZero h hw => cases h
  | replaceProducts h1 h2 hlt ha hb ha0 hb0 hsum =>
    exact ⟨_, _, _, _, _, h1, h2, ha, hb, ha0, hb0, hsum, rfl⟩

theorem replaceProducts_iff (hwf : inp.WF) {e1 e2 : GExpr p V} {ns : List (GExpr p V)}
    (h : Derives inp (.replaceManyBy [e1, e2] ns)) {σ : V → ZMod p} (hσ : inp.RangesHold σ) :
    (eval σ e1 = 0 ∧ eval σ e2 = 0) ↔ ∀ n ∈ ns, eval σ n = 0 := by
  obtain ⟨x, a, b, ra, rb, h1, h2, ha, hb, ha0, hb0, hsum, rfl⟩ := replaceProducts_inv h
  have va : ra.allowsValue (eval σ a) = true := rangeHolds_of_derives hwf hσ ha
  have vb : rb.allowsValue (eval σ b) = true := rangeHolds_of_derives hwf hσ hb
  have hlt := not_overflow ha0 hb0 hsum va vb
  rw [(shape_of_derives hwf h1).2.eval σ, (shape_of_derives hwf h2).2.eval σ]
  simp only [List.mem_singleton, forall_eq, eval_mul, eval_add]
  constructor
  · rintro ⟨h1, h2⟩
    linear_combination h1 + h2
  · intro h
    rcases mul_eq_zero.1 h with h | h
    · rw [h]; simp
    · obtain ⟨ha, hb⟩ := both_zero hlt h
      rw [ha, hb]; simp

/-! ### Merging free variables -/

theorem squareIfNeeded_spec {x : GExpr p V} {rc : RangeConstraint p} {σ : V → ZMod p}
    (h : rc.allowsValue (eval σ x) = true) :
    (squareIfNeeded x rc).2.allowsValue (eval σ (squareIfNeeded x rc).1) = true ∧
    ∃ t, eval σ (squareIfNeeded x rc).1 = eval σ x * t := by
  unfold squareIfNeeded
  split
  · exact ⟨h, 1, by simp⟩
  · refine ⟨?_, eval σ x, by rw [eval_mul]⟩
    simp only [eval_mul]
    exact (allowsValue_iff _ _).2 (square_allows ((allowsValue_iff _ _).1 h))

theorem squareIfNeeded_zero {x : GExpr p V} {rc : RangeConstraint p} {σ : V → ZMod p} :
    eval σ (squareIfNeeded x rc).1 = 0 ↔ eval σ x = 0 := by
  unfold squareIfNeeded
  split
  · exact Iff.rfl
  · simp [eval_mul]

/-- The cofactor of the square. -/
theorem squareIfNeeded_cofactor (x : GExpr p V) (rc : RangeConstraint p) :
    ∃ t : GExpr p V, (∀ v ∈ t.vars, v ∈ x.vars) ∧
      ∀ σ, eval σ (squareIfNeeded x rc).1 = eval σ x * eval σ t := by
  unfold squareIfNeeded
  split
  · exact ⟨one, by simp [one, vars, varsQ], fun σ => by rw [eval_one, mul_one]⟩
  · exact ⟨x, fun v h => h, fun σ => eval_mul σ x x⟩

theorem cyc_zero {minA maxA minB maxB a b : ZMod p} (ha : InCyc minA maxA a)
    (hb : InCyc minB maxB b) (ha0 : InCyc minA maxA 0) (hb0 : InCyc minB maxB 0)
    (hw : rangeWidth minA maxA + rangeWidth minB maxB ≤ p) (hmin : minA + minB = 0)
    (h : a + b = 0) : a = 0 ∧ b = 0 := by
  rw [rangeWidth_eq, rangeWidth_eq] at hw
  unfold InCyc at *
  have z := both_zero (x := 0 - minA) (y := 0 - minB) (by omega) (by linear_combination -hmin)
  have z1 : minA = 0 := by linear_combination -z.1
  have z2 : minB = 0 := by linear_combination -z.2
  subst z1 z2
  rw [sub_zero, sub_zero] at ha hb hw
  exact both_zero (by omega) h

/-- If the range test of the rule succeeds, the combined factor is zero only if both parts are. -/
theorem factor_zero {s1 s2 : RangeConstraint p} {c1 c2 x y : ZMod p} (hc1 : c1 ≠ 0) (hc2 : c2 ≠ 0)
    (h1 : s1.min = 0) (h2 : s2.min = 0) (hx : s1.allowsValue x = true)
    (hy : s2.allowsValue y = true)
    (hmin : ((s1.multiple c1).combineSum (s2.multiple c2)).min = 0)
    (hmax : ((s1.multiple c1).combineSum (s2.multiple c2)).max.val < (-1 : ZMod p).val)
    (h : c1 * x + c2 * y = 0) : x = 0 ∧ y = 0 := by
  have hA := (multiple_allows (f := c1) ((allowsValue_iff _ _).1 hx)).1
  have hB := (multiple_allows (f := c2) ((allowsValue_iff _ _).1 hy)).1
  have zero_in : ∀ {s : RangeConstraint p} {c : ZMod p}, s.min = 0 →
      InCyc (s.multiple c).min (s.multiple c).max 0 := by
    intro s c hs
    have hz : (⟨0, s.min, s.max⟩ : RangeConstraint p).Allows 0 := by
      refine ⟨?_, fun i hi => by simp at hi⟩
      show InCyc s.min s.max 0
      rw [hs]; unfold InCyc; simp
    have := (multiple_allows (f := c) hz).1
    rw [zero_mul] at this
    exact this
  have hw : (s1.multiple c1).width + (s2.multiple c2).width ≤ p := by
    by_contra hw
    rw [(combineSum_of_wide hw).2.1] at hmax
    omega
  have hmin' : (s1.multiple c1).min + (s2.multiple c2).min = 0 := by
    rw [← (combineSum_of_narrow hw).1]; exact hmin
  obtain ⟨za, zb⟩ := cyc_zero hA hB (zero_in h1) (zero_in h2) hw hmin' (by linear_combination h)
  exact ⟨(mul_eq_zero.1 za).resolve_right hc1, (mul_eq_zero.1 zb).resolve_right hc2⟩

theorem count_flatMap_split {α β : Type} [DecidableEq β] (f : α → List β) (v : β) {l : List α}
    {x : α} (hx : x ∈ l) (hv : v ∈ f x) (h : (l.flatMap f).count v ≤ 1) :
    ∃ a b, l = a ++ x :: b ∧ (∀ y ∈ a ++ b, v ∉ f y) ∧ (f x).count v = 1 := by
  obtain ⟨a, b, rfl⟩ := List.append_of_mem hx
  refine ⟨a, b, rfl, ?_⟩
  rw [List.flatMap_append, List.flatMap_cons, List.count_append, List.count_append] at h
  have h1 : 0 < (f x).count v := List.count_pos_iff.2 hv
  refine ⟨fun y hy hvy => ?_, by omega⟩
  rcases List.mem_append.1 hy with hy | hy
  · have : 0 < (a.flatMap f).count v := List.count_pos_iff.2 (List.mem_flatMap.2 ⟨y, hy, hvy⟩)
    omega
  · have : 0 < (b.flatMap f).count v := List.count_pos_iff.2 (List.mem_flatMap.2 ⟨y, hy, hvy⟩)
    omega

theorem vars_eq (q : List (GExpr p V × GExpr p V)) (l : List (V × ZMod p)) (c : ZMod p) :
    (mk q l c).vars = (q.flatMap fun ab => ab.1.vars ++ ab.2.vars) ++ l.map Prod.fst := by
  rw [vars, varsQ_eq]

/-- The two product summands of the free variables and the rest of the constraint. -/
theorem free_split {e x1 x2 : GExpr p V} {c1 c2 : ZMod p} {v1 v2 : V} (hne : v1 ≠ v2)
    (h1 : (x1, mk [] [(v1, c1)] 0) ∈ e.quadratic ∨ (mk [] [(v1, c1)] 0, x1) ∈ e.quadratic)
    (h2 : (x2, mk [] [(v2, c2)] 0) ∈ e.quadratic ∨ (mk [] [(v2, c2)] 0, x2) ∈ e.quadratic)
    (hx2 : x2 ≠ mk [] [(v1, c1)] 0) (hx1 : x1 ≠ mk [] [(v2, c2)] 0)
    (o1 : e.vars.count v1 ≤ 1) (o2 : e.vars.count v2 ≤ 1) :
    (∀ σ, eval σ e = eval σ x1 * (c1 * σ v1) + eval σ x2 * (c2 * σ v2) +
      eval σ (sum (remainingSummands e v1 v2))) ∧
    (∀ v ∈ (sum (remainingSummands e v1 v2)).vars, v ∈ e.vars ∧ v ≠ v1 ∧ v ≠ v2) ∧
    (∀ v ∈ x1.vars, v ∈ e.vars ∧ v ≠ v1 ∧ v ≠ v2) ∧
    ∀ v ∈ x2.vars, v ∈ e.vars ∧ v ≠ v1 ∧ v ≠ v2 := by
  obtain ⟨q, l, c⟩ := e
  simp only [quadratic] at h1 h2
  rw [vars_eq, List.count_append] at o1 o2
  -- the summands as elements of the list
  obtain ⟨t1, ht1, e1, u1⟩ : ∃ t ∈ q, (∀ σ, eval σ t.1 * eval σ t.2 = eval σ x1 * (c1 * σ v1)) ∧
      (t = (x1, mk [] [(v1, c1)] 0) ∨ t = (mk [] [(v1, c1)] 0, x1)) := by
    rcases h1 with h | h
    · exact ⟨_, h, fun σ => by rw [eval_mk_single, add_zero], Or.inl rfl⟩
    · exact ⟨_, h, fun σ => by rw [eval_mk_single, add_zero, mul_comm], Or.inr rfl⟩
  obtain ⟨t2, ht2, e2, u2⟩ : ∃ t ∈ q, (∀ σ, eval σ t.1 * eval σ t.2 = eval σ x2 * (c2 * σ v2)) ∧
      (t = (x2, mk [] [(v2, c2)] 0) ∨ t = (mk [] [(v2, c2)] 0, x2)) := by
    rcases h2 with h | h
    · exact ⟨_, h, fun σ => by rw [eval_mk_single, add_zero], Or.inl rfl⟩
    · exact ⟨_, h, fun σ => by rw [eval_mk_single, add_zero, mul_comm], Or.inr rfl⟩
  have hv : ∀ (v : V) (c : ZMod p), (mk [] [(v, c)] 0 : GExpr p V).vars = [v] := by
    intro v c; rw [vars_eq]; simp
  have ht12 : t1 ≠ t2 := by
    intro h
    have mkne : (mk [] [(v1, c1)] 0 : GExpr p V) ≠ mk [] [(v2, c2)] 0 := by
      intro h; cases h; exact hne rfl
    rcases u1 with u1 | u1 <;> rcases u2 with u2 | u2 <;> rw [u1, u2] at h <;>
      simp only [Prod.mk.injEq] at h
    · exact mkne h.2
    · exact hx1 h.1
    · exact hx2 h.1.symm
    · exact mkne h.1
  have m1 : v1 ∈ t1.1.vars ++ t1.2.vars := by rcases u1 with rfl | rfl <;> simp [hv]
  have m2 : v2 ∈ t2.1.vars ++ t2.2.vars := by rcases u2 with rfl | rfl <;> simp [hv]
  obtain ⟨a1, b1, s1, n1, k1⟩ := count_flatMap_split (fun ab : GExpr p V × GExpr p V =>
    ab.1.vars ++ ab.2.vars) v1 ht1 m1 (by omega)
  obtain ⟨a2, b2, s2, n2, k2⟩ := count_flatMap_split (fun ab : GExpr p V × GExpr p V =>
    ab.1.vars ++ ab.2.vars) v2 ht2 m2 (by omega)
  have p1 : 0 < ((q.flatMap fun ab => ab.1.vars ++ ab.2.vars).count v1) :=
    List.count_pos_iff.2 (List.mem_flatMap.2 ⟨t1, ht1, m1⟩)
  have p2 : 0 < ((q.flatMap fun ab => ab.1.vars ++ ab.2.vars).count v2) :=
    List.count_pos_iff.2 (List.mem_flatMap.2 ⟨t2, ht2, m2⟩)
  have l1 : v1 ∉ l.map Prod.fst := List.count_eq_zero.1 (by omega)
  have l2 : v2 ∉ l.map Prod.fst := List.count_eq_zero.1 (by omega)
  -- t2 in the rest of the list without t1
  have ht2' : t2 ∈ a1 ++ b1 := by
    rw [s1] at ht2
    rcases List.mem_append.1 ht2 with h | h
    · exact List.mem_append.2 (Or.inl h)
    · rcases List.mem_cons.1 h with h | h
      · exact absurd h.symm ht12
      · exact List.mem_append.2 (Or.inr h)
  have ht1' : t1 ∈ a2 ++ b2 := by
    rw [s2] at ht1
    rcases List.mem_append.1 ht1 with h | h
    · exact List.mem_append.2 (Or.inl h)
    · rcases List.mem_cons.1 h with h | h
      · exact absurd h ht12
      · exact List.mem_append.2 (Or.inr h)
  have x1v1 : v1 ∉ x1.vars := by
    intro h
    have : 0 < x1.vars.count v1 := List.count_pos_iff.2 h
    rcases u1 with rfl | rfl <;> simp [hv, List.count_append] at k1 <;> omega
  have x2v2 : v2 ∉ x2.vars := by
    intro h
    have : 0 < x2.vars.count v2 := List.count_pos_iff.2 h
    rcases u2 with rfl | rfl <;> simp [hv, List.count_append] at k2 <;> omega
  have x1v2 : v2 ∉ x1.vars := by
    intro h
    refine n2 t1 ht1' ?_
    rcases u1 with rfl | rfl <;> simp [h]
  have x2v1 : v1 ∉ x2.vars := by
    intro h
    refine n1 t2 ht2' ?_
    rcases u2 with rfl | rfl <;> simp [h]
  -- the permutation
  obtain ⟨a3, b3, s3⟩ := List.append_of_mem ht2'
  have perm : q.Perm (t1 :: t2 :: (a3 ++ b3)) := by
    rw [s1]
    refine List.perm_middle.trans (List.Perm.cons _ ?_)
    rw [s3]
    exact List.perm_middle
  have rest1 : ∀ y ∈ a3 ++ b3, v1 ∉ y.1.vars ++ y.2.vars := by
    intro y hy
    apply n1
    rw [s3]
    rcases List.mem_append.1 hy with h | h
    · exact List.mem_append.2 (Or.inl h)
    · exact List.mem_append.2 (Or.inr (List.mem_cons_of_mem _ h))
  have rest2 : ∀ y ∈ a3 ++ b3, v2 ∉ y.1.vars ++ y.2.vars := by
    have o2' := (perm.flatMap_right fun ab => ab.1.vars ++ ab.2.vars).count_eq v2
    intro y hy hvy
    simp only [List.flatMap_cons, List.count_append] at o2'
    have c1' : 0 < (t2.1.vars ++ t2.2.vars).count v2 := List.count_pos_iff.2 m2
    have c2' : 0 < (((a3 ++ b3).flatMap fun ab => ab.1.vars ++ ab.2.vars).count v2) :=
      List.count_pos_iff.2 (List.mem_flatMap.2 ⟨y, hy, hvy⟩)
    rw [List.count_append] at c1'
    omega
  -- the filter
  set P : GExpr p V × GExpr p V → Bool := fun lr =>
    !((lr.1.vars ++ lr.2.vars).any fun v => v = v1 ∨ v = v2) with hP
  have P1 : P t1 = false := by
    rw [hP]; simp only [Bool.not_eq_false', List.any_eq_true]
    exact ⟨v1, m1, by simp⟩
  have P2 : P t2 = false := by
    rw [hP]; simp only [Bool.not_eq_false', List.any_eq_true]
    exact ⟨v2, m2, by simp⟩
  have P3 : ∀ y ∈ a3 ++ b3, P y = true := by
    intro y hy
    rw [hP]; simp only [Bool.not_eq_true', List.any_eq_false]
    intro v hv h
    simp only [decide_eq_true_eq] at h
    rcases h with rfl | rfl
    · exact rest1 y hy hv
    · exact rest2 y hy hv
  have pf : (q.filter P).Perm (a3 ++ b3) := by
    refine (perm.filter P).trans ?_
    rw [List.filter_cons_of_neg (by simp [P1]), List.filter_cons_of_neg (by simp [P2]),
      List.filter_eq_self.2 P3]
  have hsum : ∀ σ, eval σ (sum (remainingSummands (mk q l c) v1 v2)) =
      ((a3 ++ b3).map fun ab => eval σ ab.1 * eval σ ab.2).sum +
        (l.map fun e => e.2 * σ e.1).sum + c := by
    intro σ
    have hc : ((if (mk q l c : GExpr p V).constant ≠ 0 then
        [const (mk q l c : GExpr p V).constant] else []).map (eval σ)).sum = c := by
      split
      · simp [eval_const, constant]
      · rename_i h
        rw [not_not] at h
        simpa [constant] using h.symm
    rw [eval_sum]
    unfold remainingSummands
    rw [List.map_append, List.sum_append, List.map_append, List.sum_append, hc, List.map_map,
      List.map_map, ← (pf.map fun ab => eval σ ab.1 * eval σ ab.2).sum_eq]
    congr 1
    congr 1
    · congr 1
      apply List.map_congr_left
      intro ab _
      exact eval_ofQuadratic σ ab.1 ab.2
    · congr 1
      apply List.map_congr_left
      intro vc _
      exact eval_ofLinear σ vc.1 vc.2
  have hvars : ∀ v ∈ (sum (remainingSummands (mk q l c) v1 v2)).vars,
      (∃ y ∈ a3 ++ b3, v ∈ y.1.vars ++ y.2.vars) ∨ v ∈ l.map Prod.fst := by
    refine Splitter.vars_sum_closed fun s hs v hvs => ?_
    unfold remainingSummands at hs
    simp only [List.mem_append, List.mem_map] at hs
    rcases hs with (⟨y, hy, rfl⟩ | ⟨vc, hvc, rfl⟩) | hs
    · left
      refine ⟨y, pf.mem_iff.1 hy, ?_⟩
      rw [ofQuadratic, vars_eq] at hvs
      simpa using hvs
    · right
      rw [ofLinear, vars_eq] at hvs
      simp at hvs
      exact List.mem_map.2 ⟨vc, hvc, hvs.symm⟩
    · split at hs
      · simp only [List.mem_singleton] at hs
        subst hs
        rw [const, vars_eq] at hvs
        simp at hvs
      · simp at hs
  refine ⟨fun σ => ?_, fun v hvm => ?_, fun v hvm => ⟨?_, ?_, ?_⟩, fun v hvm => ⟨?_, ?_, ?_⟩⟩
  · rw [eval_mk, (perm.map _).sum_eq, hsum]
    simp only [List.map_cons, List.sum_cons]
    rw [e1 σ, e2 σ]; ring
  · rcases hvars v hvm with ⟨y, hy, hvy⟩ | hvl
    · refine ⟨?_, ?_, ?_⟩
      · rw [vars_eq]
        exact List.mem_append.2 (Or.inl (List.mem_flatMap.2 ⟨y, perm.mem_iff.2
          (List.mem_cons_of_mem _ (List.mem_cons_of_mem _ hy)), hvy⟩))
      · rintro rfl; exact rest1 y hy hvy
      · rintro rfl; exact rest2 y hy hvy
    · refine ⟨?_, ?_, ?_⟩
      · rw [vars_eq]; exact List.mem_append.2 (Or.inr hvl)
      · rintro rfl; exact l1 hvl
      · rintro rfl; exact l2 hvl
  · rw [vars_eq]
    exact List.mem_append.2 (Or.inl (List.mem_flatMap.2 ⟨t1, ht1, by
      rcases u1 with rfl | rfl <;> simp [hvm]⟩))
  · rintro rfl; exact x1v1 hvm
  · rintro rfl; exact x1v2 hvm
  · rw [vars_eq]
    exact List.mem_append.2 (Or.inl (List.mem_flatMap.2 ⟨t2, ht2, by
      rcases u2 with rfl | rfl <;> simp [hvm]⟩))
  · rintro rfl; exact x2v1 hvm
  · rintro rfl; exact x2v2 hvm

theorem freeVariableParts_inv {e x1 x2 factor r : GExpr p V} {c1 c2 : ZMod p} {v1 v2 : V}
    {rc1 rc2 : RangeConstraint p}
    (h : freeVariableParts e c1 v1 x1 rc1 c2 v2 x2 rc2 = some (factor, r)) :
    factor = add (scale c1 (squareIfNeeded x1 rc1).1) (scale c2 (squareIfNeeded x2 rc2).1) ∧
    r = sum (remainingSummands e v1 v2) ∧ (squareIfNeeded x1 rc1).2.min = 0 ∧
    (squareIfNeeded x2 rc2).2.min = 0 ∧
    (((squareIfNeeded x1 rc1).2.multiple c1).combineSum
      ((squareIfNeeded x2 rc2).2.multiple c2)).min = 0 ∧
    (((squareIfNeeded x1 rc1).2.multiple c1).combineSum
      ((squareIfNeeded x2 rc2).2.multiple c2)).max.val < (-1 : ZMod p).val := by
  unfold freeVariableParts at h
  extract_lets s1 s2 sumRc at h
  split at h
  · cases h
  · rename_i h12
    split at h
    · cases h
    · rename_i h3
      rw [not_or, not_not, not_not] at h12
      rw [not_not] at h3
      simp only [Option.some.injEq, Prod.mk.injEq] at h
      exact ⟨h.1.symm, h.2.symm, h12.1, h12.2, h3.1, h3.2⟩

/-- The value computed for the new variable solves the replacement. -/
theorem free_quotient (hwf : inp.WF) (hint : 2 * (p - 1) < 2 ^ inp.intBits)
    (hlen : ∀ e ∈ inp.constraints, e.linear.length ≤ p) {σ : V → ZMod p} (hσ : inp.SolvedBy σ)
    {e x1 x2 r : GExpr p V} {c1 c2 : ZMod p} {v1 v2 : V} {rc1 rc2 : RangeConstraint p}
    (he : e ∈ inp.constraints) (hc1 : c1 ≠ 0) (hc2 : c2 ≠ 0)
    (h1 : Derives inp (.rangeConstraintOnExpression x1 rc1))
    (h2 : Derives inp (.rangeConstraintOnExpression x2 rc2))
    (z1 : (squareIfNeeded x1 rc1).2.min = 0) (z2 : (squareIfNeeded x2 rc2).2.min = 0)
    (hmin : (((squareIfNeeded x1 rc1).2.multiple c1).combineSum
      ((squareIfNeeded x2 rc2).2.multiple c2)).min = 0)
    (hmax : (((squareIfNeeded x1 rc1).2.multiple c1).combineSum
      ((squareIfNeeded x2 rc2).2.multiple c2)).max.val < (-1 : ZMod p).val)
    (hev : eval σ e = eval σ x1 * (c1 * σ v1) + eval σ x2 * (c2 * σ v2) + eval σ r) :
    eval σ r + ComputationMethod.value σ (.quotientOrZero (neg r)
      (add (scale c1 (squareIfNeeded x1 rc1).1) (scale c2 (squareIfNeeded x2 rc2).1))) *
      (c1 * eval σ (squareIfNeeded x1 rc1).1 + c2 * eval σ (squareIfNeeded x2 rc2).1) = 0 := by
  set F := c1 * eval σ (squareIfNeeded x1 rc1).1 + c2 * eval σ (squareIfNeeded x2 rc2).1 with hF
  have hf : eval σ (add (scale c1 (squareIfNeeded x1 rc1).1)
      (scale c2 (squareIfNeeded x2 rc2).1)) = F := by rw [eval_add, eval_scale, eval_scale]
  rw [ComputationMethod.value, hf, eval_neg]
  split
  · rename_i hF0
    have a1 : rc1.allowsValue (eval σ x1) = true := holds_of_derives hwf hint hlen hσ h1
    have a2 : rc2.allowsValue (eval σ x2) = true := holds_of_derives hwf hint hlen hσ h2
    obtain ⟨y1, y2⟩ := factor_zero hc1 hc2 z1 z2 (squareIfNeeded_spec a1).1
      (squareIfNeeded_spec a2).1 hmin hmax hF0
    have he0 := hσ.constraints e he
    rw [hev, squareIfNeeded_zero.1 y1, squareIfNeeded_zero.1 y2] at he0
    simpa using he0
  · rename_i hF0
    rw [div_mul_cancel₀ _ hF0]
    ring

/-- The two directions of the replacement of free variables. -/
theorem replaceFreeVariables_spec (hwf : inp.WF) (hint : 2 * (p - 1) < 2 ^ inp.intBits)
    (hlen : ∀ e ∈ inp.constraints, e.linear.length ≤ p) {bus : List (GExpr p V)}
    (hsingle : ∀ v ∈ inp.single, (inp.constraints.flatMap vars ++ bus.flatMap vars).count v = 1)
    (hfresh : ∀ w m, inp.fresh w m → w ∉ inp.constraints.flatMap vars ++ bus.flatMap vars)
    {e e' : GExpr p V} (h : Derives inp (.replaceBy e e')) :
    e ∈ inp.constraints ∧
    (∃ w m, inp.fresh w m ∧ ∀ σ, inp.SolvedBy σ →
      (∀ c ∈ inp.constraints, eval (Function.update σ w (m.value σ)) c = 0) ∧
      eval (Function.update σ w (m.value σ)) e' = 0 ∧
      ∀ f ∈ bus, eval (Function.update σ w (m.value σ)) f = eval σ f) ∧
    ∀ σ' : V → ZMod p, (∀ c ∈ inp.constraints, c ≠ e → eval σ' c = 0) → eval σ' e' = 0 →
      ∃ σ : V → ZMod p, (∀ v ∉ inp.single, σ v = σ' v) ∧
      (∀ c ∈ inp.constraints, eval σ c = 0) ∧ ∀ f ∈ bus, eval σ f = eval σ' f := by
  classical
  cases h with
  | replaceFreeVariables h h1 h2 hr hw =>
  rename_i v1 v2 x1 x2 c1 c2 rc1 rc2 factor r w
  obtain ⟨hlt, s1, s2, he, hc1, hc2, -, -, hx2, hx1, m1, m2⟩ := shape_of_derives hwf h
  have hne : v1 ≠ v2 := ne_of_lt hlt
  have cnt : ∀ v, e.vars.count v ≤ (inp.constraints.flatMap vars).count v := by
    intro v
    obtain ⟨a, b, hab⟩ := List.append_of_mem he
    rw [hab, List.flatMap_append, List.flatMap_cons, List.count_append, List.count_append]
    omega
  have occ : ∀ v ∈ inp.single, e.vars.count v ≤ 1 := by
    intro v hv
    have := hsingle v hv
    rw [List.count_append] at this
    have := cnt v
    omega
  obtain ⟨hev, hrv, hx1v, hx2v⟩ := free_split hne m1 m2 hx2 hx1 (occ v1 s1) (occ v2 s2)
  have v1e : v1 ∈ e.vars := by
    obtain ⟨q, l, c⟩ := e
    rw [vars_eq]
    refine List.mem_append.2 (Or.inl ?_)
    rcases m1 with m | m
    · exact List.mem_flatMap.2 ⟨_, m, by simp [vars_eq]⟩
    · exact List.mem_flatMap.2 ⟨_, m, by simp [vars_eq]⟩
  have v2e : v2 ∈ e.vars := by
    obtain ⟨q, l, c⟩ := e
    rw [vars_eq]
    refine List.mem_append.2 (Or.inl ?_)
    rcases m2 with m | m
    · exact List.mem_flatMap.2 ⟨_, m, by simp [vars_eq]⟩
    · exact List.mem_flatMap.2 ⟨_, m, by simp [vars_eq]⟩
  -- nothing else contains the variables
  have other : ∀ v ∈ inp.single, v ∈ e.vars →
      (∀ c ∈ inp.constraints, c ≠ e → v ∉ c.vars) ∧ ∀ f ∈ bus, v ∉ f.vars := by
    intro v hv hve
    have h1 := hsingle v hv
    rw [List.count_append] at h1
    have hpos : 0 < (inp.constraints.flatMap vars).count v :=
      List.count_pos_iff.2 (List.mem_flatMap.2 ⟨e, he, hve⟩)
    refine ⟨fun c hc hne hvc => ?_, fun f hf hvf => ?_⟩
    · obtain ⟨a, b, hab, hn, -⟩ := count_flatMap_split vars v he hve (by omega)
      rw [hab] at hc
      rcases List.mem_append.1 hc with hc | hc
      · exact hn c (List.mem_append.2 (Or.inl hc)) hvc
      · rcases List.mem_cons.1 hc with hc | hc
        · exact hne hc
        · exact hn c (List.mem_append.2 (Or.inr hc)) hvc
    · have : 0 < (bus.flatMap vars).count v :=
        List.count_pos_iff.2 (List.mem_flatMap.2 ⟨f, hf, hvf⟩)
      omega
  obtain ⟨rfl, rfl, z1, z2, hmin, hmax⟩ := freeVariableParts_inv hr
  obtain ⟨t1, ht1, et1⟩ := squareIfNeeded_cofactor x1 rc1
  obtain ⟨t2, ht2, et2⟩ := squareIfNeeded_cofactor x2 rc2
  have hw' := hfresh w _ hw
  have wc : ∀ c ∈ inp.constraints, w ∉ c.vars := fun c hc hwc => hw' (List.mem_append.2
    (Or.inl (List.mem_flatMap.2 ⟨c, hc, hwc⟩)))
  have wb : ∀ f ∈ bus, w ∉ f.vars := fun f hf hwf => hw' (List.mem_append.2
    (Or.inr (List.mem_flatMap.2 ⟨f, hf, hwf⟩)))
  have congr_of : ∀ {σ τ : V → ZMod p} {x : GExpr p V}, (∀ v ∈ x.vars, σ v = τ v) →
      eval σ x = eval τ x := by
    intro σ τ x h
    exact eval_congr h
  refine ⟨he, ?_, ?_⟩
  · refine ⟨w, _, hw, fun σ hσ => ?_⟩
    have hupd : ∀ (z : ZMod p) (x : GExpr p V), w ∉ x.vars →
        eval (Function.update σ w z) x = eval σ x := by
      intro z x hx
      apply congr_of
      intro v hv
      exact Function.update_of_ne (fun h : v = w => hx (h ▸ hv)) _ _
    have hz := free_quotient hwf hint hlen hσ he hc1 hc2 h1 h2 z1 z2 hmin hmax (hev σ)
    set z := ComputationMethod.value σ (.quotientOrZero (neg (sum (remainingSummands e v1 v2)))
      (add (scale c1 (squareIfNeeded x1 rc1).1) (scale c2 (squareIfNeeded x2 rc2).1))) with hzdef
    refine ⟨fun c hc => ?_, ?_, fun f hf => ?_⟩
    · rw [hupd z c (wc c hc)]; exact hσ.constraints c hc
    · have sq : ∀ (x : GExpr p V) (rc : RangeConstraint p), w ∉ x.vars →
          eval (Function.update σ w z) (squareIfNeeded x rc).1 = eval σ (squareIfNeeded x rc).1 := by
        intro x rc hx
        unfold squareIfNeeded
        split
        · exact hupd z x hx
        · rw [eval_mul, eval_mul, hupd z x hx]
      rw [freeVariableReplacement, eval_add, eval_mul, eval_var, eval_add, eval_scale, eval_scale,
        sq x1 rc1 (fun h => wc e he (hx1v w h).1), sq x2 rc2 (fun h => wc e he (hx2v w h).1),
        hupd z _ (fun h => wc e he (hrv w h).1), Function.update_self]
      exact hz
    · exact hupd z f (wb f hf)
  · intro σ' hc' he'
    set σ := Function.update (Function.update σ' v1 (σ' w * eval σ' t1)) v2 (σ' w * eval σ' t2)
      with hσ
    have hagree : ∀ v, v ≠ v1 → v ≠ v2 → σ v = σ' v := by
      intro v n1 n2
      rw [hσ, Function.update_of_ne n2, Function.update_of_ne n1]
    have hx1' : eval σ x1 = eval σ' x1 := congr_of fun v hv =>
      hagree v (hx1v v hv).2.1 (hx1v v hv).2.2
    have hx2' : eval σ x2 = eval σ' x2 := congr_of fun v hv =>
      hagree v (hx2v v hv).2.1 (hx2v v hv).2.2
    have hr' : eval σ (sum (remainingSummands e v1 v2)) =
        eval σ' (sum (remainingSummands e v1 v2)) := congr_of fun v hv =>
      hagree v (hrv v hv).2.1 (hrv v hv).2.2
    refine ⟨σ, fun v hv => hagree v (fun h => hv (h ▸ s1)) (fun h => hv (h ▸ s2)),
      fun c hc => ?_, fun f hf => ?_⟩
    · by_cases hce : c = e
      · subst hce
        have e1 : σ v1 = σ' w * eval σ' t1 := by
          rw [hσ, Function.update_of_ne hne, Function.update_self]
        have e2 : σ v2 = σ' w * eval σ' t2 := by rw [hσ, Function.update_self]
        rw [freeVariableReplacement, eval_add, eval_mul, eval_var, eval_add, eval_scale,
          eval_scale, et1, et2] at he'
        rw [hev σ, hx1', hx2', hr', e1, e2]
        linear_combination he'
      · rw [← hc' c hc hce]
        exact congr_of fun v hv => hagree v
          (fun h => (other v1 s1 v1e).1 c hc hce (h ▸ hv))
          (fun h => (other v2 s2 v2e).1 c hc hce (h ▸ hv))
    · exact congr_of fun v hv => hagree v
          (fun h => (other v1 s1 v1e).2 f hf (h ▸ hv))
          (fun h => (other v2 s2 v2e).2 f hf (h ▸ hv))

end Verif
