import Verif.Proofs.EqualZero

/-! # The replacements that the rules request: their shape, and which solutions they keep -/

set_option linter.unusedSectionVars false

namespace Verif

open RangeConstraint GExpr

variable {p : ℕ} {V : Type} [LinearOrder V] [Fact p.Prime] {inp : RuleInput p V}

theorem wf_ofQuadratic {a b : GExpr p V} (ha : GExpr.WF a) (hb : GExpr.WF b)
    (na : a.tryToNumber = none) (nb : b.tryToNumber = none) : GExpr.WF (ofQuadratic a b) :=
  wf_intro (by simp [ha, hb, na, nb]) (by simp) (by simp)

theorem wf_remainingSummands {e : GExpr p V} (he : GExpr.WF e) (v1 v2 : V) :
    GExpr.WF (sum (remainingSummands e v1 v2)) := by
  obtain ⟨q, l, c⟩ := e
  obtain ⟨h1, -, h3⟩ := wf_inv he
  refine wf_sum fun x hx => ?_
  simp only [remainingSummands, quadratic, linear, constant, List.mem_append, List.mem_map,
    List.mem_filter] at hx
  rcases hx with (⟨ab, ⟨hab, -⟩, rfl⟩ | ⟨vc, hvc, rfl⟩) | hx
  · obtain ⟨w1, w2, n1, n2⟩ := h1 ab hab
    exact wf_ofQuadratic w1 w2 n1 n2
  · exact wf_ofLinear _ (h3 vc hvc)
  · have hx' : x = const c := by
      by_cases hc : c = 0
      · simp [hc] at hx
      · simpa [hc] using hx
    rw [hx']; exact wf_const _

theorem wf_squareIfNeeded {e : GExpr p V} (he : GExpr.WF e) (rc : RangeConstraint p) :
    GExpr.WF (squareIfNeeded e rc).1 := by
  unfold squareIfNeeded
  split
  · exact he
  · exact wf_mul he he

theorem wf_freeVariableParts (hwf : inp.WF) {e x1 x2 factor r : GExpr p V} {c1 c2 : ZMod p}
    {v1 v2 : V} {rc1 rc2 : RangeConstraint p}
    (h : Derives inp (.freeVariableCandidate e c1 v1 x1 c2 v2 x2))
    (hr : freeVariableParts e c1 v1 x1 rc1 c2 v2 x2 rc2 = some (factor, r)) :
    GExpr.WF factor ∧ GExpr.WF r := by
  obtain ⟨-, -, -, he, -, -, w1, w2, -⟩ := shape_of_derives hwf h
  obtain ⟨rfl, rfl, -⟩ := freeVariableParts_inv hr
  exact ⟨wf_add (wf_scale _ (wf_squareIfNeeded w1 _)) (wf_scale _ (wf_squareIfNeeded w2 _)),
    wf_remainingSummands (hwf.1 e he) _ _⟩

theorem wf_sumVars (vs : List V) : GExpr.WF (sum (vs.map var) : GExpr p V) :=
  wf_sum fun e he => by
    obtain ⟨v, -, rfl⟩ := List.mem_map.1 he
    exact wf_var v

/-- The expressions in the requested computation methods are well-formed. -/
theorem wf_methodRequested (hwf : inp.WF) {e1 e2 : GExpr p V}
    (h : MethodRequested inp (.quotientOrZero e1 e2)) : GExpr.WF e1 ∧ GExpr.WF e2 := by
  cases h with
  | freeVariables h h1 h2 hr =>
    obtain ⟨w1, w2⟩ := wf_freeVariableParts hwf h hr
    exact ⟨wf_neg w2, w1⟩
  | equalZero h => exact ⟨wf_one, wf_sumVars _⟩

theorem wf_replaceBy (hwf : inp.WF) {e e' : GExpr p V} (h : Derives inp (.replaceBy e e')) :
    GExpr.WF e' := by
  cases h with
  | replaceFreeVariables h h1 h2 hr hw =>
    obtain ⟨w1, w2⟩ := wf_freeVariableParts hwf h hr
    exact wf_add w2 (wf_mul (wf_var _) w1)

theorem wf_replaceManyBy (hwf : inp.WF) {es es' : List (GExpr p V)}
    (h : Derives inp (.replaceManyBy es es')) : ∀ e ∈ es', GExpr.WF e := by
  cases h with
  | replaceEqualZero h hw =>
    intro e he
    simp only [equalZeroReplacement, List.mem_cons, List.not_mem_nil, or_false] at he
    rcases he with rfl | rfl
    · exact wf_mul (wf_var _) (wf_sumVars _)
    · exact wf_sub (wf_add (wf_var _) (wf_mul (wf_var _) (wf_sumVars _))) wf_one
  | replaceProducts h1 h2 hlt ha hb ha0 hb0 hsum =>
    intro e he
    rw [List.mem_singleton.1 he]
    obtain ⟨i1, p1⟩ := shape_of_derives hwf h1
    obtain ⟨i2, p2⟩ := shape_of_derives hwf h2
    exact wf_mul (p1.wf (hwf.1 _ i1)).1 (wf_add (p1.wf (hwf.1 _ i1)).2 (p2.wf (hwf.1 _ i2)).2)

/-- Free variables: the computed value of the new variable solves the replacement. -/
theorem replaceBy_keeps (hwf : inp.WF) (hint : 2 * (p - 1) < 2 ^ inp.intBits)
    (hlen : ∀ e ∈ inp.constraints, e.linear.length ≤ p)
    (hsingle : ∀ v ∈ inp.single, ∀ e ∈ inp.constraints, e.vars.count v ≤ 1)
    {σ : V → ZMod p} (hσ : inp.SolvedBy σ) (hnew : ∀ w m, inp.fresh w m → σ w = m.value σ)
    {e e' : GExpr p V} (h : Derives inp (.replaceBy e e')) : eval σ e' = 0 := by
  cases h with
  | replaceFreeVariables h h1 h2 hr hw =>
  obtain ⟨hlt, s1, s2, he, hc1, hc2, -, -, hx2, hx1, m1, m2⟩ := shape_of_derives hwf h
  obtain ⟨hev, -⟩ := free_split (ne_of_lt hlt) m1 m2 hx2 hx1 (hsingle _ s1 e he) (hsingle _ s2 e he)
  have hw' := hnew _ _ hw
  obtain ⟨rfl, rfl, z1, z2, hmin, hmax⟩ := freeVariableParts_inv hr
  have hz := free_quotient hwf hint hlen hσ he hc1 hc2 h1 h2 z1 z2 hmin hmax (hev σ)
  rw [freeVariableReplacement, eval_add, eval_mul, eval_var, hw', eval_add, eval_scale,
    eval_scale]
  linear_combination hz

/-- The result of the comparison is boolean, and the sum of the limbs is zero only if they are. -/
theorem equalZero_facts (hwf : inp.WF) {constrs : List (GExpr p V)} {res : V} {vs : List V}
    (h : Derives inp (.equalZeroCheck constrs res vs)) {σ : V → ZMod p} (hσ : inp.RangesHold σ) :
    ∃ a : Fin 4 → V, vs = [a 0, a 1, a 2, a 3] ∧ (σ res = 0 ∨ σ res = 1) ∧
      (σ (a 0) + σ (a 1) + σ (a 2) + σ (a 3) = 0 → ∀ v ∈ vs, σ v = 0) := by
  cases h with
  | equalZeroCheck h0 h1 h2 h3 h4 h5 h5' hk0 ho0 h6 h6' h7 h7' h8 h8' hres hm0 hm1 hm2 hm3 ha0 ha1
      ha2 ha3 hr0 hr1 hr2 hr3 hsum h9 h9' =>
  rename_i c0 c1 c2 c3 c4 c5 c6 c7 c8 c9 m0 m1 m2 m3 a0 a1 a2 a3 dv l0 l1 l2 om e0 e1 e2 e3 sm k0 o0
    r0 r1 r2 r3
  refine ⟨![a0, a1, a2, a3], by simp, boolean_of_mask (hσ.2 _ (shape_of_derives hwf hres)),
    fun hs => ?_⟩
  have z := sum4_zero (a0 := σ a0) (a1 := σ a1) (a2 := σ a2) (a3 := σ a3) hr0 hr1 hr2 hr3 hsum
      (hσ.2 _ (shape_of_derives hwf ha0)) (hσ.2 _ (shape_of_derives hwf ha1))
      (hσ.2 _ (shape_of_derives hwf ha2)) (hσ.2 _ (shape_of_derives hwf ha3)) hs
  intro v hv
  simp only [List.mem_cons, List.not_mem_nil, or_false] at hv
  rcases hv with rfl | rfl | rfl | rfl
  · exact z.1
  · exact z.2.1
  · exact z.2.2.1
  · exact z.2.2.2

/-- What is replaced are constraints of the system. -/
theorem replaceManyBy_mem (hwf : inp.WF) {es es' : List (GExpr p V)}
    (h : Derives inp (.replaceManyBy es es')) : ∀ e ∈ es, e ∈ inp.constraints := by
  cases h with
  | replaceProducts h1 h2 hlt ha hb ha0 hb0 hsum =>
    intro e he
    simp only [List.mem_cons, List.not_mem_nil, or_false] at he
    rcases he with rfl | rfl
    · exact (shape_of_derives hwf h1).1
    · exact (shape_of_derives hwf h2).1
  | replaceEqualZero h hw =>
    cases h with
    | equalZeroCheck h0 h1 h2 h3 h4 h5 h5' hk0 ho0 h6 h6' h7 h7' h8 h8' hres hm0 hm1 hm2 hm3 ha0
        ha1 ha2 ha3 hr0 hr1 hr2 hr3 hsum h9 h9' =>
    intro e he
    simp only [List.mem_cons, List.not_mem_nil, or_false] at he
    rcases he with rfl | rfl | rfl | rfl | rfl | rfl | rfl | rfl | rfl | rfl
    · exact (shape_of_derives hwf h0).1
    · exact (shape_of_derives hwf h1).1
    · exact (shape_of_derives hwf h2).1
    · exact (shape_of_derives hwf h3).1
    · exact (shape_of_derives hwf h4).1
    · exact (shape_of_derives hwf h5).1
    · exact (shape_of_derives hwf h6).1
    · exact (shape_of_derives hwf h7).1
    · exact (shape_of_derives hwf h8).1
    · exact (shape_of_derives hwf h9).1

theorem replaceBy_mem (hwf : inp.WF) {e e' : GExpr p V} (h : Derives inp (.replaceBy e e')) :
    e ∈ inp.constraints := by
  cases h with
  | replaceFreeVariables h h1 h2 hr hw => exact (shape_of_derives hwf h).2.2.2.1

/-- Comparisons: the computed value of the new variable solves the replacement if the result is
right. -/
theorem equalZero_computed (hwf : inp.WF) {constrs : List (GExpr p V)} {res inv : V} {vs : List V}
    (h : Derives inp (.equalZeroCheck constrs res vs)) {σ : V → ZMod p} (hσ : inp.RangesHold σ)
    (key : σ res = 1 ↔ ∀ v ∈ vs, σ v = 0)
    (hi : σ inv = ComputationMethod.value σ (.quotientOrZero one (sum (vs.map var)))) :
    ∀ e ∈ equalZeroReplacement res inv vs, eval σ e = 0 := by
  obtain ⟨a, rfl, hb, hz⟩ := equalZero_facts hwf h hσ
  rw [equalZeroReplacement_iff]
  rw [ComputationMethod.value, eval_sum4, eval_one] at hi
  set s := σ (a 0) + σ (a 1) + σ (a 2) + σ (a 3) with hs
  by_cases h0 : s = 0
  · have h1 := key.2 (hz h0)
    rw [h0, h1]; simp
  · have h1 : σ res ≠ 1 := by
      intro h1
      have := key.1 h1
      apply h0
      rw [hs, this _ (by simp), this _ (by simp), this _ (by simp), this _ (by simp)]
      simp
    rw [hb.resolve_right h1, hi, if_neg h0, div_mul_cancel₀ _ h0]
    simp

/-- Merged products and comparisons: the computed value of the new variable solves the replacement,
if the result of the comparison is right. -/
theorem replaceManyBy_keeps (hwf : inp.WF) {σ : V → ZMod p} (hσ : inp.SolvedBy σ)
    (hnew : ∀ w m, inp.fresh w m → σ w = m.value σ)
    {es es' : List (GExpr p V)}
    (hcmp : ∀ res vs, Derives inp (.equalZeroCheck es res vs) → (σ res = 1 ↔ ∀ v ∈ vs, σ v = 0))
    (h : Derives inp (.replaceManyBy es es')) (hes : ∀ e ∈ es, eval σ e = 0) :
    ∀ e ∈ es', eval σ e = 0 := by
  have hr : inp.RangesHold σ := ⟨hσ.exprRanges, hσ.varRanges⟩
  cases h with
  | replaceProducts h1 h2 hlt ha hb ha0 hb0 hsum =>
    exact (replaceProducts_iff hwf (.replaceProducts h1 h2 hlt ha hb ha0 hb0 hsum) hr).1
      ⟨hes _ (by simp), hes _ (by simp)⟩
  | replaceEqualZero h hw => exact equalZero_computed hwf h hr (hcmp _ _ h) (hnew _ _ hw)

end Verif
