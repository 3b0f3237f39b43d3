import Verif.Model.BooleanExtractor
import Verif.Proofs.Splitter

/-! Proofs about Boolean extraction. -/

set_option linter.unusedSectionVars false

namespace Verif

open GExpr

variable {p : ℕ} {V : Type} [LinearOrder V] [Fact p.Prime]

theorem tryAsSingleProduct_eq_some {e l r : GExpr p V} :
    e.tryAsSingleProduct = some (l, r) ↔ e = mk [(l, r)] [] 0 := by
  obtain ⟨q, li, c⟩ := e
  unfold tryAsSingleProduct
  rcases li with _ | ⟨x, li⟩
  · rcases q with _ | ⟨ab, _ | ⟨cd, q⟩⟩ <;> by_cases hc : c = 0 <;>
      simp [GExpr.linear, GExpr.constant, GExpr.quadratic, hc]
  · simp [GExpr.linear]

theorem extractionFactor_ne_zero {l r : GExpr p V} (hl : WF l) (hr : WF r) :
    extractionFactor l r ≠ 0 := by
  obtain ⟨ql, ll, cl⟩ := l
  obtain ⟨qr, lr, cr⟩ := r
  unfold extractionFactor
  rcases ll with _ | ⟨⟨lv, lc⟩, ll⟩
  · exact one_ne_zero
  · rcases lr with _ | ⟨⟨rv, rc⟩, lr⟩
    · exact one_ne_zero
    · simp only [GExpr.linear]
      split
      · have h1 := (wf_inv hl).2.2 (lv, lc) (by simp)
        have h2 := (wf_inv hr).2.2 (rv, rc) (by simp)
        exact mul_ne_zero h2 (inv_ne_zero h1)
      · exact one_ne_zero

/-- The result of the extraction. -/
theorem tryExtractBoolean_cases {subs subs' : BooleanSubs p V} {e : GExpr p V} {z : V}
    {x : BooleanExtraction p V} (hw : WF e)
    (h : tryExtractBoolean subs e z = some (x, subs')) :
    ∃ l r k, e = mk [(l, r)] [] 0 ∧ WF r ∧
      (∀ σ, eval σ e = 0 ↔ eval σ r = 0 ∨ eval σ r = -k) ∧
      ((k = 0 ∧ x = ⟨r, none⟩ ∧ subs' = (r, none) :: subs) ∨
        (k ≠ 0 ∧ x = ⟨extractionExpr r k + scale k (var z), some z⟩ ∧
          subs' = (scale k⁻¹ (-extractionExpr r k), some z) :: subs)) := by
  unfold tryExtractBoolean at h
  cases hp : e.tryAsSingleProduct with
  | none => rw [hp] at h; cases h
  | some lr =>
    obtain ⟨l, r⟩ := lr
    rw [hp] at h
    have he := tryAsSingleProduct_eq_some.1 hp
    subst he
    have hwl : WF l := ((wf_inv hw).1 (l, r) (by simp)).1
    have hwr : WF r := ((wf_inv hw).1 (l, r) (by simp)).2.1
    simp only at h
    cases ho : (scale (extractionFactor l r) l - r).tryToKnown with
    | none => rw [ho] at h; cases h
    | some k =>
      rw [ho] at h
      have hk : ∀ σ, extractionFactor l r * eval σ l - eval σ r = k := by
        intro σ
        have := eval_known σ ho
        rwa [show (scale (extractionFactor l r) l - r) = sub (scale (extractionFactor l r) l) r
          from rfl, eval_sub, eval_scale] at this
      have hf := extractionFactor_ne_zero hwl hwr
      refine ⟨l, r, k, rfl, hwr, ?_, ?_⟩
      · intro σ
        have hprod : eval σ (mk [(l, r)] [] 0) = eval σ l * eval σ r := by
          rw [eval_mk]; simp
        rw [hprod, mul_eq_zero, or_comm]
        apply or_congr_right
        have h1 := hk σ
        constructor
        · intro h0
          rw [h0, mul_zero, zero_sub] at h1
          rw [← h1, neg_neg]
        · intro h0
          rw [h0] at h1
          have : extractionFactor l r * eval σ l = 0 := by linear_combination h1
          exact (mul_eq_zero.1 this).resolve_left hf
      · simp only at h
        by_cases hk0 : k = 0
        · rw [if_pos hk0] at h
          split at h
          · cases h
          · simp only [Option.some.injEq, Prod.mk.injEq] at h
            exact Or.inl ⟨hk0, h.1.symm, h.2.symm⟩
        · rw [if_neg hk0] at h
          split at h
          · cases h
          · split at h
            · cases h
            · simp only [Option.some.injEq, Prod.mk.injEq] at h
              exact Or.inr ⟨hk0, h.1.symm, h.2.symm⟩

theorem eval_extractionExpr (σ : V → ZMod p) (r : GExpr p V) (k : ZMod p) :
    eval σ (extractionExpr r k) = eval σ r ∨ eval σ (extractionExpr r k) = - eval σ r - k := by
  unfold extractionExpr
  simp only
  split
  · exact Or.inl rfl
  · right
    rw [show (-r - const k) = sub (neg r) (const k) from rfl, eval_sub, eval_neg, eval_const]

theorem wf_extractionExpr {r : GExpr p V} (hw : WF r) (k : ZMod p) :
    WF (extractionExpr r k) := by
  unfold extractionExpr
  simp only
  split
  · exact hw
  · exact wf_sub (wf_neg hw) (wf_const k)

theorem vars_extractionExpr {r : GExpr p V} {k : ZMod p} {v : V}
    (h : v ∈ vars (extractionExpr r k)) : v ∈ vars r := by
  unfold extractionExpr at h
  simp only at h
  split at h
  · exact h
  · rcases vars_sub_subset (neg r) (const k) h with h | h
    · rwa [vars_neg] at h
    · rw [vars_const] at h; cases h

/-- What the extraction guarantees. -/
structure ExtractionSpec (e : GExpr p V) (z : V) (x : BooleanExtraction p V) : Prop where
  wf : WF x.constraint
  vars : ∀ v ∈ vars x.constraint, v ∈ GExpr.vars e ∨ x.newVar = some v
  newVar : x.newVar = none ∨ x.newVar = some z
  plain : x.newVar = none → ∀ σ, eval σ e = 0 ↔ eval σ x.constraint = 0
  boolean : x.newVar = some z → z ∉ GExpr.vars e → ∀ σ, (eval σ e = 0 ↔
    ∃ b, (b = 0 ∨ b = 1) ∧ eval (Function.update σ z b) x.constraint = 0)
  unique : x.newVar = some z → z ∉ GExpr.vars e → ∀ σ b b',
    eval (Function.update σ z b) x.constraint = 0 →
    eval (Function.update σ z b') x.constraint = 0 → b = b'

theorem tryExtractBoolean_spec {subs subs' : BooleanSubs p V} {e : GExpr p V} {z : V}
    {x : BooleanExtraction p V} (hw : WF e)
    (h : tryExtractBoolean subs e z = some (x, subs')) : ExtractionSpec e z x := by
  obtain ⟨l, r, k, he, hwr, hval, hx⟩ := tryExtractBoolean_cases hw h
  have hvr : ∀ v ∈ vars r, v ∈ vars e := by
    intro v hv
    rw [he, mem_vars_mk]
    exact Or.inl ⟨(l, r), by simp, Or.inr hv⟩
  rcases hx with ⟨hk, hx, -⟩ | ⟨hk, hx, -⟩
  · subst hx
    refine ⟨hwr, fun v hv => Or.inl (hvr v hv), Or.inl rfl, ?_, ?_, ?_⟩
    · intro _ σ
      rw [hval, hk]
      simp
    · intro h; cases h
    · intro h; cases h
  · subst hx
    have hev : z ∉ vars e → ∀ σ b, eval (Function.update σ z b)
        (extractionExpr r k + scale k (var z)) = eval σ (extractionExpr r k) + k * b := by
      intro hz σ b
      rw [show extractionExpr r k + scale k (var z) = add (extractionExpr r k) (scale k (var z))
        from rfl, eval_add, eval_scale, eval_var, Function.update_self]
      congr 1
      apply eval_congr
      intro v hv
      rw [Function.update_of_ne]
      rintro rfl
      exact hz (hvr _ (vars_extractionExpr hv))
    refine ⟨?_, ?_, Or.inr rfl, ?_, ?_, ?_⟩
    · exact wf_add (wf_extractionExpr hwr k) (wf_scale k (wf_var z))
    · intro v hv
      rcases vars_add_subset _ _ hv with h | h
      · exact Or.inl (hvr v (vars_extractionExpr h))
      · have := vars_scale_subset k (var z) h
        rw [vars_var, List.mem_singleton] at this
        exact Or.inr (by rw [this])
    · intro h; cases h
    · intro _ hz σ
      rw [hval]
      simp only [hev hz]
      constructor
      · intro h0
        rcases eval_extractionExpr σ r k with hE | hE <;> rw [hE]
        · rcases h0 with h0 | h0 <;> rw [h0]
          · exact ⟨0, Or.inl rfl, by ring⟩
          · exact ⟨1, Or.inr rfl, by ring⟩
        · rcases h0 with h0 | h0 <;> rw [h0]
          · exact ⟨1, Or.inr rfl, by ring⟩
          · exact ⟨0, Or.inl rfl, by ring⟩
      · rintro ⟨b, hb, h0⟩
        rcases eval_extractionExpr σ r k with hE | hE <;> rw [hE] at h0 <;>
          rcases hb with rfl | rfl
        · left; linear_combination h0
        · right; linear_combination h0
        · right; linear_combination -h0
        · left; linear_combination -h0
    · intro _ hz σ b b' h1 h2
      simp only [hev hz] at h1 h2
      have : k * (b - b') = 0 := by linear_combination h1 - h2
      rcases mul_eq_zero.1 this with h | h
      · exact absurd h hk
      · exact sub_eq_zero.1 h

end Verif
