import Verif.Proofs.TerminationBase
import Verif.Proofs.Linearizer

/-! Helper lemmas for the termination of the solver: the number of products of an expression. -/

set_option linter.unusedSectionVars false

namespace Verif

open GExpr

variable {p : ℕ} {V : Type}

namespace GExpr

mutual
/-- The number of products in an expression. -/
def prods : GExpr p V → ℕ
  | mk q _ _ => prodsQ q
/-- The number of products in a list of quadratic terms. -/
def prodsQ : List (GExpr p V × GExpr p V) → ℕ
  | [] => 0
  | (a, b) :: t => 1 + prods a + prods b + prodsQ t
end

theorem prodsQ_eq (q : List (GExpr p V × GExpr p V)) :
    prodsQ q = (q.map fun ab => 1 + prods ab.1 + prods ab.2).sum := by
  induction q with
  | nil => simp [prodsQ]
  | cons ab t ih => obtain ⟨a, b⟩ := ab; simp [prodsQ, ih]

theorem prods_mk (q : List (GExpr p V × GExpr p V)) (l : List (V × ZMod p)) (c : ZMod p) :
    prods (mk q l c) = (q.map fun ab => 1 + prods ab.1 + prods ab.2).sum := by
  rw [prods, prodsQ_eq]

theorem prods_eq_zero_iff {e : GExpr p V} : prods e = 0 ↔ e.isAffine = true := by
  obtain ⟨q, l, c⟩ := e
  rcases q with _ | ⟨⟨a, b⟩, t⟩
  · simp [prods, prodsQ, isAffine, isQuadratic, quadratic]
  · simp [prods, prodsQ, isAffine, isQuadratic, quadratic]

theorem prods_neg (e : GExpr p V) : prods (neg e) = prods e := by
  induction e using GExpr.ind with
  | h q l c ih =>
    rw [neg, prods_mk, prods_mk, negQ_eq, List.map_map]
    congr 1
    apply List.map_congr_left
    intro ab hab
    simp [(ih ab hab).1]

theorem prods_scale (k : ZMod p) (e : GExpr p V) : prods (scale k e) ≤ prods e := by
  induction e using GExpr.ind with
  | h q l c ih =>
    rw [scale]
    split
    · simp [zero, prods, prodsQ]
    · rw [prods_mk, prods_mk, scaleQ_eq, List.map_map]
      apply List.sum_le_sum
      intro ab hab
      have := (ih ab hab).1
      simp only [Function.comp_apply]
      omega

theorem prodsQ_perm {q r : List (GExpr p V × GExpr p V)} (h : q.Perm r) : prodsQ q = prodsQ r := by
  rw [prodsQ_eq, prodsQ_eq]
  exact (h.map _).sum_eq

theorem prodsQ_append (q r : List (GExpr p V × GExpr p V)) :
    prodsQ (q ++ r) = prodsQ q + prodsQ r := by
  rw [prodsQ_eq, prodsQ_eq, prodsQ_eq]; simp

theorem prodsQ_cons (a : GExpr p V × GExpr p V) (r : List (GExpr p V × GExpr p V)) :
    prodsQ (a :: r) = 1 + prods a.1 + prods a.2 + prodsQ r := by
  obtain ⟨x, y⟩ := a; rw [prodsQ]

theorem prodsQ_combineLoop [DecidableEq V] (q r : List (GExpr p V × GExpr p V)) :
    prodsQ (combineLoop q r) ≤ prodsQ q + prodsQ r := by
  induction q generalizing r with
  | nil => simp [combineLoop, prodsQ]
  | cons f t ih =>
    unfold combineLoop
    split
    · rename_i r' hr
      obtain ⟨s, -, hp⟩ := removeFirst_perm hr
      rw [prodsQ_perm hp, prodsQ_cons, prodsQ_cons]
      have := ih r'
      omega
    · rw [prodsQ_cons, prodsQ_cons]
      have := ih r
      omega

theorem prodsQ_combine [DecidableEq V] (q r : List (GExpr p V × GExpr p V)) :
    prodsQ (combineRemovingZeros q r) ≤ prodsQ q + prodsQ r := by
  unfold combineRemovingZeros
  split
  · rw [prodsQ_append]
  · exact prodsQ_combineLoop q r

theorem prodsQ_removePairs [DecidableEq V] (n : ℕ) (q : List (GExpr p V × GExpr p V)) :
    prodsQ (removePairs n q) ≤ prodsQ q := by
  induction n generalizing q with
  | zero => simp [removePairs]
  | succ n ih =>
    rcases q with _ | ⟨f, t⟩
    · simp [removePairs]
    · unfold removePairs
      split
      · rename_i r' hr
        obtain ⟨s, -, hp⟩ := removeFirst_perm hr
        rw [prodsQ_cons, prodsQ_perm hp, prodsQ_cons]
        have := ih r'
        omega
      · rw [prodsQ_cons, prodsQ_cons]
        have := ih t
        omega

theorem prodsQ_removeQuadratic [DecidableEq V] (q : List (GExpr p V × GExpr p V)) :
    prodsQ (removeQuadraticTermsAddingToZero q) ≤ prodsQ q := by
  unfold removeQuadraticTermsAddingToZero
  split
  · exact le_rfl
  · exact prodsQ_removePairs _ q

theorem prods_const (c : ZMod p) : prods (const c : GExpr p V) = 0 := by
  simp [const, prods, prodsQ]

theorem prods_var (v : V) : prods (var v : GExpr p V) = 0 := by
  simp [var, prods, prodsQ]

theorem prods_known {e : GExpr p V} {k : ZMod p} (h : e.tryToKnown = some k) : prods e = 0 := by
  rw [tryToKnown_eq_some.1 h]; simp [prods, prodsQ]

variable [LinearOrder V]

theorem prods_add (a b : GExpr p V) : prods (add a b) ≤ prods a + prods b := by
  obtain ⟨qa, la, ca⟩ := a
  obtain ⟨qb, lb, cb⟩ := b
  rw [add, prods, prods, prods]
  exact prodsQ_combine qa qb

theorem prods_sub (a b : GExpr p V) : prods (sub a b) ≤ prods a + prods b := by
  rw [sub, ← prods_neg b]
  exact prods_add a (neg b)

theorem prods_mul (a b : GExpr p V) : prods (mul a b) ≤ 1 + prods a + prods b := by
  unfold mul
  split
  · rename_i k _
    have := prods_scale k a
    omega
  · split
    · rename_i k _
      have := prods_scale k b
      omega
    · simp [prods, prodsQ]

theorem prods_collapseTerm {a b e : GExpr p V} (h : collapseTerm a b = some e) :
    prods e ≤ prods a + prods b := by
  unfold collapseTerm at h
  split at h
  · cases h; rw [prods_const]; omega
  · rename_i l _ _; cases h; have := prods_scale l b; omega
  · rename_i r _ _; cases h; have := prods_scale r a; omega
  · cases h

/-- Substituting an affine expression does not add products. -/
theorem prods_subst (x : V) {s : GExpr p V} (hs : prods s = 0) (e : GExpr p V) :
    prods (subst x s e) ≤ prods e := by
  induction e using GExpr.ind with
  | h q l c ih =>
    rw [subst]
    split
    · exact le_rfl
    · simp only
      have hadd : ∀ (l : List (V × ZMod p)) (acc : GExpr p V),
          prods (l.foldl (fun acc e => if e.1 = x then add acc (scale e.2 s) else acc) acc) ≤
            prods acc := by
        intro l
        induction l with
        | nil => exact fun acc => le_rfl
        | cons a t iht =>
          intro acc
          rw [List.foldl_cons]
          refine le_trans (iht _) ?_
          split
          · have := prods_add acc (scale a.2 s)
            have := prods_scale a.2 s
            omega
          · exact le_rfl
      have hq : ∀ q' : List (GExpr p V × GExpr p V), (∀ ab ∈ q', ab ∈ q) → ∀ acc,
          prodsQ (substQ x s q' acc).1 + prods (substQ x s q' acc).2 ≤ prodsQ q' + prods acc := by
        intro q'
        induction q' with
        | nil => intro _ acc; simp [substQ]
        | cons ab t iht =>
          intro hsub acc
          obtain ⟨a, b⟩ := ab
          obtain ⟨ha, hb⟩ := ih (a, b) (hsub _ (by simp))
          have hsub' : ∀ ab ∈ t, ab ∈ q := fun ab h => hsub ab (by simp [h])
          simp only [substQ]
          cases hc : collapseTerm (subst x s a) (subst x s b) with
          | some e =>
            simp only
            have h1 := iht hsub' (add acc e)
            have h2 := prods_add acc e
            have h3 := prods_collapseTerm hc
            rw [prodsQ_cons]
            simp only at ha hb ⊢
            omega
          | none =>
            simp only
            have h1 := iht hsub' acc
            rw [prodsQ_cons, prodsQ_cons]
            simp only at ha hb ⊢
            omega
      refine le_trans (prods_add _ _) ?_
      rw [prods, prods]
      have h1 := hq q (fun _ h => h)
        (l.foldl (fun acc e => if e.1 = x then add acc (scale e.2 s) else acc) zero)
      have h2 := hadd l zero
      have h3 : prods (zero : GExpr p V) = 0 := prods_const 0
      have h4 := prodsQ_removeQuadratic (substQ x s q
        (l.foldl (fun acc e => if e.1 = x then add acc (scale e.2 s) else acc) zero)).1
      omega

end GExpr

section
variable [LinearOrder V] [Fact p.Prime]

/-! ### Boolean extraction -/

/-- Can a Boolean be extracted from the constraint? -/
def Extractable (subs : BooleanSubs p V) (e : GExpr p V) (z : V) : Bool :=
  (tryExtractBoolean subs e z).isSome

theorem contains_mono {subs subs' : BooleanSubs p V} (h : ∀ x ∈ subs, x ∈ subs') {e : GExpr p V}
    (hc : subs.contains e = true) : subs'.contains e = true := by
  unfold BooleanSubs.contains at *
  rw [List.any_eq_true] at *
  obtain ⟨x, hx, he⟩ := hc
  exact ⟨x, h x hx, he⟩

theorem extractable_eq {subs : BooleanSubs p V} {e : GExpr p V} {z : V} :
    Extractable subs e z = true ↔ ∃ l r k, e.tryAsSingleProduct = some (l, r) ∧
      (scale (extractionFactor l r) l - r).tryToKnown = some k ∧
      ((k = 0 ∧ subs.contains r = false) ∨
        (k ≠ 0 ∧ subs.contains (scale k⁻¹ (-extractionExpr r k)) = false ∧
          (scale k⁻¹ (-extractionExpr r k)).tryToSimpleUnknown.isSome = false)) := by
  unfold Extractable tryExtractBoolean
  cases hp : e.tryAsSingleProduct with
  | none => simp
  | some lr =>
    obtain ⟨l, r⟩ := lr
    simp only [Option.some.injEq, Prod.mk.injEq]
    cases ho : (scale (extractionFactor l r) l - r).tryToKnown with
    | none =>
      simp only [Option.isSome_none, Bool.false_eq_true, false_iff]
      rintro ⟨l', r', k, ⟨rfl, rfl⟩, h, -⟩
      rw [ho] at h; cases h
    | some k =>
      simp only
      constructor
      · intro h
        refine ⟨l, r, k, ⟨rfl, rfl⟩, ho, ?_⟩
        by_cases hk : k = 0
        · rw [if_pos hk] at h
          left
          refine ⟨hk, ?_⟩
          by_contra hc
          rw [Bool.not_eq_false] at hc
          rw [if_pos hc] at h
          cases h
        · rw [if_neg hk] at h
          right
          refine ⟨hk, ?_⟩
          split at h
          · cases h
          · rename_i h1
            split at h
            · cases h
            · rename_i h2
              exact ⟨by simpa using h1, by simpa using h2⟩
      · rintro ⟨l', r', k', ⟨rfl, rfl⟩, h, hh⟩
        rw [ho] at h
        cases h
        rcases hh with ⟨hk, hc⟩ | ⟨hk, hc, hs⟩
        · rw [if_pos hk, if_neg (by rw [hc]; simp)]; rfl
        · rw [if_neg hk, if_neg (by rw [hc]; simp), if_neg (by rw [hs]; simp)]; rfl

theorem extractable_var (subs : BooleanSubs p V) (e : GExpr p V) (z z' : V) :
    Extractable subs e z = Extractable subs e z' := by
  rw [Bool.eq_iff_iff, extractable_eq, extractable_eq]

theorem extractable_mono {subs subs' : BooleanSubs p V} (h : ∀ x ∈ subs, x ∈ subs')
    {e : GExpr p V} {z z' : V} (he : Extractable subs' e z = true) :
    Extractable subs e z' = true := by
  have key : ∀ a : GExpr p V, subs'.contains a = false → subs.contains a = false := by
    intro a ha
    by_contra hc
    rw [Bool.not_eq_false] at hc
    rw [contains_mono h hc] at ha
    cases ha
  rw [extractable_eq] at *
  obtain ⟨l, r, k, h1, h2, h3⟩ := he
  refine ⟨l, r, k, h1, h2, ?_⟩
  rcases h3 with ⟨h3, h4⟩ | ⟨h3, h4, h5⟩
  · exact Or.inl ⟨h3, key _ h4⟩
  · exact Or.inr ⟨h3, key _ h4, h5⟩

theorem prods_extractionExpr (r : GExpr p V) (k : ZMod p) :
    prods (extractionExpr r k) ≤ prods r := by
  unfold extractionExpr
  simp only
  split
  · exact le_rfl
  · have h1 := prods_sub (neg r) (const k)
    rw [prods_neg, prods_const] at h1
    exact h1

/-- What an extraction does to the measures. -/
theorem tryExtractBoolean_decreases {subs subs' : BooleanSubs p V} {e : GExpr p V} {z z' : V}
    {x : BooleanExtraction p V} (h : tryExtractBoolean subs e z = some (x, subs')) :
    Extractable subs e z' = true ∧ Extractable subs' e z' = false ∧ (∀ a ∈ subs, a ∈ subs') ∧
      prods x.constraint < prods e := by
  have h0 : Extractable subs e z = true := by unfold Extractable; rw [h]; rfl
  refine ⟨by rw [extractable_var subs e z' z]; exact h0, ?_⟩
  unfold tryExtractBoolean at h
  cases hp : e.tryAsSingleProduct with
  | none => rw [hp] at h; cases h
  | some lr =>
    obtain ⟨l, r⟩ := lr
    rw [hp] at h
    have he := tryAsSingleProduct_eq_some.1 hp
    have hpe : prods r < prods e := by
      rw [he, prods, prodsQ, prodsQ]; omega
    simp only at h
    cases ho : (scale (extractionFactor l r) l - r).tryToKnown with
    | none => rw [ho] at h; cases h
    | some k =>
      rw [ho] at h
      simp only at h
      have hno : (if k = 0 then subs'.contains r = true
          else subs'.contains (scale k⁻¹ (-extractionExpr r k)) = true) →
          Extractable subs' e z' = false := by
        intro hc
        rw [← Bool.not_eq_true]
        intro hx
        obtain ⟨l', r', k', h1, h2, h3⟩ := extractable_eq.1 hx
        rw [hp] at h1
        cases h1
        rw [ho] at h2
        cases h2
        rcases h3 with ⟨h3, h4⟩ | ⟨h3, h4, -⟩
        · rw [if_pos h3, h4] at hc; cases hc
        · rw [if_neg h3, h4] at hc; cases hc
      by_cases hk : k = 0
      · rw [if_pos hk] at h hno
        split at h
        · cases h
        · simp only [Option.some.injEq, Prod.mk.injEq] at h
          obtain ⟨rfl, rfl⟩ := h
          exact ⟨hno (by simp [BooleanSubs.contains]), fun a ha => by simp [ha], hpe⟩
      · rw [if_neg hk] at h hno
        split at h
        · cases h
        · split at h
          · cases h
          · simp only [Option.some.injEq, Prod.mk.injEq] at h
            obtain ⟨rfl, rfl⟩ := h
            refine ⟨hno (by simp [BooleanSubs.contains]), fun a ha => by simp [ha], ?_⟩
            have h1 : prods (extractionExpr r k + scale k (var z)) ≤ _ := prods_add _ _
            have h2 := prods_scale k (var z)
            have h3 := prods_extractionExpr r k
            rw [prods_var] at h2
            show prods (extractionExpr r k + scale k (var z)) < _
            omega

/-! ### Linearisation -/

variable {fresh : ℕ → V} {B : ℕ → V → Prop}

theorem substituteByVar_prods {e : GExpr p V} {st : LinState p V} (he : prods e ≤ 1)
    {c : GExpr p V} (hc : c ∈ (substituteByVar fresh e st).2.constraints) :
    c ∈ st.constraints ∨ prods c ≤ 1 := by
  unfold substituteByVar at hc
  split at hc
  · exact Or.inl hc
  · rcases List.mem_append.1 hc with hc | hc
    · exact Or.inl hc
    · rw [List.mem_singleton] at hc
      subst hc
      right
      have := prods_sub e (var (fresh st.next))
      rw [prods_var] at this
      exact le_trans this he

/-- The constraints that linearisation adds have at most one product. -/
theorem linearizeExpression_prods (hB : Dispenses fresh B) (e : GExpr p V) :
    ∀ {st : LinState p V}, st.Inv B → WF e → Below B st.next e →
      ∀ c ∈ (linearizeExpression fresh e st).2.constraints, c ∈ st.constraints ∨ prods c ≤ 1 := by
  induction e using GExpr.ind with
  | h q l c ih =>
    intro st hi hw hb
    have key : ∀ q' : List (GExpr p V × GExpr p V), (∀ ab ∈ q', ab ∈ q) → ∀ {st : LinState p V},
        st.Inv B → Below B st.next (mk q l c) →
        ∀ c ∈ (linearizeQ fresh q' st).2.constraints, c ∈ st.constraints ∨ prods c ≤ 1 := by
      intro q'
      induction q' with
      | nil =>
        intro _ st hi _ c hc
        simp only [linearizeQ] at hc
        exact Or.inl hc
      | cons ab t iht =>
        intro hsub st hi hb
        obtain ⟨a, b⟩ := ab
        have hmem : (a, b) ∈ q := hsub _ (by simp)
        obtain ⟨hwa, hwb⟩ := wf_term hw hmem
        have hba : ∀ {n}, Below B n (mk q l c) → Below B n a := fun h v hv =>
          h v (mem_vars_mk.2 (Or.inl ⟨(a, b), hmem, Or.inl hv⟩))
        have hbb : ∀ {n}, Below B n (mk q l c) → Below B n b := fun h v hv =>
          h v (mem_vars_mk.2 (Or.inl ⟨(a, b), hmem, Or.inr hv⟩))
        obtain ⟨iha, ihb⟩ := ih (a, b) hmem
        simp only [linearizeQ]
        generalize hra : linearizeExpression fresh a st = ra
        have h1 := linearizeExpression_spec hB a hi hwa (hba hb)
        have p1 := iha hi hwa (hba hb)
        rw [hra] at h1 p1
        obtain ⟨x1, o1⟩ := h1
        generalize hsa : substituteByVar fresh ra.1 ra.2 = sa
        have h2 := substituteByVar_spec hB x1.inv o1.wf o1.below
        have p2 := fun c => substituteByVar_prods (c := c) (st := ra.2) (fresh := fresh)
          (e := ra.1) (by rw [prods_eq_zero_iff.2 o1.affine]; omega)
        rw [hsa] at h2 p2
        obtain ⟨x2, o2⟩ := h2
        generalize hrb : linearizeExpression fresh b sa.2 = rb
        have h3 := linearizeExpression_spec hB b x2.inv hwb
          ((hbb hb).mono hB (x1.le.trans x2.le))
        have p3 := ihb x2.inv hwb ((hbb hb).mono hB (x1.le.trans x2.le))
        rw [hrb] at h3 p3
        obtain ⟨x3, o3⟩ := h3
        generalize hsb : substituteByVar fresh rb.1 rb.2 = sb
        have h4 := substituteByVar_spec hB x3.inv o3.wf o3.below
        have p4 := fun c => substituteByVar_prods (c := c) (st := rb.2) (fresh := fresh)
          (e := rb.1) (by rw [prods_eq_zero_iff.2 o3.affine]; omega)
        rw [hsb] at h4 p4
        obtain ⟨x4, o4⟩ := h4
        have o2' := (o2.mono hB x3).mono hB x4
        generalize hs : substituteByVar fresh (mul sa.1 sb.1) sb.2 = s
        have h5 := substituteByVar_spec hB x4.inv (wf_mul o2'.wf o4.wf) (fun v hv => by
          rcases vars_mul_subset _ _ hv with hv | hv
          · exact o2'.below v hv
          · exact o4.below v hv)
        have p5 := fun c => substituteByVar_prods (c := c) (st := sb.2) (fresh := fresh)
          (e := mul sa.1 sb.1) (by
            have := prods_mul sa.1 sb.1
            rw [prods_eq_zero_iff.2 o2.affine, prods_eq_zero_iff.2 o4.affine] at this
            omega)
        rw [hs] at h5 p5
        obtain ⟨x5, o5⟩ := h5
        have x15 := (((x1.trans x2).trans x3).trans x4).trans x5
        have p6 := iht (fun ab h => hsub ab (by simp [h])) x5.inv (hb.mono hB x15.le)
        intro c hc
        rcases p6 c hc with hc | hc
        · rcases p5 c hc with hc | hc
          · rcases p4 c hc with hc | hc
            · rcases p3 c hc with hc | hc
              · rcases p2 c hc with hc | hc
                · exact p1 c hc
                · exact Or.inr hc
              · exact Or.inr hc
            · exact Or.inr hc
          · exact Or.inr hc
        · exact Or.inr hc
    rcases q with _ | ⟨ab, q⟩
    · rw [linearizeExpression]
      exact fun c hc => Or.inl hc
    · rw [linearizeExpression]
      simp only
      exact key (ab :: q) (fun _ h => h) hi hb

end

end Verif
