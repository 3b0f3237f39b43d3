import Verif.Spec.ConstraintOptimizer
import Verif.Proofs.Splitter
import Verif.Proofs.Memory
import Verif.Proofs.Reachability

/-!
# Lemmas: trivial simplifications
-/

namespace Verif

open GExpr

set_option linter.unusedSectionVars false

variable {p : ℕ} {V : Type} [LinearOrder V]

theorem eval_of_isZero {e : GExpr p V} (h : e.isZero = true) (σ : V → ZMod p) : e.eval σ = 0 := by
  unfold isZero at h
  split at h
  · rename_i k hk
    rw [tryToKnown_eq_some] at hk
    subst hk
    simp only [decide_eq_true_eq] at h
    simp [eval_mk, h]
  · cases h

theorem removeTrivial_satisfied {bus : Bus p} (h0 : ∀ b, b.multiplicity = 0 → bus b)
    (s : ConstraintSystem p V) (σ : V → ZMod p) :
    (removeTrivial s).Satisfied bus σ ↔ s.Satisfied bus σ := by
  constructor
  · rintro ⟨ha, hb⟩
    refine ⟨fun e he => ?_, fun b hb' => ?_⟩
    · by_cases hz : e.isZero = true
      · exact eval_of_isZero hz σ
      · exact ha e (List.mem_filter.2 ⟨he, by simpa using hz⟩)
    · by_cases hz : b.multiplicity.isZero = true
      · exact h0 _ (eval_of_isZero hz σ)
      · exact hb b (List.mem_filter.2 ⟨hb', by simpa using hz⟩)
  · rintro ⟨ha, hb⟩
    exact ⟨fun e he => ha e (List.mem_filter.1 he).1, fun b hb' => hb b (List.mem_filter.1 hb').1⟩

/-! ### Equal bus interactions -/

theorem retainUnseen_sublist (f : ZMod p → Bool) (l seen : List (BusInteraction (GExpr p V))) :
    (retainUnseen f seen l).Sublist l := by
  induction l generalizing seen with
  | nil => simp [retainUnseen]
  | cons b t ih =>
    rw [retainUnseen]
    split
    · exact (ih seen).cons_cons b
    · split
      · exact (ih seen).cons_cons b
      · split
        · exact (ih seen).cons b
        · exact (ih _).cons_cons b

theorem mem_retainUnseen (f : ZMod p → Bool) {l seen : List (BusInteraction (GExpr p V))}
    {b : BusInteraction (GExpr p V)} (h : b ∈ l) : b ∈ retainUnseen f seen l ∨ b ∈ seen := by
  induction l generalizing seen with
  | nil => cases h
  | cons c t ih =>
    rw [retainUnseen]
    rcases List.mem_cons.1 h with rfl | h
    · split
      · exact .inl List.mem_cons_self
      · split
        · exact .inl List.mem_cons_self
        · split
          · rename_i hm; exact .inr hm
          · exact .inl List.mem_cons_self
    · split
      · exact (ih (seen := seen) h).imp (List.mem_cons_of_mem _) id
      · split
        · exact (ih (seen := seen) h).imp (List.mem_cons_of_mem _) id
        · split
          · exact ih h
          · rcases ih (seen := c :: seen) h with h | h
            · exact .inl (List.mem_cons_of_mem _ h)
            · rcases List.mem_cons.1 h with rfl | h
              · exact .inl List.mem_cons_self
              · exact .inr h

theorem messages_filter (f : ZMod p → Bool) (s : ConstraintSystem p V) (σ : V → ZMod p)
    {a : List (GExpr p V)} {d : List (DerivedVariable p V)}
    {q : BusInteraction (GExpr p V) → Bool}
    (h : ∀ b ∈ s.bus, q b = false → f (b.busId.eval σ) = true → b.multiplicity.eval σ = 0) :
    ConstraintSystem.messages f ⟨a, s.bus.filter q, d⟩ σ = s.messages f σ := by
  unfold ConstraintSystem.messages
  simp only
  revert h
  generalize s.bus = l
  intro h
  induction l with
  | nil => rfl
  | cons b t ih =>
    have ih := ih fun b hb => h b (List.mem_cons_of_mem _ hb)
    have hb := h b List.mem_cons_self
    rw [List.filter_cons]
    split
    · rw [List.map_cons, List.map_cons, List.filter_cons, List.filter_cons, ih]
    · rename_i hq
      rw [ih, List.map_cons, List.filter_cons, if_neg]
      simp only [Bool.and_eq_true, decide_eq_true_eq, not_and, not_not]
      exact fun hf => hb (by simpa using hq) hf

theorem removeTrivial_messages (f : ZMod p → Bool) (s : ConstraintSystem p V) (σ : V → ZMod p) :
    (removeTrivial s).messages f σ = s.messages f σ :=
  messages_filter f s σ fun _ _ hq _ => eval_of_isZero (by simpa using hq) σ

theorem removeEqualBus_messages (f : ZMod p → Bool) (s : ConstraintSystem p V) (σ : V → ZMod p) :
    (removeEqualBus f s).messages f σ = s.messages f σ := by
  unfold ConstraintSystem.messages removeEqualBus
  simp only
  generalize s.bus = l
  generalize ([] : List (BusInteraction (GExpr p V))) = seen
  induction l generalizing seen with
  | nil => simp [retainUnseen]
  | cons b t ih =>
    rw [retainUnseen]
    split
    · rw [List.map_cons, List.map_cons, List.filter_cons, List.filter_cons, ih]
    · rename_i id hid
      split
      · rw [List.map_cons, List.map_cons, List.filter_cons, List.filter_cons, ih]
      · rename_i hf
        split
        · rw [ih, List.map_cons, List.filter_cons, if_neg]
          have he : (b.evalAt σ).busId = id := eval_known σ hid
          rw [he]
          simp [hf]
        · rw [List.map_cons, List.map_cons, List.filter_cons, List.filter_cons, ih]

theorem removeEqualBus_satisfied (f : ZMod p → Bool) (bus : Bus p) (s : ConstraintSystem p V)
    (σ : V → ZMod p) : (removeEqualBus f s).Satisfied bus σ ↔ s.Satisfied bus σ := by
  constructor
  · rintro ⟨ha, hb⟩
    refine ⟨ha, fun b hb' => hb b ?_⟩
    exact (mem_retainUnseen f (seen := []) hb').resolve_right (by simp)
  · rintro ⟨ha, hb⟩
    exact ⟨ha, fun b hb' => hb b ((retainUnseen_sublist f _ _).subset hb')⟩

/-! ### Duplicate factors -/

theorem eval_foldl_mul (σ : V → ZMod p) (l : List (GExpr p V)) (f : GExpr p V) :
    (l.foldl mul f).eval σ = f.eval σ * (l.map (eval σ)).prod := by
  induction l generalizing f with
  | nil => simp
  | cons a t ih => rw [List.foldl_cons, ih, eval_mul, List.map_cons, List.prod_cons, mul_assoc]

theorem eval_productOf {l : List (GExpr p V)} {e : GExpr p V} (h : productOf l = .ok e)
    (σ : V → ZMod p) : e.eval σ = (l.map (eval σ)).prod := by
  cases l with
  | nil => simp [productOf] at h
  | cons f t =>
    simp only [productOf, Except.ok.injEq] at h
    subst h
    rw [eval_foldl_mul, List.map_cons, List.prod_cons]

theorem mem_eraseDups' {α : Type} [DecidableEq α] {l : List α} {x : α} :
    x ∈ l.eraseDups ↔ x ∈ l := by simp

variable [Fact p.Prime]

theorem wf_foldl_mul {l : List (GExpr p V)} {f : GExpr p V} (hf : WF f) (h : ∀ e ∈ l, WF e) :
    WF (l.foldl mul f) := by
  induction l generalizing f with
  | nil => exact hf
  | cons a t ih =>
    rw [List.foldl_cons]
    exact ih (wf_mul hf (h a List.mem_cons_self)) fun e he => h e (List.mem_cons_of_mem _ he)

theorem wf_productOf {l : List (GExpr p V)} {e : GExpr p V} (h : productOf l = .ok e)
    (hw : ∀ f ∈ l, WF f) : WF e := by
  cases l with
  | nil => simp [productOf] at h
  | cons f t =>
    simp only [productOf, Except.ok.injEq] at h
    subst h
    exact wf_foldl_mul (hw f List.mem_cons_self) fun e he => hw e (List.mem_cons_of_mem _ he)

/-- A constraint holds exactly if one of its factors is zero. -/
theorem eval_zero_iff_factor {e : GExpr p V} (hw : WF e) (σ : V → ZMod p) :
    e.eval σ = 0 ↔ ∃ f ∈ toFactors e, f.eval σ = 0 := by
  obtain ⟨k, hk, h⟩ := toFactors_spec hw
  rw [h σ, mul_eq_zero, or_iff_right hk, List.prod_eq_zero_iff]
  simp

theorem duplicateFactorsLoop_cons {e : GExpr p V} {t : List (GExpr p V)}
    {r : List (GExpr p V) × List (GExpr p V)} (h : duplicateFactorsLoop (e :: t) = .ok r) :
    toFactors e ≠ [] ∧ ∃ k a, duplicateFactorsLoop t = .ok (k, a) ∧
      ((∃ product, (toFactors e).eraseDups.length < (toFactors e).length ∧
          productOf (toFactors e).eraseDups = .ok product ∧ r = (k, product :: a)) ∨
        (¬ (toFactors e).eraseDups.length < (toFactors e).length ∧ r = (e :: k, a))) := by
  rw [duplicateFactorsLoop] at h
  simp only at h
  split at h
  · cases h
  · rename_i hne
    refine ⟨hne, ?_⟩
    split at h
    · rename_i hlt
      cases hp : productOf (toFactors e).eraseDups with
      | error x => rw [hp] at h; cases h
      | ok product =>
        rw [hp] at h
        cases hl : duplicateFactorsLoop t with
        | error x => rw [hl] at h; cases h
        | ok ka =>
          obtain ⟨k, a⟩ := ka
          rw [hl] at h
          cases h
          exact ⟨k, a, rfl, .inl ⟨product, hlt, rfl, rfl⟩⟩
    · rename_i hlt
      cases hl : duplicateFactorsLoop t with
      | error x => rw [hl] at h; cases h
      | ok ka =>
        obtain ⟨k, a⟩ := ka
        rw [hl] at h
        cases h
        exact ⟨k, a, rfl, .inr ⟨hlt, rfl⟩⟩

theorem duplicateFactorsLoop_spec {l : List (GExpr p V)}
    {r : List (GExpr p V) × List (GExpr p V)} (h : duplicateFactorsLoop l = .ok r)
    (hw : ∀ e ∈ l, WF e) :
    (∀ e ∈ r.1 ++ r.2, WF e) ∧ ∀ σ : V → ZMod p,
      (∀ e ∈ r.1 ++ r.2, e.eval σ = 0) ↔ ∀ e ∈ l, e.eval σ = 0 := by
  induction l generalizing r with
  | nil => rw [duplicateFactorsLoop] at h; cases h; simp
  | cons e t ih =>
    obtain ⟨-, k, a, ht, hr⟩ := duplicateFactorsLoop_cons h
    have he := hw e List.mem_cons_self
    obtain ⟨hwf, hev⟩ := ih ht fun e he => hw e (List.mem_cons_of_mem _ he)
    rcases hr with ⟨product, -, hp, rfl⟩ | ⟨-, rfl⟩
    · have hwp : WF product := wf_productOf hp fun f hf => wf_toFactors he (mem_eraseDups'.1 hf)
      constructor
      · intro x hx
        simp only [List.mem_append, List.mem_cons] at hx hwf
        rcases hx with hx | rfl | hx
        · exact hwf x (.inl hx)
        · exact hwp
        · exact hwf x (.inr hx)
      · intro σ
        have hpe : product.eval σ = 0 ↔ e.eval σ = 0 := by
          rw [eval_productOf hp, List.prod_eq_zero_iff, eval_zero_iff_factor he]
          simp
        rw [List.forall_mem_cons, ← hev σ, ← hpe]
        simp only [List.mem_append, List.mem_cons]
        grind
    · constructor
      · intro x hx
        simp only [List.cons_append, List.mem_cons] at hx
        rcases hx with rfl | hx
        · exact he
        · exact hwf x hx
      · intro σ
        rw [List.forall_mem_cons, ← hev σ, List.cons_append, List.forall_mem_cons]

theorem removeDuplicateFactors_ok {s s' : ConstraintSystem p V}
    (h : removeDuplicateFactors s = .ok s') :
    ∃ r, duplicateFactorsLoop s.algebraic = .ok r ∧ s' = { s with algebraic := r.1 ++ r.2 } := by
  unfold removeDuplicateFactors at h
  cases hl : duplicateFactorsLoop s.algebraic with
  | error x => rw [hl] at h; cases h
  | ok r => rw [hl] at h; cases h; exact ⟨r, rfl, rfl⟩

/-! ### Redundant constraints -/

theorem redundantBecauseOf_ok {fs : List (List (GExpr p V))} {i : ℕ} {factors : List (GExpr p V)}
    {r : List ℕ} (h : redundantBecauseOf fs i factors = .ok r) (j : ℕ) :
    j ∈ r ↔ ∃ gs, fs[j]? = some gs ∧ (∀ f ∈ factors, f ∈ gs) ∧
      (factors.length < gs.length ∨ factors.length = gs.length ∧ i < j) := by
  unfold redundantBecauseOf at h
  simp only at h
  split at h
  · cases h
  · rename_i hn
    cases h
    simp only [List.any_eq_true, List.mem_filter, not_exists, not_and] at hn
    simp only [List.mem_map, List.mem_filter, Prod.exists, exists_eq_right, List.mk_mem_zipIdx_iff_getElem?,
      List.all_eq_true, decide_eq_true_eq, Bool.or_eq_true, gt_iff_lt]
    constructor
    · rintro ⟨gs, ⟨h1, h2⟩, h3⟩
      refine ⟨gs, h1, h2, ?_⟩
      have := hn (gs, j) ⟨List.mk_mem_zipIdx_iff_getElem?.2 h1, by simpa using h2⟩
      simp only [decide_eq_true_eq] at this
      omega
    · rintro ⟨gs, h1, h2, h3⟩
      exact ⟨gs, ⟨h1, h2⟩, by omega⟩

theorem redundantIndices_ok {fs : List (List (GExpr p V))} {l : List (List (GExpr p V) × ℕ)}
    {r : List ℕ} (h : redundantIndices fs l = .ok r) (j : ℕ) :
    j ∈ r ↔ ∃ x ∈ l, ∃ gs, fs[j]? = some gs ∧ (∀ f ∈ x.1, f ∈ gs) ∧
      (x.1.length < gs.length ∨ x.1.length = gs.length ∧ x.2 < j) := by
  induction l generalizing r with
  | nil => rw [redundantIndices] at h; cases h; simp
  | cons x t ih =>
    obtain ⟨factors, i⟩ := x
    rw [redundantIndices] at h
    cases h1 : redundantBecauseOf fs i factors with
    | error x => rw [h1] at h; cases h
    | ok a =>
      rw [h1] at h
      cases h2 : redundantIndices fs t with
      | error x => rw [h2] at h; cases h
      | ok b =>
        rw [h2] at h
        cases h
        rw [List.mem_append, redundantBecauseOf_ok h1, ih h2]
        simp

/-- Every constraint is a multiple of one that is kept. -/
theorem exists_kept {fs : List (List (GExpr p V))} {r : List ℕ}
    (h : redundantIndices fs fs.zipIdx = .ok r) :
    ∀ (n j : ℕ) (gs : List (GExpr p V)), gs.length = n → fs[j]? = some gs →
      ∃ i hs, i ∉ r ∧ fs[i]? = some hs ∧ ∀ f ∈ hs, f ∈ gs := by
  intro n
  induction n using Nat.strong_induction_on with
  | _ n ihn =>
    intro j
    induction j using Nat.strong_induction_on with
    | _ j ihj =>
      intro gs hn hj
      by_cases hr : j ∈ r
      · obtain ⟨⟨hs, i⟩, hm, gs', hj', hsub, hlt⟩ := (redundantIndices_ok h j).1 hr
        rw [hj] at hj'
        cases hj'
        rw [List.mk_mem_zipIdx_iff_getElem?] at hm
        simp only at hsub hlt
        have : ∃ i' hs', i' ∉ r ∧ fs[i']? = some hs' ∧ ∀ f ∈ hs', f ∈ hs := by
          rcases hlt with hlt | ⟨heq, hlt⟩
          · exact ihn _ (by omega) i hs rfl hm
          · exact ihj i hlt hs (by omega) hm
        obtain ⟨i', hs', h1, h2, h3⟩ := this
        exact ⟨i', hs', h1, h2, fun f hf => hsub f (h3 f hf)⟩
      · exact ⟨j, gs, hr, hj, fun f hf => hf⟩

theorem removeRedundant_ok {s s' : ConstraintSystem p V} (h : removeRedundant s = .ok s') :
    ∃ a r, duplicateFactorsLoop s.algebraic = .ok a ∧
      (∀ e ∈ a.1 ++ a.2, toFactors e ≠ []) ∧
      redundantIndices ((a.1 ++ a.2).map toFactors) ((a.1 ++ a.2).map toFactors).zipIdx = .ok r ∧
      s' = { s with
        algebraic := ((a.1 ++ a.2).zipIdx.filter fun x => x.2 ∉ r).map Prod.fst } := by
  unfold removeRedundant at h
  cases hd : removeDuplicateFactors s with
  | error x => rw [hd] at h; cases h
  | ok s1 =>
    obtain ⟨a, ha, rfl⟩ := removeDuplicateFactors_ok hd
    rw [hd] at h
    change (if _ then _ else _) = _ at h
    split at h
    · cases h
    · rename_i hne
      simp only [List.any_eq_true, List.mem_map, not_exists, not_and] at hne
      revert h
      cases hr : redundantIndices ((a.1 ++ a.2).map toFactors)
        ((a.1 ++ a.2).map toFactors).zipIdx with
      | error x => intro h; cases h
      | ok r =>
        intro h
        cases h
        refine ⟨a, r, ha, fun e he hf => ?_, hr, rfl⟩
        exact hne _ ⟨e, he, rfl⟩ (by simp [hf])

theorem mem_keptIndices {α : Type} {l : List α} {r : List ℕ} {x : α} :
    x ∈ (l.zipIdx.filter fun x => x.2 ∉ r).map Prod.fst ↔ ∃ i, l[i]? = some x ∧ i ∉ r := by
  simp only [List.mem_map, List.mem_filter, Prod.exists, exists_and_right, exists_eq_right,
    List.mk_mem_zipIdx_iff_getElem?, decide_eq_true_eq]

theorem removeRedundant_spec {s s' : ConstraintSystem p V} (h : removeRedundant s = .ok s')
    (hw : s.WF) : s'.WF ∧ s'.bus = s.bus ∧ s'.derived = s.derived ∧
      ∀ (bus : Bus p) (σ : V → ZMod p), s'.Satisfied bus σ ↔ s.Satisfied bus σ := by
  obtain ⟨a, r, ha, -, hr, rfl⟩ := removeRedundant_ok h
  obtain ⟨hwf, hev⟩ := duplicateFactorsLoop_spec ha hw.1
  have sub : ∀ e ∈ (((a.1 ++ a.2).zipIdx.filter fun x => x.2 ∉ r).map Prod.fst),
      e ∈ a.1 ++ a.2 := by
    intro e he
    obtain ⟨i, hi, -⟩ := mem_keptIndices.1 he
    exact List.mem_of_getElem? hi
  refine ⟨⟨fun e he => hwf e (sub e he), hw.2⟩, rfl, rfl, fun bus σ => ?_⟩
  constructor
  · rintro ⟨h1, h2⟩
    refine ⟨(hev σ).1 fun e he => ?_, h2⟩
    obtain ⟨j, hj⟩ := List.mem_iff_getElem?.1 he
    obtain ⟨i, hs, hir, his, hsub⟩ := exists_kept hr _ j (toFactors e) rfl
      (by rw [List.getElem?_map, hj]; rfl)
    rw [List.getElem?_map, Option.map_eq_some_iff] at his
    obtain ⟨e', hi', rfl⟩ := his
    have := h1 e' (mem_keptIndices.2 ⟨i, hi', hir⟩)
    rw [eval_zero_iff_factor (hwf e' (List.mem_of_getElem? hi'))] at this
    obtain ⟨f, hf, hf0⟩ := this
    exact (eval_zero_iff_factor (hwf e he) σ).2 ⟨f, hsub f hf, hf0⟩
  · rintro ⟨h1, h2⟩
    exact ⟨fun e he => (hev σ).2 h1 e (sub e he), h2⟩

/-! ### No panics -/

theorem scale_one' (e : GExpr p V) : scale 1 e = e := by
  induction e using ind with
  | h q l c ih =>
    rw [scale, if_neg one_ne_zero, scaleQ_eq]
    have hq : (q.map fun ab => (scale 1 ab.1, ab.2)) = q := by
      conv_rhs => rw [← List.map_id q]
      refine List.map_congr_left fun ab hab => ?_
      rw [(ih ab hab).1]
      rfl
    rw [hq]
    simp

/-- The factors of a well-formed expression: none for a nonzero constant, one for zero, otherwise all
are unknown and have no further factors. -/
theorem toFactors_cases {e : GExpr p V} (hw : WF e) :
    (e = zero ∧ toFactors e = [zero]) ∨ (∃ c, c ≠ 0 ∧ e = const c ∧ toFactors e = []) ∨
      (e.tryToKnown = none ∧ toFactors e ≠ [] ∧
        ∀ f ∈ toFactors e, f.tryToKnown = none ∧ toFactors f = [f]) := by
  induction e using ind with
  | h q l c ih =>
    obtain ⟨h1, h2, h3⟩ := wf_inv hw
    have norm : ∀ (q : List (GExpr p V × GExpr p V)) (l : List (V × ZMod p)) (d : ZMod p),
        d ≠ 0 → (mk q l c).tryToKnown = none →
        (c ≠ 0 → d = c) → (c = 0 → q.length = 1 → l = [] → False) →
        (c = 0 → q = [] → l.length ≠ 1) →
        (c = 0 → ∀ x t, l = x :: t → d = x.2) → (c = 0 → l = [] → d = 1) →
        (scale d⁻¹ (mk q l c)).tryToKnown = none ∧
          toFactors (scale d⁻¹ (mk q l c)) = [scale d⁻¹ (mk q l c)] := by
      intro q l d hd hk hc0 hq1 hl1 hl hn
      have hdi : d⁻¹ ≠ 0 := inv_ne_zero hd
      refine ⟨(tryToKnown_scale hdi _).2 hk, ?_⟩
      rw [scale, if_neg hdi, scaleQ_eq]
      by_cases hc : c = 0
      · subst hc
        rcases l with _ | ⟨⟨v, k⟩, l⟩
        · have := hn rfl rfl
          subst this
          rcases q with _ | ⟨ab, _ | ⟨x, q⟩⟩
          · simp [tryToKnown] at hk
          · exact absurd (hq1 rfl rfl rfl) id
          · simp only [List.map_cons, List.map_nil, zero_mul]
            rw [toFactors]
            · simp only [ne_eq, not_true, if_false, inv_one]
              rw [scale_one']
            all_goals simp
        · have hdk : d = k := hl rfl _ _ rfl
          subst hdk
          have hl' : q = [] → l ≠ [] := by
            intro hq hl'
            subst hl'
            exact hl1 rfl hq rfl
          rcases q with _ | ⟨ab, q⟩
          · rcases l with _ | ⟨y, l⟩
            · exact absurd rfl (hl' rfl)
            · simp only [List.map_cons, List.map_nil, zero_mul]
              rw [toFactors]
              · simp only [ne_eq, not_true, if_false]
                rw [mul_inv_cancel₀ hd, inv_one, scale_one']
              all_goals simp
          · simp only [List.map_cons, zero_mul]
            rcases q with _ | ⟨ab', q⟩ <;> simp only [List.map_cons, List.map_nil]
            all_goals
              rw [toFactors]
              · simp only [ne_eq, not_true, if_false]
                rw [mul_inv_cancel₀ hd, inv_one, scale_one']
              all_goals simp
      · have hdc := hc0 hc
        subst hdc
        rw [mul_inv_cancel₀ hd]
        rcases q with _ | ⟨ab, _ | ⟨x, q⟩⟩
        · rcases l with _ | ⟨y, _ | ⟨z, l⟩⟩
          · simp [tryToKnown] at hk
          · simp only [List.map_cons, List.map_nil]
            rw [toFactors, if_neg one_ne_zero, inv_one, scale_one']
          · simp only [List.map_cons, List.map_nil]
            rw [toFactors]
            · simp only [ne_eq, one_ne_zero, not_false_eq_true, if_true, inv_one]
              rw [scale_one']
            all_goals simp
        · rcases l with _ | ⟨y, l⟩
          · simp only [List.map_cons, List.map_nil]
            rw [toFactors, if_neg one_ne_zero, inv_one, scale_one']
          · simp only [List.map_cons, List.map_nil]
            rw [toFactors]
            · simp only [ne_eq, one_ne_zero, not_false_eq_true, if_true, inv_one]
              rw [scale_one']
            all_goals simp
        · rcases l with _ | ⟨y, l⟩ <;> simp only [List.map_cons, List.map_nil]
          all_goals
            rw [toFactors]
            · simp only [ne_eq, one_ne_zero, not_false_eq_true, if_true, inv_one]
              rw [scale_one']
            all_goals simp
    have gen : ∀ (l : List (V × ZMod p)), (∀ e ∈ l, e.2 ≠ 0) →
        ((if c ≠ 0 then c else match l with
          | (_, d) :: _ => d
          | [] => 1) : ZMod p) ≠ 0 := by
      intro l hl
      split
      · assumption
      · split
        · exact hl _ List.mem_cons_self
        · exact one_ne_zero
    have general : ∀ (q : List (GExpr p V × GExpr p V)) (l : List (V × ZMod p)),
        (∀ e ∈ l, e.2 ≠ 0) → (mk q l c).tryToKnown = none →
        (c = 0 → q.length = 1 → l = [] → False) → (c = 0 → q = [] → l.length ≠ 1) →
        toFactors (mk q l c) = [scale (if c ≠ 0 then c else match l with
          | (_, d) :: _ => d
          | [] => 1)⁻¹ (mk q l c)] →
        (mk q l c).tryToKnown = none ∧ toFactors (mk q l c) ≠ [] ∧
        ∀ f ∈ toFactors (mk q l c), f.tryToKnown = none ∧ toFactors f = [f] := by
      intro q l hl hk hq1 hl1 hf
      refine ⟨hk, by rw [hf]; simp, fun f hmem => ?_⟩
      rw [hf, List.mem_singleton] at hmem
      subst hmem
      refine norm q l _ (gen l hl) hk (fun h => by rw [if_pos h]) hq1 hl1 ?_ ?_
      · rintro h x t rfl
        rw [if_neg (by simpa using h)]
      · rintro h rfl
        rw [if_neg (by simpa using h)]
    rcases q with _ | ⟨⟨a, b⟩, _ | ⟨x, q⟩⟩
    · rcases l with _ | ⟨⟨v, d⟩, _ | ⟨y, l⟩⟩
      · by_cases hc : c = 0
        · subst hc
          left
          exact ⟨rfl, by rw [toFactors, if_pos rfl]⟩
        · right; left
          exact ⟨c, hc, rfl, by rw [toFactors, if_neg hc]⟩
      · right; right
        by_cases hc : c = 0
        · subst hc
          have hf : toFactors (mk [] [(v, d)] (0 : ZMod p)) = [var v] := by
            rw [toFactors, if_pos rfl]
          refine ⟨by simp [tryToKnown], by rw [hf]; simp, fun f hm => ?_⟩
          rw [hf, List.mem_singleton] at hm
          subst hm
          exact ⟨by simp [tryToKnown, var], by
            show toFactors (mk [] [(v, 1)] 0) = _
            rw [toFactors, if_pos rfl]⟩
        · refine general [] [(v, d)] h3 (by simp [tryToKnown]) (by simp) (by simp [hc]) ?_
          rw [toFactors, if_neg hc, if_pos hc]
      · right; right
        refine general [] _ h3 (by simp [tryToKnown]) (by simp) (by simp) ?_
        rw [toFactors]
        all_goals simp
    · rcases l with _ | ⟨⟨v, d⟩, l⟩
      · right; right
        by_cases hc : c = 0
        · subst hc
          obtain ⟨w1, w2, n1, n2⟩ := h1 (a, b) List.mem_cons_self
          have i1 := (ih (a, b) List.mem_cons_self).1 w1
          have i2 := (ih (a, b) List.mem_cons_self).2 w2
          simp only at n1 n2 i1 i2
          rcases i1 with ⟨rfl, -⟩ | ⟨k, -, rfl, -⟩ | ⟨-, e1, f1⟩
          · simp [zero, tryToKnown] at n1
          · simp [const, tryToKnown] at n1
          rcases i2 with ⟨rfl, -⟩ | ⟨k, -, rfl, -⟩ | ⟨-, e2, f2⟩
          · simp [zero, tryToKnown] at n2
          · simp [const, tryToKnown] at n2
          have hf : toFactors (mk [(a, b)] [] (0 : ZMod p)) = toFactors a ++ toFactors b := by
            rw [toFactors, if_pos rfl]
          refine ⟨by simp [tryToKnown], by rw [hf]; simp [e1], fun f hm => ?_⟩
          rw [hf, List.mem_append] at hm
          exact hm.elim (f1 f) (f2 f)
        · refine general [(a, b)] [] h3 (by simp [tryToKnown]) (by simp [hc]) (by simp) ?_
          rw [toFactors, if_neg hc, if_pos hc]
      · right; right
        refine general [(a, b)] _ h3 (by simp [tryToKnown]) (by simp) (by simp) ?_
        rw [toFactors]
        all_goals simp
    · right; right
      refine general ((a, b) :: x :: q) l h3 (by simp [tryToKnown]) (by simp) (by simp) ?_
      rcases l with _ | ⟨y, l⟩
      all_goals
        rw [toFactors]
        all_goals simp

theorem toFactors_foldl_mul {l : List (GExpr p V)} {f : GExpr p V}
    (hf : f.tryToKnown = none) (hl : ∀ g ∈ l, g.tryToKnown = none ∧ toFactors g = [g]) :
    (l.foldl mul f).tryToKnown = none ∧ toFactors (l.foldl mul f) = toFactors f ++ l := by
  induction l generalizing f with
  | nil => exact ⟨hf, by simp⟩
  | cons g t ih =>
    obtain ⟨hg, hgf⟩ := hl g List.mem_cons_self
    have hm : mul f g = mk [(f, g)] [] 0 := by simp [mul, hf, hg]
    have := ih (f := mul f g) (by rw [hm]; simp [tryToKnown]) fun g hg =>
      hl g (List.mem_cons_of_mem _ hg)
    rw [List.foldl_cons]
    refine ⟨this.1, ?_⟩
    rw [this.2, hm, toFactors, if_pos rfl, hgf, List.append_assoc]
    rfl

theorem eraseDups_length_lt {α : Type} [DecidableEq α] {l : List α}
    (h : ¬ l.eraseDups.length < l.length) : l.Nodup := by
  induction l with
  | nil => exact List.nodup_nil
  | cons a t ih =>
    rw [List.eraseDups_cons] at h
    simp only [List.length_cons] at h
    have h1 : (t.filter fun b => !b == a).length ≤ t.length := List.length_filter_le _ _
    have h2 : ∀ l : List α, l.eraseDups.length ≤ l.length := by
      intro l
      have : ∀ n (l : List α), l.length ≤ n → l.eraseDups.length ≤ l.length := by
        intro n
        induction n with
        | zero => intro l hl; cases l <;> simp_all
        | succ n ih =>
          intro l hl
          cases l with
          | nil => simp
          | cons a t =>
            rw [List.eraseDups_cons]
            simp only [List.length_cons] at hl ⊢
            have h1 : (t.filter fun b => !b == a).length ≤ t.length := List.length_filter_le _ _
            have := ih _ (by omega : (t.filter fun b => !b == a).length ≤ n)
            omega
      exact this _ l le_rfl
    have h3 := h2 (t.filter fun b => !b == a)
    have h4 : (t.filter fun b => !b == a).length = t.length := by omega
    rw [List.length_filter_eq_length_iff] at h4
    have h5 : (t.filter fun b => !b == a) = t := List.filter_eq_self.2 h4
    rw [h5] at h
    refine List.nodup_cons.2 ⟨fun hm => ?_, ih (by omega)⟩
    have := h4 a hm
    simp at this

theorem duplicateFactorsLoop_total {l : List (GExpr p V)} (hw : ∀ e ∈ l, WF e)
    (hn : ∀ e ∈ l, ∀ c, e = const c → c = 0) :
    ∃ r, duplicateFactorsLoop l = .ok r ∧ ∀ e ∈ r.1 ++ r.2, toFactors e ≠ [] ∧
      (toFactors e).Nodup := by
  induction l with
  | nil => exact ⟨_, by rw [duplicateFactorsLoop], by simp⟩
  | cons e t ih =>
    obtain ⟨⟨k, a⟩, hr, hall⟩ := ih (fun e he => hw e (List.mem_cons_of_mem _ he))
      fun e he => hn e (List.mem_cons_of_mem _ he)
    have hne : toFactors e ≠ [] := by
      rcases toFactors_cases (hw e List.mem_cons_self) with ⟨-, h⟩ | ⟨c, hc, h, -⟩ | ⟨-, h, -⟩
      · simp [h]
      · exact absurd (hn e List.mem_cons_self c h) hc
      · exact h
    rw [duplicateFactorsLoop]
    simp only [hne, if_false]
    split
    · rename_i hlt
      cases hu : (toFactors e).eraseDups with
      | nil =>
        obtain ⟨x, hx⟩ := List.exists_mem_of_ne_nil _ hne
        have := mem_eraseDups'.2 hx
        rw [hu] at this
        cases this
      | cons f u =>
        have hfacts : ∀ g ∈ f :: u, g.tryToKnown = none ∧ toFactors g = [g] := by
          rcases toFactors_cases (hw e List.mem_cons_self) with ⟨-, h⟩ | ⟨c, hc, h, -⟩ | ⟨-, -, h⟩
          · rw [h] at hlt; exact absurd hlt (by simp [List.eraseDups_cons])
          · exact absurd (hn e List.mem_cons_self c h) hc
          · intro g hg
            rw [← hu] at hg
            exact h g (mem_eraseDups'.1 hg)
        have hp := toFactors_foldl_mul (l := u) (hfacts f List.mem_cons_self).1
          fun g hg => hfacts g (List.mem_cons_of_mem _ hg)
        rw [(hfacts f List.mem_cons_self).2] at hp
        have hnd : (f :: u).Nodup := hu ▸ nodup_eraseDups (toFactors e)
        refine ⟨(k, u.foldl mul f :: a), by rw [hr]; rfl, fun x hx => ?_⟩
        simp only [List.mem_append, List.mem_cons] at hx
        rcases hx with hx | rfl | hx
        · exact hall x (List.mem_append_left _ hx)
        · rw [hp.2]; exact ⟨by simp, hnd⟩
        · exact hall x (List.mem_append_right _ hx)
    · rename_i hlt
      refine ⟨(e :: k, a), by rw [hr]; rfl, fun x hx => ?_⟩
      simp only [List.cons_append, List.mem_cons] at hx
      rcases hx with rfl | hx
      · exact ⟨hne, eraseDups_length_lt hlt⟩
      · exact hall x hx

theorem redundantIndices_total (fs : List (List (GExpr p V)))
    (l : List (List (GExpr p V) × ℕ)) (hl : ∀ x ∈ l, x.1.Nodup) :
    ∃ r, redundantIndices fs l = .ok r := by
  induction l with
  | nil => exact ⟨_, by rw [redundantIndices]⟩
  | cons x t ih =>
    obtain ⟨factors, i⟩ := x
    obtain ⟨r, hr⟩ := ih fun x hx => hl x (List.mem_cons_of_mem _ hx)
    rw [redundantIndices]
    have hb : ∃ r, redundantBecauseOf fs i factors = .ok r := by
      unfold redundantBecauseOf
      simp only
      split
      · rename_i h
        rw [List.any_eq_true] at h
        obtain ⟨⟨gs, j⟩, hm, hlt⟩ := h
        simp only [List.mem_filter, List.all_eq_true, decide_eq_true_eq] at hm hlt
        have := (List.subperm_of_subset (hl _ List.mem_cons_self) (fun f hf => hm.2 f hf)).length_le
        simp only at this
        omega
      · exact ⟨_, rfl⟩
    obtain ⟨b, hb⟩ := hb
    rw [hb, hr]
    exact ⟨_, rfl⟩

theorem removeRedundant_total {s : ConstraintSystem p V} (hw : s.WF)
    (hn : ∀ e ∈ s.algebraic, ∀ c, e = const c → c = 0) : ∃ s', removeRedundant s = .ok s' := by
  obtain ⟨r, hr, hall⟩ := duplicateFactorsLoop_total hw.1 hn
  obtain ⟨i, hi⟩ := redundantIndices_total ((r.1 ++ r.2).map toFactors) ((r.1 ++ r.2).map toFactors).zipIdx (by
      rintro ⟨f, i⟩ hx
      have := List.fst_mem_of_mem_zipIdx hx
      obtain ⟨e, he, rfl⟩ := List.mem_map.1 this
      exact (hall e he).2)
  unfold removeRedundant removeDuplicateFactors
  rw [hr]
  simp only [bind, Except.bind, pure, Except.pure]
  split
  · rename_i h
    rw [List.any_eq_true] at h
    obtain ⟨f, hf, hf0⟩ := h
    obtain ⟨e, he, rfl⟩ := List.mem_map.1 hf
    exact absurd (List.isEmpty_iff.1 hf0) (hall e he).1
  · simp only [hi]
    exact ⟨_, rfl⟩

end Verif
