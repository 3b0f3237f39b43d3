import Verif.Proofs.GroupedExpressionSubst
import Verif.Spec.Solve
import Mathlib.Tactic.FieldSimp

/-! Helper lemmas about `solve` -/

namespace Verif.GExpr

set_option linter.unusedSectionVars false

variable {p : ℕ} [Fact p.Prime] {V : Type} [LinearOrder V]

theorem vars_sub_subset (a b : GExpr p V) {x : V} (h : x ∈ vars (a - b)) :
    x ∈ vars a ∨ x ∈ vars b := by
  rcases vars_add_subset a (neg b) h with h | h
  · exact Or.inl h
  · rw [vars_neg] at h; exact Or.inr h

theorem mem_vars_of_lookup {e : GExpr p V} {x : V} {k : ZMod p} (h : coefficientOf e x = some k) :
    x ∈ vars e := by
  rcases e with ⟨q, l, c⟩
  rw [mem_vars_mk]
  exact Or.inr ⟨k, lookup_eq_some_mem h⟩

theorem coefficient_ne_zero {e : GExpr p V} (hw : WF e) {x : V} {k : ZMod p}
    (h : coefficientOf e x = some k) : k ≠ 0 := by
  rcases e with ⟨q, l, c⟩
  exact (wf_inv hw).2.2 _ (lookup_eq_some_mem h)

/-- Outcome of `try_solve_for` on well-formed expressions. -/
theorem trySolveFor_spec {e : GExpr p V} (hw : WF e) (x : V) :
    ∃ o, trySolveFor e x = .ok o ∧ ∀ s, o = some s →
      WF s ∧ (∀ σ : V → ZMod p, eval σ e = 0 ↔ σ x = eval σ s) ∧ x ∉ vars s ∧
      (∀ v ∈ vars s, v ∈ vars e) ∧ x ∈ vars e := by
  unfold trySolveFor
  cases h : coefficientOf e x with
  | none => exact ⟨none, rfl, by simp⟩
  | some k =>
    have hk := coefficient_ne_zero hw h
    simp only [if_neg hk]
    split
    · exact ⟨none, rfl, by simp⟩
    · rename_i hx
      refine ⟨_, rfl, ?_⟩
      rintro s hs
      simp only [Option.some.injEq] at hs
      subst hs
      refine ⟨wf_scale _ (wf_sub hw (wf_scale _ (wf_var x))), fun σ => ?_,
        fun hv => hx (vars_scale_subset _ _ hv), fun v hv => ?_, mem_vars_of_lookup h⟩
      · rw [eval_scale]
        have : eval σ (e - scale k (var x)) = eval σ e - k * σ x := by
          rw [← eval_var σ x, ← eval_scale]; exact eval_sub σ _ _
        rw [this]
        have h2 : -k⁻¹ * (eval σ e - k * σ x) = σ x - k⁻¹ * eval σ e := by
          field_simp; ring
        rw [h2]
        constructor
        · intro h0; rw [h0]; ring
        · intro h0
          have : k⁻¹ * eval σ e = 0 := by linear_combination h0
          rcases mul_eq_zero.1 this with h | h
          · exact absurd h (inv_ne_zero hk)
          · exact h
      · rcases vars_sub_subset _ _ (vars_scale_subset _ _ hv) with h' | h'
        · exact h'
        · have := vars_scale_subset _ _ h'
          rw [vars_var, List.mem_singleton] at this
          rw [this]; exact mem_vars_of_lookup h

theorem trySolveForExpr_spec {e expr : GExpr p V} (ha : expr.isAffine = true) (hw : WF e)
    (hwe : WF expr) :
    ∃ o, trySolveForExpr e expr = .ok o ∧ ∀ s, o = some s →
      WF s ∧ (∀ σ : V → ZMod p, eval σ e = 0 ↔ eval σ expr = eval σ s) ∧
      (∀ v ∈ vars expr, v ∉ vars s) ∧ e.isAffine = true := by
  unfold trySolveForExpr
  unfold isAffine at ha
  rw [if_neg (by simpa using ha)]
  split
  · exact ⟨none, rfl, by simp⟩
  · rename_i hq
    simp only
    split
    · rename_i hall
      refine ⟨_, rfl, ?_⟩
      rintro s hs
      simp only [Option.some.injEq] at hs
      have hf : normalizationFactor e expr ≠ 0 := by
        unfold normalizationFactor
        cases hfs : (expr.vars.findSome? fun v =>
            match coefficientOf e v with
            | none => none
            | some k => if k ≠ 0 then (coefficientOf expr v).map fun d => d * k⁻¹ else none) with
        | none => simp
        | some f =>
          simp only [Option.getD_some]
          obtain ⟨v, hv, hvf⟩ := List.exists_of_findSome?_eq_some hfs
          split at hvf
          · cases hvf
          · rename_i k hk
            split at hvf
            · rename_i hk0
              rw [Option.map_eq_some_iff] at hvf
              obtain ⟨d, hd, rfl⟩ := hvf
              exact mul_ne_zero (coefficient_ne_zero hwe hd) (inv_ne_zero hk0)
            · cases hvf
      subst hs
      refine ⟨wf_sub hwe (wf_scale _ hw), fun σ => ?_, ?_, by simpa [isAffine] using hq⟩
      · have : eval σ (expr - scale (normalizationFactor e expr) e) =
            eval σ expr - normalizationFactor e expr * eval σ e := by
          rw [← eval_scale]; exact eval_sub σ _ _
        rw [this]
        constructor
        · intro h; rw [h]; ring
        · intro h
          have : normalizationFactor e expr * eval σ e = 0 := by linear_combination h
          exact (mul_eq_zero.1 this).resolve_left hf
      · intro v hv
        have := List.all_eq_true.1 hall v hv
        simpa using this
    · exact ⟨none, rfl, by simp⟩

theorem lookup_addEntry {x : V} {k c : ZMod p} {l : List (V × ZMod p)}
    (hs : l.Pairwise fun e f => e.1 < f.1) (h : Linear.lookup x l = some k) :
    Linear.lookup x (Linear.addEntry x c l) = some (k + c) := by
  induction l with
  | nil => cases h
  | cons a t ih =>
    obtain ⟨w, d⟩ := a
    rw [List.pairwise_cons] at hs
    unfold Linear.lookup at h
    unfold Linear.addEntry
    split at h
    · rename_i hx
      subst hx
      simp only [Option.some.injEq] at h
      subst h
      simp [Linear.lookup]
    · rename_i hx
      rw [if_neg hx]
      have hgt := hs.1 _ (lookup_eq_some_mem h)
      simp only at hgt
      rw [if_neg (not_lt.2 hgt.le), Linear.lookup, if_neg hx]
      exact ih hs.2 h

theorem vars_sub_var {q : List (GExpr p V × GExpr p V)} {l : List (V × ZMod p)} {c k : ZMod p}
    {x : V} (hs : l.Pairwise fun e f => e.1 < f.1) (hk : Linear.lookup x l = some k) (hk0 : k ≠ 0)
    (h : x ∈ vars (mk q l c - scale k (var x))) : ∃ ab ∈ q, x ∈ vars ab.1 ∨ x ∈ vars ab.2 := by
  change x ∈ vars (add (mk q l c) (neg (scale k (var x)))) at h
  have hn : neg (scale k (var x)) = mk [] [(x, -k)] 0 := by
    simp [var, scale, hk0, neg, negQ, scaleQ]
  rw [hn] at h
  simp only [add, quadratic, linear, constant, List.foldl_cons, List.foldl_nil] at h
  rw [mem_vars_mk] at h
  rcases h with ⟨ab, hab, h⟩ | ⟨d, hd⟩
  · refine ⟨ab, ?_, h⟩
    simpa using combineRemovingZeros_subset q [] hab
  · exfalso
    rw [List.mem_filter] at hd
    have := lookup_of_mem (pairwise_addEntry hs) hd.1
    rw [lookup_addEntry hs hk] at this
    simp only [add_neg_cancel, Option.some.injEq] at this
    simp [← this] at hd

/-! ### The invariant of a solution -/

/-- What is true of a result `r` of solving `e` under `rc`. -/
structure Good (rc : V → RangeConstraint p) (e : GExpr p V) (r : ProcessResult p V) : Prop where
  sound : ∀ σ, InRange rc σ e → eval σ e = 0 → ∀ eff ∈ r.effects, eff.Holds σ
  single : ∀ eff ∈ r.effects, ∀ v s, effectToRangeConstraint eff = some (v, s) →
    ∀ a, (∀ x, s.Allows x → x = a) → ∀ σ, InRange rc σ e → σ v = a → eval σ e = 0
  inVars : ∀ eff ∈ r.effects, ∀ v s, effectToRangeConstraint eff = some (v, s) → v ∈ vars e
  nodup : ((r.effects.filterMap effectToRangeConstraint).map (·.1)).Nodup
  complete : r.complete = true → ∀ σ, InRange rc σ e → (∀ eff ∈ r.effects, eff.Holds σ) →
    eval σ e = 0

/-- What is true of the outcome of solving. -/
def GoodOutcome (rc : V → RangeConstraint p) (e : GExpr p V)
    (o : Except SolveError (ProcessResult p V)) : Prop :=
  match o with
  | .error _ => ∀ σ, InRange rc σ e → eval σ e ≠ 0
  | .ok r => Good rc e r

variable {rc : V → RangeConstraint p}

theorem inRange_vars {σ : V → ZMod p} {e : GExpr p V} (h : InRange rc σ e) :
    ∀ v ∈ vars e, (rc v).Allows (σ v) := fun v hv =>
  (RangeConstraint.allowsValue_iff _ _).1 (h v (mem_vars_iff_occurs.1 hv))

theorem inRange_of_vars {σ : V → ZMod p} {e : GExpr p V}
    (h : ∀ v ∈ vars e, (rc v).Allows (σ v)) : InRange rc σ e := fun v hv =>
  (RangeConstraint.allowsValue_iff _ _).2 (h v (mem_vars_iff_occurs.2 hv))

theorem inRange_mono {σ : V → ZMod p} {e e' : GExpr p V} (h : InRange rc σ e)
    (hs : ∀ v ∈ vars e', v ∈ vars e) : InRange rc σ e' :=
  inRange_of_vars fun v hv => inRange_vars h v (hs v hv)

theorem unsatisfiable_sound {e : GExpr p V} (h : unsatisfiable rc e = true) (σ : V → ZMod p)
    (hr : InRange rc σ e) : eval σ e ≠ 0 := by
  intro h0
  have := rangeConstraint_allows (inRange_vars hr)
  rw [h0, ← RangeConstraint.allowsValue_iff] at this
  simp [unsatisfiable, this] at h

theorem good_empty {e : GExpr p V} : Good rc e ProcessResult.empty where
  sound := by simp [ProcessResult.empty]
  single := by simp [ProcessResult.empty]
  inVars := by simp [ProcessResult.empty]
  nodup := by simp [ProcessResult.empty]
  complete := by simp [ProcessResult.empty]

theorem transferLoop_spec {e : GExpr p V} (hw : WF e) (l : List (V × ZMod p))
    (hl : l.Pairwise fun e f => e.1 < f.1) :
    ∃ effects, transferLoop rc e l = .ok effects ∧
      (∀ eff ∈ effects, ∃ v s, eff = .rangeConstraint v (rangeConstraint rc s) ∧
        v ∈ l.map (·.1) ∧ trySolveFor e v = .ok (some s)) ∧
      ((effects.filterMap effectToRangeConstraint).map (·.1)).Nodup := by
  induction l with
  | nil => exact ⟨[], rfl, by simp, by simp⟩
  | cons a t ih =>
    obtain ⟨v, k⟩ := a
    rw [List.pairwise_cons] at hl
    obtain ⟨effects, h1, h2, h3⟩ := ih hl.2
    obtain ⟨o, ho, hs⟩ := trySolveFor_spec hw v
    unfold transferLoop
    rw [ho, h1]
    have weaken : ∀ eff ∈ effects, ∃ v' s, eff = .rangeConstraint v' (rangeConstraint rc s) ∧
        v' ∈ ((v, k) :: t).map (·.1) ∧ trySolveFor e v' = .ok (some s) := by
      intro eff he
      obtain ⟨v', s, h, h', h''⟩ := h2 eff he
      exact ⟨v', s, h, by rw [List.map_cons]; exact List.mem_cons_of_mem _ h', h''⟩
    cases o with
    | none => exact ⟨effects, rfl, weaken, h3⟩
    | some s =>
      simp only
      split
      · exact ⟨effects, rfl, weaken, h3⟩
      · refine ⟨_, rfl, ?_, ?_⟩
        · intro eff he
          rcases List.mem_cons.1 he with rfl | he
          · exact ⟨v, s, rfl, by simp, ho⟩
          · exact weaken eff he
        · simp only [List.filterMap_cons, effectToRangeConstraint, List.map_cons, List.nodup_cons]
          refine ⟨?_, h3⟩
          intro hm
          obtain ⟨⟨v', r'⟩, hm', hv'⟩ := List.mem_map.1 hm
          obtain ⟨eff, heff, heq⟩ := List.mem_filterMap.1 hm'
          obtain ⟨v'', s', rfl, hv'', -⟩ := h2 eff heff
          simp only [effectToRangeConstraint, Option.some.injEq, Prod.mk.injEq] at heq
          simp only at hv'
          rw [heq.1, hv'] at hv''
          obtain ⟨f, hf, hfv⟩ := List.mem_map.1 hv''
          have := hl.1 f hf
          rw [hfv] at this
          exact lt_irrefl _ this

theorem solveAffine_spec {l : List (V × ZMod p)} {c : ZMod p} (hw : WF (mk [] l c)) :
    ∃ o, solveAffine rc (mk [] l c) = .ok o ∧ GoodOutcome rc (mk [] l c) o := by
  obtain ⟨-, w2, w3⟩ := wf_inv hw
  unfold solveAffine
  split
  · rename_i v k hl
    simp only [linear] at hl
    subst hl
    have hk : k ≠ 0 := w3 (v, k) (by simp)
    rw [if_neg hk]
    refine ⟨_, rfl, ?_⟩
    have heq : ∀ σ : V → ZMod p, eval σ (mk [] [(v, k)] c) = 0 ↔ σ v = c * (-k)⁻¹ := by
      intro σ
      rw [eval_mk]
      simp only [List.map_nil, List.sum_nil, List.map_cons, List.sum_cons, add_zero, zero_add]
      constructor
      · intro h
        have hk' : -k ≠ 0 := neg_ne_zero.2 hk
        field_simp
        linear_combination h
      · intro h; rw [h]
        field_simp
        ring
    simp only [constant]
    unfold assignmentIfSatisfies
    split
    · rename_i hd
      simp only [Except.map, GoodOutcome]
      intro σ hr h0
      have h1 := (heq σ).1 h0
      have h2 := inRange_vars hr v (by simp [mem_vars_mk])
      refine RangeConstraint.isDisjoint_sound hd (σ v) ⟨h2, ?_⟩
      rw [RangeConstraint.fromValue_allows]; exact h1
    · simp only [Except.map, GoodOutcome]
      constructor
      · intro σ _ h0 eff he
        simp only [List.mem_singleton] at he
        subst he
        exact (heq σ).1 h0
      · intro eff he v' s hs a ha σ _ hv
        simp only [List.mem_singleton] at he
        subst he
        simp only [effectToRangeConstraint, Option.some.injEq, Prod.mk.injEq] at hs
        obtain ⟨rfl, rfl⟩ := hs
        rw [heq, hv]
        exact (ha _ ((RangeConstraint.fromValue_allows _ _).2 rfl)).symm
      · intro eff he v' s hs
        simp only [List.mem_singleton] at he
        subst he
        simp only [effectToRangeConstraint, Option.some.injEq, Prod.mk.injEq] at hs
        obtain ⟨rfl, rfl⟩ := hs
        simp [mem_vars_mk]
      · simp [effectToRangeConstraint]
      · intro _ σ _ h
        rw [heq]
        exact h (.assignment v _) (by simp)
  · unfold transferConstraints
    rw [if_neg (by simp [isQuadratic, quadratic])]
    simp only [linear]
    obtain ⟨effects, h1, h2, h3⟩ := transferLoop_spec (rc := rc) hw l w2
    rw [h1]
    refine ⟨_, rfl, ?_⟩
    simp only [GoodOutcome]
    have key : ∀ eff ∈ effects, ∃ v s, eff = .rangeConstraint v (rangeConstraint rc s) ∧
        v ∈ vars (mk [] l c) ∧ (∀ v ∈ vars s, v ∈ vars (mk [] l c)) ∧
        ∀ σ : V → ZMod p, eval σ (mk [] l c) = 0 ↔ σ v = eval σ s := by
      intro eff he
      obtain ⟨v, s, rfl, -, hs⟩ := h2 eff he
      obtain ⟨o, ho, hspec⟩ := trySolveFor_spec hw v
      rw [hs] at ho
      cases ho
      obtain ⟨_, b, _, d, e⟩ := hspec s rfl
      exact ⟨v, s, rfl, e, d, b⟩
    constructor
    · intro σ hr h0 eff he
      obtain ⟨v, s, rfl, hv, hs, heq⟩ := key eff he
      simp only [Effect.Holds]
      rw [RangeConstraint.allowsValue_iff, (heq σ).1 h0]
      exact rangeConstraint_allows (inRange_vars (inRange_mono hr hs))
    · intro eff he v' s' hs' a ha σ hr hv'
      obtain ⟨v, s, rfl, hv, hs, heq⟩ := key eff he
      simp only [effectToRangeConstraint, Option.some.injEq, Prod.mk.injEq] at hs'
      obtain ⟨rfl, rfl⟩ := hs'
      rw [heq, hv']
      exact (ha _ (rangeConstraint_allows (inRange_vars (inRange_mono hr hs)))).symm
    · intro eff he v' s' hs'
      obtain ⟨v, s, rfl, hv, hs, heq⟩ := key eff he
      simp only [effectToRangeConstraint, Option.some.injEq, Prod.mk.injEq] at hs'
      obtain ⟨rfl, rfl⟩ := hs'
      exact hv
    · exact h3
    · simp

/-! ### Products -/

theorem groupInsert_new {v : V} {r : RangeConstraint p} {m : List (V × RangeConstraint p)}
    (h : v ∉ m.map (·.1)) : groupInsert v r m = m ++ [(v, r)] := by
  induction m with
  | nil => rfl
  | cons a t ih =>
    obtain ⟨w, s⟩ := a
    simp only [List.map_cons, List.mem_cons, not_or] at h
    rw [groupInsert, if_neg h.1, ih h.2]
    rfl

theorem foldl_groupInsert {l m : List (V × RangeConstraint p)}
    (h : ((m ++ l).map (·.1)).Nodup) :
    l.foldl (fun m e => groupInsert e.1 e.2 m) m = m ++ l := by
  induction l generalizing m with
  | nil => simp
  | cons a t ih =>
    have h' : (((m ++ [a]) ++ t).map (·.1)).Nodup := by simpa using h
    rw [List.foldl_cons, groupInsert_new, ih h']
    · simp
    · intro hm
      rw [List.map_append, List.map_cons] at h
      exact (List.nodup_append.1 h).2.2 _ hm _ List.mem_cons_self rfl

theorem groupConstraints_eq {effects : List (Effect p V)}
    (h : ((effects.filterMap effectToRangeConstraint).map (·.1)).Nodup) :
    groupConstraints effects = effects.filterMap effectToRangeConstraint := by
  unfold groupConstraints
  rw [foldl_groupInsert (by simpa using h)]
  simp

theorem getConstraint_mem {v : V} {r : RangeConstraint p} {m : List (V × RangeConstraint p)}
    (h : getConstraint v m = some r) : (v, r) ∈ m := by
  induction m with
  | nil => cases h
  | cons a t ih =>
    obtain ⟨w, s⟩ := a
    rw [getConstraint] at h
    split at h
    · rename_i hv
      simp only [Option.some.injEq] at h
      subst h; subst hv; exact List.mem_cons_self
    · exact List.mem_cons_of_mem _ (ih h)

theorem tryToSingleValue_bounds {r : RangeConstraint p} {v : ZMod p}
    (h : r.tryToSingleValue = some v) : r.min = v ∧ r.max = v := by
  unfold RangeConstraint.tryToSingleValue at h
  split at h
  · rename_i hh
    simp only [Option.some.injEq] at h
    exact ⟨h, hh.1 ▸ h⟩
  · cases h

theorem disjunction_single {r1 r2 : RangeConstraint p} {v1 v2 : ZMod p}
    (h1 : r1.tryToSingleValue = some v1) (h2 : r2.tryToSingleValue = some v2)
    (hw : (r1.disjunction r2).width ≤ 2) {x : ZMod p} (hx : (r1.disjunction r2).Allows x) :
    x = v1 ∨ x = v2 := by
  obtain ⟨a1, a2⟩ := tryToSingleValue_bounds h1
  obtain ⟨b1, b2⟩ := tryToSingleValue_bounds h2
  have hd : r1.disjunction r2 =
      { min := fmin v1 v2, max := fmax v1 v2, mask := r1.mask ||| r2.mask } := by
    unfold RangeConstraint.disjunction
    simp [a1, a2, b1, b2]
  rw [hd] at hx hw
  unfold RangeConstraint.width at hw
  rw [rangeWidth_eq] at hw
  have hc := hx.1
  simp only at hc hw
  unfold InCyc at hc
  have h01 : (x - fmin v1 v2).val = 0 ∨ (x - fmin v1 v2).val = (fmax v1 v2 - fmin v1 v2).val := by
    omega
  have hmin : fmin v1 v2 = v1 ∨ fmin v1 v2 = v2 := by unfold fmin; split <;> simp
  have hmax : fmax v1 v2 = v1 ∨ fmax v1 v2 = v2 := by unfold fmax; split <;> simp
  rcases h01 with h | h
  · rw [ZMod.val_eq_zero, sub_eq_zero] at h
    rw [h]; exact hmin
  · have := ZMod.val_injective p h
    have : x = fmax v1 v2 := sub_left_injective this
    rw [this]; exact hmax

theorem combineSolutions_spec {a b e : GExpr p V} (he : ∀ σ, eval σ e = eval σ a * eval σ b)
    (hva : ∀ v ∈ vars a, v ∈ vars e) (hvb : ∀ v ∈ vars b, v ∈ vars e)
    {l r : Except SolveError (ProcessResult p V)} (hl : GoodOutcome rc a l)
    (hr : GoodOutcome rc b r) : GoodOutcome rc e (combineSolutions rc l r) := by
  have lift : ∀ (a b : GExpr p V) (r : ProcessResult p V),
      (∀ σ, eval σ e = eval σ a * eval σ b) → (∀ v ∈ vars a, v ∈ vars e) →
      (∀ v ∈ vars b, v ∈ vars e) → (∀ σ, InRange rc σ b → eval σ b ≠ 0) → Good rc a r →
      Good rc e r := by
    intro a b r he hva hvb hb g
    constructor
    · intro σ hσ h0
      apply g.sound σ (inRange_mono hσ hva)
      rw [he] at h0
      exact (mul_eq_zero.1 h0).resolve_right (hb σ (inRange_mono hσ hvb))
    · intro eff heff v s hs k hk σ hσ hv
      rw [he, g.single eff heff v s hs k hk σ (inRange_mono hσ hva) hv, zero_mul]
    · exact fun eff heff v s hs => hva v (g.inVars eff heff v s hs)
    · exact g.nodup
    · intro hc σ hσ hh
      rw [he, g.complete hc σ (inRange_mono hσ hva) hh, zero_mul]
  have he' : ∀ σ, eval σ e = eval σ b * eval σ a := fun σ => by rw [he, mul_comm]
  rcases l with _ | l
  · rcases r with _ | r
    · simp only [combineSolutions, GoodOutcome] at *
      intro σ hσ
      rw [he]
      exact mul_ne_zero (hl σ (inRange_mono hσ hva)) (hr σ (inRange_mono hσ hvb))
    · exact lift b a r he' hvb hva hl hr
  rcases r with _ | r
  · exact lift a b l he hva hvb hr hl
  simp only [combineSolutions, GoodOutcome] at *
  have split0 : ∀ σ, eval σ e = 0 → eval σ a = 0 ∨ eval σ b = 0 := by
    intro σ h; rw [he] at h; exact mul_eq_zero.1 h
  have join0 : ∀ σ, eval σ a = 0 ∨ eval σ b = 0 → eval σ e = 0 := by
    intro σ h; rw [he]; exact mul_eq_zero.2 h
  cases hca : combineToConditionalAssignment rc l r with
  | some res =>
    simp only [Option.getD_some]
    unfold combineToConditionalAssignment at hca
    split at hca
    · rename_i v k w k' hle hre
      split at hca
      · cases hca
      · rename_i hvw
        simp only [ne_eq, not_not] at hvw
        subst hvw
        simp only at hca
        split at hca
        · cases hca
        · rename_i hdis
          simp only [Bool.not_eq_true, Bool.not_eq_false'] at hdis
          simp only [Option.some.injEq] at hca
          subst hca
          have hvl : v ∈ vars a := hl.inVars (.assignment v k) (by rw [hle]; simp) v _ rfl
          have excl : ¬ ((rc v).Allows k ∧ (rc v).Allows k') := by
            rintro ⟨h1, h2⟩
            apply RangeConstraint.isDisjoint_sound hdis k
            refine ⟨?_, h1⟩
            have := RangeConstraint.combineSum_allows h2
              ((RangeConstraint.fromValue_allows (k + -k') (k + -k')).2 rfl)
            have h3 : k' + (k + -k') = k := by ring
            rwa [h3] at this
          have la : ∀ σ, InRange rc σ e → σ v = k → eval σ a = 0 := fun σ hσ hv =>
            hl.single (.assignment v k) (by rw [hle]; simp) v _ rfl k
              (fun x hx => (RangeConstraint.fromValue_allows _ _).1 hx) σ (inRange_mono hσ hva) hv
          have rb : ∀ σ, InRange rc σ e → σ v = k' → eval σ b = 0 := fun σ hσ hv =>
            hr.single (.assignment v k') (by rw [hre]; simp) v _ rfl k'
              (fun x hx => (RangeConstraint.fromValue_allows _ _).1 hx) σ (inRange_mono hσ hvb) hv
          constructor
          · intro σ hσ h0 eff heff
            simp only [List.mem_singleton] at heff
            subst heff
            simp only [Effect.Holds, RangeConstraint.allowsValue_iff]
            have hrc := inRange_vars hσ v (hva v hvl)
            have alt : σ v = k ∨ σ v = k' := by
              rcases split0 σ h0 with h | h
              · exact Or.inl (hl.sound σ (inRange_mono hσ hva) h (.assignment v k)
                  (by rw [hle]; simp))
              · exact Or.inr (hr.sound σ (inRange_mono hσ hvb) h (.assignment v k')
                  (by rw [hre]; simp))
            constructor
            · intro hk
              rcases alt with h | h
              · exact h
              · rw [h] at hrc; exact absurd ⟨hk, hrc⟩ excl
            · intro hk
              rcases alt with h | h
              · rw [h] at hrc; exact absurd hrc hk
              · exact h
          · intro eff heff v' s hs
            simp only [List.mem_singleton] at heff
            subst heff
            simp [effectToRangeConstraint] at hs
          · intro eff heff v' s hs
            simp only [List.mem_singleton] at heff
            subst heff
            simp [effectToRangeConstraint] at hs
          · exact List.nodup_nil
          · intro _ σ hσ hh
            have := hh _ (List.mem_singleton.2 rfl)
            simp only [Effect.Holds] at this
            apply join0
            by_cases hk : (rc v).allowsValue k = true
            · exact Or.inl (la σ hσ (this.1 hk))
            · exact Or.inr (rb σ hσ (this.2 hk))
    · cases hca
  | none =>
    simp only [Option.getD_none]
    unfold combineRangeConstraints
    rw [groupConstraints_eq hl.nodup, groupConstraints_eq hr.nodup]
    -- every combined entry comes from an effect of each branch
    have entry : ∀ x ∈ combinedConstraints (l.effects.filterMap effectToRangeConstraint)
        (r.effects.filterMap effectToRangeConstraint), ∃ e1 ∈ l.effects, ∃ e2 ∈ r.effects,
        ∃ r1 r2, effectToRangeConstraint e1 = some (x.1, r1) ∧
          effectToRangeConstraint e2 = some (x.1, r2) ∧ x.2.1 = r1.disjunction r2 ∧
          x.2.2 = (r1.tryToSingleValue.isSome && r2.tryToSingleValue.isSome &&
            decide ((r1.disjunction r2).width ≤ 2)) := by
      intro x hx
      unfold combinedConstraints at hx
      obtain ⟨⟨v, r1⟩, h1, h2⟩ := List.mem_filterMap.1 hx
      obtain ⟨r2, h3, rfl⟩ := Option.map_eq_some_iff.1 h2
      obtain ⟨e1, he1, hee1⟩ := List.mem_filterMap.1 h1
      obtain ⟨e2, he2, hee2⟩ := List.mem_filterMap.1 (getConstraint_mem h3)
      exact ⟨e1, he1, e2, he2, r1, r2, hee1, hee2, rfl, rfl⟩
    have holdsRC : ∀ (eff : Effect p V) (σ : V → ZMod p) v s,
        effectToRangeConstraint eff = some (v, s) → eff.Holds σ → s.Allows (σ v) := by
      intro eff σ v s hs hh
      cases eff with
      | assignment w k =>
        simp only [effectToRangeConstraint, Option.some.injEq, Prod.mk.injEq] at hs
        obtain ⟨rfl, rfl⟩ := hs
        rw [RangeConstraint.fromValue_allows]; exact hh
      | rangeConstraint w k =>
        simp only [effectToRangeConstraint, Option.some.injEq, Prod.mk.injEq] at hs
        obtain ⟨rfl, rfl⟩ := hs
        rw [← RangeConstraint.allowsValue_iff]; exact hh
      | assertion => cases hs
      | conditionalAssignment => cases hs
    constructor
    · intro σ hσ h0 eff heff
      obtain ⟨x, hx, rfl⟩ := List.mem_map.1 heff
      obtain ⟨e1, he1, e2, he2, r1, r2, h1, h2, h3, -⟩ := entry x hx
      simp only [Effect.Holds]
      rw [RangeConstraint.allowsValue_iff, h3]
      apply RangeConstraint.disjunction_allows
      rcases split0 σ h0 with h | h
      · exact Or.inl (holdsRC e1 σ _ _ h1 (hl.sound σ (inRange_mono hσ hva) h e1 he1))
      · exact Or.inr (holdsRC e2 σ _ _ h2 (hr.sound σ (inRange_mono hσ hvb) h e2 he2))
    · intro eff heff v s hs k hk σ hσ hv
      obtain ⟨x, hx, rfl⟩ := List.mem_map.1 heff
      obtain ⟨e1, he1, e2, he2, r1, r2, h1, h2, h3, -⟩ := entry x hx
      simp only [effectToRangeConstraint, Option.some.injEq, Prod.mk.injEq] at hs
      obtain ⟨rfl, rfl⟩ := hs
      apply join0
      left
      refine hl.single e1 he1 _ _ h1 k (fun y hy => ?_) σ (inRange_mono hσ hva) hv
      apply hk
      rw [h3]
      exact RangeConstraint.disjunction_allows (Or.inl hy)
    · intro eff heff v s hs
      obtain ⟨x, hx, rfl⟩ := List.mem_map.1 heff
      obtain ⟨e1, he1, e2, he2, r1, r2, h1, h2, h3, -⟩ := entry x hx
      simp only [effectToRangeConstraint, Option.some.injEq, Prod.mk.injEq] at hs
      obtain ⟨rfl, rfl⟩ := hs
      exact hva _ (hl.inVars e1 he1 _ _ h1)
    · have hnd := hl.nodup
      have : ∀ (m m' : List (V × RangeConstraint p)), (m.map (·.1)).Nodup →
          ((((combinedConstraints m m').map fun e => Effect.rangeConstraint e.1 e.2.1).filterMap
            effectToRangeConstraint).map (·.1)).Nodup := by
        intro m m'
        have sub : ∀ m : List (V × RangeConstraint p),
            ((((combinedConstraints m m').map fun e => Effect.rangeConstraint e.1 e.2.1).filterMap
            effectToRangeConstraint).map (·.1)).Sublist (m.map (·.1)) := by
          intro m
          induction m with
          | nil => simp [combinedConstraints]
          | cons a t ih =>
            unfold combinedConstraints at ih ⊢
            rw [List.filterMap_cons]
            cases getConstraint a.1 m' with
            | none => simpa using List.Sublist.cons _ ih
            | some r2 => simpa [effectToRangeConstraint] using ih
        exact fun h => (sub m).nodup h
      exact this _ _ hnd
    · intro hc σ hσ hh
      simp only [Bool.and_eq_true, decide_eq_true_eq, List.all_eq_true] at hc
      obtain ⟨⟨⟨c1, c2⟩, c3⟩, c4⟩ := hc
      obtain ⟨x, hx⟩ := List.length_eq_one_iff.1 c3
      obtain ⟨e1, he1, e2, he2, r1, r2, h1, h2, h3, h4⟩ := entry x (by rw [hx]; simp)
      have h5 := c4 x (by rw [hx]; simp)
      rw [h4] at h5
      simp only [Bool.and_eq_true, decide_eq_true_eq, Option.isSome_iff_exists] at h5
      obtain ⟨⟨⟨v1, s1⟩, ⟨v2, s2⟩⟩, hw⟩ := h5
      have hal := hh (.rangeConstraint x.1 x.2.1) (by rw [hx]; simp)
      simp only [Effect.Holds] at hal
      rw [RangeConstraint.allowsValue_iff, h3] at hal
      apply join0
      rcases disjunction_single s1 s2 hw hal with h | h
      · left
        exact hl.single e1 he1 _ _ h1 v1
          (fun y hy => (RangeConstraint.tryToSingleValue_eq_some s1 y).1 hy) σ
          (inRange_mono hσ hva) h
      · right
        exact hr.single e2 he2 _ _ h2 v2
          (fun y hy => (RangeConstraint.tryToSingleValue_eq_some s2 y).1 hy) σ
          (inRange_mono hσ hvb) h

theorem solve_spec {e : GExpr p V} (hw : WF e) : ∃ o, solve rc e = .ok o ∧ GoodOutcome rc e o := by
  induction e using ind with
  | h q l c ih =>
    have err : ∀ {e : GExpr p V}, unsatisfiable rc e = true →
        GoodOutcome rc e (.error .constraintUnsatisfiable) := fun h => unsatisfiable_sound h
    rcases q with _ | ⟨⟨a, b⟩, _ | ⟨cd, q⟩⟩
    · rcases l with _ | ⟨x, l⟩
      · rw [solve]
        split
        · exact ⟨_, rfl, err (by assumption)⟩
        · rename_i hu
          have hc : c = 0 := by
            have hr : rangeConstraint rc (mk [] [] c) = RangeConstraint.fromValue c := by
              simp [rangeConstraint, rangeConstraintQ]
            unfold unsatisfiable at hu
            rw [hr] at hu
            simp only [Bool.not_eq_true, Bool.not_eq_false'] at hu
            rw [RangeConstraint.allowsValue_iff, RangeConstraint.fromValue_allows] at hu
            exact hu.symm
          subst hc
          rw [if_neg (by simp)]
          refine ⟨_, rfl, ?_⟩
          constructor
          · simp
          · simp
          · simp
          · simp
          · intro _ σ _ _
            exact eval_zero σ
      · rw [solve]
        split
        · exact ⟨_, rfl, err (by assumption)⟩
        · exact solveAffine_spec hw
    · rcases l with _ | ⟨x, l⟩
      · rw [solve]
        split
        · exact ⟨_, rfl, err (by assumption)⟩
        · split
          · exact ⟨_, rfl, good_empty⟩
          · rename_i hc
            simp only [ne_eq, not_not] at hc
            subst hc
            obtain ⟨w1, -, -⟩ := wf_inv hw
            have w := w1 (a, b) (by simp)
            obtain ⟨o1, h1, g1⟩ := (ih (a, b) (by simp)).1 w.1
            obtain ⟨o2, h2, g2⟩ := (ih (a, b) (by simp)).2 w.2.1
            simp only at h1 h2 g1 g2
            rw [h1, h2]
            refine ⟨_, rfl, combineSolutions_spec (fun σ => ?_) ?_ ?_ g1 g2⟩
            · rw [eval_mk]; simp
            · intro v hv; rw [mem_vars_mk]; left; exact ⟨(a, b), by simp, Or.inl hv⟩
            · intro v hv; rw [mem_vars_mk]; left; exact ⟨(a, b), by simp, Or.inr hv⟩
      · rw [solve]
        · split
          · exact ⟨_, rfl, err (by assumption)⟩
          · exact ⟨_, rfl, good_empty⟩
        · simp
    · rw [solve]
      · split
        · exact ⟨_, rfl, err (by assumption)⟩
        · exact ⟨_, rfl, good_empty⟩
      · simp

end Verif.GExpr
