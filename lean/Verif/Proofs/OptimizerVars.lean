import Verif.Proofs.OptimizerDegree
import Verif.Proofs.RuleFiniteDerives
import Verif.Props.SolverVars
import Verif.Props.Inliner
import Verif.Spec.OptimizerVars

/-! Proofs about the variables in the optimizer. -/

set_option linter.unusedSectionVars false

namespace Verif

open GExpr

variable {p : ℕ} {V : Type} [LinearOrder V] [Fact p.Prime]

/-! ### Expressions -/

/-- All variables are in `A`. -/
def GExpr.Only (A : V → Prop) (e : GExpr p V) : Prop := ∀ v ∈ vars e, A v

variable {A : V → Prop}

theorem only_const (c : ZMod p) : (const c : GExpr p V).Only A := by
  intro v hv; rw [vars_const] at hv; cases hv

theorem only_var {v : V} (h : A v) : (var v : GExpr p V).Only A := by
  intro u hu; rw [vars_var, List.mem_singleton] at hu; exact hu ▸ h

theorem only_add {a b : GExpr p V} (ha : a.Only A) (hb : b.Only A) : (add a b).Only A :=
  fun v hv => (vars_add_subset _ _ hv).elim (ha v) (hb v)

theorem only_sub {a b : GExpr p V} (ha : a.Only A) (hb : b.Only A) : (sub a b).Only A :=
  fun v hv => (vars_sub_subset _ _ hv).elim (ha v) (hb v)

theorem only_mul {a b : GExpr p V} (ha : a.Only A) (hb : b.Only A) : (mul a b).Only A :=
  fun v hv => (vars_mul_subset _ _ hv).elim (ha v) (hb v)

theorem only_scale {a : GExpr p V} (c : ZMod p) (ha : a.Only A) : (scale c a).Only A :=
  fun v hv => ha v (vars_scale_subset _ _ hv)

theorem only_sum {l : List (GExpr p V)} (h : ∀ e ∈ l, e.Only A) : (sum l).Only A :=
  Splitter.vars_sum_closed h

theorem only_subst (x : V) {r e : GExpr p V} (hr : r.Only A) (he : e.Only A) :
    (subst x r e).Only A :=
  fun v hv => (vars_subst x r hv).elim (fun h => he v h.1) fun h => hr v h.1

theorem only_substKnown (x : V) (k : ZMod p) {e : GExpr p V} (he : e.Only A) :
    (substKnown x k e).Only A := fun v hv => he v (vars_substKnown x k hv).1

theorem only_substKnownMulti (a : List (V × ZMod p)) {e : GExpr p V} (he : e.Only A) :
    (substKnownMulti a e).Only A := by
  unfold substKnownMulti
  induction a generalizing e with
  | nil => exact he
  | cons x t ih => exact ih (only_substKnown x.1 x.2 he)

theorem only_toFactors {e : GExpr p V} (he : e.Only A) : ∀ f ∈ toFactors e, f.Only A := by
  induction e using ind with
  | h q l c ih =>
    unfold toFactors
    split
    · rename_i a b c' heq
      cases heq
      split
      · have h1 := (ih (a, b) (by simp)).1 fun v hv => he v (mem_vars_mk.2 (Or.inl ⟨(a, b), by simp, Or.inl hv⟩))
        have h2 := (ih (a, b) (by simp)).2 fun v hv => he v (mem_vars_mk.2 (Or.inl ⟨(a, b), by simp, Or.inr hv⟩))
        intro f hf
        exact (List.mem_append.1 hf).elim (h1 f) (h2 f)
      · intro f hf
        rw [List.mem_singleton.1 hf]
        exact only_scale _ he
    · split
      · intro f hf
        rw [List.mem_singleton.1 hf]
        exact only_const _
      · intro f hf; cases hf
    · rename_i v d c' heq
      cases heq
      split
      · intro f hf
        rw [List.mem_singleton.1 hf]
        exact only_var (he v (by rw [vars_affine]; exact ⟨d, by simp⟩))
      · intro f hf
        rw [List.mem_singleton.1 hf]
        exact only_scale _ he
    · rename_i heq
      cases heq
      intro f hf
      rw [List.mem_singleton.1 hf]
      exact only_scale _ he

theorem only_productOf {l : List (GExpr p V)} {e : GExpr p V} (h : productOf l = .ok e)
    (hl : ∀ f ∈ l, f.Only A) : e.Only A := by
  cases l with
  | nil => cases h
  | cons f t =>
    cases h
    have key : ∀ (t : List (GExpr p V)) (e : GExpr p V), e.Only A → (∀ f ∈ t, f.Only A) →
        (t.foldl mul e).Only A := by
      intro t
      induction t with
      | nil => exact fun e h _ => h
      | cons a t ih =>
        intro e he ht
        exact ih _ (only_mul he (ht a (by simp))) fun f hf => ht f (by simp [hf])
    exact key t f (hl f (by simp)) fun f hf => hl f (by simp [hf])

/-! ### The passes -/

/-- All variables of the constraints and bus interactions are in `A`. -/
structure ConstraintSystem.OnlyVars (A : V → Prop) (s : ConstraintSystem p V) : Prop where
  algebraic : ∀ e ∈ s.algebraic, e.Only A
  bus : ∀ b ∈ s.bus, ∀ e ∈ b.fields, e.Only A

theorem onlyVars_iff {s : ConstraintSystem p V} : s.OnlyVars A ↔ ∀ v, s.Mentions v → A v := by
  constructor
  · rintro h v (⟨e, he, hv⟩ | ⟨b, hb, e, he, hv⟩)
    · exact h.algebraic e he v (mem_vars_iff_occurs.2 hv)
    · exact h.bus b hb e he v (mem_vars_iff_occurs.2 hv)
  · intro h
    exact ⟨fun e he v hv => h v (Or.inl ⟨e, he, mem_vars_iff_occurs.1 hv⟩),
      fun b hb e he v hv => h v (Or.inr ⟨b, hb, e, he, mem_vars_iff_occurs.1 hv⟩)⟩

theorem OnlyVars.vars {s : ConstraintSystem p V} (h : s.OnlyVars A) : ∀ v ∈ s.vars, A v := by
  intro v hv
  unfold ConstraintSystem.vars busVars at hv
  rcases List.mem_append.1 hv with hv | hv
  · obtain ⟨e, he, hv⟩ := List.mem_flatMap.1 hv
    exact h.algebraic e he v hv
  · obtain ⟨b, hb, hv⟩ := List.mem_flatMap.1 hv
    obtain ⟨e, he, hv⟩ := List.mem_flatMap.1 hv
    exact h.bus b hb e he v hv

theorem onlyVars_filter {s : ConstraintSystem p V} (h : s.OnlyVars A) {q : GExpr p V → Bool}
    {q' : BusInteraction (GExpr p V) → Bool} {d : List (DerivedVariable p V)} :
    (⟨s.algebraic.filter q, s.bus.filter q', d⟩ : ConstraintSystem p V).OnlyVars A :=
  ⟨fun e he => h.algebraic e (List.mem_filter.1 he).1, fun b hb => h.bus b (List.mem_filter.1 hb).1⟩

theorem onlyVars_fields {s : ConstraintSystem p V} (h : s.OnlyVars A)
    (f : GExpr p V → GExpr p V × List (GExpr p V))
    (hf : ∀ e, e.Only A → (f e).1.Only A ∧ ∀ q ∈ (f e).2, q.Only A) :
    ({ s with
      bus := s.bus.map fun b => b.map fun e => (f e).1
      algebraic := s.algebraic ++ (s.bus.flatMap fun b => b.fields.map f).flatMap Prod.snd } :
      ConstraintSystem p V).OnlyVars A := by
  constructor
  · intro e he
    rcases List.mem_append.1 he with he | he
    · exact h.algebraic e he
    · obtain ⟨y, hy, he⟩ := List.mem_flatMap.1 he
      obtain ⟨b, hb, hy⟩ := List.mem_flatMap.1 hy
      obtain ⟨e', he', rfl⟩ := List.mem_map.1 hy
      exact (hf e' (h.bus b hb e' he')).2 e he
  · intro b hb e he
    obtain ⟨b', hb', rfl⟩ := List.mem_map.1 hb
    rw [fields_map] at he
    obtain ⟨e', he', rfl⟩ := List.mem_map.1 he
    exact (hf e' (h.bus b' hb' e' he')).1

theorem onlyVars_mapExpr {s : ConstraintSystem p V} (h : s.OnlyVars A) {f : GExpr p V → GExpr p V}
    (hf : ∀ e, e.Only A → (f e).Only A) : (s.mapExpr f).OnlyVars A := by
  constructor
  · intro e he
    obtain ⟨e', he', rfl⟩ := List.mem_map.1 he
    exact hf e' (h.algebraic e' he')
  · intro b hb e he
    obtain ⟨b', hb', rfl⟩ := List.mem_map.1 hb
    rw [fields_map] at he
    obtain ⟨e', he', rfl⟩ := List.mem_map.1 he
    exact hf e' (h.bus b' hb' e' he')

theorem onlyVars_mapExprs {s : ConstraintSystem p V} (h : s.OnlyVars A) {f : GExpr p V → GExpr p V}
    (hf : ∀ e, e.Only A → (f e).Only A) : (s.mapExprs f).OnlyVars A := by
  constructor
  · intro e he
    obtain ⟨e', he', rfl⟩ := List.mem_map.1 he
    exact hf e' (h.algebraic e' he')
  · intro b hb e he
    obtain ⟨b', hb', rfl⟩ := List.mem_map.1 hb
    rw [fields_map] at he
    obtain ⟨e', he', rfl⟩ := List.mem_map.1 he
    exact hf e' (h.bus b' hb' e' he')

theorem onlyVars_solverBased {bus : Bus p} {h : Handler p} (hs : h.Sound bus) {ch : Choices p V}
    {ix : Indexed p V} (hi : ix.Inv) {solver solver' : Solver p V} {s' : ConstraintSystem p V}
    {l : List (V × GExpr p V)} (hd : ix.sys.OnlyVars A)
    (hsc : Solver.Scoped (SVar.Over A) solver)
    (hr : solverBased h ch ix solver = .ok (s', l, solver')) :
    s'.OnlyVars A ∧ Solver.Scoped (SVar.Over A) solver' := by
  obtain ⟨h1, rfl⟩ := solverBased_ok hr
  obtain ⟨k1, l', k2, k3⟩ := solve_over hs hsc h1
  cases k2
  refine ⟨?_, k1⟩
  have h2 : (ix.applySubsts l).sys.OnlyVars A := by
    rw [applySubsts_sys hi]
    clear hr h1
    generalize ix.sys = s at hd
    induction l generalizing s with
    | nil => exact hd
    | cons x t ih =>
      rw [List.foldl_cons]
      refine ih (fun y hy => k3 y (List.mem_cons_of_mem _ hy)) _ (onlyVars_mapExpr hd fun e he => ?_)
      refine only_subst _ ?_ he
      rcases (k3 x List.mem_cons_self).2 with ⟨k, hk⟩ | ⟨u, hu, -, hk⟩
      · rw [hk]; exact only_const k
      · rw [hk]; exact only_var hu
  refine onlyVars_fields h2 _ fun e he => ?_
  unfold numberField
  split
  · rename_i m hm
    unfold tryReplaceByNumber at hm
    split at hm
    · cases hm
    · obtain ⟨v, -, rfl⟩ := Option.map_eq_some_iff.1 hm
      refine ⟨only_const _, fun q hq => ?_⟩
      rw [List.mem_singleton.1 hq]
      exact only_sub (only_const _) he
  · exact ⟨he, by simp⟩

theorem onlyVars_substituteBusFields {solver : Solver p V} {s : ConstraintSystem p V}
    (h : s.OnlyVars A) : (substituteBusFields solver s).OnlyVars A := by
  refine onlyVars_fields h _ fun e he => ?_
  unfold constantField
  split
  · exact ⟨he, by simp⟩
  · split
    · refine ⟨only_const _, fun q hq => ?_⟩
      rw [List.mem_singleton.1 hq]
      exact only_sub he (only_const _)
    · exact ⟨he, by simp⟩

theorem simplify_fold_vars {as : List (List (V × ZMod p))} {xs : List (Simplified p V)}
    (hxs : ∀ x ∈ xs, ∀ s, x.simplified = some (some s) → ∀ v ∈ vars s, v ∈ vars x.expr) :
    ∀ x ∈ as.foldl simplifyUnder xs, ∀ s, x.simplified = some (some s) →
      ∀ v ∈ vars s, v ∈ vars x.expr := by
  induction as generalizing xs with
  | nil => exact hxs
  | cons a t ih =>
    refine ih fun x hx => ?_
    rcases simplifyUnder_mem hx with hx | ⟨y, hy, rfl⟩
    · exact hxs x hx
    · intro s hs
      rw [(update_expr _ y).1, (update_some hs).1]
      exact only_substKnownMulti (A := (· ∈ vars y.expr)) a fun v hv => hv

theorem allSubstitutions_vars {ix : Indexed p V} {rc : V → RangeConstraint p} {vss : List (List V)}
    {acc subs : List (GExpr p V × GExpr p V)} (h : allSubstitutions ix rc vss acc = .ok subs)
    (hacc : ∀ x ∈ acc, ∀ v ∈ vars x.2, v ∈ vars x.1) : ∀ x ∈ subs, ∀ v ∈ vars x.2, v ∈ vars x.1 := by
  induction vss generalizing acc with
  | nil => rw [allSubstitutions] at h; cases h; exact hacc
  | cons vs t ih =>
    rw [allSubstitutions, Except.bind_ok_iff] at h
    obtain ⟨l, h1, h⟩ := h
    refine ih h fun x hx => ?_
    rcases mem_foldl_mapInsert hx with hx | hx
    · unfold substitutionsFor at h1
      rw [Except.bind_ok_iff] at h1
      obtain ⟨refs, -, h1⟩ := h1
      rw [Except.bind_ok_iff] at h1
      obtain ⟨as, -, h1⟩ := h1
      cases h1
      obtain ⟨y, hy, hyx⟩ := List.mem_filterMap.1 hx
      split at hyx
      · rename_i s hs
        split at hyx
        · cases hyx
          refine simplify_fold_vars (fun z hz s hs => ?_) y hy s hs
          rw [simplifiedInit_none refs z hz] at hs
          cases hs
        · cases hyx
      · cases hyx
    · exact hacc x hx

theorem onlyVars_simplifyExhaustive {ix : Indexed p V} {rc : V → RangeConstraint p}
    {s' : ConstraintSystem p V} (hd : ix.sys.OnlyVars A) (h : simplifyExhaustive ix rc = .ok s') :
    s'.OnlyVars A := by
  obtain ⟨subs, h1, rfl | rfl⟩ := simplifyExhaustive_ok h
  · exact hd
  · have hs := allSubstitutions_vars h1 (fun x hx => by cases hx)
    have hf : ∀ e, e.Only A → (replaceField subs e).1.Only A ∧
        ∀ q ∈ (replaceField subs e).2, q.Only A := by
      intro e he
      unfold replaceField
      split
      · rename_i s hg
        have : s.Only A := fun v hv => he v (hs _ (mapGet_mem hg) v hv)
        exact ⟨this, fun q hq => by
          rw [List.mem_singleton.1 hq]; exact only_sub he this⟩
      · exact ⟨he, by simp⟩
    have hc : ∀ e, e.Only A → (replaceConstraint subs e).1.Only A ∧
        ∀ q ∈ (replaceConstraint subs e).2, q.Only A := by
      intro e he
      unfold replaceConstraint
      split
      · rename_i s hg
        split
        · exact ⟨he, by simp⟩
        · have : s.Only A := fun v hv => he v (hs _ (mapGet_mem hg) v hv)
          exact ⟨this, fun q hq => by
            rw [List.mem_singleton.1 hq]; exact only_sub he this⟩
      · exact ⟨he, by simp⟩
    refine ⟨fun e he => ?_, fun b hb => ?_⟩
    · rcases List.mem_append.1 he with he | he
      · obtain ⟨y, hy, rfl⟩ := List.mem_map.1 he
        obtain ⟨e', he', rfl⟩ := List.mem_map.1 hy
        exact (hc e' (hd.algebraic e' he')).1
      · rw [mem_eraseDups', List.mem_flatMap] at he
        obtain ⟨y, hy, he⟩ := he
        rcases List.mem_append.1 hy with hy | hy
        · obtain ⟨e', he', rfl⟩ := List.mem_map.1 hy
          exact (hc e' (hd.algebraic e' he')).2 e he
        · obtain ⟨b, hb, hy⟩ := List.mem_flatMap.1 hy
          obtain ⟨e', he', rfl⟩ := List.mem_map.1 hy
          exact (hf e' (hd.bus b hb e' he')).2 e he
    · obtain ⟨b', hb', rfl⟩ := List.mem_map.1 hb
      intro e he
      rw [fields_map] at he
      obtain ⟨e', he', rfl⟩ := List.mem_map.1 he
      exact (hf e' (hd.bus b' hb' e' he')).1

theorem duplicateFactorsLoop_vars {l : List (GExpr p V)}
    {r : List (GExpr p V) × List (GExpr p V)} (h : duplicateFactorsLoop l = .ok r)
    (hl : ∀ e ∈ l, e.Only A) : ∀ e ∈ r.1 ++ r.2, e.Only A := by
  induction l generalizing r with
  | nil => rw [duplicateFactorsLoop] at h; cases h; simp
  | cons e t ih =>
    obtain ⟨-, k, a, ht, hr⟩ := duplicateFactorsLoop_cons h
    have he := hl e List.mem_cons_self
    have ih' := ih ht fun e he => hl e (List.mem_cons_of_mem _ he)
    simp only [List.mem_append] at ih'
    rcases hr with ⟨product, -, hp, rfl⟩ | ⟨-, rfl⟩
    · intro x hx
      simp only [List.mem_append, List.mem_cons] at hx
      rcases hx with hx | rfl | hx
      · exact ih' x (Or.inl hx)
      · exact only_productOf hp fun f hf => only_toFactors he f (mem_eraseDups'.1 hf)
      · exact ih' x (Or.inr hx)
    · intro x hx
      simp only [List.mem_append, List.mem_cons] at hx
      rcases hx with (rfl | hx) | hx
      · exact he
      · exact ih' x (Or.inl hx)
      · exact ih' x (Or.inr hx)

theorem onlyVars_trivial {f : ZMod p → Bool} {s s' : ConstraintSystem p V} (hd : s.OnlyVars A)
    (h : trivialSimplifications f s = .ok s') : s'.OnlyVars A := by
  unfold trivialSimplifications at h
  simp only at h
  rw [Except.bind_ok_iff] at h
  obtain ⟨s1, h1, h⟩ := h
  cases h
  unfold removeRedundant at h1
  rw [Except.bind_ok_iff] at h1
  obtain ⟨s2, h2, h1⟩ := h1
  obtain ⟨r, h3, rfl⟩ := removeDuplicateFactors_ok h2
  simp only at h1
  split at h1
  · cases h1
  · rw [Except.bind_ok_iff] at h1
    obtain ⟨red, -, h1⟩ := h1
    cases h1
    constructor
    · intro e he
      obtain ⟨x, hx, rfl⟩ := List.mem_map.1 he
      refine duplicateFactorsLoop_vars h3 (fun e he => hd.algebraic e (List.mem_filter.1 he).1) _ ?_
      exact (List.mem_zipIdx' (List.mem_filter.1 hx).1).2 ▸ List.getElem_mem _
    · intro b hb
      exact hd.bus b (List.mem_filter.1 ((retainUnseen_sublist f _ _).subset hb)).1

/-! ### Rules -/

theorem closed_only {E : Set (GExpr p V)} (hE : ClosedSet E) (A : V → Prop) :
    ClosedSet {e | e ∈ E ∧ e.Only A} := by
  rintro e ⟨h, ho⟩
  obtain ⟨h1, h2, h3⟩ := hE e h
  refine ⟨?_, ?_, ?_⟩
  · rintro l r rfl
    exact ⟨⟨(h1 l r rfl).1, fun v hv => ho v (mem_vars_mk.2 (Or.inl ⟨(l, r), by simp, Or.inl hv⟩))⟩,
      ⟨(h1 l r rfl).2, fun v hv => ho v (mem_vars_mk.2 (Or.inl ⟨(l, r), by simp, Or.inr hv⟩))⟩⟩
  · rintro a b q l c rfl
    refine ⟨⟨(h2 a b q l c rfl).1, fun v hv => ho v ?_⟩, ⟨(h2 a b q l c rfl).2, fun v hv => ho v ?_⟩⟩
    · rw [mem_vars_mk] at hv ⊢
      rcases hv with ⟨x, hx, hv⟩ | ⟨k, hk⟩
      · rw [List.mem_singleton] at hx
        exact Or.inl ⟨x, by simp [hx], hv⟩
      · cases hk
    · rw [mem_vars_mk] at hv ⊢
      rcases hv with ⟨x, hx, hv⟩ | hk
      · exact Or.inl ⟨x, by simp [hx], hv⟩
      · exact Or.inr hk
  · rintro vk l c rfl
    refine ⟨⟨(h3 vk l c rfl).1, fun v hv => ho v ?_⟩, ⟨(h3 vk l c rfl).2, fun v hv => ho v ?_⟩⟩
    · rw [vars_affine] at hv ⊢
      obtain ⟨k, hk⟩ := hv
      exact ⟨k, by rw [List.mem_singleton] at hk; simp [hk]⟩
    · rw [vars_affine] at hv ⊢
      obtain ⟨k, hk⟩ := hv
      exact ⟨k, by simp [hk]⟩

/-- The components of all facts are over the variables of the input. -/
theorem in_of_input {inp : RuleInput p V} (hwf : inp.WF) (h1 : ∀ e ∈ inp.constraints, e.Only A)
    (h2 : ∀ x ∈ inp.exprRanges, x.1.Only A) (h3 : ∀ x ∈ inp.varRanges, A x.1)
    (h4 : ∀ v ∈ inp.single, A v) {f : RFact p V} (h : Derives inp f) :
    ∃ (E : Set (GExpr p V)) (k M : ℕ), (∀ e ∈ E, e.Only A) ∧ f.In (factSets inp (· ∈ E) A k M) := by
  obtain ⟨E, hf, hmem, hE⟩ := exists_closed_list (inp.constraints ++ inp.exprRanges.map Prod.fst)
  obtain ⟨B, hB⟩ : ∃ B, B = p + ((inp.exprRanges.map fun x => x.2.mask).sum +
    (inp.varRanges.map fun x => x.2.mask).sum) + 1 := ⟨_, rfl⟩
  have hpow : B < 2 ^ B := Nat.lt_two_pow_self
  obtain ⟨M, hM⟩ : ∃ M, ∀ e ∈ E, e.linear.length ≤ M := by
    obtain ⟨M, hM⟩ := (hf.image fun e => e.linear.length).bddAbove
    exact ⟨M, fun e he => hM ⟨e, he, rfl⟩⟩
  refine ⟨{e | e ∈ E ∧ e.Only A}, B, M, fun e he => he.2, in_of_derives (k := B) (by omega) hwf
    (closed_only hE A) ?_ ?_ ?_ h4 (fun e he => he.2) (fun e he => hM e he.1) h⟩
  · exact fun e he => ⟨hmem e (by simp [he]), h1 e he⟩
  · intro x hx
    refine ⟨⟨hmem _ (List.mem_append_right _ (List.mem_map.2 ⟨x, hx, rfl⟩)), h2 x hx⟩, ?_⟩
    have := List.single_le_sum (l := inp.exprRanges.map fun x => x.2.mask) (by simp) x.2.mask
      (List.mem_map.2 ⟨x, hx, rfl⟩)
    show x.2.mask < 2 ^ B
    omega
  · intro x hx
    refine ⟨h3 x hx, ?_⟩
    have := List.single_le_sum (l := inp.varRanges.map fun x => x.2.mask) (by simp) x.2.mask
      (List.mem_map.2 ⟨x, hx, rfl⟩)
    show x.2.mask < 2 ^ B
    omega

theorem only_remaining {e : GExpr p V} (he : e.Only A) (v1 v2 : V) :
    ∀ f ∈ remainingSummands e v1 v2, f.Only A := by
  obtain ⟨q, l, c⟩ := e
  intro f hf
  unfold remainingSummands at hf
  simp only [List.mem_append] at hf
  rcases hf with (hf | hf) | hf
  · obtain ⟨x, hx, rfl⟩ := List.mem_map.1 hf
    have hx := (List.mem_filter.1 hx).1
    intro v hv
    unfold ofQuadratic at hv
    rw [mem_vars_mk] at hv
    refine he v (mem_vars_mk.2 ?_)
    rcases hv with ⟨y, hy, hv⟩ | ⟨k, hk⟩
    · rw [List.mem_singleton] at hy
      subst hy
      exact Or.inl ⟨x, hx, hv⟩
    · cases hk
  · obtain ⟨x, hx, rfl⟩ := List.mem_map.1 hf
    intro v hv
    unfold ofLinear at hv
    rw [vars_affine] at hv
    obtain ⟨k, hk⟩ := hv
    rw [List.mem_singleton] at hk
    exact he v (mem_vars_mk.2 (Or.inr ⟨k, by rw [hk]; exact hx⟩))
  · split at hf
    · rw [List.mem_singleton.1 hf]
      exact only_const _
    · cases hf

theorem only_newLists {inp : RuleInput p V} {E : GExpr p V → Prop} {R : RangeConstraint p → Prop}
    (hE : ∀ e, E e → e.Only A) (hfresh : ∀ w m, inp.fresh w m → A w) {l : List (GExpr p V)}
    (h : NewLists inp E A R l) : ∀ e ∈ l, e.Only A := by
  have hsum : ∀ vs : List V, (∀ v ∈ vs, A v) → (sum (vs.map var) : GExpr p V).Only A := by
    intro vs hvs
    refine only_sum fun e he => ?_
    obtain ⟨v, hv, rfl⟩ := List.mem_map.1 he
    exact only_var (hvs v hv)
  rcases h with ⟨e, he, c1, v1, -, x1, hx1, r1, -, c2, v2, -, x2, hx2, r2, -, ⟨factor, r⟩, hfr, w, hw, rfl⟩ |
    ⟨res, hres, vs, hvs, w, hw, rfl⟩ | ⟨x, hx, a, ha, b, hb, rfl⟩
  · obtain ⟨rfl, rfl, -⟩ := freeVariableParts_inv hfr
    intro f hf
    rw [List.mem_singleton.1 hf]
    unfold freeVariableReplacement
    refine only_add (only_sum (only_remaining (hE e he) _ _)) (only_mul (only_var (hfresh _ _ hw)) ?_)
    exact only_add (only_scale _ fun v hv => hE x1 hx1 v (squareIfNeeded_vars _ _ hv))
      (only_scale _ fun v hv => hE x2 hx2 v (squareIfNeeded_vars _ _ hv))
  · intro f hf
    unfold equalZeroReplacement at hf
    simp only [List.mem_cons, List.not_mem_nil, or_false] at hf
    rcases hf with rfl | rfl
    · exact only_mul (only_var hres) (hsum vs hvs.2)
    · exact only_sub (only_add (only_var hres) (only_mul (only_var (hfresh _ _ hw)) (hsum vs hvs.2)))
        (only_const _)
  · intro f hf
    rw [List.mem_singleton.1 hf]
    exact only_mul (hE x hx) (only_add (hE a ha) (hE b hb))

/-- The state of the driver is over the variables. -/
structure DriverState.OnlyVars (A : V → Prop) (st : DriverState p V) : Prop where
  sys : st.system.OnlyVars A
  ranges : ∀ x ∈ st.ranges, A x.1
  assignments : ∀ x ∈ st.assignments, A x.1 ∧ x.2.Only A

/-- The action is over the variables. -/
def RuleAction.Only (A : V → Prop) : RuleAction p V → Prop
  | .updateRange v _ => A v
  | .substituteByConstant v _ => A v
  | .substituteByVariable v w => A v ∧ A w

theorem onlyVars_applyAction {st : DriverState p V} (h : st.OnlyVars A) {a : RuleAction p V}
    (ha : a.Only A) : (applyAction st a).OnlyVars A := by
  have key : ∀ (v : V) (e : GExpr p V), A v → e.Only A →
      ∀ x ∈ st.assignments ++ [(v, e)], A x.1 ∧ x.2.Only A := by
    intro v e hv he x hx
    rcases List.mem_append.1 hx with hx | hx
    · exact h.assignments x hx
    · rw [List.mem_singleton.1 hx]; exact ⟨hv, he⟩
  cases a with
  | updateRange v rc =>
    simp only [applyAction]
    split
    · split
      · exact ⟨onlyVars_mapExprs h.sys fun e => only_substKnown _ _, h.ranges,
          key _ _ ha (only_const _)⟩
      · refine ⟨h.sys, fun x hx => ?_, h.assignments⟩
        rcases mem_mapInsert hx with hx | hx
        · rw [hx]; exact ha
        · exact h.ranges x hx
    · exact h
  | substituteByConstant v val =>
    exact ⟨onlyVars_mapExprs h.sys fun e => only_substKnown _ _, h.ranges, key _ _ ha (only_const _)⟩
  | substituteByVariable v w =>
    exact ⟨onlyVars_mapExprs h.sys fun e => only_subst _ (only_var ha.2), h.ranges,
      key _ _ ha.1 (only_var ha.2)⟩

theorem onlyVars_driver {rc : V → RangeConstraint p} {h : Handler p}
    {lt : GExpr p V → GExpr p V → Prop} {intBits : ℕ} {bound : Option DegreeBound}
    {ok : RuleInput p V → ConstraintSystem p V → ConstraintSystem p V → Prop} {st st' : DriverState p V}
    {news : List (DerivedVariable p V)} (hw : st.system.WF) (h0 : st.OnlyVars A)
    (run : DriverRun rc h lt intBits bound ok st st' news) (hnews : ∀ d ∈ news, A d.column) :
    st'.OnlyVars A := by
  induction run with
  | refl => exact h0
  | @round st' news run new inp hinp hnew actions hactions rs hrs hok ih =>
    have ih := ih fun d hd => hnews d (List.mem_append.2 (Or.inl hd))
    have hw' := wf_of_run hw run
    have hwi := wf_driverInput hw' hinp
    obtain ⟨ranges, i0, i1, i2, i3, i4, i5, -⟩ := driverInput_ok hinp
    have hin : ∀ {f}, Derives inp f → ∃ (E : Set (GExpr p V)) (k M : ℕ), (∀ e ∈ E, e.Only A) ∧
        f.In (factSets inp (· ∈ E) A k M) := by
      intro f hf
      refine in_of_input hwi (by rw [i1]; exact ih.sys.algebraic) ?_ (by rw [i3]; exact ih.ranges)
        ?_ hf
      · rw [i2]
        refine groupRanges_spec (fun e _ => e.Only A) (fun e r r' h _ => h) fun x hx => ?_
        obtain ⟨b, hb, hm⟩ := busRanges_mem i0 x hx
        exact ih.sys.bus b hb _ hm
      · rw [i4]
        intro v hv
        exact OnlyVars.vars ih.sys v (List.mem_dedup.1 (List.mem_filter.1 hv).1)
    have hfresh : ∀ w m, inp.fresh w m → A w := by
      intro w m hwm
      rw [i5] at hwm
      exact hnews ⟨w, m⟩ (List.mem_append.2 (Or.inr hwm))
    have hact : ∀ a ∈ actions, a.Only A := by
      intro a ha
      have := hactions a ha
      cases a with
      | updateRange v rc => obtain ⟨E, k, M, -, h⟩ := hin this; exact h.1
      | substituteByConstant v val => obtain ⟨E, k, M, -, h⟩ := hin this; exact h
      | substituteByVariable v w => obtain ⟨E, k, M, -, h⟩ := hin this; exact h
    have key : ∀ (as : List (RuleAction p V)) (st : DriverState p V), st.OnlyVars A →
        (∀ a ∈ as, a.Only A) → (as.foldl applyAction st).OnlyVars A := by
      intro as
      induction as with
      | nil => exact fun _ h _ => h
      | cons a t ih =>
        intro st h ha
        exact ih _ (onlyVars_applyAction h (ha a (by simp))) fun b hb => ha b (by simp [hb])
    have h1 := key actions _ ih hact
    refine ⟨?_, h1.ranges, h1.assignments⟩
    obtain ⟨acc, hacc, heq, -⟩ := batchReplace_spec (beforeBatch st' actions new) rs bound
    show (batchReplace (beforeBatch st' actions new) rs bound).2.OnlyVars A
    rw [heq]
    refine ⟨fun e he => ?_, h1.sys.bus⟩
    rcases List.mem_append.1 he with he | he
    · exact h1.sys.algebraic e (List.mem_filter.1 he).1
    · obtain ⟨r, hr, he⟩ := List.mem_flatMap.1 he
      cases hrs r (hacc.subset hr) with
      | one h =>
        obtain ⟨E, k, M, hE, h⟩ := hin h
        exact only_newLists hE hfresh h.2 e he
      | many h =>
        obtain ⟨E, k, M, hE, h⟩ := hin h
        exact only_newLists hE hfresh h.2.2 e he

theorem onlyVars_driverStart {rc : V → RangeConstraint p} {s : ConstraintSystem p V}
    (h : s.OnlyVars A) : (driverStart rc s).OnlyVars A := by
  refine ⟨h, fun x hx => ?_, by simp [driverStart]⟩
  obtain ⟨v, hv, rfl⟩ := List.mem_map.1 (List.mem_filter.1 hx).1
  exact OnlyVars.vars h v (List.mem_dedup.1 hv)

theorem onlyVars_finish {st : DriverState p V} (h : st.OnlyVars A) : st.finish.OnlyVars A :=
  ⟨⟨fun e he => h.sys.algebraic e (List.mem_filter.1 he).1, h.sys.bus⟩, h.ranges, h.assignments⟩

/-! ### Memory -/

theorem addressesDiffer_scope {h : Handler p} {a b : ZMod p × GExpr p V} {o : Bool}
    {s s' : Solver p V} (hi : s.cs.Inv) (hr : addressesDiffer h a b s = .ok (o, s')) :
    Solver.SameScope s s' := by
  have key : ∀ {s s' : Solver p V} {x y : GExpr p V} {o : SolverOut p V}, s.cs.Inv →
      SolverOp.run h s (.knownDifferent x y) = .ok (o, s') → Solver.SameScope s s' := by
    intro s s' x y o hi ho
    rw [SolverOp.run, Except.bind_ok_iff] at ho
    obtain ⟨r, h1, ho⟩ := ho
    cases ho
    exact Solver.knownDifferent_scopeSame hi h1
  unfold addressesDiffer at hr
  rw [Except.bind_ok_iff] at hr
  obtain ⟨⟨o1, s1⟩, h1, hr⟩ := hr
  have k1 := key hi h1
  split at hr
  · rename_i heq
    cases heq
    cases hr
    exact k1
  · rename_i heq
    cases heq
    rw [Except.bind_ok_iff] at hr
    obtain ⟨⟨o2, s2⟩, h2, hr⟩ := hr
    have k2 := k1.trans (key k1.cs h2)
    split at hr
    · rename_i heq; cases heq; cases hr; exact k2
    · rename_i heq; cases heq; cases hr; exact k2

theorem retainDifferent_scope {h : Handler p} {a : ZMod p × GExpr p V}
    {l l' : List ((ZMod p × GExpr p V) × MemContent p V)} {s s' : Solver p V} (hi : s.cs.Inv)
    (hr : retainDifferent h a l s = .ok (l', s')) : Solver.SameScope s s' := by
  induction l generalizing s l' with
  | nil => cases hr; exact .refl hi
  | cons x t ih =>
    obtain ⟨b, c⟩ := x
    rw [retainDifferent, Except.bind_ok_iff] at hr
    obtain ⟨⟨d, s1⟩, h1, hr⟩ := hr
    simp only at hr
    rw [Except.bind_ok_iff] at hr
    obtain ⟨⟨t', s2⟩, h2, hr⟩ := hr
    cases hr
    have k1 := addressesDiffer_scope hi h1
    exact k1.trans (ih k1.cs h2)

theorem memoryLoop_scope {h : Handler p} {id i : ℕ} {l : List (BusInteraction (GExpr p V))}
    {st st' : MemState p V} (hi : st.solver.cs.Inv) (hr : memoryLoop h id i l st = .ok st') :
    Solver.SameScope st.solver st'.solver := by
  induction l generalizing i st with
  | nil => cases hr; exact .refl hi
  | cons b t ih =>
    rw [memoryLoop, Except.bind_ok_iff] at hr
    obtain ⟨st1, h1, hr⟩ := hr
    have k1 : Solver.SameScope st.solver st1.solver := by
      unfold memoryStep at h1
      rw [Except.bind_ok_iff] at h1
      obtain ⟨m, -, h1⟩ := h1
      cases m with
      | notMemory => cases h1; exact .refl hi
      | unclear => cases h1; exact .refl hi
      | memory m =>
        simp only at h1
        split at h1
        · split at h1
          · rw [Except.bind_ok_iff] at h1
            obtain ⟨new, -, h1⟩ := h1
            cases h1
            exact .refl hi
          · cases h1; exact .refl hi
        · rw [Except.bind_ok_iff] at h1
          obtain ⟨⟨l', s1⟩, h2, h1⟩ := h1
          cases h1
          exact retainDifferent_scope hi h2
    exact k1.trans (ih k1.cs hr)

theorem madeFor_inv {bus : Bus p} {h : Handler p} (hs : h.Sound bus) {A : (V → ZMod p) → Prop}
    {solver : Solver p V} (hm : solver.MadeFor bus h A) : solver.Inv := by
  obtain ⟨ops, outs, h1, h2, -⟩ := hm
  exact (runOps_over hs scoped_new h1 h2).1.inv

theorem onlyVars_memory {bus : Bus p} {h : Handler p} (hs : h.Sound bus)
    {S : (V → ZMod p) → Prop} {id : Option ℕ} {s s' : ConstraintSystem p V} {solver solver' : Solver p V}
    (hw : s.WF) (hw' : s'.WF) (hm : solver.MadeFor bus h S) (hd : s.OnlyVars A)
    (hsc : Solver.Scoped (SVar.Over A) solver)
    (hr : optimizeMemory h id s solver = .ok (s', solver')) :
    s'.OnlyVars A ∧ Solver.Scoped (SVar.Over A) solver' := by
  cases id with
  | none => cases hr; exact ⟨hd, hsc⟩
  | some id =>
    have hd' : s'.OnlyVars A := by
      obtain ⟨P, -, hP, -, -, -, rfl⟩ := optimizeMemory_ok hs hw hm hr
      have key : ∀ {b : BusInteraction (GExpr p V)} {m : MemInt p V} {i : ℕ}, s.bus[i]? = some b →
          memConversion id b = .ok (.memory m) →
          (∀ e ∈ m.data, e.Only A) ∧ m.timestamp.Only A := by
        intro b m i hb hc
        have hbd := hd.bus b (List.mem_of_getElem? hb)
        have hp := (memConversion_memory hc).2.2
        have : ∀ e ∈ b.payload, e.Only A := fun e he =>
          hbd e (by simp [BusInteraction.fields, he])
        rw [hp] at this
        exact ⟨fun e he => this e (by simp [he]), this _ (by simp)⟩
      refine ⟨fun e he => ?_, fun b hb => ?_⟩
      · rcases List.mem_append.1 he with he | he
        · exact hd.algebraic e he
        · obtain ⟨x, hx, he⟩ := List.mem_flatMap.1 he
          obtain ⟨b, b1, b2⟩ := (hP x hx).set
          obtain ⟨c, c1, c2⟩ := (hP x hx).get
          have k1 := key b1 b2
          have k2 := key c1 c2
          rcases List.mem_append.1 he with he | he
          · obtain ⟨y, hy, rfl⟩ := List.mem_map.1 he
            exact only_sub (k1.1 _ (List.of_mem_zip hy).1) (k2.1 _ (List.of_mem_zip hy).2)
          · rw [List.mem_singleton.1 he]
            exact only_sub k1.2 k2.2
      · obtain ⟨x, hx, rfl⟩ := List.mem_map.1 hb
        exact hd.bus _ ((List.mem_zipIdx' (List.mem_filter.1 hx).1).2 ▸ List.getElem_mem _)
    refine ⟨hd', ?_⟩
    simp only [optimizeMemory, redundantMemoryInteractions] at hr
    rw [Except.bind_ok_iff] at hr
    obtain ⟨st, h1, hr⟩ := hr
    rw [Except.bind_ok_iff] at hr
    obtain ⟨⟨o, s1⟩, h2, hr⟩ := hr
    cases hr
    have hi0 : LoopInv bus h S id s.bus 0 ⟨[], [], [], solver⟩ :=
      ⟨hm, List.nodup_nil, by simp, ⟨[], rfl, rfl, by simp⟩, List.nodup_nil, by simp⟩
    have hi := memoryLoop_inv hs hw.2 (suf := s.bus) (fun k => by rw [Nat.zero_add]) hi0 h1
    have k1 := hsc.same (madeFor_inv hs hi.solver) (memoryLoop_scope hsc.inv.cs h1)
    refine run_over hs k1 (op := .addAlgebraic _) ?_ ?_ h2
    · exact fun e he => hw'.1 e (List.mem_append.2 (Or.inr he))
    · rintro v ⟨e, he, hv⟩
      exact hd'.algebraic e (List.mem_append.2 (Or.inr he)) v hv

/-! ### Low degree functions and range constraints -/

theorem only_hypothesis {n : ℕ} {hyps : List (LowDegreeFunction p V)} (h : lowDegreeHypotheses n = .ok hyps)
    {g : LowDegreeFunction p V} (hg : g ∈ hyps) {l : List (GExpr p V)} (hl : ∀ e ∈ l, e.Only A) :
    (g l).Only A := by
  have hi : ∀ i, (inputAt l i).Only A := by
    intro i
    unfold inputAt
    rw [List.getD_eq_getElem?_getD]
    cases hi : l[i]? with
    | none => exact only_const _
    | some e => exact hl e (List.mem_of_getElem? hi)
  unfold lowDegreeHypotheses at h
  split at h
  · cases h
    simp only [List.mem_cons, List.not_mem_nil, or_false] at hg
    rcases hg with rfl | rfl | rfl | rfl
    · exact hi 0
    all_goals exact only_sub (only_const _) (hi 0)
  · cases h
    simp only [List.mem_cons, List.not_mem_nil, or_false] at hg
    rcases hg with rfl | rfl | rfl | rfl | rfl
    · exact hi 0
    · exact only_add (hi 0) (hi 1)
    · exact only_mul (hi 0) (hi 1)
    · exact only_sub (only_add (hi 0) (hi 1)) (only_mul (hi 0) (hi 1))
    · exact only_sub (only_add (hi 0) (hi 1)) (only_mul (only_const _) (only_mul (hi 0) (hi 1)))
  · cases h

theorem keepsVars_only {rh : RangeHandler p V} (hrh : rh.KeepsVars) {rcs : RangeConstraints p V}
    {made : List (BusInteraction (GExpr p V))} (h : rh.make rcs = .ok (some made))
    (hr : ∀ x ∈ rcs, x.1.Only A) : ∀ b ∈ made, ∀ e ∈ b.fields, e.Only A := by
  intro b hb e he v hv
  obtain ⟨x, hx, ho⟩ := hrh rcs made h b hb e he v (mem_vars_iff_occurs.1 hv)
  exact hr x hx v (mem_vars_iff_occurs.2 ho)

theorem lowDegreeLoop_only {h : Handler p} {isStateful : ZMod p → Bool} {rh : RangeHandler p V}
    (hrh : rh.KeepsVars) {bound : DegreeBound} {solver : Solver p V} :
    ∀ {bs : List (BusInteraction (GExpr p V))}
      {o : List (BusInteraction (GExpr p V)) × List (GExpr p V)},
      lowDegreeLoop h rh isStateful bound solver bs = .ok o →
      (∀ b ∈ bs, ∀ e ∈ b.fields, e.Only A) →
      (∀ b ∈ o.1, ∀ e ∈ b.fields, e.Only A) ∧ ∀ e ∈ o.2, e.Only A := by
  intro bs
  induction bs with
  | nil => intro o ho; cases ho; simp
  | cons b t ih =>
    intro o ho hb
    obtain ⟨rest, hrest, hcase⟩ := lowDegreeLoop_cons ho
    obtain ⟨ih1, ih2⟩ := ih hrest fun b h => hb b (List.mem_cons_of_mem _ h)
    rcases hcase with rfl | ⟨r, f, g, made, hr, hmade, rfl⟩
    · refine ⟨fun x hx => ?_, ih2⟩
      rcases List.mem_cons.1 hx with rfl | hx
      · exact hb x List.mem_cons_self
      · exact ih1 x hx
    · have hin : ∀ z ∈ f.inputs, z.expression.Only A := fun z hz =>
        hb b List.mem_cons_self _ (List.mem_cons_of_mem _ (List.mem_cons_of_mem _
            (List.mem_of_getElem? (hr.fn.ins z hz).1)))
      constructor
      · intro x hx
        rcases List.mem_append.1 hx with hx | hx
        · cases made with
          | none => rw [List.mem_singleton.1 hx]; exact hb b List.mem_cons_self
          | some made =>
            refine keepsVars_only hrh hmade ?_ x hx
            intro y hy
            rw [hr.ranges] at hy
            obtain ⟨z, hz, rfl⟩ := List.mem_map.1 hy
            exact hin z hz
        · exact ih1 x hx
      · have hc : r.constraint.Only A := by
          rw [hr.constraint]
          obtain ⟨n, hyps, h1, h2⟩ := hr.hyp
          refine only_sub ?_ (only_hypothesis h1 h2 fun e he => ?_)
          · exact hb b List.mem_cons_self _ (List.mem_cons_of_mem _ (List.mem_cons_of_mem _
              (List.mem_of_getElem? hr.fn.out)))
          · obtain ⟨z, hz, rfl⟩ := List.mem_map.1 he
            exact hin z hz
        intro e he
        simp only at he
        split at he
        · exact ih2 e he
        · rcases List.mem_cons.1 he with rfl | he
          · exact hc
          · exact ih2 e he

theorem onlyVars_lowDegree {bus : Bus p} {h : Handler p} (hs : h.Sound bus) {rh : RangeHandler p V}
    (hrh : rh.KeepsVars) {isStateful : ZMod p → Bool} {bound : DegreeBound}
    {s s' : ConstraintSystem p V} (hw' : s'.WF) {solver solver' : Solver p V} (hd : s.OnlyVars A)
    (hsc : Solver.Scoped (SVar.Over A) solver)
    (ho : lowDegreeOptimize h rh isStateful bound s solver = .ok (s', solver')) :
    s'.OnlyVars A ∧ Solver.Scoped (SVar.Over A) solver' := by
  obtain ⟨r, out, h1, h2, rfl⟩ := lowDegreeOptimize_ok ho
  obtain ⟨k1, k2⟩ := lowDegreeLoop_only hrh h1 hd.bus
  refine ⟨⟨fun e he => ?_, k1⟩, run_over hs hsc (op := .addAlgebraic _) ?_ ?_ h2⟩
  · rcases List.mem_append.1 he with he | he
    · exact hd.algebraic e he
    · exact k2 e he
  · exact fun e he => hw'.1 e (List.mem_append.2 (Or.inr he))
  · rintro v ⟨e, he, hv⟩
    exact k2 e he v hv

theorem onlyVars_ranges {bus : Bus p} {w : ℕ} {h : Handler p} {rh : RangeHandler p V}
    (hrh : rh.KeepsVars) {ch : Choices p V} {bound : DegreeBound}
    {s s' : ConstraintSystem p V} (he : rh.Exact bus w s.bus) (hd : s.OnlyVars A)
    (ho : optimizeRangeConstraints h rh ch bound s = .ok s') : s'.OnlyVars A := by
  obtain ⟨kept, rcs, solver, made, h1, -, h3, -, rfl⟩ := optimizeRangeConstraints_ok ho
  obtain ⟨c1, c2, c3⟩ := collectPure_spec h1
  have key : ∀ x ∈ (mergeRanges rcs).filter (rangeNeeded solver), x.1.Only A := by
    intro x hx
    have hx := (List.mem_filter.1 hx).1
    obtain ⟨e, he', rfl⟩ := List.mem_map.1 hx
    obtain ⟨x, hx', rfl⟩ := List.mem_map.1 (List.mem_dedup.1 (List.mem_reverse.1 he')
      |> List.mem_reverse.1)
    obtain ⟨b, hb, hm, r, hp, hxr⟩ := c3 x hx'
    exact hd.bus b hb _ (List.mem_cons_of_mem _ (List.mem_cons_of_mem _
      (he.shape b hb hm r hp x hxr).1))
  refine ⟨fun e he => ?_, fun b hb => ?_⟩
  · rcases List.mem_append.1 he with he | he
    · exact hd.algebraic e he
    · obtain ⟨x, hx, rfl⟩ := List.mem_map.1 he
      have := key x (List.mem_filter.1 hx).1
      exact only_mul this (only_sub this (only_const _))
  · rcases List.mem_append.1 hb with hb | hb
    · exact hd.bus b (c1 b hb)
    · exact keepsVars_only hrh h3 (fun x hx => key x (List.mem_filter.1 hx).1) b hb

/-! ### Rounds and runs -/

theorem ConstraintRound.onlyVars [Fintype V] (hV : Fintype.card V ≤ p) {c : OptimizerConfig p V}
    {bus : Bus p} (hc : c.Correct bus) {S : (V → ZMod p) → Prop} {m m' : Memory p}
    {s0 s s' : ConstraintSystem p V} (h : Stage c bus S m m' s0 s) {solver solver' : Solver p V}
    (hm : solver.MadeFor bus c.handler S)
    {ok : RuleInput p V → ConstraintSystem p V → ConstraintSystem p V → Prop}
    (hcmp : ∀ σ, S σ → ComparisonsRight σ ok)
    (r : ConstraintRound c ok s solver s' solver')
    (hnews : ∀ σ, S σ → ∀ d ∈ r.new7, d.Computed σ)
    (hrh : c.rangeHandler.KeepsVars) (hd : s.OnlyVars A) (hsc : Solver.Scoped (SVar.Over A) solver)
    (hA : ∀ d ∈ r.new7, A d.column) : s'.OnlyVars A ∧ Solver.Scoped (SVar.Over A) solver' := by
  obtain ⟨-, -, -, -, -, g6, -, m7, g8, g9, g10, -⟩ := r.stages hV hc h hm hcmp hnews
  have hs := hc.handler
  obtain ⟨d1, v1⟩ := onlyVars_solverBased (A := A) hs (Indexed.inv_history _ _)
    (by have := r.ix0.sys; rw [← this] at hd; exact hd) hsc r.step1
  have d2 : (removeTrivial r.s1).OnlyVars A := onlyVars_filter d1
  obtain ⟨d3, v3⟩ : r.s3.OnlyVars A ∧ Solver.Scoped (SVar.Over A) r.solver3 := by
    obtain ⟨delete, -, h2, -, h4⟩ := removeFree_ok r.step3
    rw [h4]
    exact ⟨onlyVars_filter (by rw [IndexOf.eq]; exact d2),
      run_over hs v1 (op := .retain _) trivial (fun v hv => hv.elim) h2⟩
  obtain ⟨d4, v4⟩ : r.s4.OnlyVars A ∧ Solver.Scoped (SVar.Over A) r.solver4 := by
    obtain ⟨keep, -, h2, -, h4⟩ := removeDisconnected_ok (Indexed.inv_history _ _) r.step4
    rw [h4]
    exact ⟨onlyVars_filter (by rw [r.ix3.sys]; exact d3),
      run_over hs v3 (op := .retain _) trivial (fun v hv => hv.elim) h2⟩
  have d5 : r.s5.OnlyVars A := onlyVars_simplifyExhaustive (by rw [IndexOf.eq]; exact d4) r.step5
  have d6 : r.s6.OnlyVars A := onlyVars_trivial d5 r.step6
  have d7 : r.st.finish.OnlyVars A :=
    onlyVars_finish (onlyVars_driver g6.wf (onlyVars_driverStart d6) r.step7 hA)
  have v7 : Solver.Scoped (SVar.Over A) r.solver7 := by
    refine run_over hs v4 (op := .addAlgebraic _) ?_ ?_ r.step8
    · intro e he
      obtain ⟨a, ha, rfl⟩ := List.mem_map.1 he
      exact wf_sub (wf_var _) (assignments_wf_run (st := driverStart r.solver4.get r.s6)
        (by simp [driverStart]) r.step7 a ha)
    · rintro v ⟨e, he, hv⟩
      obtain ⟨a, ha, rfl⟩ := List.mem_map.1 he
      exact only_sub (only_var (d7.assignments a ha).1) (d7.assignments a ha).2 v hv
  obtain ⟨d9, v9⟩ := onlyVars_memory hs g8.wf g9.wf m7 (onlyVars_substituteBusFields d7.sys) v7 r.step9
  exact onlyVars_lowDegree hs hrh g10.wf d9 v9 r.step10

theorem OptimizeLoop.onlyVars [Fintype V] (hV : Fintype.card V ≤ p) {c : OptimizerConfig p V}
    {bus : Bus p} (hc : c.Correct bus) {S : (V → ZMod p) → Prop} {m m' : Memory p}
    {s0 : ConstraintSystem p V}
    {ok : RuleInput p V → ConstraintSystem p V → ConstraintSystem p V → Prop}
    (hcmp : ∀ σ, S σ → ComparisonsRight σ ok)
    {s s' : ConstraintSystem p V} {solver solver' : Solver p V}
    (l : OptimizeLoop c ok s solver s' solver') (h : Stage c bus S m m' s0 s)
    (hm : solver.MadeFor bus c.handler S) (hnews : ∀ σ, S σ → ∀ d ∈ l.news, d.Computed σ)
    (hrh : c.rangeHandler.KeepsVars) (hd : s.OnlyVars A) (hsc : Solver.Scoped (SVar.Over A) solver)
    (hA : ∀ d ∈ l.news, A d.column) : s'.OnlyVars A ∧ Solver.Scoped (SVar.Over A) solver' := by
  induction l with
  | one r => exact r.onlyVars hV hc h hm hcmp hnews hrh hd hsc hA
  | more r rest ih =>
    have hn1 : ∀ σ, S σ → ∀ d ∈ r.new7, d.Computed σ :=
      fun σ hσ d hd => hnews σ hσ d (List.mem_append.2 (Or.inl hd))
    obtain ⟨-, -, -, -, -, -, -, -, -, -, h1, h2⟩ := r.stages hV hc h hm hcmp hn1
    obtain ⟨k1, k2⟩ := r.onlyVars hV hc h hm hcmp hn1 hrh hd hsc
      fun d hd => hA d (List.mem_append.2 (Or.inl hd))
    exact ih h1 h2 (fun σ hσ d hd => hnews σ hσ d (List.mem_append.2 (Or.inr hd))) k1 k2
      fun d hd => hA d (List.mem_append.2 (Or.inr hd))

theorem newSolver_over {bus : Bus p} {h : Handler p} (hs : h.Sound bus) {s : ConstraintSystem p V}
    (hw : s.WF) (hd : s.OnlyVars A) {solver : Solver p V} (hr : newSolver s = .ok solver) :
    Solver.Scoped (SVar.Over A) solver := by
  unfold newSolver at hr
  rw [Except.bind_ok_iff] at hr
  obtain ⟨s1, h1, hr⟩ := hr
  have h0 : Solver.Scoped (SVar.Over A) (Solver.new : Solver p V) := scoped_new.mono (by
    intro v hv; cases v <;> first | exact hv.elim | trivial)
  have k1 : Solver.Scoped (SVar.Over A) s1 := run_over hs h0 (op := .addAlgebraic s.algebraic)
    (out := .unit) hw.1 (fun v ⟨e, he, hv⟩ => hd.algebraic e he v hv) (by rw [SolverOp.run, h1]; rfl)
  exact run_over hs k1 (op := .addBus s.bus) (out := .unit) hw.2
    (fun v ⟨b, hb, e, he, hv⟩ => hd.bus b hb e he v hv) (by rw [SolverOp.run, hr]; rfl)

theorem OptimizePasses.onlyVars [Fintype V] (hV : Fintype.card V ≤ p) {c : OptimizerConfig p V}
    {bus : Bus p} (hc : c.Correct bus) {s s' : ConstraintSystem p V} (hw : s.WF)
    {ok : RuleInput p V → ConstraintSystem p V → ConstraintSystem p V → Prop}
    (r : OptimizePasses c ok s s') {w : ℕ}
    (he : c.rangeHandler.Exact bus w r.st.finish.system.bus)
    (hrh : c.rangeHandler.KeepsVars) (hd : s.OnlyVars A) (hA : ∀ d ∈ r.news, A d.column) :
    s'.OnlyVars A := by
  have h : Stage c bus (fun _ => False) (fun _ => none) (fun _ => none) s s :=
    ⟨hw, fun _ hf => hf.elim, fun _ hf => hf.elim, fun _ hf => hf.elim, fun _ hf => hf.elim⟩
  obtain ⟨m0, g1, g2, g3, -⟩ := r.stages hV hc h (fun _ hf => hf.elim) (fun _ hf => hf.elim) he
  have hs := hc.handler
  obtain ⟨d1, v1⟩ := r.loop.onlyVars (A := A) hV hc (fun _ hf => hf.elim) h m0
    (fun _ hf => hf.elim) hrh hd (newSolver_over hs hw hd r.step0)
    fun d hd => hA d (List.mem_append.2 (Or.inl hd))
  have d2 : r.ix2.sys.OnlyVars A := by
    have hw1 : (indexedHistory r.ix1.base r.ix1.ops).sys.WF := by rw [r.ix1.sys]; exact g1.wf
    have := ((replace_spec (Indexed.inv_history _ _) hw1 (belowDegreeBound c.bound) r.passes).1
      r.ix2 r.inlined r.step2).2.2.2.2.2.2.1
    rw [r.ix1.sys] at this
    rw [onlyVars_iff] at d1 ⊢
    exact fun v hv => d1 v (mentions_iff.2 (this v (mentions_iff.1 hv)))
  have d3 : r.s3.OnlyVars A := by
    obtain ⟨keep, -, -, -, h4⟩ := removeDisconnected_ok (Indexed.inv_history _ _) r.step3
    rw [h4]
    exact onlyVars_filter (by rw [r.ix3.sys]; exact d2)
  have d4 : r.st.finish.OnlyVars A :=
    onlyVars_finish (onlyVars_driver g3.wf (onlyVars_driverStart d3) r.step4
      fun d hd => hA d (List.mem_append.2 (Or.inr hd)))
  exact onlyVars_trivial (onlyVars_ranges hrh he d4.sys r.step5) r.step6

/-! ### OpenVM -/

theorem openVm_keepsOnly (m : BusMap) :
    ∀ rcs made, (openVmRangeHandler m : RangeHandler p V).make rcs = .ok (some made) →
      (∀ x ∈ rcs, x.1.Only A) → ∀ b ∈ made, ∀ e ∈ b.fields, e.Only A := by
  intro rcs made h hk
  simp only [openVmRangeHandler, batchMakeRangeConstraints] at h
  rw [Except.bind_ok_iff] at h
  obtain ⟨⟨s0, s1⟩, -, h⟩ := h
  simp only at h
  rw [Except.bind_ok_iff] at h
  obtain ⟨⟨r0, r1⟩, -, h⟩ := h
  simp only at h
  split at h
  · cases h
  · rw [Except.bind_ok_iff] at h
    obtain ⟨tupleId, -, h⟩ := h
    rw [Except.bind_ok_iff] at h
    obtain ⟨byteId, -, h⟩ := h
    rw [Except.bind_ok_iff] at h
    obtain ⟨otherId, -, h⟩ := h
    have hconst : ∀ a : ZMod p, (const a : GExpr p V).Only A := only_const
    have hbytes : ∀ e ∈ byteExpressions rcs, e.Only A := by
      intro e he
      unfold byteExpressions at he
      rw [List.mem_reverse, List.mem_dedup, List.mem_reverse] at he
      obtain ⟨x, hx, rfl⟩ := List.mem_map.1 he
      exact hk x (List.mem_filter.1 hx).1
    have hnon : ∀ x ∈ nonByteConstraints rcs, x.1.Only A := fun x hx =>
      hk x (List.mem_filter.1 hx).1
    have hother : ∀ {l : RangeConstraints p V} {o}, otherChecks otherId l = some o →
        (∀ x ∈ l, x.1.Only A) → ∀ b ∈ o, ∀ e ∈ b.fields, e.Only A := by
      intro l
      induction l with
      | nil => intro o ho; cases ho; simp
      | cons x t ih =>
        intro o ho hl
        obtain ⟨e, rc⟩ := x
        simp only [otherChecks] at ho
        cases h1 : rangeConstraintToNumBits rc with
        | none => rw [h1] at ho; cases ho
        | some bits =>
          cases h2 : otherChecks otherId t with
          | none => rw [h1, h2] at ho; cases ho
          | some rest =>
            rw [h1, h2] at ho
            cases ho
            intro b hb
            rcases List.mem_cons.1 hb with rfl | hb
            · intro e' he'
              simp only [BusInteraction.fields, List.mem_cons, List.not_mem_nil, or_false] at he'
              rcases he' with rfl | rfl | rfl | rfl
              · exact hconst _
              · exact hconst _
              · exact hl (e', rc) List.mem_cons_self
              · exact hconst _
            · exact ih h2 (fun x hx => hl x (List.mem_cons_of_mem _ hx)) b hb
    have hbyte : ∀ (l : List (GExpr p V)), (∀ e ∈ l, e.Only A) →
        ∀ b ∈ byteChecks byteId l, ∀ e ∈ b.fields, e.Only A := by
      intro l
      induction l using byteChecks.induct with
      | case1 => intro _ b hb; cases hb
      | case2 x =>
        intro hl b hb e he
        rw [byteChecks, List.mem_singleton] at hb
        subst hb
        simp only [BusInteraction.fields, List.mem_cons, List.not_mem_nil, or_false] at he
        rcases he with rfl | rfl | rfl | rfl | rfl | rfl
        all_goals first | exact hconst _ | exact hl _ (by simp)
      | case3 x y t ih =>
        intro hl b hb
        rw [byteChecks] at hb
        rcases List.mem_cons.1 hb with rfl | hb
        · intro e he
          simp only [BusInteraction.fields, List.mem_cons, List.not_mem_nil, or_false] at he
          rcases he with rfl | rfl | rfl | rfl | rfl | rfl
          all_goals first | exact hconst _ | exact hl _ (by simp)
        · exact ih (fun e he => hl e (by simp [he])) b hb
    simp only [pure, Except.pure, Except.ok.injEq] at h
    rw [Option.bind_eq_bind, Option.bind_eq_some_iff] at h
    obtain ⟨others, ho, h⟩ := h
    cases h
    intro b hb
    rcases List.mem_append.1 hb with hb | hb
    · rcases List.mem_append.1 hb with hb | hb
      · unfold tupleChecks at hb
        obtain ⟨⟨x, y⟩, hxy, rfl⟩ := List.mem_map.1 hb
        obtain ⟨h1, h2⟩ := List.of_mem_zip hxy
        intro e he
        simp only [BusInteraction.fields, List.mem_cons, List.not_mem_nil, or_false] at he
        rcases he with rfl | rfl | rfl | rfl
        · exact hconst _
        · exact hconst _
        · exact hbytes _ (List.mem_of_mem_take h1)
        · obtain ⟨z, hz, rfl⟩ := List.mem_map.1 h2
          exact hnon z (List.mem_filter.1 (List.mem_of_mem_take hz)).1
      · exact hbyte _ (fun e he => hbytes e (List.mem_of_mem_drop he)) b hb
    · refine hother ho (fun x hx => ?_) b hb
      rcases List.mem_append.1 hx with hx | hx
      · exact hnon x (List.mem_filter.1 hx).1
      · exact hnon x (List.mem_filter.1 (List.mem_of_mem_drop hx)).1

theorem openVm_keepsVars (m : BusMap) : (openVmRangeHandler m : RangeHandler p V).KeepsVars := by
  intro rcs made h b hb e he v hv
  exact openVm_keepsOnly (A := fun v => ∃ x ∈ rcs, x.1.Occurs v) m rcs made h
    (fun x hx v hv => ⟨x, hx, mem_vars_iff_occurs.1 hv⟩) b hb e he v (mem_vars_iff_occurs.2 hv)

end Verif
