import Verif.Proofs.SolverFixpoint
import Verif.Proofs.SolverOps

/-!
# What the solver has settled: histories of calls
-/

set_option linter.unusedSectionVars false

namespace Verif

open GExpr

variable {p : ℕ} [Fact p.Prime] {V : Type} [LinearOrder V]

/-! ### Affine expressions are determined by their values -/

theorem sum_indicator {l : List (V × ZMod p)} (hl : l.Pairwise fun e f => e.1 < f.1) (v : V) :
    (∀ k, (v, k) ∈ l → (l.map fun e => e.2 * (if e.1 = v then (1 : ZMod p) else 0)).sum = k) ∧
    ((∀ k, (v, k) ∉ l) → (l.map fun e => e.2 * (if e.1 = v then (1 : ZMod p) else 0)).sum = 0) := by
  induction l with
  | nil => simp
  | cons a t ih =>
    obtain ⟨w, d⟩ := a
    rw [List.pairwise_cons] at hl
    obtain ⟨i1, i2⟩ := ih hl.2
    simp only [List.map_cons, List.sum_cons]
    constructor
    · intro k hk
      rcases List.mem_cons.1 hk with hk | hk
      · cases hk
        rw [i2 fun k' hk' => lt_irrefl _ (hl.1 (v, k') hk')]
        simp
      · have hne : w ≠ v := ne_of_lt (hl.1 _ hk)
        rw [i1 k hk, if_neg hne]
        simp
    · intro hk
      have hne : w ≠ v := fun h => hk d (by rw [h]; simp)
      rw [i2 fun k hk' => hk k (List.mem_cons_of_mem _ hk'), if_neg hne]
      simp

theorem affine_mem_iff {l : List (V × ZMod p)} {c : ZMod p} (hw : WF (mk [] l c)) (v : V)
    (k : ZMod p) : (v, k) ∈ l ↔ k ≠ 0 ∧
      eval (fun w => if w = v then 1 else 0) (mk [] l c) - eval (fun _ => 0) (mk [] l c) = k := by
  obtain ⟨-, h2, h3⟩ := wf_inv hw
  obtain ⟨i1, i2⟩ := sum_indicator h2 v
  have h0 : eval (fun _ => 0) (mk [] l c) = c := by
    rw [eval_mk]
    simp
  have h1 : eval (fun w => if w = v then (1 : ZMod p) else 0) (mk [] l c) =
      (l.map fun e => e.2 * (if e.1 = v then (1 : ZMod p) else 0)).sum + c := by
    rw [eval_mk]
    simp
  rw [h0, h1]
  constructor
  · intro hk
    refine ⟨h3 _ hk, ?_⟩
    rw [i1 k hk]
    ring
  · rintro ⟨hk, he⟩
    by_contra hn
    by_cases hex : ∃ k', (v, k') ∈ l
    · obtain ⟨k', hk'⟩ := hex
      rw [i1 k' hk'] at he
      apply hn
      rw [show k = k' by rw [← he]; ring]
      exact hk'
    · push Not at hex
      rw [i2 hex] at he
      apply hk
      rw [← he]
      ring

theorem affine_ext {a b : GExpr p V} (ha : WF a) (hb : WF b) (ha' : a.isAffine = true)
    (hb' : b.isAffine = true) (h : ∀ σ : V → ZMod p, eval σ a = eval σ b) : a = b := by
  obtain ⟨q, l, c⟩ := a
  obtain ⟨q', l', c'⟩ := b
  have hq : q = [] := isAffine_iff.1 ha'
  have hq' : q' = [] := isAffine_iff.1 hb'
  subst hq hq'
  have hc : c = c' := by
    have := h fun _ => 0
    rw [eval_mk, eval_mk] at this
    simpa using this
  have hl : l = l' := by
    obtain ⟨-, h1, -⟩ := wf_inv ha
    obtain ⟨-, h2, -⟩ := wf_inv hb
    have hm : ∀ x, x ∈ l ↔ x ∈ l' := by
      rintro ⟨v, k⟩
      rw [affine_mem_iff ha, affine_mem_iff hb, h, h]
    have n1 : l.Nodup := h1.imp fun h e => by rw [e] at h; exact lt_irrefl _ h
    have n2 : l'.Nodup := h2.imp fun h e => by rw [e] at h; exact lt_irrefl _ h
    refine List.Perm.eq_of_pairwise ?_ h1 h2 ((List.perm_ext_iff_of_nodup n1 n2).2 hm)
    intro a b _ _ h3 h4
    exact absurd h3 (lt_asymm h4)
  rw [hc, hl]

/-! ### What is left of an affine constraint -/

theorem wf_two {x y : V} {a b : ZMod p} (h : x < y) (ha : a ≠ 0) (hb : b ≠ 0) :
    WF (mk [] [(x, a), (y, b)] 0 : GExpr p V) := by
  refine .mk _ _ _ (by simp) (by simp) (by simp) (by simp) ?_ ?_
  · simpa using h
  · simp [ha, hb]

theorem leftover_of_stable {h : Handler p} {rc : SVar V → RangeConstraint p}
    {e : GExpr p (SVar V)} (hw : WF e) (ha : e.isAffine = true)
    (hs : Solver.Stable h rc (.alg e)) : Leftover e := by
  obtain ⟨q, l, c⟩ := e
  have hq : q = [] := isAffine_iff.1 ha
  subst hq
  obtain ⟨h1, r, h2, h3⟩ := hs
  obtain ⟨-, hl, hn⟩ := wf_inv hw
  rcases l with _ | ⟨⟨x, a⟩, _ | ⟨⟨y, b⟩, t⟩⟩
  · left
    rw [GExpr.solve] at h2
    split at h2
    · cases h2
    · split at h2
      · cases h2
      · rename_i hc
        push Not at hc
        rw [hc]
        rfl
  · exfalso
    rw [GExpr.solve] at h2
    split at h2
    · cases h2
    · unfold solveAffine at h2
      simp only [GExpr.linear] at h2
      split at h2
      · cases h2
      · simp only [Except.ok.injEq] at h2
        unfold assignmentIfSatisfies at h2
        split at h2
        · cases h2
        · cases h2
          exact h3 _ (List.mem_singleton.2 rfl)
  · right
    have hxy : x < y := (List.pairwise_cons.1 hl).1 (y, b) (by simp)
    refine ⟨⟨x, mem_vars_mk.2 (Or.inr ⟨a, by simp⟩), y, mem_vars_mk.2 (Or.inr ⟨b, by simp⟩),
      ne_of_lt hxy⟩, ?_⟩
    rintro ⟨k, u, v, hk, huv, he⟩
    have main : ∀ {u v : SVar V} {k : ZMod p}, u < v → k ≠ 0 →
        (∀ σ : SVar V → ZMod p, eval σ (mk [] ((x, a) :: (y, b) :: t) c) = k * (σ u - σ v)) → False := by
      intro u v k huv hk he
      have := affine_ext hw (wf_two huv hk (neg_ne_zero.2 hk)) ha (by rfl) fun σ => by
        rw [he, eval_mk]
        simp
        ring
      rw [this] at h1
      unfold Solver.trySimpleEquivalence at h1
      simp only [isAffine, isQuadratic, GExpr.quadratic, GExpr.constant, GExpr.linear] at h1
      simp [hk] at h1
    rcases lt_trichotomy u v with h' | h' | h'
    · exact main h' hk he
    · exact huv h'
    · exact main h' (neg_ne_zero.2 hk) fun σ => by rw [he]; ring

/-! ### From the variables of the solver to those of the caller -/

theorem affine_transformVars {W : Type} [LinearOrder W] {f : V → Option W} {e : GExpr p V}
    {e' : GExpr p W} (ha : e.isAffine = true) (he : transformVars f e = some e') :
    e'.isAffine = true := by
  obtain ⟨q, li, k⟩ := e
  have hq : q = [] := isAffine_iff.1 ha
  subst hq
  simp only [transformVars, transformVarsQ, bind, Option.bind] at he
  split at he
  · cases he
  · cases he
    rfl

theorem affine_transformExpr {e : GExpr p V} (ha : e.isAffine = true) :
    (transformExpr e).isAffine = true := by
  unfold transformExpr
  obtain ⟨e', he⟩ := transformVars_total (f := SVar.original) e
  rw [he, Option.getD_some]
  exact affine_transformVars ha he

theorem vars_transformExpr {e : GExpr p V} {x : SVar V} (hx : x ∈ (transformExpr e).vars) :
    ∃ v ∈ e.vars, x = .original v := by
  unfold transformExpr at hx
  obtain ⟨e', he⟩ := transformVars_total (f := SVar.original) e
  rw [he, Option.getD_some] at hx
  obtain ⟨u, h1, hu⟩ := vars_transformVars he x hx
  cases hu
  exact ⟨u, h1, rfl⟩

theorem Leftover.of_transform {e : GExpr p V} (hw : WF e) (ha : e.isAffine = true)
    (h : Leftover (transformExpr e)) : Leftover e := by
  rcases h with h | ⟨⟨x, hx, y, hy, hxy⟩, h⟩
  · left
    refine affine_ext hw (wf_const 0) ha (affine_const 0) fun σ => ?_
    rw [← transformExpr_spec (τ := fun v => match v with | .original v => σ v | _ => 0) hw
      (fun _ => rfl), h, eval_const, eval_const]
  · right
    obtain ⟨u, hu, rfl⟩ := vars_transformExpr hx
    obtain ⟨v, hv, rfl⟩ := vars_transformExpr hy
    refine ⟨⟨u, hu, v, hv, fun h => hxy (by rw [h])⟩, ?_⟩
    rintro ⟨a, x, y, h1, h2, h3⟩
    refine h ⟨a, .original x, .original y, h1, fun h => h2 (by cases h; rfl), fun τ => ?_⟩
    rw [transformExpr_spec (σ := fun v => τ (.original v)) hw (fun _ => rfl), h3]

theorem subst_transformExpr {e r : GExpr p V} (hw : WF e) (ha : e.isAffine = true) (hr : WF r)
    (hr' : r.isAffine = true) (v : V) :
    GExpr.subst (.original v) (transformExpr r) (transformExpr e) =
      transformExpr (GExpr.subst v r e) := by
  refine affine_ext (wf_subst _ (transformExpr_wf hr) (transformExpr_wf hw))
    (transformExpr_wf (wf_subst _ hr hw)) (affine_subst _ (affine_transformExpr hr')
      (affine_transformExpr ha)) (affine_transformExpr (affine_subst _ hr' ha)) fun τ => ?_
  rw [eval_subst, transformExpr_spec (σ := fun v => τ (.original v)) (wf_subst _ hr hw) (fun _ => rfl),
    eval_subst, transformExpr_spec (σ := fun v => τ (.original v)) hr (fun _ => rfl)]
  refine transformExpr_spec hw fun u => ?_
  by_cases h : u = v
  · rw [h]; simp
  · rw [Function.update_of_ne h, Function.update_of_ne (fun h' => h (by cases h'; rfl))]

theorem transformExpr_const (c : ZMod p) :
    transformExpr (const c : GExpr p V) = const c := by
  refine affine_ext (transformExpr_wf (wf_const c)) (wf_const c)
    (affine_transformExpr (affine_const c)) (affine_const c) fun τ => ?_
  rw [transformExpr_spec (σ := fun v => τ (.original v)) (wf_const c) (fun _ => rfl), eval_const,
    eval_const]

theorem transformExpr_var (v : V) :
    transformExpr (var v : GExpr p V) = var (.original v) := by
  refine affine_ext (transformExpr_wf (wf_var v)) (wf_var _)
    (affine_transformExpr (affine_var v)) (affine_var _) fun τ => ?_
  rw [transformExpr_spec (σ := fun v => τ (.original v)) (wf_var v) (fun _ => rfl), eval_var,
    eval_var]

theorem original_of_lt {v : V} {y : SVar V} (h : y < .original v) : ∃ w, y = .original w := by
  cases y with
  | original w => exact ⟨w, rfl⟩
  | boolean n => exact absurd h (by
      show ¬ ((SVar.boolean n : SVar V).toLex < (SVar.original v : SVar V).toLex)
      simp [SVar.toLex])
  | linearized n => exact absurd h (by
      show ¬ ((SVar.linearized n : SVar V).toLex < (SVar.original v : SVar V).toLex)
      simp [SVar.toLex])

/-- The assignments that the caller gets have the same effect on the expressions of the caller. -/
theorem applyAll_original : ∀ {L : List (SVar V × GExpr p (SVar V))} {l : List (V × GExpr p V)}
    {e : GExpr p V}, (∀ a ∈ L, Solver.Plain a) → originalAssignments L = .ok l → WF e →
    e.isAffine = true → applyAll L (transformExpr e) = transformExpr (applyAll l e) ∧
      WF (applyAll l e) ∧ (applyAll l e).isAffine = true := by
  intro L
  induction L with
  | nil => intro l e _ h hw ha; cases h; exact ⟨rfl, hw, ha⟩
  | cons a t ih =>
    intro l e hp h hw ha
    obtain ⟨x, r⟩ := a
    rw [originalAssignments] at h
    split at h
    · obtain ⟨l', h1, h2⟩ := stop_bind_ok h
      cases h2
      have ht := fun (e' : GExpr p V) => ih (e := e') (fun a ha => hp a (by simp [ha])) h1
      have hstep : applyAll ((x, r) :: t) (transformExpr e) =
        applyAll t (GExpr.subst x r (transformExpr e)) := rfl
      rw [hstep]
      have key : ∀ (v : V) (r' : GExpr p V), x = .original v → r = transformExpr r' → WF r' →
          r'.isAffine = true → transformVars SVar.tryToOriginal r = some r' →
          applyAll t (GExpr.subst x r (transformExpr e)) = transformExpr (applyAll
            ((x.tryToOriginal.bind fun v => (transformVars SVar.tryToOriginal r).map
              fun e' => (v, e')).toList ++ l') e) ∧ WF (applyAll
            ((x.tryToOriginal.bind fun v => (transformVars SVar.tryToOriginal r).map
              fun e' => (v, e')).toList ++ l') e) ∧ (applyAll
            ((x.tryToOriginal.bind fun v => (transformVars SVar.tryToOriginal r).map
              fun e' => (v, e')).toList ++ l') e).isAffine = true := by
        intro v r' hx hr h3 h4 h5
        rw [h5]
        subst hx hr
        simp only [SVar.tryToOriginal, Option.bind_some, Option.map_some, Option.toList_some,
          List.cons_append, List.nil_append]
        rw [subst_transformExpr hw ha h3 h4]
        exact ht _ (wf_subst _ h3 hw) (affine_subst _ h4 ha)
      cases x with
      | original v =>
        rcases hp _ List.mem_cons_self with ⟨c, hc⟩ | ⟨y, hy, hlt⟩
        · simp only at hc
          refine key v (const c) rfl (by rw [hc, transformExpr_const]) (wf_const c) (affine_const c) ?_
          rw [hc]
          rfl
        · simp only at hy hlt
          obtain ⟨w, rfl⟩ := original_of_lt hlt
          refine key v (var w) rfl (by rw [hy, transformExpr_var]) (wf_var w) (affine_var w) ?_
          rw [hy]
          rfl
      | boolean n =>
        rw [subst_of_not_mem fun hx => by obtain ⟨_, _, h⟩ := vars_transformExpr hx; cases h]
        exact ht _ hw ha
      | linearized n =>
        rw [subst_of_not_mem fun hx => by obtain ⟨_, _, h⟩ := vars_transformExpr hx; cases h]
        exact ht _ hw ha
    · cases h

/-! ### The calls -/

namespace Solver

variable {bus : Bus p} {h : Handler p} {s s' : Solver p V}

theorem equivalentExpressions_same {e : GExpr p (SVar V)} {r : List (GExpr p (SVar V)) × Solver p V}
    (hr : equivalentExpressions e s = .ok r) : r.2.cs = s.cs ∧ r.2.rcs = s.rcs := by
  unfold equivalentExpressions at hr
  split at hr
  · cases hr; exact ⟨rfl, rfl⟩
  · split at hr
    · cases hr; exact ⟨rfl, rfl⟩
    · obtain ⟨_, -, hr⟩ := stop_bind_ok hr
      obtain ⟨_, -, hr⟩ := stop_bind_ok hr
      cases hr
      exact ⟨rfl, rfl⟩

theorem knownDifferent_same {a b : GExpr p (SVar V)} {r : Bool × Solver p V}
    (hr : knownDifferent a b s = .ok r) : r.2.cs = s.cs ∧ r.2.rcs = s.rcs := by
  unfold knownDifferent at hr
  split at hr
  · cases hr; exact ⟨rfl, rfl⟩
  · obtain ⟨ra, h1, hr⟩ := stop_bind_ok hr
    obtain ⟨rb, h2, hr⟩ := stop_bind_ok hr
    obtain ⟨_, -, hr⟩ := stop_bind_ok hr
    cases hr
    obtain ⟨k1, k2⟩ := equivalentExpressions_same h1
    obtain ⟨k3, k4⟩ := equivalentExpressions_same h2
    exact ⟨k3.trans k1, k4.trans k2⟩

theorem Settled.of_same (hs : Settled h s) (h1 : s'.cs = s.cs) (h2 : s'.rcs = s.rcs) :
    Settled h s' := by
  intro y c hc
  rw [h1] at hc ⊢
  rw [h2]
  exact hs y c hc

theorem refAt_sys_vars {t : ConstraintSystem p (SVar V)} {y : Item}
    {c : ConstraintRef p (SVar V)} {v : SVar V}
    (hc : refAt t y = some c) (hv : v ∈ c.varList) : v ∈ t.vars := by
  rw [mem_sys_vars]
  cases y with
  | alg i =>
    simp only [refAt, Option.map_eq_some_iff] at hc
    obtain ⟨e, he, rfl⟩ := hc
    exact Or.inl ⟨e, List.mem_of_getElem? he, hv⟩
  | bus i =>
    simp only [refAt, Option.map_eq_some_iff] at hc
    obtain ⟨b, hb, rfl⟩ := hc
    simp only [ConstraintRef.varList, busVars, List.mem_flatMap] at hv
    obtain ⟨e, he, hv⟩ := hv
    exact Or.inr ⟨b, List.mem_of_getElem? hb, e, he, hv⟩
  | derived i => cases hc

theorem retain_settled {keep : List (SVar V)} (hi : s.Inv) (hs : Settled h s)
    (hr : retain keep s = .ok s') : Settled h s' := by
  unfold retain at hr
  split at hr
  · cases hr
  · obtain ⟨c1, k1, k2, k3, k4⟩ := Queued.retainAlgebraic_ok hi.cs
      (fun _ e => e.vars.any (s.keeps keep))
    obtain ⟨c2, m1, m2, m3, m4⟩ := Queued.retainBus_ok k3
      (fun _ b => (busVars b).any (s.keeps keep))
    rw [k1, liftPanic_ok, stop_bind, m1, liftPanic_ok, stop_bind, stop_pure] at hr
    cases hr
    intro y c hc
    simp only at hc ⊢
    rcases m4 with ⟨m5, m6⟩ | m5
    · rcases k4 with ⟨k5, k6⟩ | k5
      · right
        have hc' := hc
        rw [m2] at hc
        obtain ⟨z, hz⟩ := refAt_retainBus (by rfl) (by rfl) hc
        rw [k2] at hz
        obtain ⟨z', hz'⟩ := refAt_retain (by rfl) (by rfl) hz
        rcases hs z' c hz' with h' | h'
        · rw [k5] at h'; cases h'
        · refine h'.congr (refWF hi hz') fun v hv => ?_
          rw [if_pos (refAt_sys_vars hc' hv)]
      · exfalso
        have hc' := hc
        rw [m2] at hc
        obtain ⟨z, hz⟩ := refAt_retainBus (by rfl) (by rfl) hc
        have := k5 z (refAt_inBounds hz).1 (refAt_inBounds hz).2
        rw [m5] at this
        cases this
    · exact Or.inl (m5 y (refAt_inBounds hc).1 (refAt_inBounds hc).2)

/-- What is true after `solve`. -/
theorem solve_settled {ch : Choices p V} (hsd : h.Sound bus) (hi : s.Inv) (hs : Settled h s)
    {r : List (SVar V × GExpr p (SVar V)) × Solver p V} (hr : solve h ch s = .ok r) :
    Settled h r.2 ∧ r.2.cs.queue.queue = [] ∧ (∃ l, r.1 = s.toReturn ++ l ∧ (∀ a ∈ l, Plain a) ∧
      ∀ (i : ℕ) e, s.cs.ix.sys.algebraic[i]? = some e →
        r.2.cs.ix.sys.algebraic[i]? = some (applyAll l e)) ∧
    ∀ s1 : Solver p V, s1.cs = r.2.cs → s1.rcs = r.2.rcs →
      exhaustiveSearch h s1 = .ok (false, s1) := by
  unfold solve at hr
  obtain ⟨s2, h1, h2⟩ := stop_bind_ok hr
  cases h2
  obtain ⟨k1, k2, k3, k4, k5⟩ := loopUntilNoProgress_settled hsd ch _ hi.clearCache
    (hs.of_same (s' := { s with cache := [] }) rfl rfl) h1
  refine ⟨k2.of_same rfl rfl, k3, k4, fun s1 g1 g2 => ?_⟩
  simp only at g1 g2
  unfold exhaustiveSearch at k5 ⊢
  rw [g1, g2]
  exact searchSets_again g1 g2 k1.cs k5

theorem run_settled (hsd : h.Sound bus) (hi : s.Inv) (hs : Settled h s) {op : SolverOp p V}
    {r : SolverOut p V × Solver p V} (hr : op.run h s = .ok r) : Settled h r.2 := by
  cases op with
  | addAlgebraic es =>
    obtain ⟨s1, h1, h2⟩ := stop_bind_ok hr
    cases h2
    exact hs.step hi (addAlgebraic_step hi.cs h1).1
  | addBus bs =>
    obtain ⟨s1, h1, h2⟩ := stop_bind_ok hr
    cases h2
    exact hs.step hi (addBus_step hi.cs h1)
  | addRange v x =>
    obtain ⟨s1, h1, h2⟩ := stop_bind_ok hr
    cases h2
    obtain ⟨o, h3, h4⟩ := stop_bind_ok h1
    cases h4
    exact (hs.of_same (s' := { s with cache := [] }) rfl rfl).step hi.clearCache
      (applyRc_step hi.clearCache.cs h3).1
  | retain keep =>
    obtain ⟨s1, h1, h2⟩ := stop_bind_ok hr
    cases h2
    exact retain_settled hi hs h1
  | solve ch =>
    obtain ⟨o, h1, h2⟩ := stop_bind_ok hr
    obtain ⟨l, -, h3⟩ := stop_bind_ok h2
    cases h3
    exact (solve_settled hsd hi hs h1).1
  | knownDifferent a b =>
    obtain ⟨o, h1, h2⟩ := stop_bind_ok hr
    cases h2
    obtain ⟨k1, k2⟩ := knownDifferent_same h1
    exact hs.of_same k1 k2

theorem settled_new : Settled h (Solver.new : Solver p V) := by
  intro y c hc
  cases y <;> simp [Solver.new, Queued.empty, refAt] at hc

theorem run_inv (hsd : h.Sound bus) (hi : s.Inv) {op : SolverOp p V} (hw : op.WF)
    {r : SolverOut p V × Solver p V} (hr : op.run h s = .ok r) : r.2.Inv := by
  have := run_spec hsd hi hw
  rw [hr] at this
  exact this.1

theorem runOps_settled (hsd : h.Sound bus) : ∀ {ops : List (SolverOp p V)} {s : Solver p V}
    {r : List (SolverOut p V) × Solver p V}, s.Inv → Settled h s → (∀ op ∈ ops, op.WF) →
    runOps h ops s = .ok r → r.2.Inv ∧ Settled h r.2 := by
  intro ops
  induction ops with
  | nil => intro s r hi hs _ hr; cases hr; exact ⟨hi, hs⟩
  | cons op t ih =>
    intro s r hi hs hw hr
    rw [runOps] at hr
    obtain ⟨r1, h1, h2⟩ := stop_bind_ok hr
    obtain ⟨r2, h3, h4⟩ := stop_bind_ok h2
    cases h4
    exact ih (r := r2) (run_inv hsd hi (hw op (by simp)) h1) (run_settled hsd hi hs h1)
      (fun o ho => hw o (by simp [ho])) h3

theorem runOps_append : ∀ {ops ops' : List (SolverOp p V)} {s : Solver p V}
    {r : List (SolverOut p V) × Solver p V}, runOps h (ops ++ ops') s = .ok r →
    ∃ outs s1 outs', runOps h ops s = .ok (outs, s1) ∧ runOps h ops' s1 = .ok (outs', r.2) ∧
      r.1 = outs ++ outs' := by
  intro ops
  induction ops with
  | nil => intro ops' s r hr; exact ⟨[], s, r.1, rfl, hr, rfl⟩
  | cons op t ih =>
    intro ops' s r hr
    rw [List.cons_append, runOps] at hr
    obtain ⟨r1, h1, h2⟩ := stop_bind_ok hr
    obtain ⟨r2, h3, h4⟩ := stop_bind_ok h2
    cases h4
    obtain ⟨outs, s1, outs', h5, h6, h7⟩ := ih h3
    refine ⟨r1.1 :: outs, s1, outs', ?_, h6, by simp [h7]⟩
    rw [runOps, h1, stop_bind, h5]
    rfl

/-- What was determined by range constraints was fetched. -/
theorem runOps_fetched (hsd : h.Sound bus) : ∀ {ops : List (SolverOp p V)} {s : Solver p V}
    {r : List (SolverOut p V) × Solver p V} {b : Bool}, s.Inv → (b = true → s.toReturn = []) →
    (∀ op ∈ ops, op.WF) → runOps h ops s = .ok r →
    ops.foldl (fun b op => match op with
      | .addRange _ _ => false
      | .solve _ => true
      | _ => b) b = true → r.2.toReturn = [] := by
  intro ops
  induction ops with
  | nil => intro s r b _ hb _ hr h1; cases hr; exact hb h1
  | cons op t ih =>
    intro s r b hi hb hw hr hf
    rw [runOps] at hr
    obtain ⟨r1, h1, h2⟩ := stop_bind_ok hr
    obtain ⟨r2, h3, h4⟩ := stop_bind_ok h2
    cases h4
    have hi1 := run_inv hsd hi (hw op (by simp)) h1
    rw [List.foldl_cons] at hf
    refine ih (r := r2) hi1 ?_ (fun o ho => hw o (by simp [ho])) h3 hf
    have hrun := run_toReturn hsd hi (hw op (by simp)) h1
    cases op with
    | addRange v r => intro h; cases h
    | solve ch => intro _; exact solve_toReturn hsd hi h1
    | addAlgebraic es =>
      intro h
      rcases hrun (hb h) with h' | ⟨_, _, h'⟩
      · exact h'
      · cases h'
    | addBus es =>
      intro h
      rcases hrun (hb h) with h' | ⟨_, _, h'⟩
      · exact h'
      · cases h'
    | retain es =>
      intro h
      rcases hrun (hb h) with h' | ⟨_, _, h'⟩
      · exact h'
      · cases h'
    | knownDifferent es =>
      intro h
      rcases hrun (hb h) with h' | ⟨_, _, h'⟩
      · exact h'
      · cases h'

/-- Constraints stay where they are while others are added. -/
theorem runOps_adds (hsd : h.Sound bus) : ∀ {ops : List (SolverOp p V)} {s : Solver p V}
    {r : List (SolverOut p V) × Solver p V}, s.Inv → s.toReturn = [] → (∀ op ∈ ops, op.WF) →
    (∀ op ∈ ops, op.Adds) → runOps h ops s = .ok r → r.2.toReturn = [] ∧
      ∀ (i : ℕ) e, s.cs.ix.sys.algebraic[i]? = some e → r.2.cs.ix.sys.algebraic[i]? = some e := by
  intro ops
  induction ops with
  | nil => intro s r _ hb _ _ hr; cases hr; exact ⟨hb, fun _ _ h => h⟩
  | cons op t ih =>
    intro s r hi hb hw ha hr
    rw [runOps] at hr
    obtain ⟨r1, h1, h2⟩ := stop_bind_ok hr
    obtain ⟨r2, h3, h4⟩ := stop_bind_ok h2
    cases h4
    have hi1 := run_inv hsd hi (hw op (by simp)) h1
    have hrun := run_toReturn hsd hi (hw op (by simp)) h1 hb
    have key : Step s r1.2 ∧ r1.2.toReturn = [] := by
      cases op with
      | addAlgebraic es =>
        rcases hrun with h' | ⟨_, _, h'⟩
        · obtain ⟨s1, h5, h6⟩ := stop_bind_ok h1
          cases h6
          exact ⟨(addAlgebraic_step hi.cs h5).1, h'⟩
        · cases h'
      | addBus bs =>
        rcases hrun with h' | ⟨_, _, h'⟩
        · obtain ⟨s1, h5, h6⟩ := stop_bind_ok h1
          cases h6
          exact ⟨addBus_step hi.cs h5, h'⟩
        · cases h'
      | addRange v x => exact absurd (ha _ List.mem_cons_self) id
      | retain v => exact absurd (ha _ List.mem_cons_self) id
      | solve v => exact absurd (ha _ List.mem_cons_self) id
      | knownDifferent v x => exact absurd (ha _ List.mem_cons_self) id
    obtain ⟨k1, k2⟩ := ih (r := r2) hi1 key.2 (fun o ho => hw o (by simp [ho])) (fun o ho => ha o (by simp [ho])) h3
    refine ⟨k1, fun i e he => ?_⟩
    obtain ⟨l, g1, -, g3⟩ := key.1.found
    rw [key.2, hb] at g1
    have : l = [] := by simpa using g1.symm
    subst this
    exact k2 i e (g3 i e he)

end Solver

end Verif
