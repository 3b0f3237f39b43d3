import Verif.Proofs.SolverSteps
import Verif.Spec.Solver

/-! Helper lemmas about the solver: the public operations. -/

set_option linter.unusedSectionVars false

namespace Verif

open GExpr

variable {p : ℕ} {V : Type} [Fact p.Prime] [LinearOrder V]

namespace Solver

variable {bus : Bus p} {s s' s'' : Solver p V} {h : Handler p}

theorem eval_of_tryToKnown' {τ : SVar V → ZMod p} {e : GExpr p (SVar V)} {k : ZMod p}
    (h : e.tryToKnown = some k) : eval τ e = k := by
  rw [tryToKnown_eq_some] at h
  subst h
  simp [eval_mk]

/-! ### solve -/

theorem foldSubst_spec : ∀ {l : List (SVar V × GExpr p (SVar V))},
    (∀ x ∈ l, WF x.2 ∧ s.BelowE x.2 ∧ x.2.isAffine = true) →
    ∀ {e : GExpr p (SVar V)}, WF e → s.BelowE e →
    WF (l.foldl (fun e x => GExpr.subst x.1 x.2 e) e) ∧
    s.BelowE (l.foldl (fun e x => GExpr.subst x.1 x.2 e) e) ∧
    (e.isAffine = true → (l.foldl (fun e x => GExpr.subst x.1 x.2 e) e).isAffine = true) ∧
    ∀ τ : SVar V → ZMod p, (∀ x ∈ l, τ x.1 = eval τ x.2) →
      eval τ (l.foldl (fun e x => GExpr.subst x.1 x.2 e) e) = eval τ e := by
  intro l
  induction l with
  | nil => intro _ e hw hb; exact ⟨hw, hb, id, fun _ _ => rfl⟩
  | cons x t ih =>
    intro hl e hw hb
    obtain ⟨w, b, a⟩ := hl x (by simp)
    obtain ⟨h1, h2, h3, h4⟩ := ih (fun y hy => hl y (by simp [hy])) (wf_subst x.1 w hw)
      (belowE_subst b hb)
    refine ⟨h1, h2, fun ha => h3 (affine_subst x.1 a ha), fun τ hτ => ?_⟩
    rw [List.foldl_cons, h4 τ fun y hy => hτ y (by simp [hy]), eval_subst_eq (hτ x (by simp))]

theorem mem_linSubs_applyAssignments {f : Rearrange (GExpr p (SVar V) × GExpr p (SVar V))}
    {subs : LinearSubs p (SVar V)} {l : List (SVar V × GExpr p (SVar V))}
    {x : GExpr p (SVar V) × GExpr p (SVar V)} (hx : x ∈ LinearSubs.applyAssignments f.1 subs l) :
    ∃ y ∈ subs, x = (l.foldl (fun e z => GExpr.subst z.1 z.2 e) y.1,
      l.foldl (fun e z => GExpr.subst z.1 z.2 e) y.2) := by
  unfold LinearSubs.applyAssignments at hx
  split at hx
  · rename_i hl
    rw [List.isEmpty_iff] at hl
    subst hl
    exact ⟨x, hx, rfl⟩
  · rw [applySubstitutionsToExpressions_eq, applySubstitutionsToExpressions_eq, List.map_map,
      List.map_map, List.zip_map', List.mem_map] at hx
    obtain ⟨y, hy, rfl⟩ := hx
    exact ⟨y, (f.2 subs).mem_iff.1 hy, rfl⟩

theorem solve_op_spec (hs : h.Sound bus) (ch : Choices p V) (hi : s.Inv) :
    Spec bus (NoPanic h) s (fun _ => True) Prod.snd
      (fun r => r.2.toReturn = [] ∧ ∀ x ∈ r.1, WF x.2 ∧ x.2.isAffine = true)
      (fun r τ => ∀ x ∈ r.1, τ x.1 = eval τ x.2) (solve h ch s) := by
  unfold solve
  refine Spec.after (ext_clearCache hi) ?_
  refine Spec.bind ((loopUntilNoProgress_spec hs ch ch.fuel hi.clearCache).mono
    (fun _ _ _ => trivial) (fun _ _ h => h) (fun _ _ _ _ _ _ h => h)) ?_
  intro s1 _ hx
  have hi1 : s1.Inv := hx.inv
  rw [stop_pure]
  have hret : ∀ x ∈ s1.toReturn, WF x.2 ∧ s1.BelowE x.2 ∧ x.2.isAffine = true :=
    fun x hx => (hi1.ret x hx).2
  refine ⟨.of_same ?_ rfl rfl (fun _ => le_rfl) ?_, rfl, fun x hx => ⟨(hret x hx).1,
    (hret x hx).2.2⟩⟩
  · exact
    { cs := hi1.cs
      wf := hi1.wf
      below := hi1.below
      rcs := hi1.rcs
      linKey := fun x hx => by
        obtain ⟨y, hy, rfl⟩ := mem_linSubs_applyAssignments hx
        obtain ⟨h1, h2, -⟩ := foldSubst_spec hret (hi1.linKey y hy).1 (hi1.linKey y hy).2
        exact ⟨h1, h2⟩
      linValue := fun x hx => by
        obtain ⟨y, hy, rfl⟩ := mem_linSubs_applyAssignments hx
        obtain ⟨h0, h1, h2⟩ := hi1.linValue y hy
        obtain ⟨h3, h4, h5, -⟩ := foldSubst_spec hret h0 h1
        exact ⟨h3, h4, h5 h2⟩
      ret := by simp
      cache := hi1.cache }
  · rintro τ hg -
    have hg : Good bus τ s1 := hg
    refine ⟨⟨hg.sat, hg.rcs, fun x hx => ?_, by simp, hg.cache⟩, hg.ret⟩
    obtain ⟨y, hy, rfl⟩ := mem_linSubs_applyAssignments hx
    rw [(foldSubst_spec hret (hi1.linKey y hy).1 (hi1.linKey y hy).2).2.2.2 τ hg.ret,
      (foldSubst_spec hret (hi1.linValue y hy).1 (hi1.linValue y hy).2.1).2.2.2 τ hg.ret]
    exact hg.lin y hy

/-! ### Queries -/

theorem linState_holds {τ : SVar V → ZMod p} (hg : Good bus τ s) : (linState s []).Holds τ :=
  ⟨by simp [linState], hg.lin⟩

theorem rangeConstraintFor_allows (hi : s.Inv) {τ : SVar V → ZMod p} (hg : Good bus τ s)
    {e : GExpr p (SVar V)} (hw : WF e) (hb : s.BelowE e) :
    (rangeConstraintFor e s).Allows (eval τ e) := by
  have h1 := internalizedVersions_spec (linState_inv hi (l := []) (by simp)) hw hb
  unfold rangeConstraintFor
  have h2 : ∀ r ∈ internalizedVersions s.linSubs e,
      (rangeConstraint s.rcs r).Allows (eval τ e) := by
    intro r hr
    rw [← (h1 r hr).2.2 τ (linState_holds hg)]
    exact rangeConstraint_allows fun v _ => hg.rcs v
  have h3 : ∀ (l : List (GExpr p (SVar V))) (acc : RangeConstraint p), acc.Allows (eval τ e) →
      (∀ r ∈ l, (rangeConstraint s.rcs r).Allows (eval τ e)) →
      (l.foldl (fun acc e => acc.conjunction (rangeConstraint s.rcs e)) acc).Allows (eval τ e) := by
    intro l
    induction l with
    | nil => intro acc ha _; exact ha
    | cons r t ih =>
      intro acc ha hr
      exact ih _ (RangeConstraint.conjunction_allows ha (hr r (by simp)))
        fun r' h' => hr r' (by simp [h'])
  exact h3 _ _ (RangeConstraint.unconstrained_allows _) h2

theorem tryToEquivalentConstant_eq (hi : s.Inv) {τ : SVar V → ZMod p} (hg : Good bus τ s)
    {e : GExpr p (SVar V)} (hw : WF e) (hb : s.BelowE e) {k : ZMod p}
    (hk : tryToEquivalentConstant e s = some k) : eval τ e = k := by
  have h1 := internalizedVersions_spec (linState_inv hi (l := []) (by simp)) hw hb
  unfold tryToEquivalentConstant at hk
  obtain ⟨r, hr, hn⟩ := List.exists_of_findSome?_eq_some hk
  rw [← (h1 r hr).2.2 τ (linState_holds hg)]
  exact eval_of_tryToKnown' hn

theorem solveForExpr_ok {e : GExpr p (SVar V)} (ha : e.isAffine = true) (hw : WF e) :
    ∀ {l : List (GExpr p (SVar V))}, (∀ c ∈ l, WF c) → ∃ r, solveForExpr e l = .ok r ∧
    ∀ x ∈ r, WF x ∧ (∃ c ∈ l, (∀ τ : SVar V → ZMod p, eval τ c = 0 → eval τ x = eval τ e) ∧
      ∀ v ∈ vars x, v ∈ vars e ∨ v ∈ vars c) := by
  intro l
  induction l with
  | nil => intro _; exact ⟨[], rfl, by simp⟩
  | cons c t ih =>
    intro hl
    obtain ⟨r, h1, h2⟩ := ih fun c hc => hl c (by simp [hc])
    obtain ⟨o, h3, h4⟩ := trySolveForExpr_spec ha (hl c (by simp)) hw
    rw [solveForExpr, h3, liftPanic_ok, stop_bind, h1, stop_bind, stop_pure]
    refine ⟨_, rfl, fun x hx => ?_⟩
    rcases List.mem_append.1 hx with hx | hx
    · rw [Option.mem_toList] at hx
      obtain ⟨h5, h6, -, -⟩ := h4 x hx
      refine ⟨h5, c, by simp, fun τ h0 => ((h6 τ).1 h0).symm, fun v hv => ?_⟩
      have h3' := h3
      rw [hx] at h3'
      unfold trySolveForExpr at h3'
      split at h3'
      · cases h3'
      split at h3'
      · cases h3'
      simp only at h3'
      split at h3'
      · cases h3'
        rcases vars_sub_subset _ _ hv with hv | hv
        · exact Or.inl hv
        · exact Or.inr (vars_scale_subset _ _ hv)
      · cases h3'
    · obtain ⟨h5, c', hc', h6⟩ := h2 x hx
      exact ⟨h5, c', by simp [hc'], h6⟩

theorem cacheGet_mem {e : GExpr p (SVar V)} {l : List (GExpr p (SVar V) × List (GExpr p (SVar V)))}
    {r : List (GExpr p (SVar V))} (h : cacheGet e l = some r) : (e, r) ∈ l := by
  induction l with
  | nil => cases h
  | cons x t ih =>
    obtain ⟨k, v⟩ := x
    rw [cacheGet] at h
    split at h
    · rename_i hk
      cases h
      rw [hk]
      simp
    · exact List.mem_cons_of_mem _ (ih h)

theorem equivalentExpressions_spec {NP : Prop} (hi : s.Inv) {e : GExpr p (SVar V)} (hw : WF e)
    (hb : s.BelowE e) :
    Spec bus NP s (fun _ => True) Prod.snd
      (fun r => (∀ x ∈ r.1, WF x ∧ s.BelowE x) ∧ r.2.rcs = s.rcs ∧ r.2.toReturn = s.toReturn)
      (fun r τ => ∀ x ∈ r.1, eval τ x = eval τ e) (equivalentExpressions e s) := by
  unfold equivalentExpressions
  split
  · refine ⟨.refl hi fun τ _ _ x hx => ?_, ?_, rfl, rfl⟩
    · rw [List.mem_singleton] at hx; rw [hx]
    · intro x hx
      rw [List.mem_singleton] at hx
      subst hx
      exact ⟨hw, hb⟩
  · rename_i hq
    split
    · rename_i r hc
      have hm := cacheGet_mem hc
      refine ⟨.refl hi fun τ hg _ x hx => hg.cache _ hm x hx, fun x hx => (hi.cache _ hm).2 x hx,
        rfl, rfl⟩
    · obtain ⟨refs, h1, h2⟩ := refs_ok hi e.vars
      obtain ⟨r, h3, h4⟩ := solveForExpr_ok (e := e) (by unfold isAffine; simpa using hq) hw
        (l := algebraicRefs refs) fun c hc => hi.wf.1 c (h2 c hc)
      rw [h1, liftPanic_ok, stop_bind, h3, stop_bind, stop_pure]
      have h5 : ∀ x ∈ (if r.isEmpty = true then [e] else r), WF x ∧ s.BelowE x ∧
          ∀ τ, Good bus τ s → eval τ x = eval τ e := by
        intro x hx
        split at hx
        · rw [List.mem_singleton] at hx
          subst hx
          exact ⟨hw, hb, fun _ _ => rfl⟩
        · obtain ⟨h6, c, hc, h7, h8⟩ := h4 x hx
          refine ⟨h6, fun v hv => ?_, fun τ hg => h7 τ (hg.sat.algebraic c (h2 c hc))⟩
          rcases h8 v hv with hv | hv
          · exact hb v hv
          · exact hi.algBelow (h2 c hc) v hv
      refine ⟨.of_same ?_ rfl rfl (fun _ => le_rfl) ?_, fun x hx => ⟨(h5 x hx).1, (h5 x hx).2.1⟩,
        rfl, rfl⟩
      · exact
        { cs := hi.cs
          wf := hi.wf
          below := hi.below
          rcs := hi.rcs
          linKey := hi.linKey
          linValue := hi.linValue
          ret := hi.ret
          cache := fun x hx => by
            rcases List.mem_cons.1 hx with rfl | hx
            · exact ⟨hb, fun y hy => ⟨(h5 y hy).1, (h5 y hy).2.1⟩⟩
            · exact hi.cache x hx }
      · intro τ hg _
        refine ⟨⟨hg.sat, hg.rcs, hg.lin, hg.ret, fun x hx => ?_⟩, fun x hx => (h5 x hx).2.2 τ hg⟩
        rcases List.mem_cons.1 hx with rfl | hx
        · exact fun y hy => (h5 y hy).2.2 τ hg
        · exact hg.cache x hx

theorem anyDifferent_ok {rc : SVar V → RangeConstraint p} :
    ∀ {l : List (GExpr p (SVar V) × GExpr p (SVar V))}, (∀ x ∈ l, WF x.1 ∧ WF x.2) →
    ∃ b, anyDifferent rc l = .ok b ∧ (b = true → ∃ x ∈ l, ∀ τ : SVar V → ZMod p,
      (∀ v, (rc v).Allows (τ v)) → eval τ x.1 ≠ eval τ x.2) := by
  intro l
  induction l with
  | nil => intro _; exact ⟨false, rfl, by simp⟩
  | cons x t ih =>
    intro hl
    obtain ⟨b, h1, h2⟩ := ih fun y hy => hl y (by simp [hy])
    obtain ⟨wa, wb⟩ := hl x (by simp)
    have hw : WF (x.1 - x.2) := wf_sub wa wb
    obtain ⟨o, h3⟩ := possibleConcreteValues_total (rc := rc) hw (n := 20) (by norm_num)
    obtain ⟨a, c⟩ := x
    rw [anyDifferent, h3, liftPanic_ok, stop_bind]
    split
    · rename_i ho
      refine ⟨true, rfl, fun _ => ⟨(a, c), by simp, fun τ hr he => ?_⟩⟩
      rw [Option.map_eq_some_iff] at ho
      obtain ⟨vs, rfl, hall⟩ := ho
      have := possibleConcreteValues_spec hw h3 0 τ (fun v _ => hr v)
        (by rw [eval_sub']; exact sub_eq_zero.2 he)
      rw [List.all_eq_true] at hall
      simpa using hall 0 this
    · refine ⟨b, h1, fun hb => ?_⟩
      obtain ⟨y, hy, h4⟩ := h2 hb
      exact ⟨y, by simp [hy], h4⟩

theorem knownDifferent_spec {NP : Prop} (hi : s.Inv) {a b : GExpr p (SVar V)} (ha : WF a)
    (hb : WF b) (ba : s.BelowE a) (bb : s.BelowE b) :
    Spec bus NP s (fun _ => True) Prod.snd
      (fun r => r.2.toReturn = s.toReturn)
      (fun r τ => r.1 = true → eval τ a ≠ eval τ b) (knownDifferent a b s) := by
  unfold knownDifferent
  split
  · rename_i x y hx hy
    refine ⟨.refl hi fun τ _ _ hr => ?_, rfl⟩
    rw [eval_of_tryToKnown' hx, eval_of_tryToKnown' hy]
    simpa using hr
  · refine Spec.bind (equivalentExpressions_spec (bus := bus) (NP := NP) hi ha ba) ?_
    rintro ra ⟨w1, c1, r1⟩ hx1
    refine Spec.bind ((equivalentExpressions_spec (bus := bus) (NP := NP) (s := ra.2) hx1.inv hb
      (hx1.belowE bb)).mono (fun _ _ _ => trivial) (fun _ _ h => h)
      (Q' := fun r τ => (∀ x ∈ ra.1, eval τ x = eval τ a) ∧ ∀ x ∈ r.1, eval τ x = eval τ b) ?_) ?_
    · rintro r - hx2 τ' hg ⟨τ, ⟨hq, -⟩, -, hag⟩ hq'
      refine ⟨fun x hx => ?_, hq'⟩
      rw [hag.eval (hx1.belowE (w1 x hx).2), hag.eval (hx1.belowE ba)]
      exact hq x hx
    · rintro rb ⟨w2, c2, r2⟩ hx2
      obtain ⟨d, h1, h2⟩ := anyDifferent_ok (rc := rb.2.rcs) (l := ra.1.product rb.1) (by
        rintro ⟨x, y⟩ hxy
        replace hxy := List.mem_product.1 hxy
        exact ⟨(w1 x hxy.1).1, (w2 y hxy.2).1⟩)
      rw [h1, stop_bind, stop_pure]
      refine ⟨.refl hx2.inv ?_, r2.trans r1⟩
      rintro τ hg ⟨⟨ha', hb'⟩, -⟩ hd
      obtain ⟨⟨x, y⟩, hxy, h3⟩ := h2 hd
      replace hxy := List.mem_product.1 hxy
      rw [← ha' x hxy.1, ← hb' y hxy.2]
      exact h3 τ hg.rcs

/-! ### retain -/

theorem retain_ok (hi : s.Inv) (keep : List (SVar V)) (hr : s.toReturn = []) :
    ∃ s', retain keep s = .ok s' ∧ s'.Inv ∧ s'.nextBool = s.nextBool ∧ s'.nextLin = s.nextLin ∧
      s'.toReturn = [] ∧ ∀ τ, Good bus τ s → Good bus τ s' := by
  unfold retain
  rw [if_neg (by simp [hr])]
  obtain ⟨c1, h1, h2, h3, -⟩ := Queued.retainAlgebraic_ok hi.cs
    (fun _ e => e.vars.any (s.keeps keep))
  obtain ⟨c2, h4, h5, h6, -⟩ := Queued.retainBus_ok h3 (fun _ b => (busVars b).any (s.keeps keep))
  rw [h1, liftPanic_ok, stop_bind, h4, liftPanic_ok, stop_bind, stop_pure]
  have ha : ∀ e ∈ c2.ix.sys.algebraic, e ∈ s.cs.ix.sys.algebraic := by
    intro e he
    rw [h5, h2] at he
    obtain ⟨i, hi, -⟩ := mem_retainFrom.1 he
    exact List.mem_of_getElem? hi
  have hb : ∀ b ∈ c2.ix.sys.bus, b ∈ s.cs.ix.sys.bus := by
    intro b hb
    rw [h5, h2] at hb
    obtain ⟨i, hi, -⟩ := mem_retainFrom.1 hb
    exact List.mem_of_getElem? hi
  have hv : ∀ v ∈ c2.ix.sys.vars, s.Below v := by
    intro v hv
    rw [mem_sys_vars] at hv
    rcases hv with ⟨e, he, hv⟩ | ⟨b, hb', e, he, hv⟩
    · exact hi.algBelow (ha e he) v hv
    · exact hi.busBelow (hb b hb') he v hv
  refine ⟨_, rfl, ?_, rfl, rfl, hr, ?_⟩
  · exact
    { cs := h6
      wf := ⟨fun e he => hi.wf.1 e (ha e he), fun b hb' => hi.wf.2 b (hb b hb')⟩
      below := hv
      rcs := fun v hv' => by
        simp only
        split
        · exact hi.rcs v hv'
        · rfl
      linKey := hi.linKey
      linValue := hi.linValue
      ret := hi.ret
      cache := by simp }
  · intro τ hg
    refine ⟨⟨fun e he => hg.sat.algebraic e (ha e he), fun b hb' => hg.sat.bus b (hb b hb')⟩,
      fun v => ?_, hg.lin, hg.ret, by simp⟩
    simp only
    split
    · exact hg.rcs v
    · exact RangeConstraint.unconstrained_allows _

end Solver

/-! ### The public interface -/

section Transform

variable {W : Type} [LinearOrder W]

mutual
theorem transformVars_total {f : V → W} : (e : GExpr p V) →
    ∃ e', transformVars (fun v => some (f v)) e = some e'
  | mk q l c => by
    obtain ⟨q', hq⟩ := transformVarsQ_total (f := f) q
    have hl : ∀ l : List (V × ZMod p), ∃ l', (l.mapM fun (x : V × ZMod p) =>
        ((fun v => some (f v)) x.1).map fun w => (w, x.2)) = some l' := by
      intro l
      induction l with
      | nil => exact ⟨[], rfl⟩
      | cons a t ih =>
        obtain ⟨t', ht⟩ := ih
        exact ⟨(f a.1, a.2) :: t', by rw [List.mapM_cons, ht]; rfl⟩
    obtain ⟨l', hl⟩ := hl l
    refine ⟨mk q' (l'.foldl (fun m e => insertEntry e.1 e.2 m) []) c, ?_⟩
    · rw [transformVars, hq]
      show (do
        let l' ← l.mapM fun (x : V × ZMod p) => ((fun v => some (f v)) x.1).map fun w => (w, x.2)
        pure (mk q' (l'.foldl (fun m e => insertEntry e.1 e.2 m) []) c)) = some _
      rw [hl]
      rfl
theorem transformVarsQ_total {f : V → W} : (q : List (GExpr p V × GExpr p V)) →
    ∃ q', transformVarsQ (fun v => some (f v)) q = some q'
  | [] => ⟨[], rfl⟩
  | (a, b) :: t => by
    obtain ⟨a', ha⟩ := transformVars_total (f := f) a
    obtain ⟨b', hb⟩ := transformVars_total (f := f) b
    obtain ⟨t', ht⟩ := transformVarsQ_total (f := f) t
    exact ⟨(a', b') :: t', by rw [transformVarsQ, ha, hb, ht]; rfl⟩
end

theorem vars_transformVars {f : V → Option W} {e : GExpr p V} {e' : GExpr p W}
    (h : transformVars f e = some e') : ∀ w ∈ vars e', ∃ v ∈ vars e, f v = some w := by
  induction e using GExpr.ind generalizing e' with
  | h q l c ih =>
    obtain ⟨q', l', hq, hl, rfl⟩ := transformVars_inv h
    intro w hw
    rw [mem_vars_mk] at hw
    rcases hw with ⟨ab', hab, hw⟩ | ⟨k, hk⟩
    · obtain ⟨ab, hm, h1, h2⟩ := forall₂_left (transformVarsQ_forall hq) hab
      rcases hw with hw | hw
      · obtain ⟨v, hv, hf⟩ := (ih ab hm).1 h1 w hw
        exact ⟨v, mem_vars_mk.2 (Or.inl ⟨ab, hm, Or.inl hv⟩), hf⟩
      · obtain ⟨v, hv, hf⟩ := (ih ab hm).2 h2 w hw
        exact ⟨v, mem_vars_mk.2 (Or.inl ⟨ab, hm, Or.inr hv⟩), hf⟩
    · rcases mem_foldInsert hk with hk | hk
      · obtain ⟨x, hx, h1, -⟩ := forall₂_left hl hk
        exact ⟨x.1, mem_vars_mk.2 (Or.inr ⟨x.2, hx⟩), h1⟩
      · cases hk

end Transform

theorem transformExpr_spec {e : GExpr p V} (hw : WF e) {σ : V → ZMod p} {τ : SVar V → ZMod p}
    (h : ∀ v, τ (.original v) = σ v) : eval τ (transformExpr e) = eval σ e := by
  unfold transformExpr
  obtain ⟨e', he⟩ := transformVars_total (f := SVar.original) e
  rw [he, Option.getD_some]
  refine (eval_transformVars (fun v v' w h1 h2 => ?_) σ τ (fun v w hv => ?_) hw he).1
  · cases h1; cases h2; rfl
  · cases hv; exact (h v).symm

theorem transformExpr_wf {e : GExpr p V} (hw : WF e) : WF (transformExpr e) := by
  unfold transformExpr
  obtain ⟨e', he⟩ := transformVars_total (f := SVar.original) e
  rw [he, Option.getD_some]
  refine (eval_transformVars (fun v v' w h1 h2 => ?_) (fun _ => 0) (fun _ => 0)
    (fun v w hv => rfl) hw he).2
  cases h1; cases h2; rfl

theorem transformExpr_below (s : Solver p V) (e : GExpr p V) : s.BelowE (transformExpr e) := by
  unfold transformExpr
  obtain ⟨e', he⟩ := transformVars_total (f := SVar.original) e
  rw [he, Option.getD_some]
  intro v hv
  obtain ⟨u, -, hu⟩ := vars_transformVars he v hv
  cases hu
  trivial

theorem originalAssignments_spec : ∀ {l : List (SVar V × GExpr p (SVar V))},
    (∀ x ∈ l, WF x.2 ∧ x.2.isAffine = true) → ∃ r, originalAssignments l = .ok r ∧
    ∀ (σ : V → ZMod p) (τ : SVar V → ZMod p), (∀ v, τ (.original v) = σ v) →
      (∀ x ∈ l, τ x.1 = eval τ x.2) → ∀ y ∈ r, σ y.1 = eval σ y.2 := by
  intro l
  induction l with
  | nil => intro _; exact ⟨[], rfl, by simp⟩
  | cons x t ih =>
    intro hl
    obtain ⟨r, h1, h2⟩ := ih fun y hy => hl y (by simp [hy])
    obtain ⟨x, e⟩ := x
    obtain ⟨hw, ha⟩ := hl (x, e) (by simp)
    rw [originalAssignments, if_pos ha, h1, Solver.stop_bind, Solver.stop_pure]
    refine ⟨_, rfl, fun σ τ hτ hx y hy => ?_⟩
    rcases List.mem_append.1 hy with hy | hy
    · rw [Option.mem_toList, Option.bind_eq_some_iff] at hy
      obtain ⟨v, hv, hy⟩ := hy
      rw [Option.map_eq_some_iff] at hy
      obtain ⟨e', he, rfl⟩ := hy
      have hx' : x = .original v := by
        cases x with
        | original u => simp [SVar.tryToOriginal] at hv; rw [hv]
        | boolean n => simp [SVar.tryToOriginal] at hv
        | linearized n => simp [SVar.tryToOriginal] at hv
      have h3 := hx (x, e) (by simp)
      simp only [hx', hτ] at h3
      rw [h3]
      refine (eval_transformVars (fun u u' w h1 h2 => ?_) τ σ (fun u w hu => ?_) hw he).1.symm
      · cases u <;> simp [SVar.tryToOriginal] at h1
        cases u' <;> simp [SVar.tryToOriginal] at h2
        rw [h1, h2]
      · cases u <;> simp [SVar.tryToOriginal] at hu
        rw [← hu]
        exact hτ _
    · exact h2 σ τ hτ (fun z hz => hx z (by simp [hz])) y hy

/-- The solver's knowledge is true of the solution `σ`. -/
def Solver.Knows (bus : Bus p) (σ : V → ZMod p) (s : Solver p V) : Prop :=
  ∃ τ, Solver.Good bus τ s ∧ ∀ v, τ (.original v) = σ v

/-- What is true of the outcome of a call. -/
def RunSpec (bus : Bus p) (h : Handler p) (s : Solver p V) (op : SolverOp p V) :
    Except Stop (SolverOut p V × Solver p V) → Prop
  | .ok (out, s') => s'.Inv ∧ ∀ σ, s.Knows bus σ → op.Holds bus σ →
      s'.Knows bus σ ∧ op.Answer σ out
  | .error .panic => NoPanic h → ∃ keep, op = .retain keep ∧ s.toReturn ≠ []
  | .error .fuel => True
  | .error (.error _) => ∀ σ, s.Knows bus σ → ¬ op.Holds bus σ

namespace Solver

variable {bus : Bus p} {s s' s'' : Solver p V} {h : Handler p}

theorem runSpec_of_spec {α : Type} {op : SolverOp p V} {P : (SVar V → ZMod p) → Prop}
    {st : α → Solver p V} {W : α → Prop} {Q : α → (SVar V → ZMod p) → Prop} {o : Except Stop α}
    {f : α → Except Stop (SolverOut p V × Solver p V)}
    (hs : Spec bus (NoPanic h) s P st W Q o)
    (hP : ∀ σ τ, (∀ v, τ (.original v) = σ v) → op.Holds bus σ → P τ)
    (hf : ∀ a, W a → ∃ out, f a = .ok (out, st a) ∧
      ∀ (σ : V → ZMod p) τ, (∀ v, τ (.original v) = σ v) → Q a τ → op.Answer σ out) :
    RunSpec bus h s op (o >>= f) := by
  cases o with
  | error x =>
    cases x with
    | panic => exact fun hn => absurd hn hs
    | fuel => trivial
    | error e =>
      rintro σ ⟨τ, hg, hτ⟩ ho
      exact hs τ hg (hP σ τ hτ ho)
  | ok a =>
    obtain ⟨hx, hw⟩ := hs
    obtain ⟨out, h1, h2⟩ := hf a hw
    show RunSpec bus h s op (f a)
    rw [h1]
    refine ⟨hx.inv, ?_⟩
    rintro σ ⟨τ, hg, hτ⟩ ho
    obtain ⟨τ', ha, hg', hq⟩ := hx.complete τ hg (hP σ τ hτ ho)
    have hτ' : ∀ v, τ' (.original v) = σ v := fun v => (ha (.original v) trivial).trans (hτ v)
    exact ⟨⟨τ', hg', hτ'⟩, h2 σ τ' hτ' hq⟩

theorem run_spec (hs : h.Sound bus) (hi : s.Inv) {op : SolverOp p V} (hw : op.WF) :
    RunSpec bus h s op (op.run h s) := by
  cases op with
  | addAlgebraic es =>
    rw [SolverOp.run]
    refine runSpec_of_spec (addAlgebraic_spec (bus := bus) (NP := NoPanic h) hi
      (es := es.map transformExpr) ?_) ?_ ?_
    · intro e he
      obtain ⟨e', he', rfl⟩ := List.mem_map.1 he
      exact ⟨transformExpr_wf (hw e' he'), transformExpr_below s e'⟩
    · intro σ τ hτ hh e he
      obtain ⟨e', he', rfl⟩ := List.mem_map.1 he
      rw [transformExpr_spec (hw e' he') hτ]
      exact hh e' he'
    · exact fun s1 _ => ⟨.unit, rfl, fun _ _ _ _ => trivial⟩
  | addBus bs =>
    rw [SolverOp.run]
    refine runSpec_of_spec (addBus_spec (bus := bus) (NP := NoPanic h) hi
      (bs := bs.map fun b => b.map transformExpr) ?_) ?_ ?_
    · intro b hb e he
      obtain ⟨b', hb', rfl⟩ := List.mem_map.1 hb
      simp only [BusInteraction.fields, BusInteraction.map, List.mem_cons, List.mem_map] at he
      have hb'' := hw b' hb'
      rcases he with rfl | rfl | ⟨e', h5, rfl⟩
      · exact ⟨transformExpr_wf (hb'' _ (by simp [BusInteraction.fields])), transformExpr_below s _⟩
      · exact ⟨transformExpr_wf (hb'' _ (by simp [BusInteraction.fields])), transformExpr_below s _⟩
      · exact ⟨transformExpr_wf (hb'' _ (by simp [BusInteraction.fields, h5])),
          transformExpr_below s _⟩
    · intro σ τ hτ hh b hb
      obtain ⟨b', hb', rfl⟩ := List.mem_map.1 hb
      have hb'' := hw b' hb'
      have : (b'.map transformExpr).evalAt τ = b'.evalAt σ := by
        unfold BusInteraction.evalAt BusInteraction.map
        simp only [BusInteraction.mk.injEq, List.map_map]
        refine ⟨transformExpr_spec (hb'' _ (by simp [BusInteraction.fields])) hτ,
          transformExpr_spec (hb'' _ (by simp [BusInteraction.fields])) hτ,
          List.map_congr_left fun e he =>
            transformExpr_spec (hb'' e (by simp [BusInteraction.fields, he])) hτ⟩
      rw [this]
      exact hh b' hb'
    · exact fun s1 _ => ⟨.unit, rfl, fun _ _ _ _ => trivial⟩
  | addRange v r =>
    rw [SolverOp.run]
    refine runSpec_of_spec (addRange_spec (bus := bus) (NP := NoPanic h) hi
      (x := .original v) trivial r) ?_ ?_
    · intro σ τ hτ hh
      rw [hτ v]
      exact (RangeConstraint.allowsValue_iff _ _).1 hh
    · exact fun s1 _ => ⟨.unit, rfl, fun _ _ _ _ => trivial⟩
  | retain keep =>
    rw [SolverOp.run]
    by_cases hr : s.toReturn = []
    · obtain ⟨s', h1, h2, -, -, -, h3⟩ := retain_ok (bus := bus) hi (keep.map .original) hr
      rw [h1, stop_bind, stop_pure]
      refine ⟨h2, ?_⟩
      rintro σ ⟨τ, hg, hτ⟩ -
      exact ⟨⟨τ, h3 τ hg, hτ⟩, trivial⟩
    · unfold Solver.retain
      rw [if_pos (by simpa using hr)]
      exact fun _ => ⟨keep, rfl, hr⟩
  | solve ch =>
    rw [SolverOp.run]
    refine runSpec_of_spec (solve_op_spec hs ch hi) (fun _ _ _ _ => trivial) ?_
    rintro ⟨l, s1⟩ ⟨-, hl⟩
    obtain ⟨r, h1, h2⟩ := originalAssignments_spec hl
    rw [h1, stop_bind, stop_pure]
    exact ⟨_, rfl, fun σ τ hτ hq => h2 σ τ hτ hq⟩
  | knownDifferent a b =>
    rw [SolverOp.run]
    refine runSpec_of_spec (knownDifferent_spec (bus := bus) (NP := NoPanic h) hi
      (transformExpr_wf hw.1) (transformExpr_wf hw.2) (transformExpr_below s a)
      (transformExpr_below s b)) (fun _ _ _ _ => trivial) ?_
    rintro ⟨d, s1⟩ -
    refine ⟨_, rfl, fun σ τ hτ hq => ?_⟩
    simp only [SolverOp.Answer]
    rw [← transformExpr_spec hw.1 hτ, ← transformExpr_spec hw.2 hτ]
    exact hq

/-- The assignments that were found but not yet returned. -/
theorem run_toReturn (hs : h.Sound bus) (hi : s.Inv) {op : SolverOp p V} (hw : op.WF)
    {out : SolverOut p V} (ho : op.run h s = .ok (out, s')) (hr : s.toReturn = []) :
    s'.toReturn = [] ∨ ∃ v r, op = .addRange v r := by
  cases op with
  | addRange v r => exact Or.inr ⟨v, r, rfl⟩
  | addAlgebraic es =>
    refine Or.inl ?_
    have h1 := addAlgebraic_spec (bus := bus) (NP := NoPanic h) hi
      (es := es.map transformExpr) (fun e he => by
        obtain ⟨e', he', rfl⟩ := List.mem_map.1 he
        exact ⟨transformExpr_wf (hw e' he'), transformExpr_below s e'⟩)
    rw [SolverOp.run] at ho
    cases h2 : s.addAlgebraic (es.map transformExpr) with
    | error x => rw [h2] at ho; cases ho
    | ok s1 =>
      rw [h2] at ho h1
      cases ho
      exact h1.2.trans hr
  | addBus bs =>
    refine Or.inl ?_
    have h1 := addBus_spec (bus := bus) (NP := NoPanic h) hi
      (bs := bs.map fun b => b.map transformExpr) (fun b hb e he => by
        obtain ⟨b', hb', rfl⟩ := List.mem_map.1 hb
        simp only [BusInteraction.fields, BusInteraction.map, List.mem_cons, List.mem_map] at he
        have hb'' := hw b' hb'
        rcases he with rfl | rfl | ⟨e', h5, rfl⟩
        · exact ⟨transformExpr_wf (hb'' _ (by simp [BusInteraction.fields])),
            transformExpr_below s _⟩
        · exact ⟨transformExpr_wf (hb'' _ (by simp [BusInteraction.fields])),
            transformExpr_below s _⟩
        · exact ⟨transformExpr_wf (hb'' _ (by simp [BusInteraction.fields, h5])),
            transformExpr_below s _⟩)
    rw [SolverOp.run] at ho
    cases h2 : s.addBus (bs.map fun b => b.map transformExpr) with
    | error x => rw [h2] at ho; cases ho
    | ok s1 =>
      rw [h2] at ho h1
      cases ho
      exact h1.2.trans hr
  | retain keep =>
    refine Or.inl ?_
    rw [SolverOp.run] at ho
    obtain ⟨s1, h1, -, -, -, h2, -⟩ := retain_ok (bus := bus) hi (keep.map .original) hr
    rw [h1] at ho
    cases ho
    exact h2
  | solve ch =>
    refine Or.inl ?_
    have h1 := solve_op_spec (s := s) hs ch hi
    rw [SolverOp.run] at ho
    cases h2 : s.solve h ch with
    | error x => rw [h2] at ho; cases ho
    | ok r =>
      rw [h2] at ho h1
      obtain ⟨-, h3, h4⟩ := h1
      obtain ⟨l, h5, -⟩ := originalAssignments_spec h4
      rw [stop_bind, h5] at ho
      cases ho
      exact h3
  | knownDifferent a b =>
    refine Or.inl ?_
    have h1 := knownDifferent_spec (bus := bus) (NP := NoPanic h) hi
      (transformExpr_wf hw.1) (transformExpr_wf hw.2) (transformExpr_below s a)
      (transformExpr_below s b)
    rw [SolverOp.run] at ho
    cases h2 : s.knownDifferent (transformExpr a) (transformExpr b) with
    | error x => rw [h2] at ho; cases ho
    | ok r =>
      rw [h2] at ho h1
      cases ho
      exact h1.2.trans hr

/-- `solve` leaves nothing to return. -/
theorem solve_toReturn (hs : h.Sound bus) (hi : s.Inv) {ch : Choices p V}
    {out : SolverOut p V} (ho : (SolverOp.solve ch).run h s = .ok (out, s')) :
    s'.toReturn = [] := by
  have h1 := solve_op_spec (s := s) hs ch hi
  rw [SolverOp.run] at ho
  cases h2 : s.solve h ch with
  | error x => rw [h2] at ho; cases ho
  | ok r =>
    rw [h2] at ho h1
    obtain ⟨-, h3, h4⟩ := h1
    obtain ⟨l, h5, -⟩ := originalAssignments_spec h4
    rw [stop_bind, h5] at ho
    cases ho
    exact h3

theorem inv_new : (Solver.new : Solver p V).Inv where
  cs := Queued.inv_empty
  wf := ⟨by simp [Solver.new, Queued.empty], by simp [Solver.new, Queued.empty]⟩
  below := by simp [Solver.new, Queued.empty, ConstraintSystem.vars]
  rcs _ _ := rfl
  linKey := by simp [Solver.new]
  linValue := by simp [Solver.new]
  ret := by simp [Solver.new]
  cache := by simp [Solver.new]

theorem knows_new (σ : V → ZMod p) : (Solver.new : Solver p V).Knows bus σ := by
  refine ⟨fun v => match v with | .original v => σ v | _ => 0, ?_, fun _ => rfl⟩
  exact ⟨⟨by simp [Solver.new, Queued.empty], by simp [Solver.new, Queued.empty]⟩,
    fun v => RangeConstraint.unconstrained_allows _, by simp [Solver.new], by simp [Solver.new],
    by simp [Solver.new]⟩

end Solver

end Verif
