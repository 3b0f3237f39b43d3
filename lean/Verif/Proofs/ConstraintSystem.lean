import Verif.Proofs.Solve
import Verif.Spec.ConstraintSystem

/-! Helper lemmas about bus interactions. -/

namespace Verif

set_option linter.unusedSectionVars false

open GExpr

variable {p : ℕ} [Fact p.Prime] {V : Type} [LinearOrder V]

theorem ok_bind {α β : Type} (a : α) (f : α → Except Panic β) :
    ((Except.ok a : Except Panic α) >>= f) = f a := rfl

theorem within_iff {b : BusInteraction (ZMod p)} {r : BusInteraction (RangeConstraint p)} :
    b.Within r ↔ List.Forall₂ (fun (x : ZMod p) (r : RangeConstraint p) => r.Allows x)
      b.fields r.fields := by
  unfold BusInteraction.Within BusInteraction.fields
  simp only [List.forall₂_cons, RangeConstraint.allowsValue_iff]

theorem fields_evalAt (σ : V → ZMod p) (b : BusInteraction (GExpr p V)) :
    (b.evalAt σ).fields = b.fields.map (eval σ) := rfl

theorem fields_map {α β : Type} (f : α → β) (b : BusInteraction α) :
    (b.map f).fields = b.fields.map f := rfl

theorem evalAt_congr {σ τ : V → ZMod p} {b : BusInteraction (GExpr p V)}
    (h : ∀ v ∈ busVars b, σ v = τ v) : b.evalAt σ = b.evalAt τ := by
  have key : ∀ e ∈ b.fields, eval σ e = eval τ e := fun e he =>
    eval_congr fun v hv => h v (List.mem_flatMap.2 ⟨e, he, hv⟩)
  rcases b with ⟨i, m, pl⟩
  simp only [BusInteraction.fields, List.mem_cons, forall_eq_or_imp] at key
  simp only [BusInteraction.evalAt, key.1, key.2.1, BusInteraction.mk.injEq, true_and]
  exact List.map_congr_left key.2.2

theorem busInRange_vars {rc : V → RangeConstraint p} {σ : V → ZMod p}
    {b : BusInteraction (GExpr p V)} :
    BusInRange rc σ b ↔ ∀ v ∈ busVars b, (rc v).Allows (σ v) := by
  constructor
  · intro h v hv
    obtain ⟨e, he, hv⟩ := List.mem_flatMap.1 hv
    exact inRange_vars (h e he) v hv
  · intro h e he
    exact inRange_of_vars fun v hv => h v (List.mem_flatMap.2 ⟨e, he, hv⟩)

theorem within_toRangeConstraints {rc : V → RangeConstraint p} {σ : V → ZMod p}
    {b : BusInteraction (GExpr p V)} (h : BusInRange rc σ b) :
    (b.evalAt σ).Within (toRangeConstraints rc b) := by
  rw [within_iff, fields_evalAt]
  unfold toRangeConstraints
  rw [fields_map, List.forall₂_map_left_iff, List.forall₂_map_right_iff, List.forall₂_same]
  exact fun e he => rangeConstraint_allows (inRange_vars (h e he))

theorem zipEq_ok {α β : Type} {a : List α} {b : List β} (h : a.length = b.length) :
    zipEq a b = .ok (a.zip b) := if_pos h

theorem forall₂_zip {α β : Type} {R : α → β → Prop} {a : List α} {b : List β}
    (h : List.Forall₂ R a b) : ∀ x ∈ a.zip b, R x.1 x.2 := by
  induction h with
  | nil => simp
  | cons h _ ih =>
    intro x hx
    simp only [List.zip_cons_cons, List.mem_cons] at hx
    rcases hx with rfl | hx
    · exact h
    · exact ih x hx

/-- Outcome of the checked handler call. -/
theorem handleChecked_spec {bus : Bus p} {h : Handler p} (hs : h.Sound bus)
    {r : BusInteraction (RangeConstraint p)}
    {o : Except ViolatesBusRules (BusInteraction (RangeConstraint p))}
    (ho : handleChecked h r = .ok o) :
    match o with
    | .error _ => ∀ b, bus b → ¬ b.Within r
    | .ok r' => r'.fields.length = r.fields.length ∧ ∀ b, bus b → b.Within r → b.Within r' := by
  unfold handleChecked at ho
  cases hr : h r with
  | error x => rw [hr] at ho; cases ho
  | ok r' =>
    rw [hr] at ho
    obtain ⟨hl, hw⟩ := hs r r' hr
    have hlen : r.fields.length = r'.fields.length := by simp [BusInteraction.fields, hl]
    change (zipEq r.fields r'.fields >>= _) = _ at ho
    rw [zipEq_ok hlen] at ho
    change (if _ then _ else _) = _ at ho
    split at ho
    · rename_i hany
      cases ho
      intro b hb hbr
      rw [List.any_eq_true] at hany
      obtain ⟨x, hx, hd⟩ := hany
      have h2 := within_iff.1 (hw b hb hbr)
      have h1 := within_iff.1 hbr
      have : ∀ {bs : List (ZMod p)} {as as' : List (RangeConstraint p)},
          List.Forall₂ (fun (x : ZMod p) (r : RangeConstraint p) => r.Allows x) bs as →
          List.Forall₂ (fun (x : ZMod p) (r : RangeConstraint p) => r.Allows x) bs as' →
          ∀ y ∈ as.zip as', y.1.isDisjoint y.2 = true → False := by
        intro bs as as' ha
        induction ha generalizing as' with
        | nil => intro h'; cases h'; simp
        | cons hab _ ih =>
          intro h'
          cases h' with
          | cons hab' ht' =>
            intro y hy hdis
            simp only [List.zip_cons_cons, List.mem_cons] at hy
            rcases hy with rfl | hy
            · exact RangeConstraint.isDisjoint_sound hdis _ ⟨hab, hab'⟩
            · exact ih ht' y hy hdis
      exact this h1 h2 x hx hd
    · cases ho
      exact ⟨hlen.symm, hw⟩

variable {rc : V → RangeConstraint p}

theorem solveFieldVar_spec {e : GExpr p V} (hw : WF e) (ha : e.isAffine = true)
    {r : RangeConstraint p} {v : V} (hv : v ∈ vars e) :
    ∃ o, solveFieldVar rc e r v = .ok o ∧ ∀ eff, o = some eff → ∀ σ, InRange rc σ e →
      r.Allows (eval σ e) → eff.Holds σ := by
  unfold solveFieldVar
  rcases e with ⟨q, l, c⟩
  have hq : q = [] := by
    simpa [isAffine, isQuadratic, quadratic] using ha
  subst hq
  obtain ⟨k, hk⟩ : ∃ k, coefficientOf (mk [] l c) v = some k := by
    rw [mem_vars_mk] at hv
    rcases hv with ⟨ab, h, _⟩ | ⟨k, hk⟩
    · simp at h
    · cases hc : coefficientOf (mk [] l c) v with
      | some k => exact ⟨k, rfl⟩
      | none => exact absurd hk (lookup_eq_none_iff.1 hc k)
  have hk0 := coefficient_ne_zero hw hk
  obtain ⟨o, ho, hs⟩ := trySolveFor_spec hw v
  simp only [hk, ho]
  cases o with
  | none => exact ⟨none, rfl, by simp⟩
  | some s =>
    refine ⟨_, rfl, ?_⟩
    intro eff heff σ hr hrr
    split at heff
    · cases heff
    · simp only [Option.some.injEq] at heff
      subst heff
      obtain ⟨-, -, -, hsub, -⟩ := hs s rfl
      have hval : eval σ s = σ v - k⁻¹ * eval σ (mk [] l c) := by
        unfold trySolveFor at ho
        rw [hk] at ho
        simp only [if_neg hk0] at ho
        split at ho
        · cases ho
        · simp only [Except.ok.injEq, Option.some.injEq] at ho
          rw [← ho, eval_scale]
          have : eval σ (mk [] l c - scale k (var v)) = eval σ (mk [] l c) - k * σ v := by
            rw [← eval_var σ v, ← eval_scale]; exact eval_sub σ _ _
          rw [this]
          field_simp
          ring
      have h1 := RangeConstraint.multiple_allows (f := k⁻¹) hrr
      have h2 := rangeConstraint_allows (rc := rc) (σ := σ) (e := s)
        (inRange_vars (inRange_mono hr hsub))
      have h3 := RangeConstraint.combineSum_allows h1 h2
      rw [hval] at h3
      have h4 : eval σ (mk [] l c) * k⁻¹ + (σ v - k⁻¹ * eval σ (mk [] l c)) = σ v := by ring
      rw [h4] at h3
      exact (RangeConstraint.allowsValue_iff _ _).2 h3

theorem solveFieldVars_spec {e : GExpr p V} (hw : WF e) (ha : e.isAffine = true)
    {r : RangeConstraint p} {vs : List V} (hv : ∀ v ∈ vs, v ∈ vars e) :
    ∃ o, solveFieldVars rc e r vs = .ok o ∧ ∀ eff ∈ o, ∀ σ, InRange rc σ e →
      r.Allows (eval σ e) → eff.Holds σ := by
  induction vs with
  | nil => exact ⟨[], rfl, by simp⟩
  | cons v vs ih =>
    obtain ⟨o, ho, h⟩ := solveFieldVar_spec (rc := rc) hw ha (r := r) (hv v (by simp))
    obtain ⟨os, hos, hh⟩ := ih fun w hw => hv w (by simp [hw])
    refine ⟨o.toList ++ os, ?_, ?_⟩
    · unfold solveFieldVars; rw [ho, hos]; rfl
    · intro eff heff
      rw [List.mem_append, Option.mem_toList] at heff
      rcases heff with heff | heff
      · exact h eff heff
      · exact hh eff heff

theorem solveFields_spec {ps : List (GExpr p V × RangeConstraint p)} (hw : ∀ x ∈ ps, WF x.1) :
    ∃ o, solveFields rc ps = .ok o ∧ ∀ eff ∈ o, ∀ σ, (∀ x ∈ ps, InRange rc σ x.1) →
      (∀ x ∈ ps, x.2.Allows (eval σ x.1)) → eff.Holds σ := by
  induction ps with
  | nil => exact ⟨[], rfl, by simp⟩
  | cons x ps ih =>
    obtain ⟨e, r⟩ := x
    obtain ⟨os, hos, hh⟩ := ih fun y hy => hw y (by simp [hy])
    unfold solveFields
    by_cases ha : e.isAffine = true
    · obtain ⟨o, ho, h⟩ := solveFieldVars_spec (rc := rc) (hw (e, r) (by simp)) ha (r := r)
        (vs := e.vars) fun v hv => hv
      refine ⟨o ++ os, ?_, ?_⟩
      · rw [if_pos ha, ho, hos]; rfl
      · intro eff heff σ h1 h2
        rw [List.mem_append] at heff
        rcases heff with heff | heff
        · exact h eff heff σ (h1 (e, r) (by simp)) (h2 (e, r) (by simp))
        · exact hh eff heff σ (fun y hy => h1 y (by simp [hy])) fun y hy => h2 y (by simp [hy])
    · rw [if_neg ha]
      exact ⟨os, hos, fun eff heff σ h1 h2 => hh eff heff σ
        (fun y hy => h1 y (by simp [hy])) fun y hy => h2 y (by simp [hy])⟩

/-- Outcome of solving a bus interaction. -/
theorem solveBus_spec {bus : Bus p} {h : Handler p} (hs : h.Sound bus)
    {b : BusInteraction (GExpr p V)} (hw : b.WF)
    {o : Except ViolatesBusRules (List (Effect p V))} (ho : solveBus rc h b = .ok o) :
    match o with
    | .error _ => ∀ σ, BusInRange rc σ b → ¬ bus (b.evalAt σ)
    | .ok effects => ∀ σ, BusInRange rc σ b → bus (b.evalAt σ) → ∀ eff ∈ effects, eff.Holds σ := by
  unfold solveBus at ho
  cases hc : handleChecked h (toRangeConstraints rc b) with
  | error x => rw [hc] at ho; cases ho
  | ok oc =>
    rw [hc] at ho
    have := handleChecked_spec hs hc
    cases oc with
    | error e =>
      cases ho
      exact fun σ hr hb => this _ hb (within_toRangeConstraints hr)
    | ok new =>
      obtain ⟨hl, hin⟩ := this
      have hlen : b.fields.length = new.fields.length := by
        rw [hl]; simp [toRangeConstraints, fields_map]
      have ho' : (zipEq b.fields new.fields >>= fun pairs => solveFields rc pairs >>= fun effects =>
          pure (.ok effects)) = Except.ok o := ho
      rw [zipEq_ok hlen] at ho'
      obtain ⟨es, hes, hh⟩ := solveFields_spec (rc := rc) (ps := b.fields.zip new.fields)
        fun x hx => hw x.1 (List.of_mem_zip hx).1
      change (solveFields rc (b.fields.zip new.fields) >>= fun effects => pure (.ok effects)) =
        Except.ok o at ho'
      rw [hes] at ho'
      cases ho'
      intro σ hr hb eff heff
      refine hh eff heff σ (fun x hx => hr x.1 (List.of_mem_zip hx).1) ?_
      have hwi := within_iff.1 (hin _ hb (within_toRangeConstraints hr))
      rw [fields_evalAt, List.forall₂_map_left_iff] at hwi
      exact forall₂_zip hwi

theorem solveBus_total {bus : Bus p} {h : Handler p} (hs : h.Sound bus) (ht : h.Total)
    {b : BusInteraction (GExpr p V)} (hw : b.WF) : ∃ o, solveBus rc h b = .ok o := by
  unfold solveBus
  have : ∃ oc, handleChecked h (toRangeConstraints rc b) = .ok oc := by
    unfold handleChecked
    obtain ⟨r', hr'⟩ := ht (toRangeConstraints rc b)
    have hl := (hs _ _ hr').1
    rw [hr']
    have hlen : (toRangeConstraints rc b).fields.length = r'.fields.length := by
      simp [BusInteraction.fields, hl]
    rw [ok_bind, zipEq_ok hlen, ok_bind]
    split
    · exact ⟨_, rfl⟩
    · exact ⟨_, rfl⟩
  obtain ⟨oc, hc⟩ := this
  rw [hc]
  have := handleChecked_spec hs hc
  cases oc with
  | error e => exact ⟨_, rfl⟩
  | ok new =>
    obtain ⟨hl, hin⟩ := this
    have hlen : b.fields.length = new.fields.length := by
      rw [hl]; simp [toRangeConstraints, fields_map]
    obtain ⟨es, hes, hh⟩ := solveFields_spec (rc := rc) (ps := b.fields.zip new.fields)
      fun x hx => hw x.1 (List.of_mem_zip hx).1
    refine ⟨.ok es, ?_⟩
    simp only [ok_bind, zipEq_ok hlen, hes]
    rfl

end Verif
