import Verif.Proofs.TrivialSimplifications

/-!
# Lemmas: removal of free variables and of disconnected columns
-/

namespace Verif

open GExpr

set_option linter.unusedSectionVars false

variable {p : ℕ} {V : Type} [LinearOrder V]

theorem Except.bind_ok_iff {ε α β : Type} {x : Except ε α} {f : α → Except ε β} {b : β} :
    (x >>= f) = .ok b ↔ ∃ a, x = .ok a ∧ f a = .ok b := by
  cases x with
  | error e => constructor
               · intro h; cases h
               · rintro ⟨a, h, -⟩; cases h
  | ok a => constructor
            · intro h; exact ⟨a, rfl, h⟩
            · rintro ⟨a', h, h'⟩; cases h; exact h'

theorem liftPanic_ok_iff {α : Type} {x : Except Panic α} {a : α} :
    liftPanic x = .ok a ↔ x = .ok a := by
  cases x with
  | error e => constructor <;> (intro h; cases h)
  | ok b => constructor <;> (intro h; cases h; rfl)

/-! ### Extending an assignment -/

/-- If every removed item can be satisfied through a variable that occurs in no other item, a
solution of the kept items extends to the removed ones. -/
theorem extend_free {I : Type} (holds : I → (V → ZMod p) → Prop) (occ : I → V → Prop)
    (hdep : ∀ i x τ k, ¬ occ i x → holds i τ → holds i (Function.update τ x k))
    (D : V → Prop) (kept : I → Prop) (removed : List I)
    (hrem : ∀ i ∈ removed, ∃ x, D x ∧ (∀ j, j ≠ i → ¬ occ j x) ∧
      ∀ τ, ∃ k, holds i (Function.update τ x k))
    (hk : ∀ i, kept i → i ∉ removed) (σ : V → ZMod p) (hσ : ∀ i, kept i → holds i σ) :
    ∃ τ, (∀ v, ¬ D v → τ v = σ v) ∧ ∀ i, kept i ∨ i ∈ removed → holds i τ := by
  induction removed with
  | nil => exact ⟨σ, fun _ _ => rfl, fun i hi => hσ i (by simpa using hi)⟩
  | cons i t ih =>
    obtain ⟨τ, h1, h2⟩ := ih (fun j hj => hrem j (List.mem_cons_of_mem _ hj))
      fun j hj hm => hk j hj (List.mem_cons_of_mem _ hm)
    obtain ⟨x, hx, honly, hfree⟩ := hrem i List.mem_cons_self
    obtain ⟨k, hk'⟩ := hfree τ
    refine ⟨Function.update τ x k, fun v hv => ?_, fun j hj => ?_⟩
    · rw [Function.update_of_ne (by rintro rfl; exact hv hx), h1 v hv]
    · by_cases hji : j = i
      · subst hji; exact hk'
      · refine hdep j x τ k (honly j hji) (h2 j ?_)
        rcases hj with hj | hj
        · exact .inl hj
        · exact .inr ((List.mem_cons.1 hj).resolve_left hji)

variable [Fact p.Prime]

theorem ConstraintRef.holds_congr {bus : Bus p} {c : ConstraintRef p V} {σ τ : V → ZMod p}
    (h : ∀ v, c.Mentions v → σ v = τ v) (hc : c.Holds bus σ) : c.Holds bus τ := by
  cases c with
  | alg e =>
    rw [ConstraintRef.Holds] at hc ⊢
    rw [← hc]
    exact (eval_congr fun v hv => h v (mem_vars_iff_occurs.1 hv)).symm
  | bus b =>
    rw [ConstraintRef.Holds] at hc ⊢
    have : b.evalAt σ = b.evalAt τ := by
      have he : ∀ e ∈ b.fields, eval σ e = eval τ e := fun e he =>
        eval_congr fun v hv => h v ⟨e, he, mem_vars_iff_occurs.1 hv⟩
      unfold BusInteraction.evalAt
      rw [he b.busId (by simp [BusInteraction.fields]),
        he b.multiplicity (by simp [BusInteraction.fields]),
        List.map_congr_left fun e h => he e (by simp [BusInteraction.fields, h])]
    rw [← this]
    exact hc

theorem satisfied_iff_items {bus : Bus p} {s : ConstraintSystem p V} {σ : V → ZMod p} :
    s.Satisfied bus σ ↔ ∀ c : ConstraintRef p V, c.In s → c.Holds bus σ := by
  constructor
  · rintro ⟨h1, h2⟩ c hc
    cases c with
    | alg e => exact h1 e hc
    | bus b => exact h2 b hc
  · intro h
    exact ⟨fun e he => h (.alg e) he, fun b hb => h (.bus b) hb⟩

/-! ### Free variables -/

theorem canAlwaysBeSatisfied_spec (x : V) {e : GExpr p V} (hw : WF e) :
    ∃ r, canAlwaysBeSatisfied x e = .ok r ∧
      (r = true → ∀ τ : V → ZMod p, ∃ k, e.eval (Function.update τ x k) = 0) := by
  have solved : ∀ {e s : GExpr p V}, WF e → trySolveFor e x = .ok (some s) →
      ∀ τ : V → ZMod p, ∃ k, e.eval (Function.update τ x k) = 0 := by
    intro e s hw h τ
    obtain ⟨o, ho, hs⟩ := trySolveFor_spec hw x
    rw [h] at ho
    cases ho
    obtain ⟨-, h2, h3, -⟩ := hs s rfl
    refine ⟨eval τ s, (h2 _).2 ?_⟩
    rw [Function.update_self]
    exact eval_congr fun v hv =>
      (Function.update_of_ne (by rintro rfl; exact h3 hv) _ _).symm
  have base : ∀ {e : GExpr p V}, WF e → ∃ r, (do
        match ← trySolveFor e x with
        | some _ => pure true
        | none => pure false : Except Panic Bool) = .ok r ∧
      (r = true → ∀ τ : V → ZMod p, ∃ k, e.eval (Function.update τ x k) = 0) := by
    intro e hw
    obtain ⟨o, ho, -⟩ := trySolveFor_spec hw x
    rw [ho]
    cases o with
    | none => exact ⟨false, rfl, by simp⟩
    | some s => exact ⟨true, rfl, fun _ => solved hw ho⟩
  induction e using ind with
  | h q l c ih =>
    rcases q with _ | ⟨⟨a, b⟩, _ | ⟨y, q⟩⟩
    · rw [canAlwaysBeSatisfied]
      · exact base hw
      · simp
    · rcases l with _ | ⟨y, l⟩
      · rw [canAlwaysBeSatisfied]
        obtain ⟨o, ho, -⟩ := trySolveFor_spec hw x
        rw [ho]
        cases o with
        | some s => exact ⟨true, rfl, fun _ => solved hw ho⟩
        | none =>
          by_cases hc : c = 0
          · subst hc
            obtain ⟨h1, -, -⟩ := wf_inv hw
            obtain ⟨w1, w2, -, -⟩ := h1 (a, b) List.mem_cons_self
            obtain ⟨r1, e1, p1⟩ := (ih (a, b) List.mem_cons_self).1 w1
            obtain ⟨r2, e2, p2⟩ := (ih (a, b) List.mem_cons_self).2 w2
            simp only at e1 e2 p1 p2
            have hev : ∀ σ : V → ZMod p, eval σ (mk [(a, b)] [] 0) = eval σ a * eval σ b := by
              intro σ; simp [eval_mk]
            refine ⟨r1 || r2, ?_, ?_⟩
            · show (if (0 : ZMod p) = 0 then _ else _) = _
              rw [if_pos rfl, e1]
              cases r1 with
              | true => rfl
              | false => exact e2
            · intro h τ
              cases r1 with
              | true =>
                obtain ⟨k, hk⟩ := p1 rfl τ
                exact ⟨k, by rw [hev, hk, zero_mul]⟩
              | false =>
                obtain ⟨k, hk⟩ := p2 (by simpa using h) τ
                exact ⟨k, by rw [hev, hk, mul_zero]⟩
          · refine ⟨false, ?_, by simp⟩
            show (if c = 0 then _ else _) = _
            rw [if_neg hc]
            rfl
      · rw [canAlwaysBeSatisfied]
        · exact base hw
        · simp
    · rw [canAlwaysBeSatisfied]
      · exact base hw
      · simp

theorem mem_freeVariables {f : ZMod p → Bool} {ix : Indexed p V} {l r : List V}
    (h : freeVariables f ix l = .ok r) {x : V} (hx : x ∈ r) :
    x ∈ l ∧ ∃ c, ix.constraintsReferencing [x] = .ok [c] ∧ removableVia f x c = .ok true := by
  induction l generalizing r with
  | nil => rw [freeVariables] at h; cases h; cases hx
  | cons y t ih =>
    rw [freeVariables, Except.bind_ok_iff] at h
    obtain ⟨refs, h1, h⟩ := h
    rw [Except.bind_ok_iff] at h
    obtain ⟨rest, h2, h⟩ := h
    have rec_ : x ∈ rest → x ∈ y :: t ∧ ∃ c, ix.constraintsReferencing [x] = .ok [c] ∧
        removableVia f x c = .ok true := fun hm =>
      ⟨List.mem_cons_of_mem _ (ih h2 hm).1, (ih h2 hm).2⟩
    rcases refs with _ | ⟨c, _ | ⟨d, refs⟩⟩
    · cases h; exact rec_ hx
    · rw [Except.bind_ok_iff] at h
      obtain ⟨b, h3, h⟩ := h
      cases b with
      | false => cases h; exact rec_ hx
      | true =>
        cases h
        rcases List.mem_cons.1 hx with rfl | hx
        · exact ⟨List.mem_cons_self, c, h1, h3⟩
        · exact rec_ hx
    · cases h; exact rec_ hx

/-- A variable with a single referencing constraint occurs in no other constraint. -/
theorem only_item {ix : Indexed p V} (hi : ix.Inv) {x : V} {c : ConstraintRef p V}
    (h : ix.constraintsReferencing [x] = .ok [c]) :
    ∃ i, refAt ix.sys i = some c ∧ ∀ j d, refAt ix.sys j = some d → d.Mentions x → j = i := by
  rw [Indexed.constraintsReferencing_ok hi] at h
  simp only [Except.ok.injEq] at h
  have hnd : (ix.itemsReferencing [x]).Nodup := by
    unfold Indexed.itemsReferencing; exact nodup_eraseDups _
  have hm : c ∈ (ix.itemsReferencing [x]).filterMap (refAt ix.sys) := by rw [h]; simp
  obtain ⟨i, hi1, hi2⟩ := List.mem_filterMap.1 hm
  refine ⟨i, hi2, fun j d hj hd => ?_⟩
  have hjm : j ∈ ix.itemsReferencing [x] :=
    Indexed.mem_itemsReferencing.2 ⟨x, by simp, hi.complete x j (occursIn_of_refAt hj hd)⟩
  by_contra hne
  have : ∀ l : List Item, l.Nodup → i ∈ l → j ∈ l →
      2 ≤ (l.filterMap (refAt ix.sys)).length := by
    intro l hl him hjm
    have hsub : ([i, j] : List Item).Subperm l := by
      refine List.subperm_of_subset (by simp [Ne.symm hne]) ?_
      intro y hy
      simp only [List.mem_cons, List.not_mem_nil, or_false] at hy
      rcases hy with rfl | rfl <;> assumption
    obtain ⟨l', hp, hs⟩ := hsub
    have h1 := (hs.filterMap (refAt ix.sys)).length_le
    have h2 := (hp.filterMap (refAt ix.sys)).length_eq
    rw [h2] at h1
    simp [hi2, hj] at h1
    exact h1
  have := this _ hnd hi1 hjm
  rw [h] at this
  simp at this

theorem retainBusKeeping_ok {f : ZMod p → Bool} {keep : List V}
    {l r : List (BusInteraction (GExpr p V))} (h : retainBusKeeping f keep l = .ok r) :
    (∀ b ∈ l, ∃ id, b.busId.tryToNumber = some id) ∧
    r = l.filter fun b => (match b.busId.tryToNumber with
      | none => false
      | some id => f id) || (busVars b).all fun v => v ∈ keep := by
  induction l generalizing r with
  | nil => rw [retainBusKeeping] at h; cases h; simp
  | cons b t ih =>
    rw [retainBusKeeping, Except.bind_ok_iff] at h
    obtain ⟨id, h1, h⟩ := h
    rw [Except.bind_ok_iff] at h
    obtain ⟨rest, h2, h⟩ := h
    have hid : b.busId.tryToNumber = some id := by
      unfold knownBusId at h1
      split at h1
      · cases h1
      · rename_i x hx; cases h1; exact hx
    obtain ⟨i1, i2⟩ := ih h2
    cases h
    refine ⟨?_, ?_⟩
    · intro c hc
      rcases List.mem_cons.1 hc with rfl | hc
      · exact ⟨id, hid⟩
      · exact i1 c hc
    · rw [List.filter_cons, hid, ← i2]

theorem removeFree_ok {h : Handler p} {f : ZMod p → Bool} {ix : Indexed p V} {solver : Solver p V}
    {s' : ConstraintSystem p V} {solver' : Solver p V}
    (hr : removeFree h f ix solver = .ok (s', solver')) :
    ∃ delete, freeVariables f ix ix.sys.vars.eraseDups = .ok delete ∧
      SolverOp.run h solver (.retain (ix.sys.vars.eraseDups.filter fun v => v ∉ delete)) =
        .ok (.unit, solver') ∧
      (∀ b ∈ ix.sys.bus, ∃ id, b.busId.tryToNumber = some id) ∧
      s' = { ix.sys with
        algebraic := ix.sys.algebraic.filter fun e => e.vars.all fun v =>
          v ∈ ix.sys.vars.eraseDups.filter fun v => v ∉ delete
        bus := ix.sys.bus.filter fun b => (match b.busId.tryToNumber with
          | none => false
          | some id => f id) || (busVars b).all fun v =>
            v ∈ ix.sys.vars.eraseDups.filter fun v => v ∉ delete } := by
  unfold removeFree at hr
  simp only at hr
  rw [Except.bind_ok_iff] at hr
  obtain ⟨delete, h1, hr⟩ := hr
  rw [Except.bind_ok_iff] at hr
  obtain ⟨r, h2, hr⟩ := hr
  rw [Except.bind_ok_iff] at hr
  obtain ⟨bus, h3, hr⟩ := hr
  rw [liftPanic_ok_iff] at h1 h3
  obtain ⟨h4, h5⟩ := retainBusKeeping_ok h3
  cases hr
  refine ⟨delete, h1, ?_, h4, by rw [h5]⟩
  obtain ⟨o, s⟩ := r
  have : o = .unit := by
    rw [SolverOp.run, Except.bind_ok_iff] at h2
    obtain ⟨x, -, h2⟩ := h2
    cases h2; rfl
  rw [h2, this]

/-- The values of the systems' items. -/
theorem mem_vars_of_item {s : ConstraintSystem p V} {i : Item} {c : ConstraintRef p V}
    (h : refAt s i = some c) {v : V} (hv : c.Mentions v) : v ∈ s.vars := by
  have := in_iff_refAt.2 ⟨i, h⟩
  unfold ConstraintSystem.vars
  rw [List.mem_append, List.mem_flatMap, List.mem_flatMap]
  cases c with
  | alg e => exact .inl ⟨e, this, mem_vars_iff_occurs.2 hv⟩
  | bus b => exact .inr ⟨b, this, mem_busVars.2 hv⟩

theorem removeFree_projection {bus : Bus p} {h : Handler p} {f : ZMod p → Bool} {ix : Indexed p V}
    (hi : ix.Inv) (hw : ix.sys.WF) {solver solver' : Solver p V} {s' : ConstraintSystem p V}
    (hr : removeFree h f ix solver = .ok (s', solver'))
    (hbus : ∀ b ∈ ix.sys.bus, b ∉ s'.bus → ∀ x, (∃ e ∈ b.fields, e.Occurs x) →
      (∃ g, b.payload.filter (fun f => f.tryToNumber.isNone) = [g]) →
      (∀ e ∈ b.payload, e.degreeOf x ≤ 1) → ¬ s'.Mentions x → FreeThrough bus b x)
    {σ : V → ZMod p} (hσ : s'.Satisfied bus σ) :
    ∃ τ, (∀ v, s'.Mentions v → τ v = σ v) ∧ ix.sys.Satisfied bus τ := by
  obtain ⟨delete, h1, -, hid, rfl⟩ := removeFree_ok hr
  set keep := ix.sys.vars.eraseDups.filter fun v => v ∉ delete with hkeep
  set s' : ConstraintSystem p V := { ix.sys with
    algebraic := ix.sys.algebraic.filter fun e => e.vars.all fun v => v ∈ keep
    bus := ix.sys.bus.filter fun b => (match b.busId.tryToNumber with
      | none => false
      | some id => f id) || (busVars b).all fun v => v ∈ keep } with hs'
  have hstate : ∀ b ∈ ix.sys.bus, b ∈ s'.bus ∨
      ((match b.busId.tryToNumber with | none => false | some id => f id) = false ∧
        ∃ v, (∃ e ∈ b.fields, e.Occurs v) ∧ v ∈ delete) := by
    intro b hb
    by_cases hm : b ∈ s'.bus
    · exact .inl hm
    · refine .inr ?_
      rw [hs'] at hm
      simp only [List.mem_filter, hb, true_and, Bool.or_eq_true, not_or, List.all_eq_true,
        decide_eq_true_eq, not_forall] at hm
      obtain ⟨hm1, v, hv, hv'⟩ := hm
      refine ⟨by simpa using hm1, v, mem_busVars.1 hv, ?_⟩
      by_contra hnd
      refine hv' ?_
      rw [hkeep, List.mem_filter]
      refine ⟨mem_eraseDups'.2 ?_, by simpa using hnd⟩
      unfold ConstraintSystem.vars
      exact List.mem_append_right _ (List.mem_flatMap.2 ⟨b, hb, hv⟩)
  have halg : ∀ e ∈ ix.sys.algebraic, e ∈ s'.algebraic ∨ ∃ v, e.Occurs v ∧ v ∈ delete := by
    intro e he
    by_cases hm : e ∈ s'.algebraic
    · exact .inl hm
    · refine .inr ?_
      rw [hs'] at hm
      simp only [List.mem_filter, he, true_and, List.all_eq_true,
        decide_eq_true_eq, not_forall] at hm
      obtain ⟨v, hv, hv'⟩ := hm
      refine ⟨v, mem_vars_iff_occurs.1 hv, ?_⟩
      by_contra hnd
      refine hv' ?_
      rw [hkeep, List.mem_filter]
      refine ⟨mem_eraseDups'.2 ?_, by simpa using hnd⟩
      unfold ConstraintSystem.vars
      exact List.mem_append_left _ (List.mem_flatMap.2 ⟨e, he, hv⟩)
  -- a deleted variable does not occur in the result
  have hgone : ∀ x ∈ delete, ¬ s'.Mentions x := by
    rintro x hx (⟨e, he, ho⟩ | ⟨b, hb, e, he, ho⟩)
    · rw [hs'] at he
      simp only [List.mem_filter, List.all_eq_true, decide_eq_true_eq] at he
      have := he.2 x (mem_vars_iff_occurs.2 ho)
      rw [hkeep, List.mem_filter] at this
      exact absurd hx (by simpa using this.2)
    · rw [hs'] at hb
      simp only [List.mem_filter, Bool.or_eq_true, List.all_eq_true, decide_eq_true_eq] at hb
      rcases hb.2 with hst | hall
      · obtain ⟨-, c, hc, hrem⟩ := mem_freeVariables h1 hx
        obtain ⟨i, hi1, hi2⟩ := only_item hi hc
        obtain ⟨j, hj⟩ := (in_iff_refAt (c := .bus b) (s := ix.sys)).1 hb.1
        have := hi2 j _ hj ⟨e, he, ho⟩
        subst this
        rw [hi1] at hj
        cases hj
        rw [removableVia, Except.bind_ok_iff] at hrem
        obtain ⟨id, hk, hrem⟩ := hrem
        have hid' : b.busId.tryToNumber = some id := by
          unfold knownBusId at hk
          split at hk
          · cases hk
          · rename_i y hy; cases hk; exact hy
        rw [hid'] at hst
        change f id = true at hst
        simp only [pure, Except.pure, Except.ok.injEq, Bool.and_eq_true, Bool.not_eq_true'] at hrem
        rw [hrem.1.1] at hst
        cases hst
      · have := hall x (mem_busVars.2 ⟨e, he, ho⟩)
        rw [hkeep, List.mem_filter] at this
        exact absurd hx (by simpa using this.2)
  let holds : Item → (V → ZMod p) → Prop := fun i τ => ∀ c, refAt ix.sys i = some c → c.Holds bus τ
  let occ : Item → V → Prop := fun i x => ∃ c, refAt ix.sys i = some c ∧ c.Mentions x
  let items : List Item := (List.range ix.sys.algebraic.length).map .alg ++
    (List.range ix.sys.bus.length).map .bus
  have hitems : ∀ i c, refAt ix.sys i = some c → i ∈ items := by
    intro i c hc
    have := refAt_inBounds hc
    cases i with
    | alg i => exact List.mem_append_left _ (List.mem_map.2 ⟨i, List.mem_range.2 this.1, rfl⟩)
    | bus i => exact List.mem_append_right _ (List.mem_map.2 ⟨i, List.mem_range.2 this.1, rfl⟩)
    | derived i => cases hc
  classical
  let kept : Item → Prop := fun i => ∀ c, refAt ix.sys i = some c → c.In s'
  obtain ⟨τ, t1, t2⟩ := extend_free holds occ
    (by
      intro i x τ k hno hh c hc
      refine ConstraintRef.holds_congr (fun v hv => ?_) (hh c hc)
      refine (Function.update_of_ne ?_ _ _).symm
      rintro rfl
      exact hno ⟨c, hc, hv⟩)
    (· ∈ delete) kept (items.filter fun i => ¬ kept i)
    (by
      intro i hi'
      have hnk : ¬ kept i := by simpa using (List.mem_filter.1 hi').2
      simp only [kept, not_forall] at hnk
      obtain ⟨c, hc, hnin⟩ := hnk
      have hcin := in_iff_refAt.2 ⟨i, hc⟩
      have hx : ∃ x, c.Mentions x ∧ x ∈ delete := by
        cases c with
        | alg e => exact (halg e hcin).resolve_left hnin
        | bus b => exact ((hstate b hcin).resolve_left hnin).2
      obtain ⟨x, hcx, hxd⟩ := hx
      obtain ⟨-, c', hc', hrem⟩ := mem_freeVariables h1 hxd
      obtain ⟨i', hi1, hi2⟩ := only_item hi hc'
      have := hi2 i c hc hcx
      subst this
      rw [hc] at hi1
      cases hi1
      refine ⟨x, hxd, ?_, ?_⟩
      · rintro j hne ⟨d, hd, hdx⟩
        exact hne (hi2 j d hd hdx)
      · intro τ
        have : ∃ k, c.Holds bus (Function.update τ x k) := by
          cases c with
          | alg e =>
            rw [removableVia] at hrem
            obtain ⟨r, hr1, hr2⟩ := canAlwaysBeSatisfied_spec x (hw.1 e hcin)
            rw [hrem] at hr1
            cases hr1
            exact hr2 rfl τ
          | bus b =>
            rw [removableVia, Except.bind_ok_iff] at hrem
            obtain ⟨id, hk, hrem⟩ := hrem
            simp only [pure, Except.pure, Except.ok.injEq, Bool.and_eq_true, Bool.not_eq_true',
              decide_eq_true_eq, List.all_eq_true] at hrem
            exact hbus b hcin hnin x hcx (List.length_eq_one_iff.1 hrem.1.2) hrem.2
              (hgone x hxd) τ
        obtain ⟨k, hk⟩ := this
        refine ⟨k, fun c'' hc'' => ?_⟩
        rw [hc] at hc''
        cases hc''
        exact hk)
    (by
      intro i hk hm
      have := (List.mem_filter.1 hm).2
      simp only [decide_eq_true_eq] at this
      exact this hk)
    σ
    (by
      intro i hk c hc
      exact satisfied_iff_items.1 hσ c (hk c hc))
  refine ⟨τ, fun v hv => t1 v fun hd => hgone v hd hv, satisfied_iff_items.2 fun c hc => ?_⟩
  obtain ⟨i, hic⟩ := in_iff_refAt.1 hc
  refine t2 i ?_ c hic
  by_cases hk : kept i
  · exact .inl hk
  · exact .inr (List.mem_filter.2 ⟨hitems i c hic, by simpa using hk⟩)

/-- A filter that keeps all stateful interactions keeps the messages. -/
theorem messages_filter_stateful {f : ZMod p → Bool} {s : ConstraintSystem p V} (σ : V → ZMod p)
    {a : List (GExpr p V)} {d : List (DerivedVariable p V)}
    {q : BusInteraction (GExpr p V) → Bool}
    (hid : ∀ b ∈ s.bus, ∃ id, b.busId.tryToNumber = some id)
    (hq : ∀ b ∈ s.bus, ∀ id, b.busId.tryToNumber = some id → f id = true → q b = true) :
    ConstraintSystem.messages f ⟨a, s.bus.filter q, d⟩ σ = s.messages f σ := by
  refine messages_filter f s σ fun b hb hqb hf => ?_
  obtain ⟨id, h⟩ := hid b hb
  rw [eval_known σ h] at hf
  rw [hq b hb id h hf] at hqb
  cases hqb

theorem satisfied_filter {bus : Bus p} {s : ConstraintSystem p V} {σ : V → ZMod p}
    (h : s.Satisfied bus σ) (f : GExpr p V → Bool) (g : BusInteraction (GExpr p V) → Bool)
    (d : List (DerivedVariable p V)) :
    ConstraintSystem.Satisfied bus ⟨s.algebraic.filter f, s.bus.filter g, d⟩ σ :=
  ⟨fun e he => h.algebraic e (List.mem_filter.1 he).1, fun b hb => h.bus b (List.mem_filter.1 hb).1⟩

/-- The messages depend only on the variables that occur in the system. -/
theorem messages_congr {f : ZMod p → Bool} {s : ConstraintSystem p V} {σ τ : V → ZMod p}
    (h : ∀ v, s.Mentions v → σ v = τ v) : s.messages f σ = s.messages f τ := by
  unfold ConstraintSystem.messages
  congr 1
  refine List.map_congr_left fun b hb => evalAt_congr fun v hv => ?_
  obtain ⟨e, he, ho⟩ := mem_busVars.1 hv
  exact h v (.inr ⟨b, hb, e, he, ho⟩)

/-- If exactly one payload field is unknown, depends on `x` with a constant nonzero coefficient, and
nothing else depends on `x`, the interaction is free through `x` as soon as the bus accepts some
value of that field. -/
theorem freeThrough_of_field {bus : Bus p} {b : BusInteraction (GExpr p V)} {x : V}
    {g : GExpr p V} {k : ZMod p} (hk : k ≠ 0)
    (hm : ¬ b.multiplicity.Occurs x) (hb : ¬ b.busId.Occurs x)
    (ho : ∀ e ∈ b.payload, e = g ∨ e.tryToNumber.isSome)
    (hg : ∀ (τ : V → ZMod p) t, g.eval (Function.update τ x t) = k * t + g.eval (Function.update τ x 0))
    (hacc : ∀ τ : V → ZMod p, ∃ a, bus ⟨b.busId.eval τ, b.multiplicity.eval τ,
      b.payload.map fun e => if e = g then a else e.eval τ⟩) :
    FreeThrough bus b x := by
  intro τ
  obtain ⟨a, ha⟩ := hacc τ
  refine ⟨k⁻¹ * (a - g.eval (Function.update τ x 0)), ?_⟩
  set t := k⁻¹ * (a - g.eval (Function.update τ x 0)) with ht
  have hga : g.eval (Function.update τ x t) = a := by
    rw [hg, ht, ← mul_assoc, mul_inv_cancel₀ hk, one_mul, sub_add_cancel]
  have hno : ∀ e : GExpr p V, ¬ e.Occurs x → e.eval (Function.update τ x t) = e.eval τ := by
    intro e he
    refine eval_congr fun v hv => Function.update_of_ne ?_ _ _
    rintro rfl
    exact he (mem_vars_iff_occurs.1 hv)
  have : b.evalAt (Function.update τ x t) = ⟨b.busId.eval τ, b.multiplicity.eval τ,
      b.payload.map fun e => if e = g then a else e.eval τ⟩ := by
    unfold BusInteraction.evalAt
    rw [hno _ hm, hno _ hb]
    congr 1
    refine List.map_congr_left fun e he => ?_
    split
    · rename_i h; rw [h, hga]
    · rename_i h
      have := (ho e he).resolve_left h
      obtain ⟨c, hc⟩ := Option.isSome_iff_exists.1 this
      rw [eval_known _ hc, eval_known _ hc]
  rw [this]
  exact ha

/-! ### Disconnected columns -/

theorem knownBusId_ok {b : BusInteraction (GExpr p V)} {id : ZMod p} (h : knownBusId b = .ok id) :
    b.busId.tryToNumber = some id := by
  unfold knownBusId at h
  split at h
  · cases h
  · rename_i x hx; cases h; exact hx

theorem statefulVariables_ok {f : ZMod p → Bool} {l : List (BusInteraction (GExpr p V))}
    {r : List V} (h : statefulVariables f l = .ok r) (v : V) :
    v ∈ r ↔ ∃ b ∈ l, ∃ id, b.busId.tryToNumber = some id ∧ f id = true ∧ v ∈ busVars b := by
  induction l generalizing r with
  | nil => rw [statefulVariables] at h; cases h; simp
  | cons b t ih =>
    rw [statefulVariables, Except.bind_ok_iff] at h
    obtain ⟨id, h1, h⟩ := h
    rw [Except.bind_ok_iff] at h
    obtain ⟨rest, h2, h⟩ := h
    have hid := knownBusId_ok h1
    have ih := ih h2
    cases h
    constructor
    · intro hv
      split at hv
      · rename_i hf
        rcases List.mem_append.1 hv with hv | hv
        · exact ⟨b, List.mem_cons_self, id, hid, hf, hv⟩
        · obtain ⟨c, hc, rest⟩ := ih.1 hv
          exact ⟨c, List.mem_cons_of_mem _ hc, rest⟩
      · obtain ⟨c, hc, rest⟩ := ih.1 hv
        exact ⟨c, List.mem_cons_of_mem _ hc, rest⟩
    · rintro ⟨c, hc, id', hid', hf, hv⟩
      rcases List.mem_cons.1 hc with rfl | hc
      · rw [hid] at hid'
        cases hid'
        rw [if_pos hf]
        exact List.mem_append_left _ hv
      · have := ih.2 ⟨c, hc, id', hid', hf, hv⟩
        split
        · exact List.mem_append_right _ this
        · exact this

theorem retainBusTouching_ok {f : ZMod p → Bool} {keep : List V}
    {l r : List (BusInteraction (GExpr p V))} (h : retainBusTouching f keep l = .ok r) :
    (∀ b ∈ l, ∃ id, b.busId.tryToNumber = some id) ∧
    r = l.filter fun b => (match b.busId.tryToNumber with
      | none => false
      | some id => f id) || (busVars b).any fun v => v ∈ keep := by
  induction l generalizing r with
  | nil => rw [retainBusTouching] at h; cases h; simp
  | cons b t ih =>
    rw [retainBusTouching, Except.bind_ok_iff] at h
    obtain ⟨id, h1, h⟩ := h
    rw [Except.bind_ok_iff] at h
    obtain ⟨rest, h2, h⟩ := h
    have hid := knownBusId_ok h1
    obtain ⟨i1, i2⟩ := ih h2
    cases h
    refine ⟨?_, ?_⟩
    · intro c hc
      rcases List.mem_cons.1 hc with rfl | hc
      · exact ⟨id, hid⟩
      · exact i1 c hc
    · rw [List.filter_cons, hid, ← i2]

theorem run_retain_unit {h : Handler p} {solver : Solver p V} {keep : List V}
    {r : SolverOut p V × Solver p V} (hr : SolverOp.run h solver (.retain keep) = .ok r) :
    r.1 = .unit := by
  rw [SolverOp.run, Except.bind_ok_iff] at hr
  obtain ⟨x, -, hr⟩ := hr
  cases hr; rfl

theorem removeDisconnected_ok {h : Handler p} {f : ZMod p → Bool} {ord : SetOrder V} {fuel : ℕ}
    {ix : Indexed p V} (hi : ix.Inv) {solver solver' : Solver p V} {s' : ConstraintSystem p V}
    (hr : removeDisconnected h f ord fuel ix solver = .ok (s', solver')) :
    ∃ keep : List V, (∀ v, v ∈ keep ↔ Reachable ix.sys (fun v => ∃ b ∈ ix.sys.bus, ∃ id,
          b.busId.tryToNumber = some id ∧ f id = true ∧ ∃ e ∈ b.fields, e.Occurs v)
        (fun _ => False) v) ∧
      SolverOp.run h solver (.retain keep) = .ok (.unit, solver') ∧
      (∀ b ∈ ix.sys.bus, ∃ id, b.busId.tryToNumber = some id) ∧
      s' = { ix.sys with
        algebraic := ix.sys.algebraic.filter fun e => e.vars.any fun v => v ∈ keep
        bus := ix.sys.bus.filter fun b => (match b.busId.tryToNumber with
          | none => false
          | some id => f id) || (busVars b).any fun v => v ∈ keep } := by
  unfold removeDisconnected at hr
  rw [Except.bind_ok_iff] at hr
  obtain ⟨initial, h1, hr⟩ := hr
  rw [Except.bind_ok_iff] at hr
  obtain ⟨o, h2, hr⟩ := hr
  rw [liftPanic_ok_iff] at h1 h2
  cases o with
  | none => cases hr
  | some keep =>
    simp only at hr
    rw [Except.bind_ok_iff] at hr
    obtain ⟨r, h3, hr⟩ := hr
    rw [Except.bind_ok_iff] at hr
    obtain ⟨bus, h4, hr⟩ := hr
    rw [liftPanic_ok_iff] at h4
    obtain ⟨h5, h6⟩ := retainBusTouching_ok h4
    cases hr
    have hu := run_retain_unit h3
    obtain ⟨o', ho', hk, -⟩ := reachableExceptBlocked_spec ord hi initial [] fuel
    unfold reachable at h2
    rw [h2] at ho'
    cases ho'
    have hk := (hk keep rfl).2
    refine ⟨keep, fun v => ?_, by rw [h3, ← hu], h5, by rw [h6]⟩
    rw [hk v]
    have hst : ∀ v, v ∈ initial ↔ ∃ b ∈ ix.sys.bus, ∃ id,
          b.busId.tryToNumber = some id ∧ f id = true ∧ ∃ e ∈ b.fields, e.Occurs v := by
      intro v
      rw [statefulVariables_ok h1]
      simp only [mem_busVars]
    constructor
    · intro hv
      induction hv with
      | start v h => exact .start v ((hst v).1 h)
      | step u v c hu hb hc hcu hcv ih => exact .step u v c ih (by simp) hc hcu hcv
    · intro hv
      induction hv with
      | start v h => exact .start v ((hst v).2 h)
      | step u v c hu hb hc hcu hcv ih => exact .step u v c ih (by simp) hc hcu hcv

theorem removeDisconnected_projection {bus : Bus p} {h : Handler p} {f : ZMod p → Bool}
    {ord : SetOrder V} {fuel : ℕ} {ix : Indexed p V} (hi : ix.Inv) {solver solver' : Solver p V}
    {s' : ConstraintSystem p V}
    (hr : removeDisconnected h f ord fuel ix solver = .ok (s', solver'))
    {σ τ : V → ZMod p} (hσ : s'.Satisfied bus σ)
    (hτ : ∀ c : ConstraintRef p V, c.In ix.sys → ¬ c.In s' → c.Holds bus τ) :
    ∃ ρ, (∀ v, s'.Mentions v → ρ v = σ v) ∧ (∀ v, ¬ s'.Mentions v → ρ v = σ v ∨ ρ v = τ v) ∧
      ix.sys.Satisfied bus ρ := by
  obtain ⟨keep, hk, -, hid, rfl⟩ := removeDisconnected_ok hi hr
  set s' : ConstraintSystem p V := { ix.sys with
    algebraic := ix.sys.algebraic.filter fun e => e.vars.any fun v => v ∈ keep
    bus := ix.sys.bus.filter fun b => (match b.busId.tryToNumber with
      | none => false
      | some id => f id) || (busVars b).any fun v => v ∈ keep } with hs'
  have hclosed : ∀ c : ConstraintRef p V, c.In ix.sys → c.In s' → ∀ v, c.Mentions v → v ∈ keep := by
    intro c hc hc' v hv
    have key : ∀ u, c.Mentions u → u ∈ keep → v ∈ keep := fun u hu huk =>
      (hk v).2 (.step u v c ((hk u).1 huk) (by simp) hc hu hv)
    cases c with
    | alg e =>
      change e ∈ s'.algebraic at hc'
      rw [hs'] at hc'
      simp only [List.mem_filter, List.any_eq_true, decide_eq_true_eq] at hc'
      obtain ⟨-, u, hu, huk⟩ := hc'
      exact key u (mem_vars_iff_occurs.1 hu) huk
    | bus b =>
      change b ∈ s'.bus at hc'
      rw [hs'] at hc'
      simp only [List.mem_filter, Bool.or_eq_true, List.any_eq_true, decide_eq_true_eq] at hc'
      obtain ⟨hb, hst | ⟨u, hu, huk⟩⟩ := hc'
      · obtain ⟨id, hid'⟩ := hid b hb
        rw [hid'] at hst
        exact (hk v).2 (.start v ⟨b, hb, id, hid', hst, hv⟩)
      · exact key u (mem_busVars.1 hu) huk
  have hopen : ∀ c : ConstraintRef p V, c.In ix.sys → ¬ c.In s' → ∀ v, c.Mentions v → v ∉ keep := by
    intro c hc hc' v hv hvk
    cases c with
    | alg e =>
      refine hc' ?_
      change e ∈ s'.algebraic
      rw [hs']
      simp only [List.mem_filter, List.any_eq_true, decide_eq_true_eq]
      exact ⟨hc, v, mem_vars_iff_occurs.2 hv, hvk⟩
    | bus b =>
      refine hc' ?_
      change b ∈ s'.bus
      rw [hs']
      simp only [List.mem_filter, Bool.or_eq_true, List.any_eq_true, decide_eq_true_eq]
      exact ⟨hc, .inr ⟨v, mem_busVars.2 hv, hvk⟩⟩
  have hsub : ∀ c : ConstraintRef p V, c.In s' → c.In ix.sys := by
    intro c hc
    cases c with
    | alg e => exact (List.mem_filter.1 hc).1
    | bus b => exact (List.mem_filter.1 hc).1
  have hment : ∀ v, s'.Mentions v → v ∈ keep := by
    rintro v (⟨e, he, ho⟩ | ⟨b, hb, ho⟩)
    · exact hclosed (.alg e) (hsub (.alg e) he) he v ho
    · exact hclosed (.bus b) (hsub (.bus b) hb) hb v ho
  refine ⟨fun v => if v ∈ keep then σ v else τ v, fun v hv => if_pos (hment v hv), fun v _ => ?_,
    satisfied_iff_items.2 fun c hc => ?_⟩
  · by_cases hv : v ∈ keep
    · left; exact if_pos hv
    · right; exact if_neg hv
  · by_cases hc' : c.In s'
    · exact ConstraintRef.holds_congr (fun v hv => (if_pos (hclosed c hc hc' v hv)).symm)
        (satisfied_iff_items.1 hσ c hc')
    · exact ConstraintRef.holds_congr (fun v hv => (if_neg (hopen c hc hc' v hv)).symm) (hτ c hc hc')

end Verif
