import Verif.Proofs.TerminationMeasure

/-! Helper lemmas for the termination of the solver: how the operations change the measure. -/

set_option linter.unusedSectionVars false

namespace Verif

open GExpr

variable {p : ℕ} {V : Type} [Fact p.Prime] [LinearOrder V]

theorem stop_bind_ok {α β : Type} {o : Except Stop α} {f : α → Except Stop β} {b : β}
    (h : (o >>= f) = .ok b) : ∃ a, o = .ok a ∧ f a = .ok b := by
  cases o with
  | error x => cases h
  | ok a => exact ⟨a, rfl, h⟩

theorem liftPanic_eq_ok {α : Type} {o : Except Panic α} {a : α} (h : liftPanic o = .ok a) :
    o = .ok a := by
  cases o with
  | error x => cases h
  | ok b => cases h; rfl

theorem SVar.in_boolean (O : List V) (n : ℕ) : (SVar.boolean n : SVar V).In O := trivial

namespace Solver

variable {s s' : Solver p V} {O : List V}

/-- Nothing relevant changes except the queue and range constraints. -/
structure Same (s s' : Solver p V) : Prop where
  ix : s'.cs.ix = s.cs.ix
  boolSubs : s'.boolSubs = s.boolSubs
  linSubs : s'.linSubs = s.linSubs

theorem Same.trans {a b c : Solver p V} (h : Same a b) (h' : Same b c) : Same a c :=
  ⟨h'.ix.trans h.ix, h'.boolSubs.trans h.boolSubs, h'.linSubs.trans h.linSubs⟩

theorem Same.tinv (h : Same s s') (ht : TInv O s) (hi : s'.Inv) : TInv O s' :=
  ⟨hi, by rw [h.ix]; exact ht.sys, by rw [h.linSubs]; exact ht.key, by rw [h.linSubs]; exact ht.value⟩

theorem variableUpdated_same {x : SVar V} (h : variableUpdated x s = .ok s') :
    Same s s' ∧ s'.rcs = s.rcs := by
  obtain ⟨cs, h1, h2⟩ := stop_bind_ok h
  cases h2
  have h1 := liftPanic_eq_ok h1
  unfold Queued.variableUpdated at h1
  cases hq : s.cs.queue.pushAll ((s.cs.ix.occ x).filter fun x => !x.isDerived) with
  | error e => rw [hq] at h1; cases h1
  | ok q =>
    rw [hq] at h1
    cases h1
    exact ⟨⟨rfl, rfl, rfl⟩, rfl⟩

theorem constrainBoolean_same {z : SVar V} (h : constrainBoolean z s = .ok s') : Same s s' := by
  unfold constrainBoolean at h
  rcases updateRc_cases z (.fromMask 1) ({ s with cache := [] } : Solver p V) with h1 | h1
  · rw [h1] at h
    cases h
    exact ⟨rfl, rfl, rfl⟩
  · rw [h1] at h
    simp only at h
    split at h
    · cases h
    · exact Same.trans (b := setRc z (.fromMask 1) { s with cache := [] }) ⟨rfl, rfl, rfl⟩
        (variableUpdated_same h).1

theorem constrainBooleans_same : ∀ {l : List (SVar V)} {s : Solver p V},
    constrainBooleans l s = .ok s' → Same s s' := by
  intro l
  induction l with
  | nil => intro s h; cases h; exact ⟨rfl, rfl, rfl⟩
  | cons z t ih =>
    intro s h
    obtain ⟨s1, h1, h2⟩ := stop_bind_ok h
    exact (constrainBoolean_same h1).trans (ih h2)

/-! ### Extraction of Booleans -/

/-- What an extraction does. -/
structure Extract (O : List V) (e : GExpr p (SVar V)) (s s' : Solver p V)
    (o : Option (BooleanExtraction p (SVar V))) : Prop where
  ix : s'.cs.ix = s.cs.ix
  linSubs : s'.linSubs = s.linSubs
  grow : ∀ a ∈ s.boolSubs, a ∈ s'.boolSubs
  unchanged : o = none → s' = s
  fewer : ∀ x, o = some x → Extractable s.boolSubs e (.boolean 0) = true ∧
    Extractable s'.boolSubs e (.boolean 0) = false ∧ prods x.constraint < prods e
  vars : ∀ x, o = some x → (∀ v ∈ GExpr.vars e, v.In O) → ∀ v ∈ GExpr.vars x.constraint, v.In O

theorem extractBoolean_extract (O : List V) {e : GExpr p (SVar V)} (hw : WF e) (s : Solver p V) :
    Extract O e s (extractBoolean e s).2 (extractBoolean e s).1 := by
  unfold extractBoolean
  cases ht : Verif.tryExtractBoolean s.boolSubs e (.boolean s.nextBool) with
  | none => exact ⟨rfl, rfl, fun _ h => h, fun _ => rfl, by simp, by simp⟩
  | some r =>
    obtain ⟨x, subs⟩ := r
    obtain ⟨h1, h2, h3, h4⟩ := tryExtractBoolean_decreases (z' := .boolean 0) ht
    have hs := tryExtractBoolean_spec hw ht
    refine ⟨rfl, rfl, h3, by simp, ?_, ?_⟩
    · intro y hy
      cases hy
      exact ⟨h1, h2, h4⟩
    · intro y hy hO v hv
      cases hy
      rcases hs.vars v hv with h | h
      · exact hO v h
      · rcases hs.newVar with hn | hn
        · rw [hn] at h; cases h
        · rw [hn] at h; cases h; trivial

theorem extractBoolean_affine {e : GExpr p (SVar V)} (ha : e.isAffine = true) (s : Solver p V) :
    extractBoolean e s = (none, s) := by
  unfold extractBoolean
  cases ht : Verif.tryExtractBoolean s.boolSubs e (.boolean s.nextBool) with
  | none => rfl
  | some r =>
    have := (tryExtractBoolean_decreases (z' := .boolean 0) (x := r.1) (subs' := r.2) ht).2.2.2
    rw [prods_eq_zero_iff.2 ha] at this
    omega

/-- The result of extracting from constraints that are to be added. -/
structure Adds (O : List V) (es : List (GExpr p (SVar V))) (s s' : Solver p V)
    (l : List (GExpr p (SVar V))) : Prop where
  ix : s'.cs.ix = s.cs.ix
  tinv : TInv O s'
  grow : ∀ a ∈ s.boolSubs, a ∈ s'.boolSubs
  prods : ∀ c ∈ l, prods c ≠ 0 → ∃ e ∈ es, prods c ≤ GExpr.prods e
  good : ∀ c ∈ l, WF c ∧ s'.BelowE c ∧ ∀ v ∈ vars c, v.In O

/-- The bus that accepts nothing; the invariant does not depend on the bus. -/
def noBus : Bus p := fun _ => False

theorem extractAll_adds : ∀ {es : List (GExpr p (SVar V))} {s : Solver p V}
    {r : List (GExpr p (SVar V)) × Solver p V}, TInv O s →
    (∀ e ∈ es, WF e ∧ s.BelowE e ∧ ∀ v ∈ vars e, v.In O) → extractAll es s = .ok r →
    Adds O es s r.2 r.1 := by
  intro es
  induction es with
  | nil =>
    intro s r ht _ h
    cases h
    exact ⟨rfl, ht, fun _ h => h, by simp, by simp⟩
  | cons e t ih =>
    intro s r ht hw h
    have hall := extractAll_spec (bus := noBus) (NP := True) ht.inv
      (es := e :: t) fun c hc => ⟨(hw c hc).1, (hw c hc).2.1⟩
    rw [h] at hall
    obtain ⟨hwe, hbe, hve⟩ := hw e (by simp)
    obtain ⟨r1, h1, h2⟩ := stop_bind_ok h
    obtain ⟨rs, h3, h4⟩ := stop_bind_ok h2
    cases h4
    have hsp := tryExtractBoolean_spec' (bus := noBus) (NP := True) ht.inv hwe hbe
    rw [h1] at hsp
    obtain ⟨s1, h5, h6⟩ := stop_bind_ok h1
    cases h6
    have hx := extractBoolean_extract O hwe s
    have hsame := constrainBooleans_same h5
    have ht1 : TInv O s1 := by
      refine ⟨hsp.1.inv, ?_, ?_, ?_⟩
      · rw [hsame.ix, hx.ix]; exact ht.sys
      · rw [hsame.linSubs, hx.linSubs]; exact ht.key
      · rw [hsame.linSubs, hx.linSubs]; exact ht.value
    have h7 := ih ht1 (fun c hc => ⟨(hw c (by simp [hc])).1, hsp.1.belowE (hw c (by simp [hc])).2.1,
      (hw c (by simp [hc])).2.2⟩) h3
    refine ⟨h7.ix.trans (hsame.ix.trans hx.ix), h7.tinv, fun a ha => h7.grow a ?_, ?_, ?_⟩
    · show a ∈ s1.boolSubs
      rw [hsame.boolSubs]
      exact hx.grow a ha
    · intro c hc h0
      rcases List.mem_append.1 hc with hc | hc
      · rw [Option.mem_toList] at hc
        obtain ⟨x, hx1, rfl⟩ := Option.map_eq_some_iff.1 hc
        exact ⟨e, by simp, ((hx.fewer x hx1).2.2).le⟩
      · rcases List.mem_cons.1 hc with rfl | hc
        · exact ⟨c, by simp, le_rfl⟩
        · obtain ⟨e', he', hle⟩ := h7.prods c hc h0
          exact ⟨e', by simp [he'], hle⟩
    · intro c hc
      refine ⟨(hall.2.2 c hc).1, (hall.2.2 c hc).2, ?_⟩
      rcases List.mem_append.1 hc with hc | hc
      · rw [Option.mem_toList] at hc
        obtain ⟨x, hx1, rfl⟩ := Option.map_eq_some_iff.1 hc
        exact hx.vars x hx1 hve
      · rcases List.mem_cons.1 hc with rfl | hc
        · exact hve
        · exact (h7.good c hc).2.2

theorem extractAll_affine : ∀ {es : List (GExpr p (SVar V))} (s : Solver p V),
    (∀ e ∈ es, e.isAffine = true) → extractAll es s = .ok (es, s) := by
  intro es
  induction es with
  | nil => intro s _; rfl
  | cons e t ih =>
    intro s ha
    rw [extractAll, tryExtractBoolean, extractBoolean_affine (ha e (by simp))]
    simp only [Option.bind_none, Option.toList_none, constrainBooleans, stop_bind, stop_pure,
      Option.map_none]
    rw [ih s fun c hc => ha c (by simp [hc]), stop_bind]
    rfl

/-! ### Linearisation -/

theorem dispenses_in (O : List V) (nb : ℕ) :
    Dispenses (SVar.linearized : ℕ → SVar V) (fun n v => v.Below nb n ∧ v.In O) where
  mono n n' v hn h := ⟨h.1.mono le_rfl hn, h.2⟩
  succ n := ⟨Nat.lt_succ_self n, trivial⟩
  ne n v h := by
    rintro rfl
    exact lt_irrefl _ h.1

theorem linearizeConstraint_adds {e : GExpr p (SVar V)} (ht : TInv O s) (hw : WF e)
    (hb : s.BelowE e) (hv : ∀ v ∈ vars e, v.In O) :
    Adds O [e] s (linearizeConstraint e s).2 (linearizeConstraint e s).1 ∧
      (linearizeConstraint e s).2.cs = s.cs := by
  obtain ⟨g1, g2, g3⟩ := linearizeConstraint_spec (bus := noBus) ht.inv hw hb
  revert g1 g2 g3
  unfold linearizeConstraint
  split
  · intro g1 g2 g3
    refine ⟨⟨rfl, ht, fun _ h => h, ?_, ?_⟩, rfl⟩
    · intro c hc _
      exact ⟨c, hc, le_rfl⟩
    · intro c hc
      rw [List.mem_singleton] at hc
      subst hc
      exact ⟨hw, hb, hv⟩
  · rename_i hna
    simp only
    intro g1 g2 g3
    have hB := dispenses_in O s.nextBool
    have hst : (linState s [e]).Inv fun n v => v.Below s.nextBool n ∧ v.In O := by
      refine ⟨fun x hx => ⟨(ht.inv.linKey x hx).1, fun v hv => ⟨(ht.inv.linKey x hx).2 v hv,
        ht.key x hx v hv⟩⟩, fun x hx => ⟨(ht.inv.linValue x hx).1, fun v hv =>
        ⟨(ht.inv.linValue x hx).2.1 v hv, ht.value x hx v hv⟩, (ht.inv.linValue x hx).2.2⟩, ?_⟩
      intro c hc
      have hc : c ∈ [e] := hc
      rw [List.mem_singleton] at hc
      subst hc
      exact ⟨hw, fun v h => ⟨hb v h, hv v h⟩⟩
    have hbe : Verif.Below (fun n v => v.Below s.nextBool n ∧ v.In O) s.nextLin e :=
      fun v h => ⟨hb v h, hv v h⟩
    obtain ⟨h1, h2⟩ := linearizeExpression_spec hB e (st := linState s [e]) hst hw hbe
    have h3 := linearizeExpression_prods hB e (st := linState s [e]) hst hw hbe
    have h1e : 1 ≤ prods e := by
      rcases Nat.eq_zero_or_pos (prods e) with h | h
      · exact absurd (prods_eq_zero_iff.1 h) hna
      · exact h
    refine ⟨⟨rfl, ⟨g1.inv, ht.sys, fun x hx v hv => ((h1.inv.key x hx).2 v hv).2,
      fun x hx v hv => ((h1.inv.value x hx).2.1 v hv).2⟩, fun _ h => h, ?_, ?_⟩, by trivial⟩
    · intro c hc h0
      refine ⟨e, by simp, ?_⟩
      rcases List.mem_append.1 hc with hc | hc
      · rcases h3 c hc with h | h
        · have h : c ∈ [e] := h
          rw [List.mem_singleton] at h
          rw [h]
        · exact le_trans h h1e
      · rw [List.mem_singleton] at hc
        subst hc
        exact absurd (prods_eq_zero_iff.2 h2.affine) h0
    · intro c hc
      refine ⟨(g2 c hc).1, (g2 c hc).2, ?_⟩
      rcases List.mem_append.1 hc with hc | hc
      · exact fun v h => ((h1.inv.constraint c hc).2 v h).2
      · rw [List.mem_singleton] at hc
        subst hc
        exact fun v h => (h2.below v h).2

theorem linearizeConstraints_adds : ∀ {es : List (GExpr p (SVar V))} {s : Solver p V}, TInv O s →
    (∀ e ∈ es, WF e ∧ s.BelowE e ∧ ∀ v ∈ vars e, v.In O) →
    Adds O es s (linearizeConstraints es s).2 (linearizeConstraints es s).1 ∧
      (linearizeConstraints es s).2.cs = s.cs := by
  intro es
  induction es with
  | nil => intro s ht _; exact ⟨⟨rfl, ht, fun _ h => h, by simp [linearizeConstraints],
      by simp [linearizeConstraints]⟩, rfl⟩
  | cons e t ih =>
    intro s ht hw
    obtain ⟨hwe, hbe, hve⟩ := hw e (by simp)
    rw [linearizeConstraints]
    simp only
    obtain ⟨g1, -, -⟩ := linearizeConstraint_spec (bus := noBus) ht.inv hwe hbe
    obtain ⟨h1, h2⟩ := linearizeConstraint_adds ht hwe hbe hve
    have hw2 : ∀ c ∈ t, WF c ∧ (linearizeConstraint e s).2.BelowE c ∧ ∀ v ∈ vars c, v.In O :=
      fun c hc => ⟨(hw c (by simp [hc])).1, g1.belowE (hw c (by simp [hc])).2.1,
        (hw c (by simp [hc])).2.2⟩
    obtain ⟨h3, h4⟩ := ih h1.tinv hw2
    obtain ⟨g2, -, -⟩ := linearizeConstraints_spec (bus := noBus) h1.tinv.inv
      (es := t) fun c hc => ⟨(hw2 c hc).1, (hw2 c hc).2.1⟩
    refine ⟨⟨h3.ix.trans h1.ix, h3.tinv, fun a ha => h3.grow a (h1.grow a ha), ?_, ?_⟩, h4.trans h2⟩
    · intro c hc h0
      rcases List.mem_append.1 hc with hc | hc
      · obtain ⟨e', he', hle⟩ := h1.prods c hc h0
        rw [List.mem_singleton] at he'
        exact ⟨e, by simp, he' ▸ hle⟩
      · obtain ⟨e', he', hle⟩ := h3.prods c hc h0
        exact ⟨e', by simp [he'], hle⟩
    · intro c hc
      rcases List.mem_append.1 hc with hc | hc
      · exact ⟨(h1.good c hc).1, g2.belowE (h1.good c hc).2.1, (h1.good c hc).2.2⟩
      · exact h3.good c hc

theorem linearizeConstraints_affine : ∀ {es : List (GExpr p (SVar V))} (s : Solver p V),
    (∀ e ∈ es, e.isAffine = true) → linearizeConstraints es s = (es, s) := by
  intro es
  induction es with
  | nil => intro s _; rfl
  | cons e t ih =>
    intro s ha
    rw [linearizeConstraints, linearizeConstraint, if_pos (ha e (by simp))]
    simp only
    rw [ih s fun c hc => ha c (by simp [hc])]
    rfl

/-! ### Adding constraints -/

/-- Constraints `l` were added to the system. -/
structure Added (O : List V) (es : List (GExpr p (SVar V))) (s s' : Solver p V)
    (l : List (GExpr p (SVar V))) : Prop where
  alg : s'.cs.ix.sys.algebraic = s.cs.ix.sys.algebraic ++ l
  bus : s'.cs.ix.sys.bus = s.cs.ix.sys.bus
  tinv : TInv O s'
  grow : ∀ a ∈ s.boolSubs, a ∈ s'.boolSubs
  prods : ∀ c ∈ l, prods c ≠ 0 → ∃ e ∈ es, prods c ≤ GExpr.prods e

theorem TInv.clearCache (h : TInv O s) : TInv O { s with cache := [] } :=
  ⟨h.inv.clearCache, h.sys, h.key, h.value⟩

theorem addAlgebraic_added {es : List (GExpr p (SVar V))} (ht : TInv O s)
    (hw : ∀ e ∈ es, WF e ∧ s.BelowE e ∧ ∀ v ∈ vars e, v.In O) (h : addAlgebraic es s = .ok s') :
    ∃ l, Added O es s s' l := by
  have hsp := addAlgebraic_spec (bus := noBus) (NP := True) ht.inv (es := es)
    fun e he => ⟨(hw e he).1, (hw e he).2.1⟩
  rw [h] at hsp
  obtain ⟨r, h1, h2⟩ := stop_bind_ok h
  have a1 := extractAll_adds (O := O) (s := { s with cache := [] }) ht.clearCache
    (fun e he => hw e (List.mem_filter.1 he).1) h1
  obtain ⟨a2, a3⟩ := linearizeConstraints_adds a1.tinv a1.good
  obtain ⟨cs, h3, h4⟩ := stop_bind_ok h2
  cases h4
  have h3 := liftPanic_eq_ok h3
  obtain ⟨cs', g1, g2, -, -⟩ := Queued.addAlgebraic_ok a2.tinv.inv.cs
    ((linearizeConstraints r.1 r.2).1.filter fun e => !e.isZero)
  rw [g1] at h3
  cases h3
  have hsys : cs.ix.sys = ⟨s.cs.ix.sys.algebraic ++
      (linearizeConstraints r.1 r.2).1.filter (fun e => !e.isZero), s.cs.ix.sys.bus ++ [],
      s.cs.ix.sys.derived ++ []⟩ := by rw [g2, a2.ix, a1.ix]; rfl
  refine ⟨_, ⟨by rw [hsys], by rw [hsys]; simp, ⟨hsp.1.inv, ?_, a2.tinv.key, a2.tinv.value⟩,
    fun a ha => a2.grow a (a1.grow a ha), ?_⟩⟩
  · intro v hv
    have hv : v ∈ cs.ix.sys.vars := hv
    rw [hsys, mem_sys_vars] at hv
    rcases hv with ⟨e, he, hv⟩ | ⟨b, hb, e, he, hv⟩
    · rcases List.mem_append.1 he with he | he
      · exact ht.sys v (mem_sys_vars.2 (Or.inl ⟨e, he, hv⟩))
      · exact (a2.good e (List.mem_filter.1 he).1).2.2 v hv
    · exact ht.sys v (mem_sys_vars.2 (Or.inr ⟨b, by simpa using hb, e, he, hv⟩))
  · intro c hc h0
    obtain ⟨d, hd, hle⟩ := a2.prods c (List.mem_filter.1 hc).1 h0
    obtain ⟨e, he, hle2⟩ := a1.prods d hd (by omega)
    exact ⟨e, (List.mem_filter.1 he).1, hle.trans hle2⟩

/-- Adding affine constraints. -/
theorem addAlgebraic_affine {es : List (GExpr p (SVar V))} (hi : s.Inv)
    (ha : ∀ e ∈ es, e.isAffine = true) (h : addAlgebraic es s = .ok s') :
    ∃ cs, s' = { s with cache := [], cs := cs } ∧ cs.Inv ∧
      cs.ix.sys.algebraic = s.cs.ix.sys.algebraic ++ es.filter (fun e => !e.isZero) ∧
      cs.ix.sys.bus = s.cs.ix.sys.bus ∧
      ∀ x, x ∈ cs.queue.queue ↔
        (∃ i < (es.filter (fun e => !e.isZero)).length,
          x = .alg (s.cs.ix.sys.algebraic.length + i)) ∨ x ∈ s.cs.queue.queue := by
  have ha' : ∀ e ∈ es.filter (fun e => !e.isZero), e.isAffine = true :=
    fun e he => ha e (List.mem_filter.1 he).1
  unfold addAlgebraic at h
  rw [extractAll_affine _ ha', stop_bind] at h
  simp only at h
  rw [linearizeConstraints_affine _ ha'] at h
  simp only at h
  obtain ⟨cs, h3, h4⟩ := stop_bind_ok h
  cases h4
  have h3 := liftPanic_eq_ok h3
  obtain ⟨cs', g1, g2, g3, g4⟩ := Queued.addAlgebraic_ok hi.cs
    ((es.filter fun e => !e.isZero).filter fun e => !e.isZero)
  rw [g1] at h3
  cases h3
  have hff : (es.filter fun e => !e.isZero).filter (fun e => !e.isZero) =
      es.filter fun e => !e.isZero := by rw [List.filter_filter]; simp
  rw [hff] at g2 g4
  exact ⟨cs, rfl, g3, by rw [g2]; rfl, by rw [g2]; exact List.append_nil _, g4⟩

end Solver

end Verif
