import Verif.Proofs.TerminationAssign

/-! Helper lemmas for the termination of the solver: the loops. -/

set_option linter.unusedSectionVars false

namespace Verif

open GExpr

variable {p : ℕ} {V : Type} [Fact p.Prime] [LinearOrder V]

namespace Solver

variable {s s' : Solver p V} {O : List V} {h : Handler p}

/-! ### The queue -/

/-- The number of variables of the constraint in the queue. -/
def itemVars (t : ConstraintSystem p (SVar V)) (x : Item) : ℕ :=
  match refAt t x with
  | some (.alg e) => (vars e).toFinset.card
  | _ => 0

/-- The measure of the queue. -/
def queueMeasure (s : Solver p V) : DMSet ℕ :=
  ⟨s.cs.queue.queue.toFinset.val.map (itemVars s.cs.ix.sys)⟩

/-- The measure of a state. -/
def full (O : List V) (s : Solver p V) : (DMSet SlotMeasure ×ₗ ℕ ×ₗ ℕ ×ₗ ℕ ×ₗ ℕ) ×ₗ DMSet ℕ :=
  toLex (measure O s, queueMeasure s)

theorem full_of_measure (hm : measure O s' < measure O s) : full O s' < full O s := by
  unfold full
  rw [Prod.Lex.toLex_lt_toLex]
  exact Or.inl hm

/-- An item was taken from the queue and smaller ones added. -/
theorem queueMeasure_lt {x : Item} (hx : x ∈ s.cs.queue.queue) (hx' : x ∉ s'.cs.queue.queue)
    (hold : ∀ y ∈ s.cs.queue.queue, itemVars s'.cs.ix.sys y = itemVars s.cs.ix.sys y)
    (hnew : ∀ y ∈ s'.cs.queue.queue, y ∉ s.cs.queue.queue →
      itemVars s'.cs.ix.sys y < itemVars s'.cs.ix.sys x) :
    queueMeasure s' < queueMeasure s := by
  unfold queueMeasure
  have he : s.cs.queue.queue.toFinset.val.map (itemVars s.cs.ix.sys) =
      s.cs.queue.queue.toFinset.val.map (itemVars s'.cs.ix.sys) :=
    Multiset.map_congr rfl fun y hy =>
      (hold y (List.mem_toFinset.1 (show y ∈ s.cs.queue.queue.toFinset from hy))).symm
  rw [he]
  exact DMSet.map_lt (x := x) _ (List.mem_toFinset.2 hx) (by rwa [List.mem_toFinset])
    fun y hy hy' => hnew y (List.mem_toFinset.1 hy) fun hh => hy' (List.mem_toFinset.2 hh)

/-! ### Processing a constraint -/

theorem trySimpleEquivalence_lt {e r : GExpr p (SVar V)} {v : SVar V} (hw : WF e)
    (ht : trySimpleEquivalence e = some (v, r)) :
    ∃ v1, r = var v1 ∧ v ∈ vars e ∧ v1 ∈ vars e ∧ v1 < v := by
  obtain ⟨v1, h1, h2, h3, -⟩ := trySimpleEquivalence_spec hw ht
  refine ⟨v1, h1, h2, h3, ?_⟩
  unfold trySimpleEquivalence at ht
  split at ht
  · cases ht
  split at ht
  · cases ht
  split at ht
  · rename_i w1 c1 w2 c2 hl
    split at ht
    · obtain ⟨q, l, c⟩ := e
      have hl : l = [(w1, c1), (w2, c2)] := hl
      subst hl
      have ht := Option.some.inj ht
      have hv : w2 = v := congrArg Prod.fst ht
      have hr : var w1 = r := congrArg Prod.snd ht
      subst hv
      rw [h1] at hr
      have hvv : w1 = v1 := by
        have := congrArg vars hr
        rw [vars_var, vars_var] at this
        exact List.head_eq_of_cons_eq this
      subst hvv
      obtain ⟨-, hs, -⟩ := wf_inv hw
      simpa using hs
    · cases ht
  · cases ht

theorem TInv.sameIx (ht : TInv O s) {cs : Queued p (SVar V)} (h1 : cs.Inv) (h2 : cs.ix = s.cs.ix) :
    TInv O ({ s with cs := cs } : Solver p V) :=
  ⟨ht.inv.sameIx h1 h2, by show ∀ v ∈ cs.ix.sys.vars, _; rw [h2]; exact ht.sys, ht.key, ht.value⟩

/-- The state after adding the parts of a constraint. -/
structure PartsAdded (O : List V) (e : GExpr p (SVar V)) (s s' : Solver p V) : Prop where
  tinv : TInv O s'
  measure : measure O s' = measure O s
  below : ∀ v, s.Below v → s'.Below v
  vars : ∀ v ∈ s.cs.ix.sys.vars, v ∈ s'.cs.ix.sys.vars
  queue : ∀ y ∈ s'.cs.queue.queue, y ∈ s.cs.queue.queue ∨ ∃ i f,
    y = .alg (s.cs.ix.sys.algebraic.length + i) ∧ refAt s'.cs.ix.sys y = some (.alg f) ∧
      (GExpr.vars f).toFinset.card < (GExpr.vars e).toFinset.card
  old : ∀ y, InBounds s.cs.ix.sys y → y.isDerived = false →
    refAt s'.cs.ix.sys y = refAt s.cs.ix.sys y

theorem PartsAdded.refl (ht : TInv O s) (e : GExpr p (SVar V)) : PartsAdded O e s s :=
  ⟨ht, rfl, fun _ h => h, fun _ h => h, fun _ h => Or.inl h, fun _ _ _ => rfl⟩

theorem addAlgebraicIfNew_parts {e : GExpr p (SVar V)} {parts : List (GExpr p (SVar V))}
    (ht : TInv O s) (he : e ∈ s.cs.ix.sys.algebraic)
    (hp : ∀ f ∈ parts, WF f ∧ f.isAffine = true ∧ (∀ v ∈ vars f, v ∈ vars e) ∧
      ∃ v ∈ vars e, v ∉ vars f) {n : Bool × Solver p V}
    (hn : addAlgebraicIfNew parts s = .ok n) : PartsAdded O e s n.2 := by
  have hin : ∀ v ∈ vars e, v ∈ s.cs.ix.sys.vars := fun v hv => mem_sys_vars.2 (Or.inl ⟨e, he, hv⟩)
  obtain ⟨l, h1, h2⟩ := filterNew_ok ht.inv parts
  unfold addAlgebraicIfNew at hn
  rw [h1, stop_bind] at hn
  split at hn
  · cases hn
    exact .refl ht e
  · obtain ⟨s1, h3, h4⟩ := stop_bind_ok hn
    cases h4
    have hwl : ∀ f ∈ l, WF f ∧ s.BelowE f ∧ ∀ v ∈ vars f, v.In O := by
      intro f hf
      obtain ⟨a, -, b, -⟩ := hp f (h2 f hf)
      exact ⟨a, fun v hv => ht.inv.below v (hin v (b v hv)), fun v hv => ht.sys v (hin v (b v hv))⟩
    obtain ⟨l', hA⟩ := addAlgebraic_added ht hwl h3
    obtain ⟨cs, g1, g2, g3, g4, g5⟩ := addAlgebraic_affine ht.inv
      (fun f hf => (hp f (h2 f hf)).2.1) h3
    have hl' : ∀ f ∈ l.filter (fun e => !e.isZero), f ∈ parts := fun f hf =>
      h2 f (List.mem_filter.1 hf).1
    have hv' : ∀ v, v ∈ cs.ix.sys.vars ↔ v ∈ s.cs.ix.sys.vars := by
      intro v
      rw [mem_sys_vars, mem_sys_vars, g3, g4]
      constructor
      · rintro (⟨f, hf, hv⟩ | hb)
        · rcases List.mem_append.1 hf with hf | hf
          · exact Or.inl ⟨f, hf, hv⟩
          · exact Or.inl ⟨e, he, (hp f (hl' f hf)).2.2.1 v hv⟩
        · exact Or.inr hb
      · rintro (⟨f, hf, hv⟩ | hb)
        · exact Or.inl ⟨f, List.mem_append_left _ hf, hv⟩
        · exact Or.inr hb
    have hset : s1.varSet = s.varSet := by
      ext v
      rw [varSet, varSet, List.mem_toFinset, List.mem_toFinset, g1]
      exact hv' v
    have hslots : slots O s1 = slots O s := by
      unfold slots
      rw [g1]
      simp only
      rw [g3, List.filterMap_append]
      have : (l.filter (fun e => !e.isZero)).filterMap (slot O s.boolSubs) = [] := by
        rw [List.filterMap_eq_nil_iff]
        exact fun f hf => slot_none.2 (hp f (hl' f hf)).2.1
      rw [this, List.append_nil]
    refine ⟨hA.tinv, ?_, ?_, ?_, ?_, ?_⟩
    · have : ranges s1 = ranges s := by
        unfold ranges
        rw [hset, g1]
      unfold Solver.measure
      rw [hslots, hset, this]
    · intro v hv
      rw [g1]
      exact hv
    · intro v hv
      rw [g1]
      exact (hv' v).2 hv
    · intro y hy
      rw [g1] at hy
      rcases (g5 y).1 hy with ⟨i, hi, rfl⟩ | hy
      · right
        refine ⟨i, (l.filter (fun e => !e.isZero))[i], rfl, ?_, ?_⟩
        · rw [g1]
          simp only [refAt]
          rw [g3, List.getElem?_append_right (by omega)]
          simp [hi]
        · obtain ⟨-, -, b, v, hv, hvn⟩ := hp _ (hl' _ (List.getElem_mem hi))
          refine Finset.card_lt_card ((Finset.ssubset_iff_of_subset ?_).2 ⟨v, ?_, ?_⟩)
          · intro w hw
            rw [List.mem_toFinset] at *
            exact b w hw
          · rwa [List.mem_toFinset]
          · rwa [List.mem_toFinset]
      · exact Or.inl hy
    · intro y hy hd
      rw [g1]
      cases y with
      | alg i =>
        simp only [InBounds] at hy
        simp only [refAt]
        rw [g3, List.getElem?_append_left hy]
      | bus i =>
        simp only [refAt]
        rw [g4]
      | derived i => cases hd

/-- The final step of processing a constraint. -/
theorem full_lt {x : Item} {c : ConstraintRef p (SVar V)} {cs : Queued p (SVar V)} (ht : TInv O s)
    (h1 : refAt s.cs.ix.sys x = some c) (h2 : s.cs.queue.queue = x :: cs.queue.queue)
    (h3 : cs.ix = s.cs.ix) {e : GExpr p (SVar V)} {s1 : Solver p V}
    (hc : s1.cs.queue.queue ≠ cs.queue.queue → c = .alg e)
    (hp : PartsAdded O e ({ s with cs := cs } : Solver p V) s1) : full O s1 < full O s := by
  have hnd := ht.inv.cs.queue.nodup
  rw [h2, List.nodup_cons] at hnd
  have hm : measure O s1 = measure O s := by
    rw [hp.measure]
    exact measure_congr (by show cs.ix.sys = _; rw [h3]) rfl rfl
  have hsys : ({ s with cs := cs } : Solver p V).cs.ix.sys = s.cs.ix.sys := by
    show cs.ix.sys = _; rw [h3]
  obtain ⟨hxb, hxd⟩ := refAt_inBounds h1
  have hold : ∀ y ∈ s.cs.queue.queue, refAt s1.cs.ix.sys y = refAt s.cs.ix.sys y := by
    intro y hy
    obtain ⟨hb, hd⟩ := ht.inv.cs.queue.valid y hy
    have := hp.old y (by rw [hsys]; exact hb) hd
    rw [hsys] at this
    exact this
  have hne : ∀ i, x ≠ .alg (s.cs.ix.sys.algebraic.length + i) := by
    rintro i rfl
    simp only [InBounds] at hxb
    omega
  unfold full
  rw [Prod.Lex.toLex_lt_toLex]
  refine Or.inr ⟨hm, ?_⟩
  refine queueMeasure_lt (x := x) (by rw [h2]; simp) ?_ ?_ ?_
  · intro hx
    rcases hp.queue x hx with hh | ⟨i, f, hh, -, -⟩
    · exact hnd.1 hh
    · rw [hsys] at hh
      exact hne i hh
  · intro y hy
    unfold itemVars
    rw [hold y hy]
  · intro y hy hy'
    have hq : s1.cs.queue.queue ≠ cs.queue.queue := fun hh => by
      rw [hh] at hy
      exact hy' (by rw [h2]; simp [hy])
    rcases hp.queue y hy with hh | ⟨i, f, -, hf, hlt⟩
    · exact absurd (by rw [h2]; exact List.mem_cons_of_mem _ hh) hy'
    · unfold itemVars
      rw [hf, hold x (by rw [h2]; simp), h1, hc hq]
      exact hlt

theorem process_decreases {order : Rearrange (Effect p (SVar V))} {x : Item}
    {c : ConstraintRef p (SVar V)} {cs : Queued p (SVar V)} (ht : TInv O s)
    (h1 : refAt s.cs.ix.sys x = some c) (h2 : s.cs.queue.queue = x :: cs.queue.queue)
    (h3 : cs.ix = s.cs.ix) (h4 : cs.Inv) {r : Bool × Solver p V}
    (hr : process h order c ({ s with cs := cs } : Solver p V) = .ok r) :
    TInv O r.2 ∧ full O r.2 < full O s := by
  have ht0 : TInv O ({ s with cs := cs } : Solver p V) := ht.sameIx h4 h3
  have hm0 : measure O ({ s with cs := cs } : Solver p V) = measure O s :=
    measure_congr (by show cs.ix.sys = _; rw [h3]) rfl rfl
  have h1' : refAt ({ s with cs := cs } : Solver p V).cs.ix.sys x = some c := by
    show refAt cs.ix.sys x = _; rw [h3]; exact h1
  have hstrict : ∀ {t : Solver p V}, measure O t < measure O ({ s with cs := cs } : Solver p V) →
      full O t < full O s := fun hlt => full_of_measure (by rw [hm0] at hlt; exact hlt)
  cases c with
  | bus b =>
    simp only [process, processBus] at hr
    obtain ⟨o, h5, h6⟩ := stop_bind_ok hr
    have h5 := liftPanic_eq_ok h5
    cases o with
    | error x => cases h6
    | ok effects =>
      simp only at h6
      have hmem : ∀ eff, eff ∈ order.1 effects ↔ eff ∈ effects := fun eff =>
        (order.2 effects).mem_iff
      have hbm := (refAt_mem h1').2 b rfl
      have hvar : ∀ eff ∈ order.1 effects, ∃ v r, eff = .rangeConstraint v r ∧
          v ∈ ({ s with cs := cs } : Solver p V).cs.ix.sys.vars := by
        intro eff he
        obtain ⟨v, r, rfl, hv⟩ := solveBus_simple h5 eff ((hmem eff).1 he)
        unfold busVars at hv
        obtain ⟨e, he, hv⟩ := List.mem_flatMap.1 hv
        exact ⟨v, r, rfl, mem_sys_vars.2 (Or.inr ⟨b, hbm, e, he, hv⟩)⟩
      have d := applyEffects_decreases ht0 (l := order.1 effects) (fun eff he => by
        obtain ⟨v, r, rfl, hv⟩ := hvar eff he
        exact Or.inr ⟨v, r, rfl, ht0.inv.below v hv⟩) h6
      refine ⟨d.tinv, ?_⟩
      cases hr1 : r.1 with
      | true =>
        refine hstrict (d.strict ?_ hr1)
        intro eff he v hv
        obtain ⟨w, r, rfl, hw⟩ := hvar eff he
        cases hv
        exact hw
      | false =>
        rw [d.same hr1]
        exact full_lt ht h1 h2 h3 (e := const 0) (fun hh => absurd rfl hh) (.refl ht0 _)
  | alg e =>
    simp only [process, processAlgebraic] at hr
    have hem := (refAt_mem h1').1 e rfl
    have hwe : WF e := refAt_wf ht0.inv.wf h1'
    have hin : ∀ v ∈ vars e, v ∈ ({ s with cs := cs } : Solver p V).cs.ix.sys.vars :=
      fun v hv => mem_sys_vars.2 (Or.inl ⟨e, hem, hv⟩)
    have hbe := ht0.inv.algBelow hem
    cases hte : trySimpleEquivalence e with
    | some y =>
      obtain ⟨v, rr⟩ := y
      rw [hte] at hr
      obtain ⟨s1, h5, h6⟩ := stop_bind_ok hr
      cases h6
      obtain ⟨v1, rfl, hv, hv1, hlt⟩ := trySimpleEquivalence_lt hwe hte
      have hvv : ∀ y ∈ vars (var v1 : GExpr p (SVar V)), y = v1 := by
        intro y hy
        rw [vars_var, List.mem_singleton] at hy
        exact hy
      obtain ⟨a1, -, a2⟩ := applyAssignment_measure ht0 (hbe v hv) (wf_var v1)
        (by intro y hy; rw [hvv y hy]; exact hbe v1 hv1)
        ⟨prods_var v1, fun y hy => by rw [hvv y hy]; exact ⟨ht0.sys v1 (hin v1 hv1), hlt⟩⟩
        (by intro y hy _; rw [hvv y hy]; exact hin v1 hv1) h5
      exact ⟨a1, hstrict (a2 (hin v hv))⟩
    | none =>
      rw [hte] at hr
      simp only at hr
      obtain ⟨o, h5, h6⟩ := stop_bind_ok hr
      have h5 := liftPanic_eq_ok h5
      cases o with
      | error x => cases h6
      | ok result =>
        simp only at h6
        obtain ⟨o, g1, g2⟩ := solve_spec (rc := ({ s with cs := cs } : Solver p V).rcs) hwe
        rw [h5] at g1
        cases g1
        have happ := solve_applicable hbe h5 g2
        have hmem : ∀ eff, eff ∈ order.1 result.effects ↔ eff ∈ result.effects := fun eff =>
          (order.2 result.effects).mem_iff
        obtain ⟨split, h7, h8⟩ := stop_bind_ok h6
        have h7 := liftPanic_eq_ok h7
        have hn : ∃ n : Bool × Solver p V, PartsAdded O e ({ s with cs := cs } : Solver p V) n.2 ∧
            ∃ r1, applyEffects (order.1 result.effects) n.2 = .ok r1 ∧ r = (n.1 || r1.1, r1.2) := by
          cases split with
          | none =>
            obtain ⟨n, h9, h10⟩ := stop_bind_ok h8
            obtain ⟨r1, h11, h12⟩ := stop_bind_ok h10
            cases h9
            cases h12
            exact ⟨_, .refl ht0 e, r1, h11, rfl⟩
          | some parts =>
            obtain ⟨n, h9, h10⟩ := stop_bind_ok h8
            obtain ⟨r1, h11, h12⟩ := stop_bind_ok h10
            cases h12
            have f1 := Splitter.trySplit_fewer hwe h7
            obtain ⟨f2, -⟩ := Splitter.trySplit_spec h7
            exact ⟨n, addAlgebraicIfNew_parts ht0 hem (fun f hf => ⟨(f2 f hf).1, f1 f hf⟩) h9,
              r1, h11, rfl⟩
        obtain ⟨n, hP, r1, h11, rfl⟩ := hn
        have d := applyEffects_decreases hP.tinv (l := order.1 result.effects)
          (fun eff he => (happ eff ((hmem eff).1 he)).below hP.below) h11
        refine ⟨d.tinv, ?_⟩
        cases hr1 : r1.1 with
        | true =>
          refine hstrict (lt_of_lt_of_eq (d.strict ?_ hr1) hP.measure)
          intro eff he v hv
          have h13 := g2.inVars eff ((hmem eff).1 he)
          cases eff with
          | assignment w a => cases hv; exact hP.vars _ (hin _ (h13 _ _ rfl))
          | rangeConstraint w a => cases hv; exact hP.vars _ (hin _ (h13 _ _ rfl))
          | assertion a b c => cases hv
          | conditionalAssignment a b c d e => cases hv
        | false =>
          show full O r1.2 < _
          rw [d.same hr1]
          exact full_lt ht h1 h2 h3 (fun _ => rfl) hP

/-! ### Exhaustive search -/

theorem searchSets_decreases : ∀ {sets : List (List (SVar V))} {bad : List (List (SVar V))}
    {progress : Bool} {s : Solver p V} {o : Bool × Solver p V}, TInv O s →
    (∀ vs ∈ sets, ∀ v ∈ vs, s.Below v) → searchSets h sets bad progress s = .ok o →
    ∃ b, o.1 = (progress || b) ∧
      Decreases O (∀ vs ∈ sets, ∀ v ∈ vs, v ∈ s.cs.ix.sys.vars) s (b, o.2) := by
  intro sets
  induction sets with
  | nil =>
    intro bad progress s o ht _ ho
    cases ho
    exact ⟨false, by simp, .refl ht _⟩
  | cons vs t ih =>
    intro bad progress s o ht hv ho
    rw [searchSets] at ho
    generalize hvs : (vs.filter fun v => (s.rcs v).tryToSingleValue.isNone) = ws at ho
    have hws : ∀ v ∈ ws, v ∈ vs := fun v h => by
      rw [← hvs] at h
      exact (List.mem_filter.1 h).1
    have hrest : ∀ {bad : List (List (SVar V))}, searchSets h t bad progress s = .ok o →
        ∃ b, o.1 = (progress || b) ∧
          Decreases O (∀ us ∈ vs :: t, ∀ v ∈ us, v ∈ s.cs.ix.sys.vars) s (b, o.2) := by
      intro bad ho
      obtain ⟨b, hb, d⟩ := ih ht (fun us hu => hv us (by simp [hu])) ho
      exact ⟨b, hb, d.mono fun hh us hu => hh us (by simp [hu])⟩
    split at ho
    · exact hrest ho
    · obtain ⟨r, h1, h2⟩ := stop_bind_ok ho
      have h1 := liftPanic_eq_ok h1
      cases r with
      | error x => cases h2
      | ok m =>
        simp only at h2
        split at h2
        · exact hrest h2
        · obtain ⟨r, h3, h4⟩ := stop_bind_ok h2
          have hkeys := exhaustiveSearchOn_keys ht.inv.cs.ix ht.inv.wf h1
          have d1 := applyRcs_decreases ht (l := m) (fun y hy => by
            rcases hkeys y hy with hk | hk
            · exact ht.inv.below _ hk
            · exact hv vs (by simp) _ (hws _ hk)) h3
          obtain ⟨b, hb, d2⟩ := ih d1.tinv (fun us hu v hv' => d1.below _ (hv us (by simp [hu]) v hv')) h4
          refine ⟨r.1 || b, by rw [hb, Bool.or_assoc], ?_⟩
          refine Decreases.seq (r1 := r) (r2 := (b, o.2)) (d1.mono ?_) d2 ?_
          · intro hall y hy
            rcases hkeys y hy with hk | hk
            · exact hk
            · exact hall vs (by simp) _ (hws _ hk)
          · intro hf hall us hu v hv'
            rw [d1.same hf]
            exact hall us (by simp [hu]) v hv'

theorem exhaustiveSearch_decreases {o : Bool × Solver p V} (ht : TInv O s)
    (ho : exhaustiveSearch h s = .ok o) :
    TInv O o.2 ∧ (o.1 = true → full O o.2 < full O s) := by
  unfold exhaustiveSearch at ho
  have hin : ∀ vs ∈ (bruteForceCandidates s.cs.ix.sys s.rcs).foldr insertByLength [],
      ∀ v ∈ vs, v ∈ s.cs.ix.sys.vars := by
    intro vs hvs v hv
    rw [mem_sortByLength] at hvs
    exact bruteForceCandidates_vars hvs v hv
  obtain ⟨b, hb, d⟩ := searchSets_decreases ht (fun vs hvs v hv => ht.inv.below v (hin vs hvs v hv)) ho
  refine ⟨d.tinv, fun h1 => full_of_measure (d.strict hin ?_)⟩
  rw [Bool.false_or] at hb
  rw [← hb]
  exact h1

end Solver

end Verif
