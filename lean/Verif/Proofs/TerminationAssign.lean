import Verif.Proofs.TerminationSteps

/-! Helper lemmas for the termination of the solver: assignments and range constraints. -/

set_option linter.unusedSectionVars false

namespace Verif

open GExpr

variable {p : ℕ} {V : Type} [Fact p.Prime] [LinearOrder V]

namespace Solver

variable {s s' : Solver p V} {O : List V}

theorem extractable_false_mono {subs subs' : BooleanSubs p (SVar V)} (h : ∀ x ∈ subs, x ∈ subs')
    {e : GExpr p (SVar V)} {z : SVar V} (he : Extractable subs e z = false) :
    Extractable subs' e z = false := by
  by_contra hc
  rw [Bool.not_eq_false] at hc
  rw [extractable_mono h hc] at he
  cases he

/-- What the extractions of an assignment do. -/
structure RefsExtract (O : List V) (es : List (GExpr p (SVar V))) (s s' : Solver p V)
    (l : List (GExpr p (SVar V))) (zs : List (SVar V)) : Prop where
  ix : s'.cs.ix = s.cs.ix
  linSubs : s'.linSubs = s.linSubs
  grow : ∀ a ∈ s.boolSubs, a ∈ s'.boolSubs
  unchanged : l = [] → zs = [] ∧ s' = s
  fewer : ∀ c ∈ l, ∃ e ∈ es, Extractable s.boolSubs e (.boolean 0) = true ∧
    Extractable s'.boolSubs e (.boolean 0) = false ∧ prods c < prods e
  vars : ∀ c ∈ l, ∀ v ∈ vars c, v.In O

theorem extractRefs_extract : ∀ {es : List (GExpr p (SVar V))} (s : Solver p V),
    (∀ e ∈ es, WF e ∧ ∀ v ∈ vars e, v.In O) →
    RefsExtract O es s (extractRefs es s).2.2 (extractRefs es s).1 (extractRefs es s).2.1 := by
  intro es
  induction es with
  | nil => intro s _; exact ⟨rfl, rfl, fun _ h => h, fun _ => ⟨rfl, rfl⟩, by simp [extractRefs],
      by simp [extractRefs]⟩
  | cons e t ih =>
    intro s hw
    rw [extractRefs]
    simp only
    have h1 := extractBoolean_extract O (hw e (by simp)).1 s
    have h2 := ih (extractBoolean e s).2 fun c hc => hw c (by simp [hc])
    generalize extractBoolean e s = x at h1 h2 ⊢
    generalize extractRefs t x.2 = rs at h2 ⊢
    refine ⟨h2.ix.trans h1.ix, h2.linSubs.trans h1.linSubs, fun a ha => h2.grow a (h1.grow a ha),
      ?_, ?_, ?_⟩
    · intro hl
      rw [List.append_eq_nil_iff] at hl
      cases hx : x.1 with
      | none =>
        obtain ⟨h3, h4⟩ := h2.unchanged hl.2
        rw [h3, h4, h1.unchanged hx]
        exact ⟨rfl, rfl⟩
      | some y =>
        rw [hx] at hl
        cases hl.1
    · intro c hc
      rcases List.mem_append.1 hc with hc | hc
      · rw [Option.mem_toList] at hc
        obtain ⟨y, hy, rfl⟩ := Option.map_eq_some_iff.1 hc
        obtain ⟨h3, h4, h5⟩ := h1.fewer y hy
        exact ⟨e, by simp, h3, extractable_false_mono h2.grow h4, h5⟩
      · obtain ⟨e', he', h3, h4, h5⟩ := h2.fewer c hc
        exact ⟨e', by simp [he'], extractable_mono h1.grow h3, h4, h5⟩
    · intro c hc
      rcases List.mem_append.1 hc with hc | hc
      · rw [Option.mem_toList] at hc
        obtain ⟨y, hy, rfl⟩ := Option.map_eq_some_iff.1 hc
        exact h1.vars y hy (hw e (by simp)).2
      · exact h2.vars c hc

theorem smaller_affine {x : SVar V} {r : GExpr p (SVar V)} (h : Smaller O x r) :
    r.isAffine = true := prods_eq_zero_iff.1 h.1

/-- The variables of the system after a substitution. -/
theorem vars_mapExpr {t : ConstraintSystem p (SVar V)} {x : SVar V} {r : GExpr p (SVar V)}
    {v : SVar V} (hv : v ∈ (t.mapExpr (GExpr.subst x r)).vars) :
    (v ∈ t.vars ∧ v ≠ x) ∨ (v ∈ vars r ∧ x ∈ t.vars) := by
  rw [mem_sys_vars] at hv
  rcases hv with ⟨e, he, hv⟩ | ⟨b, hb, e, he, hv⟩
  · obtain ⟨e', he', rfl⟩ := List.mem_map.1 he
    rcases vars_subst x r hv with h | h
    · exact Or.inl ⟨mem_sys_vars.2 (Or.inl ⟨e', he', h.1⟩), h.2⟩
    · exact Or.inr ⟨h.1, mem_sys_vars.2 (Or.inl ⟨e', he', h.2⟩)⟩
  · obtain ⟨b', hb', rfl⟩ := List.mem_map.1 hb
    obtain ⟨e', he', rfl⟩ := mem_fields_map he
    rcases vars_subst x r hv with h | h
    · exact Or.inl ⟨mem_sys_vars.2 (Or.inr ⟨b', hb', e', he', h.1⟩), h.2⟩
    · exact Or.inr ⟨h.1, mem_sys_vars.2 (Or.inr ⟨b', hb', e', he', h.2⟩)⟩

/-- How an assignment changes the non-affine constraints. -/
theorem applyAssignment_slots {x : SVar V} {r : GExpr p (SVar V)} (ht : TInv O s) (hx : s.Below x)
    (hw : WF r) (hb : s.BelowE r) (hr : Smaller O x r) (h : applyAssignment x r s = .ok s') :
    TInv O s' ∧ (slots O s' < slots O s ∨ (slots O s' = slots O s ∧ s'.rcs = s.rcs ∧
      ∀ v ∈ s'.cs.ix.sys.vars, (v ∈ s.cs.ix.sys.vars ∧ v ≠ x) ∨
        (v ∈ vars r ∧ x ∈ s.cs.ix.sys.vars))) := by
  have hall := h
  obtain ⟨cs, h1, h⟩ := stop_bind_ok h
  obtain ⟨refs, h2, h⟩ := stop_bind_ok h
  simp only at h
  have h1 := liftPanic_eq_ok h1
  have h2 := liftPanic_eq_ok h2
  obtain ⟨cs', g1, g2, g3, -⟩ := Queued.subst_ok ht.inv.cs x r
  rw [g1] at h1
  cases h1
  have hsys : cs.ix.sys = s.cs.ix.sys.mapExpr (GExpr.subst x r) := by
    rw [g2]; exact Indexed.subst_sys ht.inv.cs.ix x r
  obtain ⟨cs', g4, g5⟩ := cs_subst (bus := noBus) ht.inv (x := x) hw hb
  rw [g1] at g4
  cases g4
  have hin : ∀ v ∈ cs.ix.sys.vars, v.In O := by
    intro v hv
    rw [hsys] at hv
    rcases vars_mapExpr hv with h | h
    · exact ht.sys v h.1
    · exact (hr.2 v h.1).1
  have ht1 : TInv O ({ s with cs := cs } : Solver p V) := ⟨g5.inv, hin, ht.key, ht.value⟩
  obtain ⟨refs', g6, g7⟩ := refs_ok ht1.inv [x]
  have g6 : cs.ix.constraintsReferencing [x] = .ok refs' := g6
  rw [h2] at g6
  cases g6
  have hwr : ∀ e ∈ algebraicRefs refs, WF e ∧ ∀ v ∈ vars e, v.In O := fun e he =>
    ⟨ht1.inv.wf.1 e (g7 e he), fun v hv => hin v (mem_sys_vars.2 (Or.inl ⟨e, g7 e he, hv⟩))⟩
  have hE := extractRefs_extract ({ s with cs := cs } : Solver p V) hwr
  obtain ⟨h5, h6⟩ := extractRefs_spec (bus := noBus) (es := algebraicRefs refs) ht1.inv fun e he =>
    ⟨(hwr e he).1, ht1.inv.algBelow (g7 e he)⟩
  generalize extractRefs (algebraicRefs refs) { s with cs := cs } = n at h hE h5 h6
  obtain ⟨s1, h7, h⟩ := stop_bind_ok h
  obtain ⟨s2, h8, h⟩ := stop_bind_ok h
  cases h
  have hsame := constrainBooleans_same h7
  have hsp := constrainBooleans_spec (bus := noBus) (NP := True) (l := n.2.1) h6.inv (fun z hz =>
    ⟨(h5.newVar z hz).2, by rw [h5.rcs]; exact ht.inv.rcs z (h5.newVar z hz).1⟩) h5.nodup
  rw [h7] at hsp
  have ht2 : TInv O s1 := by
    refine ⟨hsp.1.inv, ?_, ?_, ?_⟩
    · rw [hsame.ix, hE.ix]; exact hin
    · rw [hsame.linSubs, hE.linSubs]; exact ht.key
    · rw [hsame.linSubs, hE.linSubs]; exact ht.value
  obtain ⟨l, hA⟩ := addAlgebraic_added (O := O) ht2 (es := n.1) (fun e he =>
    ⟨(h5.wf e he).1, hsp.1.belowE (h5.wf e he).2, hE.vars e he⟩) h8
  have hfin := applyAssignment_spec (bus := noBus) (NP := True) ht.inv hx hw hb (smaller_affine hr)
  rw [hall] at hfin
  have hgrow : ∀ a ∈ s.boolSubs, a ∈ s2.boolSubs := by
    intro a ha
    apply hA.grow
    rw [hsame.boolSubs]
    exact hE.grow a ha
  refine ⟨⟨hfin.1.inv, hA.tinv.sys, hA.tinv.key, hA.tinv.value⟩, ?_⟩
  have halg : s2.cs.ix.sys.algebraic = s.cs.ix.sys.algebraic.map (GExpr.subst x r) ++ l := by
    rw [hA.alg, hsame.ix, hE.ix]
    show cs.ix.sys.algebraic ++ l = _
    rw [hsys]
    rfl
  -- a constraint that triggered an extraction
  have trigger : ∀ c ∈ n.1, ∃ b ∈ s.cs.ix.sys.algebraic,
      slot O s2.boolSubs (GExpr.subst x r b) ≠ slot O s.boolSubs b ∧
      ∃ a, slot O s.boolSubs b = some a ∧ ∀ f : GExpr p (SVar V), prods f ≤ prods c →
        ∀ a', slot O s2.boolSubs f = some a' → a' < a := by
    intro c hc
    obtain ⟨e, he, e1, e2, e3⟩ := hE.fewer c hc
    have hmem := g7 e he
    have hmem : e ∈ cs.ix.sys.algebraic := hmem
    rw [hsys] at hmem
    obtain ⟨b, hbm, rfl⟩ := List.mem_map.1 hmem
    have hp : prods (GExpr.subst x r b) ≠ 0 := extractable_prods e1
    have hle := prods_subst x hr.1 b
    have hsb : slot O s.boolSubs b = _ := slot_of_prods (show prods b ≠ 0 by omega)
    refine ⟨b, hbm, ?_, _, hsb, ?_⟩
    · by_cases hxb : x ∈ vars b
      · intro heq
        obtain ⟨a, ha, hlt⟩ := slot_subst (subs := s.boolSubs) hr hxb
          (slot_of_prods (subs := s2.boolSubs) hp)
        rw [slot_of_prods (subs := s2.boolSubs) hp] at heq
        rw [← heq] at ha
        cases ha
        exact lt_irrefl _ hlt
      · rw [subst_of_not_mem hxb] at e1 e2 hp ⊢
        rw [slot_of_prods hp, slot_of_prods hp]
        have f1 : extractFlag s.boolSubs b = 1 := by unfold extractFlag; exact if_pos e1
        have f2 : extractFlag s2.boolSubs b = 0 := by
          unfold extractFlag
          rw [if_neg]
          have : Extractable s2.boolSubs b (.boolean 0) = false := by
            refine extractable_false_mono ?_ e2
            rw [← hsame.boolSubs]
            exact hA.grow
          rw [this]
          simp
        rw [f1, f2]
        intro heq
        have heq := Option.some.inj heq
        have h3 : (toLex (varRanks O b, 0) : DMSet (ℕ ×ₗ ℕ) ×ₗ ℕ) = toLex (varRanks O b, 1) :=
          congrArg Prod.snd (toLex.injective heq)
        have h4 : (0 : ℕ) = 1 := congrArg Prod.snd (toLex.injective h3)
        omega
    · intro f hf a' ha'
      obtain ⟨rfl, -⟩ := slot_some ha'
      rw [Prod.Lex.toLex_lt_toLex]
      left
      show prods f < prods b
      omega
  have key := DMSet.lt_or_eq s.cs.ix.sys.algebraic (slot O s.boolSubs)
    (fun b => slot O s2.boolSubs (GExpr.subst x r b)) (l.filterMap (slot O s2.boolSubs))
    (fun b _ => slot_step hgrow hr b) (by
      intro a' ha'
      obtain ⟨f, hf, hfa⟩ := List.mem_filterMap.1 ha'
      have hp : prods f ≠ 0 := fun h0 => by
        rw [slot_none.2 (prods_eq_zero_iff.1 h0)] at hfa; cases hfa
      obtain ⟨c, hc, hle⟩ := hA.prods f hf hp
      obtain ⟨b, hb1, hb2, a, ha, hlt⟩ := trigger c hc
      exact ⟨b, hb1, hb2, a, ha, hlt f hle a' hfa⟩)
  have hslots : slots O ({ s2 with toReturn := s2.toReturn ++ [(x, r)] } : Solver p V) =
      ⟨((s.cs.ix.sys.algebraic.filterMap fun b => slot O s2.boolSubs (GExpr.subst x r b)) ++
        l.filterMap (slot O s2.boolSubs) : List SlotMeasure)⟩ := by
    unfold slots
    show DMSet.mk (↑(s2.cs.ix.sys.algebraic.filterMap (slot O s2.boolSubs)) : Multiset SlotMeasure) = _
    rw [halg, List.filterMap_append, List.filterMap_map]
    rfl
  rw [hslots]
  rcases key with h9 | ⟨h9, h10⟩
  · exact Or.inl h9
  · right
    have hn : n.1 = [] := by
      rw [List.eq_nil_iff_forall_not_mem]
      intro c hc
      obtain ⟨b, hb1, hb2, -⟩ := trigger c hc
      exact hb2 (h10 b hb1)
    obtain ⟨hz, hs⟩ := hE.unchanged hn
    rw [hn] at h8
    rw [hz, hs] at h7
    cases h7
    obtain ⟨cs2, k1, -, k2, k3, -⟩ := addAlgebraic_affine ht2.inv (by simp) h8
    refine ⟨?_, ?_, ?_⟩
    · rw [h9, List.append_nil]
      unfold slots
      rw [List.filterMap_congr fun b hb => h10 b hb]
    · show s2.rcs = s.rcs
      rw [k1]
    · intro v hv
      have hv : v ∈ s2.cs.ix.sys.vars := hv
      apply vars_mapExpr
      rw [← hsys]
      rw [mem_sys_vars] at hv ⊢
      rw [k1] at hv
      have k2 : cs2.ix.sys.algebraic = cs.ix.sys.algebraic := by rw [k2]; simp
      have k3 : cs2.ix.sys.bus = cs.ix.sys.bus := k3
      rw [← k2, ← k3]
      exact hv

/-- An assignment does not make the measure larger. -/
theorem applyAssignment_measure {x : SVar V} {r : GExpr p (SVar V)} (ht : TInv O s) (hx : s.Below x)
    (hw : WF r) (hb : s.BelowE r) (hr : Smaller O x r)
    (hv : ∀ y ∈ vars r, x ∈ s.cs.ix.sys.vars → y ∈ s.cs.ix.sys.vars)
    (h : applyAssignment x r s = .ok s') :
    TInv O s' ∧ WeaklySmaller (measure O s') (measure O s) ∧
      (x ∈ s.cs.ix.sys.vars → measure O s' < measure O s) := by
  obtain ⟨h1, h2⟩ := applyAssignment_slots ht hx hw hb hr h
  refine ⟨h1, ?_⟩
  unfold WeaklySmaller measure
  simp only [Prod.Lex.toLex_lt_toLex]
  rcases h2 with h2 | ⟨h2, h3, h4⟩
  · exact ⟨Or.inl (Or.inl h2), fun _ => Or.inl h2⟩
  · have hsub : s'.varSet ⊆ s.varSet := by
      intro v h5
      rw [varSet, List.mem_toFinset] at *
      rcases h4 v h5 with h | h
      · exact h.1
      · exact hv v h.1 h.2
    have hxn : x ∉ s'.varSet := by
      rw [varSet, List.mem_toFinset]
      intro h5
      rcases h4 x h5 with h | h
      · exact h.2 rfl
      · exact lt_irrefl _ (hr.2 x h.1).2
    rw [h2]
    refine ⟨?_, fun hxm => Or.inr ⟨rfl, Or.inl ?_⟩⟩
    · rcases hsub.eq_or_ssubset with h5 | h5
      · right
        have : ranges s' = ranges s := by unfold ranges; rw [h3, h5]
        rw [h5, this]
      · exact Or.inl (Or.inr ⟨rfl, Or.inl (Finset.card_lt_card h5)⟩)
    · exact Finset.card_lt_card ((Finset.ssubset_iff_of_subset hsub).2
        ⟨x, List.mem_toFinset.2 hxm, hxn⟩)

theorem smaller_const (O : List V) (x : SVar V) (c : ZMod p) : Smaller O x (const c) := by
  refine ⟨prods_const c, fun y hy => ?_⟩
  rw [vars_const] at hy
  cases hy

theorem WeaklySmaller.trans {α : Type} [Preorder α] {a b c : α} (h : WeaklySmaller a b)
    (h' : WeaklySmaller b c) : WeaklySmaller a c := by
  rcases h with h | rfl
  · rcases h' with h' | rfl
    · exact Or.inl (h.trans h')
    · exact Or.inl h
  · exact h'

theorem WeaklySmaller.trans_lt {α : Type} [Preorder α] {a b c : α} (h : WeaklySmaller a b)
    (h' : b < c) : a < c := by
  rcases h with h | rfl
  · exact h.trans h'
  · exact h'

/-- What is true of a step: the invariant is kept, the measure does not grow; if nothing is
reported, nothing changed; if something is reported, the measure is smaller provided that the
variables are in the system. -/
structure Decreases (O : List V) (ins : Prop) (s : Solver p V) (r : Bool × Solver p V) : Prop where
  tinv : TInv O r.2
  weak : WeaklySmaller (measure O r.2) (measure O s)
  same : r.1 = false → r.2 = s
  strict : ins → r.1 = true → measure O r.2 < measure O s
  below : ∀ v, s.Below v → r.2.Below v

theorem Decreases.mono {a b : Prop} {r : Bool × Solver p V} (h : Decreases O a s r) (hab : b → a) :
    Decreases O b s r := ⟨h.tinv, h.weak, h.same, fun hb => h.strict (hab hb), h.below⟩

theorem Decreases.refl (ht : TInv O s) (a : Prop) : Decreases O a s (false, s) :=
  ⟨ht, Or.inr rfl, fun _ => rfl, fun _ h => absurd h (by simp), fun _ h => h⟩

theorem Decreases.seq {a b : Prop} {r1 r2 : Bool × Solver p V} (h1 : Decreases O a s r1)
    (h2 : Decreases O b r1.2 r2) (hb : r1.1 = false → a → b) :
    Decreases O a s (r1.1 || r2.1, r2.2) := by
  refine ⟨h2.tinv, h2.weak.trans h1.weak, ?_, ?_, fun v hv => h2.below v (h1.below v hv)⟩
  · intro h
    simp only [Bool.or_eq_false_iff] at h
    rw [← h1.same h.1]
    exact h2.same h.2
  · intro ha h
    cases h3 : r1.1 with
    | true => exact h2.weak.trans_lt (h1.strict ha h3)
    | false =>
      rw [h3, Bool.false_or] at h
      have := h2.strict (hb h3 ha) h
      rw [h1.same h3] at this
      exact this

theorem applyRc_decreases {x : SVar V} {r : RangeConstraint p} (ht : TInv O s) (hx : s.Below x)
    {o : Bool × Solver p V} (h : applyRc x r s = .ok o) :
    Decreases O (x ∈ s.cs.ix.sys.vars) s o := by
  have hsp := applyRc_spec (bus := noBus) (NP := True) ht.inv hx r
  rw [h] at hsp
  have hbel : ∀ v, s.Below v → o.2.Below v := fun v hv => hsp.1.below hv
  unfold applyRc at h
  have hne : updateRc x r s = some (setRc x r s) → (s.rcs x).conjunction r ≠ s.rcs x := by
    intro h1 h2
    unfold updateRc at h1
    simp only at h1
    rw [if_neg (by rw [h2]; simp)] at h1
    cases h1
  rcases updateRc_cases x r s with h1 | h1
  · rw [h1] at h
    cases h
    exact .refl ht _
  · rw [h1] at h
    simp only at h
    have hne := hne h1
    have ht1 : TInv O (setRc x r s) := ⟨ht.inv.setRc hx r, ht.sys, ht.key, ht.value⟩
    have hm : WeaklySmaller (measure O (setRc x r s)) (measure O s) := by
      by_cases hxm : x ∈ s.cs.ix.sys.vars
      · exact Or.inl (measure_setRc hxm hne)
      · exact Or.inr (measure_setRc_of_not_mem hxm)
    cases hv : ((setRc x r s).rcs x).tryToSingleValue with
    | some value =>
      rw [hv] at h
      obtain ⟨s1, h2, h3⟩ := stop_bind_ok h
      cases h3
      obtain ⟨h4, h5, -⟩ := applyAssignment_measure (s := setRc x r s) ht1 hx (wf_const value)
        (belowE_const value) (smaller_const O x value) (by
          intro y hy; rw [vars_const] at hy; cases hy) h2
      exact ⟨h4, h5.trans hm, fun h => absurd h (by simp),
        fun hxm _ => h5.trans_lt (measure_setRc hxm hne), hbel⟩
    | none =>
      rw [hv] at h
      obtain ⟨s1, h2, h3⟩ := stop_bind_ok h
      cases h3
      obtain ⟨h4, h5⟩ := variableUpdated_same h2
      have hme : measure O s1 = measure O (setRc x r s) :=
        measure_congr (by rw [h4.ix]) h5 h4.boolSubs
      refine ⟨h4.tinv ht1 hsp.1.inv, ?_, fun h => absurd h (by simp), ?_, hbel⟩
      · show WeaklySmaller (measure O s1) _
        rw [hme]; exact hm
      · intro hxm _
        show measure O s1 < _
        rw [hme]; exact measure_setRc hxm hne

/-- The variable of an effect. -/
def effectVar : Effect p (SVar V) → Option (SVar V)
  | .assignment v _ => some v
  | .rangeConstraint v _ => some v
  | _ => none

theorem applyEffect_decreases {eff : Effect p (SVar V)} (ht : TInv O s) (ha : s.Applicable eff)
    {o : Bool × Solver p V} (h : applyEffect s eff = .ok o) :
    Decreases O (∀ v, effectVar eff = some v → v ∈ s.cs.ix.sys.vars) s o := by
  rcases ha with ⟨v, a, rfl, hv⟩ | ⟨v, r, rfl, hv⟩
  · have hsp := applyEffect_spec (bus := noBus) (NP := True) ht.inv
      (eff := .assignment v a) (Or.inl ⟨v, a, rfl, hv⟩)
    rw [h] at hsp
    obtain ⟨s1, h2, h3⟩ := stop_bind_ok h
    cases h3
    obtain ⟨h4, h5, h6⟩ := applyAssignment_measure ht hv (wf_const a)
      (belowE_const a) (smaller_const O v a) (by
        intro y hy; rw [vars_const] at hy; cases hy) h2
    exact ⟨h4, h5, fun h => absurd h (by simp), fun h _ => h6 (h v rfl), fun v hv => hsp.1.below hv⟩
  · exact (applyRc_decreases ht hv h).mono fun h => h v rfl

theorem Applicable.below {eff : Effect p (SVar V)} (h : s.Applicable eff)
    (hb : ∀ v, s.Below v → s'.Below v) : s'.Applicable eff := by
  rcases h with ⟨v, a, rfl, h⟩ | ⟨v, r, rfl, h⟩
  · exact Or.inl ⟨v, a, rfl, hb v h⟩
  · exact Or.inr ⟨v, r, rfl, hb v h⟩

theorem applyEffects_decreases : ∀ {l : List (Effect p (SVar V))} {s : Solver p V}
    {o : Bool × Solver p V}, TInv O s → (∀ eff ∈ l, s.Applicable eff) → applyEffects l s = .ok o →
    Decreases O (∀ eff ∈ l, ∀ v, effectVar eff = some v → v ∈ s.cs.ix.sys.vars) s o := by
  intro l
  induction l with
  | nil => intro s o ht _ h; cases h; exact .refl ht _
  | cons e t ih =>
    intro s o ht ha h
    obtain ⟨r, h1, h2⟩ := stop_bind_ok h
    obtain ⟨rs, h3, h4⟩ := stop_bind_ok h2
    cases h4
    have d1 := applyEffect_decreases ht (ha e (by simp)) h1
    have d2 := ih d1.tinv (fun eff he => (ha eff (by simp [he])).below d1.below) h3
    refine Decreases.seq (d1.mono fun h => h e (by simp)) d2 ?_
    intro hf hall eff he v hv
    rw [d1.same hf]
    exact hall eff (by simp [he]) v hv

theorem applyRcs_decreases : ∀ {l : List (SVar V × RangeConstraint p)} {s : Solver p V}
    {o : Bool × Solver p V}, TInv O s → (∀ x ∈ l, s.Below x.1) → applyRcs l s = .ok o →
    Decreases O (∀ x ∈ l, x.1 ∈ s.cs.ix.sys.vars) s o := by
  intro l
  induction l with
  | nil => intro s o ht _ h; cases h; exact .refl ht _
  | cons e t ih =>
    intro s o ht ha h
    obtain ⟨r, h1, h2⟩ := stop_bind_ok h
    obtain ⟨rs, h3, h4⟩ := stop_bind_ok h2
    cases h4
    have d1 := applyRc_decreases ht (ha e (by simp)) h1
    have d2 := ih d1.tinv (fun x hx => d1.below _ (ha x (by simp [hx]))) h3
    refine Decreases.seq (d1.mono fun h => h e (by simp)) d2 ?_
    intro hf hall x hx
    rw [d1.same hf]
    exact hall x (by simp [hx])

end Solver

end Verif
