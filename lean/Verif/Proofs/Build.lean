import Verif.Spec.Build
import Verif.Props.Machine
import Verif.Props.ExecBus
import Verif.Props.Empirical
import Verif.Props.Optimizer

/-!
# Proofs about the generation of a precompile
-/

set_option linter.unusedSectionVars false

namespace Verif

open GExpr

/-! ### Renumbering -/

section
variable {F R R' : Type} [CommRing F]

theorem renumber_holds (f : R → R') (m : SymMachine F R) (σ : R' → F) :
    (m.renumber f).Holds σ ↔ m.Holds (σ ∘ f) := by
  simp only [SymMachine.Holds, SymMachine.renumber, List.mem_map, forall_exists_index, and_imp,
    forall_apply_eq_imp_iff₂, value_mapRefs]

theorem renumber_messages (f : R → R') (m : SymMachine F R) (σ : R' → F) :
    (m.renumber f).messages σ = m.messages (σ ∘ f) := by
  simp only [SymMachine.messages, SymMachine.renumber, List.map_map]
  refine List.map_congr_left fun b _ => ?_
  simp only [Function.comp_apply, SymBus.message, value_mapRefs, List.map_map, Prod.mk.injEq, true_and]
  exact List.map_congr_left fun e _ => value_mapRefs f σ e

theorem renumber_exprs (f : R → R') (m : SymMachine F R) :
    (m.renumber f).exprs = m.exprs.map (AlgExpr.mapRefs f) := by
  simp only [SymMachine.exprs, SymMachine.renumber, List.map_append, List.flatMap_map, List.map_flatMap,
    List.map_cons]

theorem renumber_refs (f : R → R') (m : SymMachine F R) : (m.renumber f).refs = m.refs.map f := by
  simp only [SymMachine.refs, renumber_exprs, List.flatMap_map, List.map_flatMap, refs_mapRefs]

end

theorem renumber_method {F R R' : Type} [Field F] [DecidableEq F] (f : R → R') (m : SymMethod F R)
    (σ : R' → F) : (m.mapRefs f).value σ = m.value (σ ∘ f) := by
  cases m <;> simp [SymMethod.mapRefs, SymMethod.value, value_mapRefs]

/-! ### The rows of a block -/

section
variable {p : ℕ} {U : Type} [CommRing U] {φ : U ≃+* ZMod p} {execBus pcBus : ℕ}

/-- The assignment of the block machine has the values of the rows. -/
def Agrees (φ : U → ZMod p) (subs : List (List ℕ)) (rows : ℕ → ℕ → U) (σ : ℕ → ZMod p) : Prop :=
  ∀ (k : ℕ) (l : List ℕ) (c id : ℕ), subs[k]? = some l → l[c]? = some id → σ id = φ (rows k c)

theorem agrees_rows (φ : U ≃+* ZMod p) (subs : List (List ℕ)) (σ : ℕ → ZMod p) :
    Agrees φ subs (fun k c => φ.symm (σ ((subs.getD k []).getD c 0))) σ := by
  intro k l c id h1 h2
  simp [List.getD_eq_getElem?_getD, h1, h2]

theorem exists_agrees (φ : U → ZMod p) {subs : List (List ℕ)} (h : subs.flatten.Nodup)
    (rows : ℕ → ℕ → U) : ∃ σ, Agrees φ subs rows σ := by
  classical
  rw [List.nodup_flatten] at h
  refine ⟨fun id => if hx : ∃ x : ℕ × ℕ, ∃ l, subs[x.1]? = some l ∧ l[x.2]? = some id then
    φ (rows hx.choose.1 hx.choose.2) else 0, ?_⟩
  intro k l c id h1 h2
  have hx : ∃ x : ℕ × ℕ, ∃ l, subs[x.1]? = some l ∧ l[x.2]? = some id := ⟨(k, c), l, h1, h2⟩
  simp only [dif_pos hx]
  obtain ⟨l', h3, h4⟩ := hx.choose_spec
  have hk : hx.choose.1 = k := by
    by_contra hne
    have hd := List.pairwise_iff_getElem.1 h.2
    have b1 := (List.getElem?_eq_some_iff.1 h1)
    have b3 := (List.getElem?_eq_some_iff.1 h3)
    obtain ⟨b1, e1⟩ := b1
    obtain ⟨b3, e3⟩ := b3
    rcases lt_or_gt_of_ne hne with hlt | hlt
    · have := hd _ _ b3 b1 hlt
      rw [e1, e3] at this
      exact this (List.mem_of_getElem? h4) (List.mem_of_getElem? h2)
    · have := hd _ _ b1 b3 hlt
      rw [e1, e3] at this
      exact this (List.mem_of_getElem? h2) (List.mem_of_getElem? h4)
  have hl : l' = l := by
    rw [hk, h1] at h3
    exact (Option.some.inj h3).symm
  have hc : hx.choose.2 = c := by
    subst hl
    have hn := h.1 l' (List.mem_of_getElem? h1)
    obtain ⟨b2, e2⟩ := List.getElem?_eq_some_iff.1 h2
    obtain ⟨b4, e4⟩ := List.getElem?_eq_some_iff.1 h4
    exact (List.Nodup.getElem_inj_iff hn).1 (e4.trans e2.symm)
  rw [hk, hc]

theorem mem_zip_iff {α β : Type} {l : List α} {l' : List β} {x : α × β} :
    x ∈ l.zip l' ↔ ∃ k : ℕ, l[k]? = some x.1 ∧ l'[k]? = some x.2 := by
  rw [List.mem_iff_getElem?]
  refine exists_congr fun k => ?_
  rw [List.getElem?_zip_eq_some]

/-- Expressions of an instruction in the block machine. -/
theorem row_value {is : List (InstrAir U)} {m : SymMachine (ZMod p) ℕ} {a : ColumnAllocator}
    (h : blockMachine execBus pcBus φ is = .ok (m, a)) {rows : ℕ → ℕ → U} {σ : ℕ → ZMod p}
    (hσ : Agrees φ a.subs rows σ) {k : ℕ} {i : InstrAir U} {l : List ℕ} (h1 : is[k]? = some i)
    (h2 : a.subs[k]? = some l) {e : AlgExpr U ℕ} (he : e ∈ i.machine.exprs) :
    (e.convert φ).value (fun c => σ (l.getD c 0)) = φ (e.value (rows k)) := by
  have hlen := (C47_ids h).2.2 (i, l) (mem_zip_iff.2 ⟨k, h1, h2⟩)
  obtain ⟨n, -, hn⟩ := ((C58_exists.1 ⟨_, h⟩).2 i (List.mem_of_getElem? h1)).1
  have hdl : i.machine.refs.dedup.length = n := by
    have : i.machine.refs.toFinset = Finset.range n := by
      ext x
      simp [hn]
    rw [← List.card_toFinset, this, Finset.card_range]
  have hval := value_convert (φ : U →+* ZMod p) (rows k) e
  have hc : (e.convert (φ : U →+* ZMod p)) = e.convert φ := rfl
  rw [hc] at hval
  rw [RingEquiv.coe_toRingHom] at hval
  rw [← hval]
  refine value_congr _ fun r hr => ?_
  rw [refs_convert] at hr
  have hrn : r < l.length := by
    rw [hlen, hdl]
    exact (hn r).1 (List.mem_flatMap.2 ⟨e, he, hr⟩)
  have h3 : l[r]? = some l[r] := List.getElem?_eq_getElem hrn
  rw [List.getD_eq_getElem?_getD, h3, Option.getD_some]
  exact hσ k l r _ h2 h3

theorem onBus_convert {T T' : Type} (f : T → T') (m : SymMachine T ℕ) (id : ℕ) :
    (m.convert f).onBus id = (m.onBus id).map
      fun b => ⟨b.id, b.mult.convert f, b.args.map (AlgExpr.convert f)⟩ := by
  simp only [SymMachine.onBus, SymMachine.convert, List.filter_map]
  rfl

theorem args_mem_exprs {T : Type} {m : SymMachine T ℕ} {b : SymBus T ℕ} (hb : b ∈ m.bus)
    {e : AlgExpr T ℕ} (he : e ∈ b.args) : e ∈ m.exprs :=
  List.mem_append_right _ (List.mem_flatMap.2 ⟨b, hb, List.mem_cons_of_mem _ he⟩)

theorem mult_mem_exprs {T : Type} {m : SymMachine T ℕ} {b : SymBus T ℕ} (hb : b ∈ m.bus) :
    b.mult ∈ m.exprs :=
  List.mem_append_right _ (List.mem_flatMap.2 ⟨b, hb, List.mem_cons_self⟩)

/-- Numbers as seen by the optimizer. -/
def convertMessage (φ : U → ZMod p) (x : ℕ × U × List U) : ℕ × ZMod p × List (ZMod p) :=
  (x.1, φ x.2.1, x.2.2.map φ)

/-- The rows and the block machine, after the execution bus optimisation. -/
theorem rows_iff {is : List (InstrAir U)} {m : SymMachine (ZMod p) ℕ} {a : ColumnAllocator}
    (h : blockMachine execBus pcBus φ is = .ok (m, a)) {width : ℕ}
    (hw : ∀ i ∈ is, ∀ b ∈ i.machine.onBus execBus, b.args.length = width) :
    ∃ m', optimizeExecBus m execBus = .ok m' ∧ ∀ (rows : ℕ → ℕ → U) (σ : ℕ → ZMod p),
      Agrees φ a.subs rows σ →
      (m'.Holds σ ↔ BlockRows execBus pcBus is rows) ∧
      m.messages σ = (rowMessages is rows).map (convertMessage φ) ∧
      (m'.Holds σ → (∀ (k : ℕ) (i : InstrAir U), is[k]? = some i → ∀ r s,
          i.machine.onBus execBus = [r, s] →
          s.mult.value (rows k) = 1) →
        ∀ id payload,
          messageBalance (m'.messages σ) id payload = messageBalance (m.messages σ) id payload) := by
  obtain ⟨m', h1, h2⟩ := C55_block h (width := width) fun i hi b hb hid =>
    hw i hi b (List.mem_filter.2 ⟨hb, by simpa using hid⟩)
  have hlen : a.subs.length = is.length := (C47_ids h).2.1
  refine ⟨m', h1, fun rows σ hσ => ?_⟩
  obtain ⟨h3, h4⟩ := h2 σ
  have hval := fun {k i l} h1 h2 {e} he => row_value h hσ (k := k) (i := i) (l := l) h1 h2 (e := e) he
  have hex : ∀ (k : ℕ) (i : InstrAir U), is[k]? = some i → ∃ l, a.subs[k]? = some l := by
    intro k i hk
    have : k < a.subs.length := by
      rw [hlen]
      exact (List.getElem?_eq_some_iff.1 hk).1
    exact ⟨_, List.getElem?_eq_getElem this⟩
  have hargs : ∀ {k i l}, is[k]? = some i → a.subs[k]? = some l → ∀ {b : SymBus U ℕ}, b ∈ i.machine.bus →
      (b.args.map (AlgExpr.convert φ)).map (AlgExpr.value fun c => σ (l.getD c 0)) =
        (b.args.map (AlgExpr.value (rows k))).map φ := by
    intro k i l k1 k2 b hb
    rw [List.map_map, List.map_map]
    exact List.map_congr_left fun e he => hval k1 k2 (args_mem_exprs hb he)
  have hinj : Function.Injective (List.map φ) := List.map_injective_iff.2 φ.injective
  refine ⟨?_, ?_, ?_⟩
  · rw [h3, (C58_block h σ).1]
    constructor
    · rintro ⟨g1, g2⟩
      refine ⟨?_, ?_, ?_, ?_⟩
      · intro k i k1 e he
        obtain ⟨l, k2⟩ := hex k i k1
        have := (g1 (i, l) (mem_zip_iff.2 ⟨k, k1, k2⟩)).1 (e.convert φ) (List.mem_map.2 ⟨e, he, rfl⟩)
        rw [hval k1 k2 (List.mem_append_left _ he)] at this
        exact (map_eq_zero_iff φ φ.injective).1 this
      · intro k i k1 r s hrs
        obtain ⟨l, k2⟩ := hex k i k1
        have := (g1 (i, l) (mem_zip_iff.2 ⟨k, k1, k2⟩)).2.1 _ _ (by
          change (i.machine.convert φ).onBus execBus = _
          rw [onBus_convert, hrs]
          rfl)
        have hr : r ∈ i.machine.bus := List.mem_of_mem_filter (by
          change r ∈ i.machine.onBus execBus
          rw [hrs]; simp)
        simp only at this
        rw [hval k1 k2 (mult_mem_exprs hr)] at this
        apply φ.injective
        rw [this, map_neg, map_one]
      · intro k i k1 b hb
        obtain ⟨l, k2⟩ := hex k i k1
        have hb' := List.mem_filter.1 hb
        have := (g1 (i, l) (mem_zip_iff.2 ⟨k, k1, k2⟩)).2.2
          ⟨b.id, b.mult.convert φ, b.args.map (AlgExpr.convert φ)⟩ (List.mem_map.2 ⟨b, hb'.1, rfl⟩)
          (by simpa using hb'.2)
        simp only at this
        rw [hargs k1 k2 hb'.1] at this
        exact hinj this
      · intro k i j k1 k1' r s r' s' hrs hrs'
        obtain ⟨l, k2⟩ := hex k i k1
        obtain ⟨l', k2'⟩ := hex (k + 1) j k1'
        have := g2 k (i, l) (j, l') (List.getElem?_zip_eq_some.2 ⟨k1, k2⟩)
          (List.getElem?_zip_eq_some.2 ⟨k1', k2'⟩) _ _ _ _
          (by rw [onBus_convert, hrs]; rfl) (by rw [onBus_convert, hrs']; rfl)
        simp only at this
        rw [hargs k1 k2 (b := s) (List.mem_of_mem_filter (by
            change s ∈ i.machine.onBus execBus
            rw [hrs]; simp)),
          hargs k1' k2' (b := r') (List.mem_of_mem_filter (by
            change r' ∈ j.machine.onBus execBus
            rw [hrs']; simp))] at this
        exact hinj this
    · rintro ⟨g1, g2, g3, g4⟩
      refine ⟨?_, ?_⟩
      · rintro ⟨i, l⟩ hx
        obtain ⟨k, k1, k2⟩ := mem_zip_iff.1 hx
        simp only at k1 k2
        refine ⟨?_, ?_, ?_⟩
        · intro e he
          obtain ⟨e', he', rfl⟩ := List.mem_map.1 he
          simp only
          rw [hval k1 k2 (List.mem_append_left _ he'), g1 k i k1 e' he', map_zero]
        · intro r s hrs
          change (i.machine.convert φ).onBus execBus = _ at hrs
          rw [onBus_convert] at hrs
          obtain ⟨r0, t, hr0, e1, ht⟩ := List.map_eq_cons_iff.1 hrs
          obtain ⟨s0, t', hs0, e2, ht'⟩ := List.map_eq_cons_iff.1 ht
          rw [List.map_eq_nil_iff.1 ht'] at hs0
          subst e1
          simp only
          rw [hval k1 k2 (mult_mem_exprs (b := r0) (List.mem_of_mem_filter (by
            change r0 ∈ i.machine.onBus execBus
            rw [hr0]; simp))), g2 k i k1 r0 s0 (by rw [hr0, hs0]), map_neg, map_one]
        · intro b hb hid
          obtain ⟨b', hb', rfl⟩ := List.mem_map.1 hb
          simp only
          rw [hargs k1 k2 hb', g3 k i k1 b' (List.mem_filter.2 ⟨hb', by simpa using hid⟩)]
      · rintro k ⟨i, l⟩ ⟨j, l'⟩ hx hy r s r' s' hrs hrs'
        obtain ⟨k1, k2⟩ := List.getElem?_zip_eq_some.1 hx
        obtain ⟨k1', k2'⟩ := List.getElem?_zip_eq_some.1 hy
        rw [onBus_convert] at hrs hrs'
        obtain ⟨r0, t, hr0, e1, ht⟩ := List.map_eq_cons_iff.1 hrs
        obtain ⟨s0, t', hs0, e2, ht'⟩ := List.map_eq_cons_iff.1 ht
        rw [List.map_eq_nil_iff.1 ht'] at hs0
        obtain ⟨r0', u, hr0', e1', hu⟩ := List.map_eq_cons_iff.1 hrs'
        obtain ⟨s0', u', hs0', e2', hu'⟩ := List.map_eq_cons_iff.1 hu
        rw [List.map_eq_nil_iff.1 hu'] at hs0'
        subst e2 e1'
        simp only at k1 k2 k1' k2' hr0 hr0' ⊢
        rw [hargs k1 k2 (b := s0) (List.mem_of_mem_filter (by
            change s0 ∈ i.machine.onBus execBus
            rw [hr0, hs0]; simp)),
          hargs k1' k2' (b := r0') (List.mem_of_mem_filter (by
            change r0' ∈ j.machine.onBus execBus
            rw [hr0']; simp)),
          g4 k i j k1 k1' r0 s0 r0' s0' (by rw [hr0, hs0]) (by rw [hr0', hs0'])]
  · rw [(C58_block h σ).2, rowMessages, List.map_flatMap]
    have hz : ∀ (is : List (InstrAir U)) (subs : List (List ℕ)) (n : ℕ)
        (f : InstrAir U × List ℕ → List (ℕ × ZMod p × List (ZMod p)))
        (g : InstrAir U × ℕ → List (ℕ × ZMod p × List (ZMod p))), subs.length = is.length →
        (∀ k i l, is[k]? = some i → subs[k]? = some l → f (i, l) = g (i, n + k)) →
        (is.zip subs).flatMap f = (is.zipIdx n).flatMap g := by
      intro is
      induction is with
      | nil => intro subs n f g _ _; simp
      | cons i is ih =>
        intro subs n f g hl hk
        cases subs with
        | nil => simp at hl
        | cons l subs =>
          rw [List.zip_cons_cons, List.flatMap_cons, List.zipIdx_cons, List.flatMap_cons,
            hk 0 i l rfl rfl, ih subs (n + 1) f g (by simpa using hl) fun k i l k1 k2 => by
              rw [hk (k + 1) i l (by simpa using k1) (by simpa using k2)]
              congr 2
              omega]
          simp
    refine hz is a.subs 0 _ _ hlen fun k i l k1 k2 => ?_
    simp only [SymMachine.messages, SymMachine.convert, List.map_map, Nat.zero_add]
    refine List.map_congr_left fun b hb => ?_
    simp only [Function.comp_apply, SymBus.message, convertMessage, Prod.mk.injEq, true_and]
    exact ⟨hval k1 k2 (mult_mem_exprs hb), hargs k1 k2 hb⟩
  · intro h5 h6
    refine h4 h5 ?_
    rintro ⟨i, l⟩ hx r s hrs
    obtain ⟨k, k1, k2⟩ := mem_zip_iff.1 hx
    simp only at k1 k2 hrs ⊢
    rw [onBus_convert] at hrs
    obtain ⟨r0, t, hr0, e1, ht⟩ := List.map_eq_cons_iff.1 hrs
    obtain ⟨s0, t', hs0, e2, ht'⟩ := List.map_eq_cons_iff.1 ht
    rw [List.map_eq_nil_iff.1 ht'] at hs0
    subst e2
    simp only
    rw [hval k1 k2 (mult_mem_exprs (b := s0) (List.mem_of_mem_filter (by
      change s0 ∈ i.machine.onBus execBus
      rw [hr0, hs0]; simp))), h6 k i k1 r0 s0 (by rw [hr0, hs0]), map_one]

/-! ### Empirical constraints -/

theorem blockRanges_shape (m : List (ℕ × List (ℕ × ℕ))) : ∀ (pcs : List ℕ) (acc),
    (∀ x ∈ acc, ∃ l : List (ℕ × ℕ), x.2 = l.zipIdx.map fun y => (y.2, y.1)) →
    ∀ x ∈ blockRanges m pcs acc, ∃ l : List (ℕ × ℕ), x.2 = l.zipIdx.map fun y => (y.2, y.1)
  | [], acc, h => h
  | pc :: t, acc, h => by
    rw [blockRanges]
    cases hl : m.lookup (pcU32 pc) with
    | none => exact blockRanges_shape m t acc h
    | some ranges =>
      refine blockRanges_shape m t _ ?_
      exact mem_upsert_val (P := fun w : List (ℕ × ℕ × ℕ) =>
        ∃ l : List (ℕ × ℕ), w = l.zipIdx.map fun y => (y.2, y.1)) h ⟨ranges, rfl⟩ fun _ _ => ⟨ranges, rfl⟩

theorem enum_keys (l : List (ℕ × ℕ)) : MapKeys (l.zipIdx.map fun y => (y.2, y.1)) := by
  unfold MapKeys
  rw [List.map_map]
  have : (Prod.fst ∘ fun y : (ℕ × ℕ) × ℕ => (y.2, y.1)) = Prod.snd := rfl
  rw [this, List.zipIdx_map_snd]
  exact List.nodup_range'

theorem filterRanges_keys {indices : List ℕ} {pred : BlockCell → Bool} {ranges : List (ℕ × (ℕ × ℕ))}
    (h : MapKeys ranges) : MapKeys (filterRanges indices pred ranges) := by
  have h1 : (filterRanges indices pred ranges).Sublist ranges := by
    have e : ranges = ranges.zipIdx.map Prod.fst := by simp
    have e2 : filterRanges indices pred ranges = (ranges.zipIdx.filter fun x =>
        indices.all fun idx => pred (idx, x.2)).map Prod.fst := by
      unfold filterRanges
      generalize ranges.zipIdx = l
      induction l with
      | nil => rfl
      | cons x t ih =>
        rw [List.filterMap_cons, List.filter_cons]
        split_ifs
        · rw [ih]; rfl
        · rw [ih]
    rw [e2]
    conv_rhs => rw [e]
    exact List.filter_sublist.map _
  exact h.sublist (h1.map _)

/-- The statistics of a block after filtering. -/
theorem kept_of {I : Type} {e : EmpiricalConstraints} (hwf : e.WF) {step : ℕ}
    {blocks : List (BasicBlock I)} (hcells : ∀ b ∈ blocks, CellsInBlock e b)
    {keep : Option (BlockCell → Bool)} {ofBlock kept : BlockEmpiricalConstraints}
    (hfb : e.ForBlock step blocks (.ok ofBlock))
    (hfi : (keep = none → kept = ofBlock) ∧ ∀ q, keep = some q → ofBlock.Filtered q (.ok kept)) :
    kept.equivalenceClasses.WF ∧ (∀ x ∈ kept.columnRangesByPc, MapKeys x.2) ∧
      (∀ (k pc c v : ℕ), (superBlockPcs step blocks)[k]? = some pc →
        (kept.range (pcU32 pc) c = some (v, v) ↔ e.range (pcU32 pc) c = some (v, v) ∧
          ∀ j, (superBlockPcs step blocks)[j]? = some (pcU32 pc) →
            (keep.getD fun _ => true) (j, c) = true)) ∧
      ∀ x y, kept.equivalenceClasses.Same x y ↔ x = y ∨ superBlockEquates e 0 blocks x y ∧
        (keep.getD fun _ => true) x = true ∧ (keep.getD fun _ => true) y = true := by
  have hne : blocks ≠ [] := by
    intro h
    have := ((C53_for_block hwf step blocks).2 _ hfb).1 h
    cases this
  obtain ⟨s, hs1, hs2, hs3, hs4, hs5⟩ := ((C53_for_block hwf step blocks).2 _ hfb).2 hne hcells
  cases hs1
  have hshape : ∀ x ∈ ofBlock.columnRangesByPc, ∃ l : List (ℕ × ℕ),
      x.2 = l.zipIdx.map fun y => (y.2, y.1) := by
    obtain ⟨c, -, hc⟩ := hfb
    cases c with
    | error x => cases hc
    | ok c =>
      have : ofBlock = _ := Except.ok.inj hc
      rw [this]
      exact blockRanges_shape _ _ [] (by simp)
  cases keep with
  | none =>
    have h1 := hfi.1 rfl
    rw [h1]
    refine ⟨hs3, fun x hx => ?_, fun k pc c v hpc => ?_, fun x y => ?_⟩
    · obtain ⟨l, hl⟩ := hshape x hx
      rw [hl]
      exact enum_keys l
    · rw [hs4, if_pos (List.mem_map.2 ⟨pc, List.mem_of_getElem? hpc, rfl⟩)]
      simp
    · rw [hs5]
      simp
  | some q =>
    have h1 := hfi.2 q rfl
    obtain ⟨s', k1, k2, k3, k4, k5⟩ := (C53_filtered hs3 hshape q).2 _ h1
    cases k1
    refine ⟨k3, ?_, fun k pc c v hpc => ?_, fun x y => ?_⟩
    · obtain ⟨c, -, hc⟩ := h1
      intro x hx
      have : kept.columnRangesByPc = ofBlock.columnRangesByPc.map fun x =>
          (x.1, filterRanges (pcInstructionIndices ofBlock.pcs x.1) q x.2) := by
        cases c with
        | error x => cases hc
        | ok c =>
          simp only [bind, Except.bind] at hc
          split at hc
          · cases hc
          · have : kept = _ := Except.ok.inj hc
            rw [this]
      rw [this] at hx
      obtain ⟨y, hy, rfl⟩ := List.mem_map.1 hx
      obtain ⟨l, hl⟩ := hshape y hy
      simp only
      rw [hl]
      exact filterRanges_keys (enum_keys l)
    · rw [k4, hs4, if_pos (List.mem_map.2 ⟨pc, List.mem_of_getElem? hpc, rfl⟩), hs2]
      simp
    · rw [k5, hs5]
      simp only [Option.getD_some]
      constructor
      · rintro (h | ⟨h | h, h2⟩)
        · exact .inl h
        · exact .inl h
        · exact .inr ⟨h, h2⟩
      · rintro (h | ⟨h, h2⟩)
        · exact .inl h
        · exact .inr ⟨.inr h, h2⟩

theorem EmpiricalRun.kept_spec {I T : Type} {e : EmpiricalConstraints} (hwf : e.WF) {step : ℕ}
    {blocks : List (BasicBlock I)} (hcells : ∀ b ∈ blocks, CellsInBlock e b)
    {keep : Option (BlockCell → Bool)} {m : SymMachine T ℕ} {subs : List (List ℕ)}
    {cs : List (EqConstraint ℕ)} (r : EmpiricalRun e step blocks keep m subs cs) :
    r.kept.equivalenceClasses.WF ∧ (∀ x ∈ r.kept.columnRangesByPc, MapKeys x.2) ∧
      (∀ (k pc c v : ℕ), (superBlockPcs step blocks)[k]? = some pc →
        (r.kept.range (pcU32 pc) c = some (v, v) ↔ e.range (pcU32 pc) c = some (v, v) ∧
          ∀ j, (superBlockPcs step blocks)[j]? = some (pcU32 pc) →
            (keep.getD fun _ => true) (j, c) = true)) ∧
      ∀ x y, r.kept.equivalenceClasses.Same x y ↔ x = y ∨ superBlockEquates e 0 blocks x y ∧
        (keep.getD fun _ => true) x = true ∧ (keep.getD fun _ => true) y = true :=
  kept_of hwf hcells r.forBlock r.filter

theorem empirical_iff {I : Type} {e : EmpiricalConstraints} (hwf : e.WF) {step : ℕ}
    {blocks : List (BasicBlock I)} (hcells : ∀ b ∈ blocks, CellsInBlock e b)
    {keep : Option (BlockCell → Bool)} {m : SymMachine (ZMod p) ℕ} {subs : List (List ℕ)}
    (hs : subs.flatten.Nodup) {cs : List (EqConstraint ℕ)}
    (r : EmpiricalRun e step blocks keep m subs cs) {rows : ℕ → ℕ → U} {σ : ℕ → ZMod p}
    (hσ : Agrees φ subs rows σ) :
    (∀ k ∈ cs, k.Holds σ) ↔ EmpiricallyTrue e step blocks (keep.getD fun _ => true) rows := by
  have hmap : ∀ i c x, r.refs.lookup (i, c) = some x → ∃ l, subs[i]? = some l ∧ l[c]? = some x := by
    have h1 := C53_references (id : ℕ → ℕ) hs (columns := m.refs.dedup)
      (by rw [List.map_id]; exact List.nodup_dedup _)
    by_cases hc : ∃ x ∈ m.refs.dedup, id x ∉ subs.flatten
    · have := h1.1 hc
      rw [r.mapper] at this
      cases this
    · push Not at hc
      obtain ⟨M, hM, h2⟩ := h1.2 hc
      rw [r.mapper] at hM
      cases hM
      exact fun i c x hx => ((h2 i c x).1 hx).2
  obtain ⟨w1, w2, w3, w4⟩ := r.kept_spec hwf hcells
  have hgen := (C53_generate (F := ZMod p) w1 w2 (fun cell => r.refs.lookup cell)
    (superBlockPcs step blocks)).2 _ r.generate
  have hr1 : ∀ i pc c v, (superBlockPcs step blocks)[i]? = some pc →
      r.kept.range (pcU32 pc) c = some (v, v) → (r.refs.lookup (i, c)).isSome := by
    intro i pc c v k1 k2
    by_contra hn
    cases hgen.1 (.inl ⟨i, pc, c, v, k1, k2, Option.not_isSome_iff_eq_none.1 hn⟩)
  have hr2 : ∀ x y, x ≠ y → r.kept.equivalenceClasses.Same x y → (r.refs.lookup x).isSome := by
    intro x y k1 k2
    by_contra hn
    cases hgen.1 (.inr ⟨x, y, k1, k2, Option.not_isSome_iff_eq_none.1 hn⟩)
  obtain ⟨cs', hcs, hiff⟩ := hgen.2 hr1 hr2
  rw [← Except.ok.inj hcs] at hiff
  rw [hiff σ]
  have hcast : ∀ v : ℕ, (v : ZMod p) = φ (v : U) := fun v => (map_natCast φ v).symm
  constructor
  · rintro ⟨g1, g2⟩
    refine ⟨fun k pc c v k1 k2 k3 => ?_, fun x y k1 k2 k3 => ?_⟩
    · have h1 := (w3 k pc c v k1).2 ⟨k2, k3⟩
      obtain ⟨x, hx⟩ := Option.isSome_iff_exists.1 (hr1 k pc c v k1 h1)
      obtain ⟨l, hl1, hl2⟩ := hmap k c x hx
      have := g1 k pc c v x k1 h1 hx
      rw [hσ k l c x hl1 hl2, hcast] at this
      exact φ.injective this
    · by_cases hxy : x = y
      · rw [hxy]
      · have h1 := (w4 x y).2 (.inr ⟨k1, k2, k3⟩)
        obtain ⟨a, ha⟩ := Option.isSome_iff_exists.1 (hr2 x y hxy h1)
        obtain ⟨b, hb⟩ := Option.isSome_iff_exists.1 (hr2 y x (Ne.symm hxy) h1.symm)
        have := g2 x y a b h1 ha hb
        obtain ⟨l, hl1, hl2⟩ := hmap x.1 x.2 a ha
        obtain ⟨l', hl1', hl2'⟩ := hmap y.1 y.2 b hb
        rw [hσ _ _ _ _ hl1 hl2, hσ _ _ _ _ hl1' hl2'] at this
        exact φ.injective this
  · rintro ⟨g1, g2⟩
    refine ⟨fun k pc c v x k1 k2 hx => ?_, fun x y a b h1 ha hb => ?_⟩
    · obtain ⟨l, hl1, hl2⟩ := hmap k c x hx
      rw [hσ k l c x hl1 hl2, hcast]
      obtain ⟨k3, k4⟩ := (w3 k pc c v k1).1 k2
      rw [g1 k pc c v k1 k3 k4]
    · obtain ⟨l, hl1, hl2⟩ := hmap x.1 x.2 a ha
      obtain ⟨l', hl1', hl2'⟩ := hmap y.1 y.2 b hb
      rw [hσ _ _ _ _ hl1 hl2, hσ _ _ _ _ hl1' hl2']
      rcases (w4 x y).1 h1 with h | ⟨h, h2, h3⟩
      · rw [h]
      · rw [g2 x y h h2 h3]

end

/-! ### The execution bus with additional constraints -/

theorem exec_extra {T R : Type} {m m' m'' : SymMachine T R} {execBus : ℕ} {cs : List (AlgExpr T R)}
    (h1 : optimizeExecBus m execBus = .ok m')
    (h2 : optimizeExecBus { m with constraints := m.constraints ++ cs } execBus = .ok m'') :
    m''.bus = m'.bus ∧ m''.derived = m'.derived ∧ m'.derived = m.derived ∧
      ∀ x, x ∈ m''.constraints ↔ x ∈ m'.constraints ∨ x ∈ cs := by
  unfold optimizeExecBus at h1 h2
  simp only [bind, Except.bind] at h1 h2
  cases hr : execBusRetain execBus m.bus false true none with
  | error x => rw [hr] at h1; cases h1
  | ok r =>
    rw [hr] at h1 h2
    simp only at h1 h2
    cases hs : r.2.2 with
    | none => rw [hs] at h1; cases h1
    | some send =>
      rw [hs] at h1 h2
      cases h1
      cases h2
      refine ⟨rfl, rfl, rfl, fun x => ?_⟩
      simp only [List.mem_append]
      tauto

/-! ### Messages -/

section
variable {p : ℕ}

theorem memoryRun_onBus [Fact p.Prime] (id : ZMod p) : ∀ (l : List (BusInteraction (ZMod p))) (m m' : Memory p),
    MemoryRun id l m m' ↔ MemoryRun id (l.filter fun b => b.busId = id) m m'
  | [], m, m' => Iff.rfl
  | b :: l, m, m' => by
    rw [List.filter_cons]
    by_cases h : b.busId = id
    · rw [if_pos (by simpa using h)]
      simp only [MemoryRun, memoryRun_onBus id l]
    · rw [if_neg (by simpa using h)]
      simp only [MemoryRun]
      constructor
      · rintro ⟨m1, h1, h2⟩
        rw [h1.1 (.inl h)] at h2
        exact (memoryRun_onBus id l m m').1 h2
      · intro h2
        exact ⟨m, memoryStep_other h, (memoryRun_onBus id l m m').2 h2⟩

/-- The message as the optimizer sees it. -/
def toInteraction (x : ℕ × ZMod p × List (ZMod p)) : BusInteraction (ZMod p) := ⟨x.1, x.2.1, x.2.2⟩

/-- The balance of messages as seen by the optimizer. -/
def interactionBalance (l : List (BusInteraction (ZMod p))) (id : ZMod p) (payload : List (ZMod p)) :
    ZMod p :=
  (l.map fun b => if b.busId = id ∧ b.payload = payload then b.multiplicity else 0).sum

theorem interactionBalance_evalAt {V : Type} (σ : V → ZMod p) (bs : List (BusInteraction (GExpr p V)))
    (id : ZMod p) (payload : List (ZMod p)) :
    busBalance σ bs id payload = interactionBalance (bs.map fun b => b.evalAt σ) id payload := by
  simp [busBalance, interactionBalance, Function.comp_def]

theorem messageBalance_eq [NeZero p] {l : List (ℕ × ZMod p × List (ZMod p))} (h : ∀ x ∈ l, x.1 < p)
    {id : ℕ} (hid : id < p) (payload : List (ZMod p)) :
    messageBalance l id payload = interactionBalance (l.map toInteraction) id payload := by
  induction l with
  | nil => rfl
  | cons x t ih =>
    have ih := ih fun y hy => h y (List.mem_cons_of_mem _ hy)
    have hx : ((x.1 : ZMod p) = (id : ZMod p)) ↔ x.1 = id := by
      constructor
      · intro he
        have := congrArg ZMod.val he
        rwa [ZMod.val_cast_of_lt (h x List.mem_cons_self), ZMod.val_cast_of_lt hid] at this
      · exact fun he => by rw [he]
    unfold messageBalance interactionBalance at *
    rw [List.map_cons, List.map_cons, List.sum_cons, ← ih, List.filter_cons]
    by_cases hc : x.1 = id ∧ x.2.2 = payload
    · rw [if_pos (by simpa using hc), List.map_cons, List.sum_cons,
        if_pos (show (toInteraction x).busId = id ∧ (toInteraction x).payload = payload from
          ⟨hx.2 hc.1, hc.2⟩)]
      rfl
    · rw [if_neg (by simpa using hc), if_neg (show ¬ ((toInteraction x).busId = id ∧
        (toInteraction x).payload = payload) from fun hh => hc ⟨hx.1 hh.1, hh.2⟩), zero_add]

theorem messageBalance_none {F : Type} [CommRing F] [DecidableEq F] {l : List (ℕ × F × List F)} {id : ℕ}
    (h : ∀ x ∈ l, x.1 ≠ id) (payload : List F) : messageBalance l id payload = 0 := by
  unfold messageBalance
  rw [List.filter_eq_nil_iff.2 (fun x hx => by simp [h x hx])]
  rfl

theorem messageBalance_convert {U : Type} [CommRing U] [DecidableEq U] (φ : U ≃+* ZMod p)
    (l : List (ℕ × U × List U)) (id : ℕ) (payload : List U) :
    messageBalance (l.map (convertMessage φ)) id (payload.map φ) = φ (messageBalance l id payload) := by
  have hinj : Function.Injective (List.map φ) := List.map_injective_iff.2 φ.injective
  unfold messageBalance
  induction l with
  | nil => simp
  | cons x t ih =>
    rw [List.map_cons, List.filter_cons, List.filter_cons]
    by_cases hc : x.1 = id ∧ x.2.2 = payload
    · rw [if_pos (decide_eq_true ⟨hc.1, congrArg (List.map φ) hc.2⟩), if_pos (by simpa using hc),
        List.map_cons, List.map_cons, List.sum_cons, List.sum_cons, ih, map_add]
      rfl
    · rw [if_neg (fun hh => hc ⟨(of_decide_eq_true hh).1, hinj (of_decide_eq_true hh).2⟩), if_neg (by simpa using hc), ih]

theorem interactionBalance_filter {f : ZMod p → Bool} {id : ZMod p} (hid : f id = true)
    (l : List (BusInteraction (ZMod p))) (payload : List (ZMod p)) :
    interactionBalance (l.filter fun b => f b.busId && decide (b.multiplicity ≠ 0)) id payload =
      interactionBalance l id payload := by
  unfold interactionBalance
  induction l with
  | nil => rfl
  | cons b t ih =>
    rw [List.filter_cons]
    by_cases hc : (f b.busId && decide (b.multiplicity ≠ 0)) = true
    · rw [if_pos hc, List.map_cons, List.map_cons, List.sum_cons, List.sum_cons, ih]
    · rw [if_neg hc, ih, List.map_cons, List.sum_cons]
      rw [Bool.and_eq_true, decide_eq_true_eq, not_and_or, not_not] at hc
      rcases hc with hc | hc
      · rw [if_neg (fun h : b.busId = id ∧ b.payload = payload => hc (h.1 ▸ hid)), zero_add]
      · rw [hc, ite_self, zero_add]

theorem machineToSystem_messages {V : Type} [LinearOrder V] [Fact p.Prime] (m : SymMachine (ZMod p) V)
    (σ : V → ZMod p) : ((machineToSystem m).bus.map fun b => b.evalAt σ) =
      (m.messages σ).map toInteraction := by
  simp only [machineToSystem, SymMachine.messages, List.map_map]
  exact List.map_congr_left fun b _ => symBusToBus_evalAt σ b

theorem systemToMachine_messages [Fact p.Prime] {V : Type} {s : ConstraintSystem p V}
    {m : SymMachine (ZMod p) V} [LinearOrder V] (h : systemToMachine s = .ok m) (σ : V → ZMod p) :
    (m.messages σ).map toInteraction = s.bus.map (fun b => b.evalAt σ) ∧
    ∀ x ∈ m.messages σ, x.1 < p := by
  have : NeZero p := ⟨(Fact.out : p.Prime).ne_zero⟩
  rw [(C36_system_to_machine h σ).2.1]
  constructor
  · rw [List.map_map]
    conv_rhs => rw [← List.map_id (s.bus.map fun b => b.evalAt σ)]
    refine List.map_congr_left fun b _ => ?_
    simp [toInteraction]
  · intro x hx
    obtain ⟨b, -, rfl⟩ := List.mem_map.1 hx
    exact ZMod.val_lt _

theorem asInteractions_eq {U : Type} [CommRing U] (φ : U → ZMod p) (l : List (ℕ × U × List U)) :
    asInteractions φ l = (l.map (convertMessage φ)).map toInteraction := by
  rw [List.map_map]
  rfl

end

/-! ### The steps before the optimizer -/

section
variable {p : ℕ} [Fact p.Prime] {U I : Type} [CommRing U] {N : ℕ} {φ : U ≃+* ZMod p}
  {execBus pcBus step : ℕ} {c : OptimizerConfig p (Fin N)}
  {ok : RuleInput p (Fin N) → ConstraintSystem p (Fin N) → ConstraintSystem p (Fin N) → Prop}
  {air : ℕ × I → InstrAir U} {blocks : List (BasicBlock I)} {e : EmpiricalConstraints}
  {keep : Option (BlockCell → Bool)} {apc : SymMachine U ℕ} {subs : List (List (ℕ × ℕ))}

theorem toSymbolic_value (σ : ℕ → ZMod p) (k : EqConstraint ℕ) :
    (k.toSymbolic : AlgExpr (ZMod p) ℕ).value σ = 0 ↔ k.Holds σ := by
  obtain ⟨l, r⟩ := k
  cases r <;> simp [EqConstraint.toSymbolic, EqConstraint.Holds, AlgExpr.value, sub_eq_zero]

theorem BuildStart.rows (r : BuildStart N φ execBus pcBus step air blocks e keep) {width : ℕ}
    (hair : ∀ x ∈ superBlockInstructions step blocks, (air x).Good execBus p width) (hwf : e.WF)
    (hcells : ∀ b ∈ blocks, CellsInBlock e b) {rows : ℕ → ℕ → U} {σ : ℕ → ZMod p}
    (hσ : Agrees φ r.a0.subs rows σ) :
    (r.m2.Holds σ ↔ BlockRows execBus pcBus ((superBlockInstructions step blocks).map air) rows ∧
      EmpiricallyTrue e step blocks (keep.getD fun _ => true) rows) ∧
    (r.m2.Holds σ → ∀ id payload, messageBalance (r.m2.messages σ) id payload =
      messageBalance ((rowMessages ((superBlockInstructions step blocks).map air) rows).map
        (convertMessage φ)) id payload) ∧
    ((r.m2.messages σ).filter fun x => x.1 ≠ execBus) =
      ((rowMessages ((superBlockInstructions step blocks).map air) rows).map
        (convertMessage φ)).filter (fun x => x.1 ≠ execBus) ∧
    (∀ x ∈ r.m2.messages σ, x ∈ (rowMessages ((superBlockInstructions step blocks).map air) rows).map
        (convertMessage φ)) ∧ r.m2.derived = [] := by
  have hgood : ∀ i ∈ (superBlockInstructions step blocks).map air, i.Good execBus p width := by
    intro i hi
    obtain ⟨x, hx, rfl⟩ := List.mem_map.1 hi
    exact hair x hx
  obtain ⟨m', h1, h2⟩ := rows_iff r.step0 fun i hi => (hgood i hi).width
  obtain ⟨e1, e2, e3, e4⟩ := exec_extra h1 r.step2
  obtain ⟨h3, h4, h5⟩ := h2 rows σ hσ
  have hh : r.m2.Holds σ ↔ m'.Holds σ ∧ ∀ k ∈ r.cs, k.Holds σ := by
    simp only [SymMachine.Holds, e4, List.mem_map]
    constructor
    · exact fun h => ⟨fun x hx => h x (.inl hx), fun k hk =>
        (toSymbolic_value σ k).1 (h _ (.inr ⟨k, hk, rfl⟩))⟩
    · rintro ⟨g1, g2⟩ x (hx | ⟨k, hk, rfl⟩)
      · exact g1 x hx
      · exact (toSymbolic_value σ k).2 (g2 k hk)
  have hn : r.a0.subs.flatten.Nodup := by
    rw [(C47_ids r.step0).1]
    exact List.nodup_range
  have hmsg : r.m2.messages σ = m'.messages σ := by rw [SymMachine.messages, e1]; rfl
  have hint := C55_interactions h1
  have hoff : ((m'.messages σ).filter fun x => x.1 ≠ execBus) =
      (r.m0.messages σ).filter fun x => x.1 ≠ execBus := by
    have g : ∀ m : SymMachine (ZMod p) ℕ, ((m.messages σ).filter fun x => x.1 ≠ execBus) =
        (m.offBus execBus).map (SymBus.message σ) := by
      intro m
      rw [SymMachine.messages, List.filter_map]
      rfl
    rw [g, g, hint.1]
  refine ⟨?_, ?_, ?_, ?_, ?_⟩
  · rw [hh, h3, empirical_iff hwf hcells hn r.step1 hσ]
  · intro hm
    rw [← h4, hmsg]
    refine h5 (hh.1 hm).1 fun k i hk r' s hrs => ?_
    have hb := h3.1 (hh.1 hm).1
    rw [(hgood i (List.mem_of_getElem? hk)).sends _ (hb.constraints k i hk) r' s hrs,
      hb.executed k i hk r' s hrs, neg_neg]
  · rw [hmsg, hoff, h4]
  · rw [hmsg, ← h4]
    intro x hx
    by_cases hid : x.1 = execBus
    · obtain ⟨b, hb, rfl⟩ := List.mem_map.1 hx
      obtain ⟨-, -, a, s, ha, hs, has⟩ := hint
      have hb' : b ∈ m'.onBus execBus := List.mem_filter.2 ⟨hb, by simpa [SymBus.message] using hid⟩
      rw [has] at hb'
      have : b ∈ r.m0.onBus execBus := by
        rcases List.mem_cons.1 hb' with rfl | hb'
        · exact List.mem_of_getElem? ha
        · rw [List.mem_singleton.1 hb']
          exact List.mem_of_getElem? hs
      exact List.mem_map.2 ⟨b, List.mem_of_mem_filter this, rfl⟩
    · have : x ∈ (m'.messages σ).filter fun x => x.1 ≠ execBus :=
        List.mem_filter.2 ⟨hx, by simpa using hid⟩
      rw [hoff] at this
      exact List.mem_of_mem_filter this
  · rw [e2, e3]
    rw [C58_derived r.step0, List.flatMap_eq_nil_iff]
    intro i hi
    simp [SymMachine.convert, (hgood i hi).derived]

end

/-! ### Columns -/

theorem exec_refs {T : Type} {m m' : SymMachine T ℕ} {execBus : ℕ}
    (h : optimizeExecBus m execBus = .ok m') {x : ℕ} (hx : x ∈ m'.refs) : x ∈ m.refs := by
  have hbus : ∀ b ∈ m'.bus, b ∈ m.bus := by
    obtain ⟨h1, -, r, s, hr, hs, hrs⟩ := C55_interactions h
    intro b hb
    by_cases hid : b.id = execBus
    · have : b ∈ m'.onBus execBus := List.mem_filter.2 ⟨hb, by simpa using hid⟩
      rw [hrs] at this
      rcases List.mem_cons.1 this with rfl | h2
      · exact List.mem_of_mem_filter (List.mem_of_getElem? hr)
      · rw [List.mem_singleton.1 h2]
        exact List.mem_of_mem_filter (List.mem_of_getElem? hs)
    · have : b ∈ m'.offBus execBus := List.mem_filter.2 ⟨hb, by simpa using hid⟩
      rw [h1] at this
      exact List.mem_of_mem_filter this
  obtain ⟨l1, r, l2, s, h1, -, -, -, -, -, -, h8, -⟩ := optimizeExecBus_ok h
  obtain ⟨e, he, hxe⟩ := List.mem_flatMap.1 hx
  rcases List.mem_append.1 he with he | he
  · rw [h8] at he
    rcases List.mem_append.1 he with he | he
    · exact List.mem_flatMap.2 ⟨e, List.mem_append_left _ he, hxe⟩
    · obtain ⟨y, hy, he⟩ := List.mem_flatMap.1 he
      obtain ⟨k, k1, k2⟩ := (mem_twoByTwo _ _).1 hy
      have b1 : y.1 ∈ m.bus := by
        rw [h1]
        exact List.mem_append_right _ (List.mem_cons_of_mem _ (List.mem_of_mem_filter (List.mem_of_getElem? k1)))
      have b2 : y.2 ∈ m.bus := by
        rw [h1]
        exact List.mem_append_right _ (List.mem_cons_of_mem _ (List.mem_of_mem_filter (List.mem_of_getElem? k2)))
      obtain ⟨z, hz, rfl⟩ := List.mem_map.1 he
      have hz' := List.of_mem_zip hz
      simp only [AlgExpr.toConstraint, AlgExpr.refs, List.mem_append] at hxe
      rcases hxe with hxe | hxe
      · exact List.mem_flatMap.2 ⟨_, args_mem_exprs b2 hz'.1, hxe⟩
      · exact List.mem_flatMap.2 ⟨_, args_mem_exprs b1 hz'.2, hxe⟩
  · obtain ⟨b, hb, he⟩ := List.mem_flatMap.1 he
    exact List.mem_flatMap.2 ⟨e, List.mem_append_right _ (List.mem_flatMap.2 ⟨b, hbus b hb, he⟩), hxe⟩

/-- The constraint is about references of cells. -/
def EqConstraint.From {R : Type} (refs : BlockCell → Option R) (c : EqConstraint R) : Prop :=
  (∃ x, refs x = some c.left) ∧ ∀ r, c.right = .inl r → ∃ x, refs x = some r

section
variable {R : Type} {refs : BlockCell → Option R}

theorem getReference_from {cell : BlockCell} {r : R} (h : getReference refs cell = .ok r) :
    refs cell = some r := by
  unfold getReference at h
  cases hc : refs cell with
  | none => rw [hc] at h; cases h
  | some x => rw [hc] at h; cases h; rfl

theorem columnConstraints_from {idx : ℕ} : ∀ {l : List (ℕ × (ℕ × ℕ))} {cs : List (EqConstraint R)},
    columnConstraints refs idx l = .ok cs → ∀ c ∈ cs, c.From refs
  | [], cs, h, c, hc => by cases h; cases hc
  | (col, (mn, mx)) :: t, cs, h, c, hc => by
    rw [columnConstraints] at h
    split_ifs at h
    · simp only [Except.bind_ok_iff] at h
      obtain ⟨r, h1, rest, h2, h3⟩ := h
      cases h3
      rcases List.mem_cons.1 hc with rfl | hc
      · exact ⟨⟨_, getReference_from h1⟩, fun r hr => by cases hr⟩
      · exact columnConstraints_from h2 c hc
    · exact columnConstraints_from h c hc

theorem rangeConstraints_from {ranges : List (ℕ × List (ℕ × (ℕ × ℕ)))} : ∀ {pcs : List ℕ} {idx : ℕ}
    {cs : List (EqConstraint R)}, rangeConstraints refs ranges idx pcs = .ok cs → ∀ c ∈ cs, c.From refs
  | [], idx, cs, h, c, hc => by cases h; cases hc
  | pc :: t, idx, cs, h, c, hc => by
    rw [rangeConstraints] at h
    cases hl : ranges.lookup (pcU32 pc) with
    | none =>
      rw [hl] at h
      exact rangeConstraints_from h c hc
    | some rs =>
      rw [hl] at h
      simp only [Except.bind_ok_iff] at h
      obtain ⟨here, h1, rest, h2, h3⟩ := h
      cases h3
      rcases List.mem_append.1 hc with hc | hc
      · exact columnConstraints_from h1 c hc
      · exact rangeConstraints_from h2 c hc

theorem othersConstraints_from {first : R} (hf : ∃ x, refs x = some first) : ∀ {l : List BlockCell}
    {cs : List (EqConstraint R)}, othersConstraints refs first l = .ok cs → ∀ c ∈ cs, c.From refs
  | [], cs, h, c, hc => by cases h; cases hc
  | cell :: t, cs, h, c, hc => by
    rw [othersConstraints] at h
    simp only [Except.bind_ok_iff] at h
    obtain ⟨other, h1, rest, h2, h3⟩ := h
    cases h3
    rcases List.mem_cons.1 hc with rfl | hc
    · exact ⟨hf, fun r hr => by cases hr; exact ⟨_, getReference_from h1⟩⟩
    · exact othersConstraints_from hf h2 c hc

theorem equivalenceConstraints_from : ∀ {l : List (List BlockCell)}
    {cs : List (EqConstraint R)}, equivalenceConstraints refs l = .ok cs → ∀ c ∈ cs, c.From refs
  | [], cs, h, c, hc => by cases h; cases hc
  | [] :: t, cs, h, c, hc => by cases h
  | (first :: others) :: t, cs, h, c, hc => by
    rw [equivalenceConstraints] at h
    simp only [Except.bind_ok_iff] at h
    obtain ⟨r, h1, here, h2, rest, h3, h4⟩ := h
    cases h4
    rcases List.mem_append.1 hc with hc | hc
    · exact othersConstraints_from ⟨_, getReference_from h1⟩ h2 c hc
    · exact equivalenceConstraints_from h3 c hc

theorem generate_from {b : BlockEmpiricalConstraints} {pcs : List ℕ} {cs : List (EqConstraint R)}
    (h : b.Generate refs pcs (.ok cs)) : ∀ c ∈ cs, c.From refs := by
  obtain ⟨classes, -, h⟩ := h
  have h := h.symm
  simp only [Except.bind_ok_iff] at h
  obtain ⟨rs, h1, cl, -, es, h3, h4⟩ := h
  cases h4
  intro c hc
  rcases List.mem_append.1 hc with hc | hc
  · exact rangeConstraints_from h1 c hc
  · exact equivalenceConstraints_from h3 c hc

end

section
variable {p : ℕ} [Fact p.Prime] {U I : Type} [CommRing U] {N : ℕ} {φ : U ≃+* ZMod p}
  {execBus pcBus step : ℕ} {c : OptimizerConfig p (Fin N)}
  {ok : RuleInput p (Fin N) → ConstraintSystem p (Fin N) → ConstraintSystem p (Fin N) → Prop}
  {air : ℕ × I → InstrAir U} {blocks : List (BasicBlock I)} {e : EmpiricalConstraints}
  {keep : Option (BlockCell → Bool)} {apc : SymMachine U ℕ} {subs : List (List (ℕ × ℕ))}

theorem empirical_refs {T : Type} {m : SymMachine T ℕ} {sb : List (List ℕ)} (hs : sb.flatten.Nodup)
    {cs : List (EqConstraint ℕ)} (r : EmpiricalRun e step blocks keep m sb cs) {k : EqConstraint ℕ}
    (hk : k ∈ cs) {x : ℕ} (hx : x ∈ (k.toSymbolic : AlgExpr (ZMod p) ℕ).refs) : x ∈ m.refs := by
  have hmap : ∀ cell x, r.refs.lookup cell = some x → x ∈ m.refs := by
    have h1 := C53_references (id : ℕ → ℕ) hs (columns := m.refs.dedup)
      (by rw [List.map_id]; exact List.nodup_dedup _)
    by_cases hc : ∃ x ∈ m.refs.dedup, id x ∉ sb.flatten
    · have := h1.1 hc
      rw [r.mapper] at this
      cases this
    · push Not at hc
      obtain ⟨M, hM, h2⟩ := h1.2 hc
      rw [r.mapper] at hM
      cases hM
      exact fun cell x hx => List.mem_dedup.1 ((h2 cell.1 cell.2 x).1 hx).1
  obtain ⟨⟨y, hy⟩, h2⟩ := generate_from r.generate k hk
  obtain ⟨l, rt⟩ := k
  cases rt with
  | inl z =>
    simp only [EqConstraint.toSymbolic, AlgExpr.refs, List.cons_append, List.nil_append, List.mem_cons,
      List.not_mem_nil, or_false] at hx
    rcases hx with rfl | rfl
    · exact hmap y _ hy
    · obtain ⟨w, hw⟩ := h2 _ rfl
      exact hmap w _ hw
  | inr n =>
    simp only [EqConstraint.toSymbolic, AlgExpr.refs, List.append_nil, List.mem_singleton] at hx
    subst hx
    exact hmap y _ hy

/-- The machine given to the optimizer uses only columns of the block. -/
theorem BuildStart.known (r : BuildStart N φ execBus pcBus step air blocks e keep) {x : ℕ}
    (hx : x ∈ r.m2.refs) : x < r.a0.nextPolyId := by
  have hn : r.a0.subs.flatten.Nodup := by
    rw [(C47_ids r.step0).1]
    exact List.nodup_range
  have h0 : x ∈ r.m0.refs := by
    have := exec_refs r.step2 hx
    obtain ⟨f, hf, hxf⟩ := List.mem_flatMap.1 this
    rcases List.mem_append.1 hf with hf | hf
    · rcases List.mem_append.1 hf with hf | hf
      · exact List.mem_flatMap.2 ⟨f, List.mem_append_left _ hf, hxf⟩
      · obtain ⟨k, hk, rfl⟩ := List.mem_map.1 hf
        exact empirical_refs hn r.step1 hk hxf
    · exact List.mem_flatMap.2 ⟨f, List.mem_append_right _ hf, hxf⟩
  simpa [ColumnAllocator.isKnownId] using ((C47_fresh r.step0).1 x h0).1

theorem machineToSystem_mentions {V : Type} [LinearOrder V] {m : SymMachine (ZMod p) V} {v : V}
    (h : (machineToSystem m).Mentions v) : v ∈ m.refs := by
  rcases h with ⟨e, he, hv⟩ | ⟨b, hb, e, he, hv⟩
  · obtain ⟨f, hf, rfl⟩ := List.mem_map.1 he
    exact List.mem_flatMap.2 ⟨f, List.mem_append_left _ hf,
      vars_algebraicToGrouped f v (mem_vars_iff_occurs.2 hv)⟩
  · obtain ⟨b', hb', rfl⟩ := List.mem_map.1 hb
    simp only [symBusToBus, BusInteraction.fields, List.mem_cons, List.mem_map] at he
    rcases he with rfl | rfl | ⟨f, hf, rfl⟩
    · have := mem_vars_iff_occurs.2 hv
      exact absurd this List.not_mem_nil
    · exact List.mem_flatMap.2 ⟨_, List.mem_append_right _ (List.mem_flatMap.2 ⟨b', hb', List.mem_cons_self⟩),
        vars_algebraicToGrouped _ v (mem_vars_iff_occurs.2 hv)⟩
    · exact List.mem_flatMap.2 ⟨f, List.mem_append_right _ (List.mem_flatMap.2
        ⟨b', hb', List.mem_cons_of_mem _ hf⟩), vars_algebraicToGrouped f v (mem_vars_iff_occurs.2 hv)⟩

theorem machineToSystem_wf {V : Type} [LinearOrder V] (m : SymMachine (ZMod p) V) :
    (machineToSystem m).WF := by
  refine ⟨fun e he => ?_, fun b hb e he => ?_⟩
  · obtain ⟨f, -, rfl⟩ := List.mem_map.1 he
    exact wf_algebraicToGrouped f
  · obtain ⟨b', -, rfl⟩ := List.mem_map.1 hb
    simp only [symBusToBus, BusInteraction.fields, List.mem_cons, List.mem_map] at he
    rcases he with rfl | rfl | ⟨f, -, rfl⟩
    · exact wf_const _
    · exact wf_algebraicToGrouped _
    · exact wf_algebraicToGrouped f

/-- The new columns are new. -/
theorem BuildStart.newColumns (r : BuildStart N φ execBus pcBus step air blocks e keep)
    {news : List (DerivedVariable p (Fin N))}
    (issued : news.Pairwise fun d d' => d.column < d'.column)
    (issuedAfter : ∀ d ∈ news, r.a0.nextPolyId ≤ d.column)
    (issuedFor : ∀ d ∈ news, ∀ v ∈ d.method.vars, v < d.column)
    (hd : r.m2.derived = []) : NewColumns (machineToSystem r.m3) news := by
  have hd3 : r.m3.derived = [] := by
    have := congrArg SymMachine.derived r.step3
    rw [hd] at this
    exact List.map_eq_nil_iff.1 this
  refine ⟨?_, fun d hd hc => lt_irrefl _ (issuedFor d hd _ hc), fun d hd hm => ?_, fun d hd d' hd' => ?_⟩
  · refine List.Pairwise.imp_of_mem ?_ issued
    intro d d' h1 h2 h3
    exact ⟨ne_of_gt h3, fun hv => absurd (issuedFor d h1 _ hv) (not_lt.2 h3.le)⟩
  · have h1 : (d.column : ℕ) ∈ r.m2.refs := by
      rw [← r.step3, renumber_refs]
      exact List.mem_map.2 ⟨_, machineToSystem_mentions hm, rfl⟩
    exact absurd (r.known h1) (not_lt.2 (issuedAfter d hd))
  · simp [machineToSystem, hd3] at hd'

theorem BuildRun.newColumns (r : BuildRun φ execBus step c ok air blocks e keep apc subs)
    (hd : r.m2.derived = []) : NewColumns (machineToSystem r.m3) r.step4.news :=
  r.toBuildStart.newColumns r.issued r.issuedAfter r.issuedFor hd

end

end Verif
