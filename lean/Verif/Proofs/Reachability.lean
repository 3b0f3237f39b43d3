import Verif.Model.Reachability
import Verif.Spec.Reachability
import Verif.Proofs.Inliner

/-! Proofs about reachability and the splitting of systems. -/

namespace Verif

open GExpr

set_option linter.unusedSectionVars false

variable {p : ℕ} {V : Type} [LinearOrder V]

theorem in_iff_refAt {s : ConstraintSystem p V} {c : ConstraintRef p V} :
    c.In s ↔ ∃ x, refAt s x = some c := by
  cases c with
  | alg e =>
    constructor
    · intro h
      obtain ⟨i, hi⟩ := List.mem_iff_getElem?.1 h
      exact ⟨.alg i, by simp [refAt, hi]⟩
    · rintro ⟨x, hx⟩
      cases x with
      | alg i =>
        simp only [refAt, Option.map_eq_some_iff, ConstraintRef.alg.injEq, exists_eq_right] at hx
        exact List.mem_iff_getElem?.2 ⟨i, hx⟩
      | bus i => simp [refAt] at hx
      | derived i => simp [refAt] at hx
  | bus e =>
    constructor
    · intro h
      obtain ⟨i, hi⟩ := List.mem_iff_getElem?.1 h
      exact ⟨.bus i, by simp [refAt, hi]⟩
    · rintro ⟨x, hx⟩
      cases x with
      | bus i =>
        simp only [refAt, Option.map_eq_some_iff, ConstraintRef.bus.injEq, exists_eq_right] at hx
        exact List.mem_iff_getElem?.2 ⟨i, hx⟩
      | alg i => simp [refAt] at hx
      | derived i => simp [refAt] at hx

theorem occursIn_of_refAt {s : ConstraintSystem p V} {c : ConstraintRef p V} {v : V} {x : Item}
    (h : refAt s x = some c) (hm : c.Mentions v) : OccursIn s v x := by
  cases x with
  | alg i =>
    simp only [refAt, Option.map_eq_some_iff] at h
    obtain ⟨e, he, rfl⟩ := h
    exact ⟨e, he, hm⟩
  | bus i =>
    simp only [refAt, Option.map_eq_some_iff] at h
    obtain ⟨e, he, rfl⟩ := h
    exact ⟨e, he, hm⟩
  | derived i => cases h


theorem mem_refVars {c : ConstraintRef p V} {v : V} : v ∈ c.vars ↔ c.Mentions v := by
  cases c with
  | alg e => exact mem_vars_iff_occurs
  | bus b => exact mem_busVars

/-! ### Sets -/

theorem mem_setExtend {s vs : List V} {x : V} : x ∈ setExtend s vs ↔ x ∈ s ∨ x ∈ vs := by
  unfold setExtend
  induction vs generalizing s with
  | nil => simp
  | cons v t ih =>
    rw [List.foldl_cons, ih]
    split
    · rename_i h
      constructor
      · rintro (h' | h')
        · exact Or.inl h'
        · exact Or.inr (List.mem_cons_of_mem _ h')
      · rintro (h' | h')
        · exact Or.inl h'
        · rcases List.mem_cons.1 h' with rfl | h'
          · exact Or.inl h
          · exact Or.inr h'
    · simp only [List.mem_append, List.mem_cons, List.not_mem_nil, or_false, or_assoc]

theorem nodup_setExtend {s vs : List V} (h : s.Nodup) : (setExtend s vs).Nodup := by
  unfold setExtend
  induction vs generalizing s with
  | nil => exact h
  | cons v t ih =>
    rw [List.foldl_cons]
    apply ih
    split
    · exact h
    · rename_i hv
      exact h.append (List.nodup_singleton v) (by simpa using hv)

theorem prefix_setExtend (s vs : List V) : s <+: setExtend s vs := by
  unfold setExtend
  induction vs generalizing s with
  | nil => exact List.prefix_refl _
  | cons v t ih =>
    rw [List.foldl_cons]
    refine List.IsPrefix.trans ?_ (ih _)
    split
    · exact List.prefix_refl _
    · exact List.prefix_append _ _

/-! ### One round -/

theorem prefix_reachStep (bl s : List V) (refs : List (ConstraintRef p V)) :
    s <+: reachStep bl s refs := by
  induction refs generalizing s with
  | nil => exact List.prefix_refl _
  | cons c t ih =>
    rw [reachStep]
    refine List.IsPrefix.trans ?_ (ih _)
    split
    · exact prefix_setExtend _ _
    · exact List.prefix_refl _

theorem nodup_reachStep (bl : List V) {s : List V} (h : s.Nodup)
    (refs : List (ConstraintRef p V)) : (reachStep bl s refs).Nodup := by
  induction refs generalizing s with
  | nil => exact h
  | cons c t ih =>
    rw [reachStep]
    apply ih
    split
    · exact nodup_setExtend h
    · exact h

theorem reachStep_sound {sys : ConstraintSystem p V} {start : V → Prop} {bl s : List V}
    {refs : List (ConstraintRef p V)} (hr : ∀ c ∈ refs, c.In sys)
    (hs : ∀ v ∈ s, Reachable sys start (· ∈ bl) v) :
    ∀ v ∈ reachStep bl s refs, Reachable sys start (· ∈ bl) v := by
  induction refs generalizing s with
  | nil => exact hs
  | cons c t ih =>
    rw [reachStep]
    apply ih (fun c hc => hr c (List.mem_cons_of_mem _ hc))
    split
    · rename_i hany
      rw [List.any_eq_true] at hany
      obtain ⟨u, hu, hcond⟩ := hany
      simp only [Bool.and_eq_true, decide_eq_true_eq] at hcond
      intro v hv
      rcases mem_setExtend.1 hv with h | h
      · exact hs v h
      · exact .step u v c (hs u hcond.1) hcond.2 (hr c (by simp)) (mem_refVars.1 hu)
          (mem_refVars.1 h)
    · exact hs

theorem reachStep_closed {bl s : List V} {refs : List (ConstraintRef p V)}
    (h : reachStep bl s refs = s) {c : ConstraintRef p V} (hc : c ∈ refs) {u v : V}
    (hu : u ∈ s) (hb : u ∉ bl) (hcu : u ∈ c.vars) (hcv : v ∈ c.vars) : v ∈ s := by
  induction refs generalizing s with
  | nil => cases hc
  | cons d t ih =>
    rw [reachStep] at h
    have hpre := prefix_reachStep bl
      (if d.vars.any fun v => v ∈ s && v ∉ bl then setExtend s d.vars else s) t
    rw [h] at hpre
    have hs' : (if d.vars.any fun v => v ∈ s && v ∉ bl then setExtend s d.vars else s) = s := by
      refine hpre.eq_of_length_le ?_
      split
      · exact (prefix_setExtend _ _).length_le
      · exact le_refl _
    rw [hs'] at h
    rcases List.mem_cons.1 hc with rfl | hc
    · rw [if_pos] at hs'
      · rw [← hs']
        exact mem_setExtend.2 (Or.inr hcv)
      · rw [List.any_eq_true]
        exact ⟨u, hcu, by simp [hu, hb]⟩
    · exact ih h hc hu

/-! ### The loop -/

theorem mem_refs {ix : Indexed p V} (hi : ix.Inv) {vs : List V} {c : ConstraintRef p V} :
    (c ∈ (ix.itemsReferencing vs).filterMap (refAt ix.sys) → c.In ix.sys) ∧
    (c.In ix.sys → (∃ v ∈ vs, c.Mentions v) →
      c ∈ (ix.itemsReferencing vs).filterMap (refAt ix.sys)) := by
  constructor
  · intro hc
    obtain ⟨x, -, hx⟩ := List.mem_filterMap.1 hc
    exact in_iff_refAt.2 ⟨x, hx⟩
  · rintro hc ⟨v, hv, hm⟩
    obtain ⟨x, hx⟩ := in_iff_refAt.1 hc
    refine List.mem_filterMap.2 ⟨x, ?_, hx⟩
    exact Indexed.mem_itemsReferencing.2 ⟨v, hv, hi.complete v x (occursIn_of_refAt hx hm)⟩

theorem reachLoop_spec (ord : SetOrder V) {ix : Indexed p V} (hi : ix.Inv) (bl : List V)
    (start : V → Prop) (fuel : ℕ) {s : List V} (hn : s.Nodup) (hst : ∀ v, start v → v ∈ s)
    (hs : ∀ v ∈ s, Reachable ix.sys start (· ∈ bl) v) :
    ∃ o, reachLoop ord ix bl fuel s = .ok o ∧
      (∀ r, o = some r → r.Nodup ∧ ∀ v, v ∈ r ↔ Reachable ix.sys start (· ∈ bl) v) ∧
      ∀ all : List V, (∀ v, Reachable ix.sys start (· ∈ bl) v → v ∈ all) →
        all.length < fuel + s.length → o ≠ none := by
  induction fuel generalizing s with
  | zero =>
    refine ⟨none, rfl, fun r h => (by cases h), fun all hall hlt => ?_⟩
    have := (hn.subperm fun v hv => hall v (hs v hv)).length_le
    omega
  | succ n ih =>
    rw [reachLoop, Indexed.constraintsReferencing_ok hi, ok_bind]
    simp only
    have hin : ∀ c ∈ (ix.itemsReferencing (ord.order s)).filterMap (refAt ix.sys), c.In ix.sys :=
      fun c hc => (mem_refs hi).1 hc
    have hpre := prefix_reachStep bl s
      ((ix.itemsReferencing (ord.order s)).filterMap (refAt ix.sys))
    have hsound := reachStep_sound (bl := bl) hin hs
    split
    · rename_i hlen
      have heq := (hpre.eq_of_length hlen.symm).symm
      refine ⟨_, rfl, fun r hr => ?_, fun _ _ _ h => by cases h⟩
      cases hr
      rw [heq]
      refine ⟨hn, fun v => ⟨hs v, fun hv => ?_⟩⟩
      induction hv with
      | start v h => exact hst v h
      | step u v c hu hb hc hcu hcv ihu =>
        refine reachStep_closed heq ((mem_refs hi).2 hc ⟨u, ?_, hcu⟩) ihu hb (mem_refVars.2 hcu)
          (mem_refVars.2 hcv)
        exact (ord.perm s).mem_iff.2 ihu
    · rename_i hlen
      have hle := hpre.length_le
      obtain ⟨o, ho, h1, h2⟩ := ih (nodup_reachStep bl hn _)
        (fun v hv => hpre.subset (hst v hv)) hsound
      exact ⟨o, ho, h1, fun all hall hlt => h2 all hall (by omega)⟩

theorem reachable_bound {sys : ConstraintSystem p V} {start : V → Prop} {bl init : List V}
    (hst : ∀ v, start v → v ∈ init) {v : V} (h : Reachable sys start (· ∈ bl) v) :
    v ∈ init ++ systemVars sys := by
  induction h with
  | start v h => exact List.mem_append_left _ (hst v h)
  | step u v c hu hb hc hcu hcv =>
    refine List.mem_append_right _ (mem_systemVars.2 ?_)
    cases c with
    | alg e => exact Or.inl ⟨e, hc, mem_vars_iff_occurs.2 hcv⟩
    | bus b =>
      obtain ⟨e, he, ho⟩ := hcv
      exact Or.inr ⟨b, hc, e, he, mem_vars_iff_occurs.2 ho⟩

theorem reachableExceptBlocked_spec (ord : SetOrder V) {ix : Indexed p V} (hi : ix.Inv)
    (init bl : List V) (fuel : ℕ) :
    ∃ o, reachableExceptBlocked ord fuel init bl ix = .ok o ∧
      (∀ r, o = some r → r.Nodup ∧
        ∀ v, v ∈ r ↔ Reachable ix.sys (· ∈ init) (· ∈ bl) v) ∧
      ∀ all : List V, (∀ v, Reachable ix.sys (· ∈ init) (· ∈ bl) v → v ∈ all) →
        all.length < fuel → o ≠ none := by
  obtain ⟨o, ho, h1, h2⟩ := reachLoop_spec ord hi bl (· ∈ init) fuel
    (s := setExtend [] init) (nodup_setExtend List.nodup_nil)
    (fun v hv => mem_setExtend.2 (Or.inr hv))
    (fun v hv => .start v (by simpa using mem_setExtend.1 hv))
  exact ⟨o, ho, h1, fun all hall hlt => h2 all hall (by omega)⟩

/-! ### Splitting -/

theorem nodup_eraseDups {α : Type} [DecidableEq α] (l : List α) : l.eraseDups.Nodup := by
  generalize hn : l.length = n
  induction n using Nat.strong_induction_on generalizing l with
  | _ n ih =>
    cases l with
    | nil => simp
    | cons a t =>
      rw [List.eraseDups_cons, List.nodup_cons]
      have := List.length_filter_le (fun b => !b == a) t
      simp only [List.length_cons] at hn
      refine ⟨?_, ih _ (by omega) _ rfl⟩
      rw [List.mem_eraseDups]
      simp

theorem mem_indexedVariables {s : ConstraintSystem p V} {v : V} :
    v ∈ indexedVariables s ↔ v ∈ systemVars s ∨ ∃ d ∈ s.derived, v ∈ d.method.vars := by
  simp only [indexedVariables, List.mem_insertionSort, List.mem_dedup, List.mem_append,
    List.mem_flatMap]

/-- `v` and `w` are in the same component. -/
abbrev Connected (s : ConstraintSystem p V) (v : V) : V → Prop :=
  Reachable s (· = v) fun _ => False

theorem Connected.trans {s : ConstraintSystem p V} {u v w : V} (h : Connected s u v)
    (h' : Connected s v w) : Connected s u w := by
  induction h' with
  | start x hx => cases hx; exact h
  | step a b c _ hb hc h1 h2 ih => exact .step a b c ih hb hc h1 h2

theorem Connected.symm {s : ConstraintSystem p V} {u v : V} (h : Connected s u v) :
    Connected s v u := by
  induction h with
  | start x hx => cases hx; exact .start _ rfl
  | step a b c _ hb hc h1 h2 ih =>
    exact Connected.trans (.step b a c (.start b rfl) id hc h2 h1) ih

/-- The items of one part. -/
def partItems (ord : SetOrder V) (ix : Indexed p V) (vs : List V) : List Item :=
  ix.itemsReferencing (ord.order vs)

theorem systemOfRefs_algebraic (s : ConstraintSystem p V) (items : List Item) :
    (systemOfRefs (items.filterMap (refAt s))).algebraic =
      items.filterMap fun x => match x with | .alg i => s.algebraic[i]? | _ => none := by
  simp only [systemOfRefs, List.filterMap_filterMap]
  apply List.filterMap_congr
  intro x _
  cases x with
  | alg i => cases h : s.algebraic[i]? <;> simp [refAt, h]
  | bus i => cases h : s.bus[i]? <;> simp [refAt, h]
  | derived i => simp [refAt]

theorem systemOfRefs_bus (s : ConstraintSystem p V) (items : List Item) :
    (systemOfRefs (items.filterMap (refAt s))).bus =
      items.filterMap fun x => match x with | .bus i => s.bus[i]? | _ => none := by
  simp only [systemOfRefs, List.filterMap_filterMap]
  apply List.filterMap_congr
  intro x _
  cases x with
  | alg i => cases h : s.algebraic[i]? <;> simp [refAt, h]
  | bus i => cases h : s.bus[i]? <;> simp [refAt, h]
  | derived i => simp [refAt]

/-- What the parts are: for each one there is a component of variables such that the part consists
of the items in which a variable of the component occurs. -/
structure SplitParts (s : ConstraintSystem p V) (remaining : List V)
    (parts : List (List Item)) : Prop where
  nodup : ∀ l ∈ parts, l.Nodup
  comp : ∀ l ∈ parts, ∃ v ∈ remaining, ∀ x, x ∈ l ↔ ∃ w, Connected s v w ∧ OccursIn s w x
  apart : parts.Pairwise fun a b => ∀ x ∈ a, x ∈ b → x.isDerived = true
  cover : ∀ v ∈ remaining, ∃ l ∈ parts, ∀ x, OccursIn s v x → x ∈ l

theorem connected_of_item {s : ConstraintSystem p V} {u v : V} {x : Item}
    (hx : x.isDerived = false) (hu : OccursIn s u x) (hv : OccursIn s v x) : Connected s u v := by
  cases x with
  | alg i =>
    obtain ⟨e, he, ho⟩ := hu
    obtain ⟨e', he', ho'⟩ := hv
    rw [he] at he'; cases he'
    exact .step u v (.alg e) (.start u rfl) id (List.mem_iff_getElem?.2 ⟨i, he⟩) ho ho'
  | bus i =>
    obtain ⟨e, he, ho⟩ := hu
    obtain ⟨e', he', ho'⟩ := hv
    rw [he] at he'; cases he'
    exact .step u v (.bus e) (.start u rfl) id (List.mem_iff_getElem?.2 ⟨i, he⟩) ho ho'
  | derived i => cases hx

theorem splitLoop_spec (ord : SetOrder V) (s : ConstraintSystem p V) (fuel n : ℕ)
    (rem : List V)
    (hclosed : ∀ v ∈ rem, ∀ w, Connected s v w → w ∈ systemVars s → w ∈ rem) :
    ∃ o, splitLoop ord (Indexed.ofSystem s) fuel n rem = .ok o ∧
      (∀ ps, o = some ps → ∃ parts : List (List Item),
        ps = parts.map (fun l => systemOfRefs (l.filterMap (refAt s))) ∧
        SplitParts s rem parts) ∧
      ((systemVars s).length + 1 < fuel → rem.length ≤ n → o ≠ none) := by
  induction n generalizing rem with
  | zero =>
    cases rem with
    | nil =>
      rw [splitLoop]
      exact ⟨_, rfl, fun ps h => ⟨[], by cases h; rfl, ⟨by simp, by simp, by simp, by simp⟩⟩,
        fun _ _ h => by cases h⟩
    | cons v t =>
      rw [splitLoop]
      exact ⟨_, rfl, fun ps h => (by cases h), fun _ h => by simp at h⟩
  | succ n ih =>
    cases rem with
    | nil =>
      rw [splitLoop]
      exact ⟨_, rfl, fun ps h => ⟨[], by cases h; rfl, ⟨by simp, by simp, by simp, by simp⟩⟩,
        fun _ _ h => by cases h⟩
    | cons v t =>
      have hi := Indexed.inv_ofSystem s
      obtain ⟨o, ho, h1, h2⟩ := reachableExceptBlocked_spec ord hi [v] [] fuel
      rw [splitLoop, reachable, ho, ok_bind]
      cases o with
      | none =>
        refine ⟨none, rfl, fun ps h => (by cases h), fun hf _ => ?_⟩
        exact absurd rfl (h2 _ (fun w hw => reachable_bound (fun _ h => h) hw) (by
          change ([v] ++ systemVars s).length < fuel
          simp only [List.length_append, List.length_singleton]
          omega))
      | some vs =>
        obtain ⟨hvn, hvs⟩ := h1 vs rfl
        have hvs : ∀ w, w ∈ vs ↔ Connected s v w := fun w => by
          rw [hvs]
          have e1 : (fun x => x ∈ [v]) = fun x => x = v := by funext x; simp
          have e2 : (fun x : V => x ∈ ([] : List V)) = fun _ => False := by funext x; simp
          rw [e1, e2]
          rfl
        simp only [Indexed.constraintsReferencing_ok hi, ok_bind]
        obtain ⟨o', ho', k1, k2⟩ := ih (t.filter fun w => w ∉ vs) (by
          intro a ha w hw hws
          simp only [List.mem_filter, decide_eq_true_eq] at ha ⊢
          refine ⟨?_, fun hwv => ha.2 ((hvs a).2 (((hvs w).1 hwv).trans hw.symm))⟩
          rcases List.mem_cons.1 (hclosed a (List.mem_cons_of_mem _ ha.1) w hw hws) with rfl | h
          · exact absurd ((hvs a).2 hw.symm) ha.2
          · exact h)
        rw [ho', ok_bind]
        cases o' with
        | none =>
          refine ⟨none, rfl, fun ps h => (by cases h), fun hf hl => absurd rfl (k2 hf ?_)⟩
          have := List.length_filter_le (fun w => decide (w ∉ vs)) t
          simp only [List.length_cons] at hl
          omega
        | some rest =>
          refine ⟨_, rfl, fun ps hps => ?_, fun _ _ h => by cases h⟩
          cases hps
          obtain ⟨parts, hp, hsp⟩ := k1 rest rfl
          have hmem : ∀ x, x ∈ (Indexed.ofSystem s).itemsReferencing (ord.order vs) ↔
              ∃ w, Connected s v w ∧ OccursIn s w x := by
            intro x
            rw [Indexed.mem_itemsReferencing]
            constructor
            · rintro ⟨w, hw, hx⟩
              exact ⟨w, (hvs w).1 ((ord.perm vs).mem_iff.1 hw), mem_variableOccurrences.1 hx⟩
            · rintro ⟨w, hw, hx⟩
              exact ⟨w, (ord.perm vs).mem_iff.2 ((hvs w).2 hw), mem_variableOccurrences.2 hx⟩
          refine ⟨(Indexed.ofSystem s).itemsReferencing (ord.order vs) :: parts, ?_, ?_, ?_, ?_, ?_⟩
          · rw [List.map_cons, hp]; rfl
          · intro l hl
            rcases List.mem_cons.1 hl with rfl | hl
            · exact nodup_eraseDups _
            · exact hsp.nodup l hl
          · intro l hl
            rcases List.mem_cons.1 hl with rfl | hl
            · exact ⟨v, List.mem_cons_self, hmem⟩
            · obtain ⟨w, hw, h⟩ := hsp.comp l hl
              exact ⟨w, List.mem_cons_of_mem _ (List.mem_filter.1 hw).1, h⟩
          · refine List.pairwise_cons.2 ⟨fun l hl x hx hxl => ?_, hsp.apart⟩
            obtain ⟨a, ha, hcomp⟩ := hsp.comp l hl
            obtain ⟨w, hw, hwx⟩ := (hmem x).1 hx
            obtain ⟨w', hw', hwx'⟩ := (hcomp x).1 hxl
            by_contra hd
            have hc := connected_of_item (by simpa using hd) hwx hwx'
            have := (hvs a).2 ((hw.trans hc).trans hw'.symm)
            have hna := (List.mem_filter.1 ha).2
            simp only [decide_eq_true_eq] at hna
            exact hna this
          · intro a ha
            by_cases hav : a ∈ vs
            · exact ⟨_, List.mem_cons_self, fun x hx => (hmem x).2 ⟨a, (hvs a).1 hav, hx⟩⟩
            · rcases List.mem_cons.1 ha with rfl | ha
              · exact absurd ((hvs a).2 (.start a rfl)) hav
              · obtain ⟨l, hl, h⟩ := hsp.cover a (List.mem_filter.2 ⟨ha, by simpa using hav⟩)
                exact ⟨l, List.mem_cons_of_mem _ hl, h⟩

theorem splitSystem_spec (ord : SetOrder V) (fuel : ℕ) (ix : Indexed p V) :
    ∃ o, splitSystem ord fuel ix = .ok o ∧
      (∀ ps, o = some ps → ∃ parts : List (List Item),
        ps = parts.map (fun l => systemOfRefs (l.filterMap (refAt (dropRedundant ix.sys)))) ∧
        SplitParts (dropRedundant ix.sys) (indexedVariables (dropRedundant ix.sys)) parts) ∧
      ((systemVars (dropRedundant ix.sys)).length + 1 < fuel →
        (indexedVariables (dropRedundant ix.sys)).length ≤ fuel → o ≠ none) :=
  splitLoop_spec ord _ fuel fuel _ fun _ _ _ _ hws => mem_indexedVariables.2 (Or.inl hws)

/-! ### The parts together -/

theorem filterMap_positions {α : Type} (f : α → Bool) (l : List α) :
    (positions f l).filterMap (fun i => l[i]?) = l.filter f := by
  unfold positions
  rw [List.filterMap_map]
  have : ∀ x ∈ l.zipIdx.filter (fun x => f x.1), ((fun i => l[i]?) ∘ fun x : α × ℕ => x.2) x =
      some x.1 := by
    intro x hx
    have := (List.mem_filter.1 hx).1
    simpa using List.mem_zipIdx_iff_getElem?.1 this
  rw [List.filterMap_congr this, List.filterMap_eq_map']
  clear this
  have key : ∀ n, ((l.zipIdx n).filter fun x => f x.1).map (·.1) = l.filter f := by
    induction l with
    | nil => simp
    | cons a t ih =>
      intro n
      rw [List.zipIdx_cons, List.filter_cons, List.filter_cons]
      split
      · rw [List.map_cons, ih]
      · exact ih _
  exact key 0

theorem parts_perm {s : ConstraintSystem p V} {parts : List (List Item)}
    (h : SplitParts s (indexedVariables s) parts) :
    (parts.flatMap fun l => (systemOfRefs (l.filterMap (refAt s))).algebraic).Perm
      (s.algebraic.filter fun e => !e.vars.isEmpty) ∧
    (parts.flatMap fun l => (systemOfRefs (l.filterMap (refAt s))).bus).Perm
      (s.bus.filter fun b => !(busVars b).isEmpty) := by
  have hnd : (parts.flatten.filter fun x => !x.isDerived).Nodup := by
    rw [List.filter_flatten]
    rw [List.nodup_flatten]
    constructor
    · intro l hl
      obtain ⟨l', hl', rfl⟩ := List.mem_map.1 hl
      exact (h.nodup l' hl').filter _
    · rw [List.pairwise_map]
      refine h.apart.imp ?_
      intro a b hab x hx hx'
      have h1 := List.mem_filter.1 hx
      have h2 := List.mem_filter.1 hx'
      have := hab x h1.1 h2.1
      simp [this] at h1
  have hmem : ∀ x, x ∈ parts.flatten ↔ ∃ v, OccursIn s v x ∧ v ∈ indexedVariables s := by
    intro x
    rw [List.mem_flatten]
    constructor
    · rintro ⟨l, hl, hx⟩
      obtain ⟨v, -, hc⟩ := h.comp l hl
      obtain ⟨w, -, hw⟩ := (hc x).1 hx
      refine ⟨w, hw, mem_indexedVariables.2 ?_⟩
      cases x with
      | alg i =>
        obtain ⟨e, he, ho⟩ := hw
        exact Or.inl (mem_systemVars.2 (Or.inl ⟨e, List.mem_iff_getElem?.2 ⟨i, he⟩,
          mem_vars_iff_occurs.2 ho⟩))
      | bus i =>
        obtain ⟨b, hb, e, he, ho⟩ := hw
        exact Or.inl (mem_systemVars.2 (Or.inr ⟨b, List.mem_iff_getElem?.2 ⟨i, hb⟩, e, he,
          mem_vars_iff_occurs.2 ho⟩))
      | derived i =>
        obtain ⟨d, hd, ho⟩ := hw
        exact Or.inr ⟨d, List.mem_iff_getElem?.2 ⟨i, hd⟩, mem_methodVars.2 ho⟩
    · rintro ⟨v, hv, hvi⟩
      obtain ⟨l, hl, hx⟩ := h.cover v hvi
      exact ⟨l, hl, hx x hv⟩
  have hocc : ∀ x v, OccursIn s v x → x.isDerived = false → x ∈ parts.flatten := by
    intro x v hv hx
    refine (hmem x).2 ⟨v, hv, mem_indexedVariables.2 (Or.inl (mem_systemVars.2 ?_))⟩
    cases x with
    | alg i =>
      obtain ⟨e, he, ho⟩ := hv
      exact Or.inl ⟨e, List.mem_iff_getElem?.2 ⟨i, he⟩, mem_vars_iff_occurs.2 ho⟩
    | bus i =>
      obtain ⟨b, hb, e, he, ho⟩ := hv
      exact Or.inr ⟨b, List.mem_iff_getElem?.2 ⟨i, hb⟩, e, he, mem_vars_iff_occurs.2 ho⟩
    | derived i => cases hx
  have hperm : (parts.flatten.filter fun x => !x.isDerived).Perm
      ((positions (fun e : GExpr p V => !e.vars.isEmpty) s.algebraic).map .alg ++
        (positions (fun b : BusInteraction (GExpr p V) => !(busVars b).isEmpty) s.bus).map .bus) := by
    rw [List.perm_ext_iff_of_nodup hnd]
    · intro x
      simp only [List.mem_filter, List.mem_append, List.mem_map, mem_positions,
        Bool.not_eq_eq_eq_not, Bool.not_true]
      constructor
      · rintro ⟨hx, hd⟩
        obtain ⟨v, hv, -⟩ := (hmem x).1 hx
        cases x with
        | alg i =>
          obtain ⟨e, he, ho⟩ := hv
          refine Or.inl ⟨i, ⟨e, he, ?_⟩, rfl⟩
          rw [List.isEmpty_eq_false_iff]
          exact List.ne_nil_of_mem (mem_vars_iff_occurs.2 ho)
        | bus i =>
          obtain ⟨b, hb, ho⟩ := hv
          refine Or.inr ⟨i, ⟨b, hb, ?_⟩, rfl⟩
          rw [List.isEmpty_eq_false_iff]
          exact List.ne_nil_of_mem (mem_busVars.2 ho)
        | derived i => cases hd
      · rintro (⟨i, ⟨e, he, hne⟩, rfl⟩ | ⟨i, ⟨b, hb, hne⟩, rfl⟩)
        · rw [List.isEmpty_eq_false_iff] at hne
          obtain ⟨v, hv⟩ := List.exists_mem_of_ne_nil _ hne
          exact ⟨hocc _ v ⟨e, he, mem_vars_iff_occurs.1 hv⟩ rfl, rfl⟩
        · rw [List.isEmpty_eq_false_iff] at hne
          obtain ⟨v, hv⟩ := List.exists_mem_of_ne_nil _ hne
          exact ⟨hocc _ v ⟨b, hb, mem_busVars.1 hv⟩ rfl, rfl⟩
    · refine List.Nodup.append ?_ ?_ ?_
      · refine List.Nodup.map (fun a b h => by cases h; rfl) ?_
        exact (positions_sorted _ _).imp fun h => Nat.ne_of_lt h
      · refine List.Nodup.map (fun a b h => by cases h; rfl) ?_
        exact (positions_sorted _ _).imp fun h => Nat.ne_of_lt h
      · intro x hx hx'
        obtain ⟨i, -, rfl⟩ := List.mem_map.1 hx
        obtain ⟨j, -, h⟩ := List.mem_map.1 hx'
        cases h
  constructor
  · have := hperm.filterMap (fun x => match x with | .alg i => s.algebraic[i]? | _ => none)
    rw [List.filterMap_append, List.filterMap_map, List.filterMap_map] at this
    have e1 : List.filterMap ((fun x : Item => match x with | .alg i => s.algebraic[i]? | _ => none) ∘
        Item.bus) (positions (fun b : BusInteraction (GExpr p V) => !(busVars b).isEmpty) s.bus) =
        [] := by
      simp
    have e2 := filterMap_positions (fun e : GExpr p V => !e.vars.isEmpty) s.algebraic
    rw [e1, List.append_nil] at this
    refine List.Perm.trans (List.Perm.of_eq ?_) (this.trans (List.Perm.of_eq e2))
    rw [List.filterMap_filter, List.filterMap_flatten, List.flatMap]
    congr 1
    apply List.map_congr_left
    intro l _
    rw [systemOfRefs_algebraic]
    apply List.filterMap_congr
    intro x _
    cases x <;> simp [Item.isDerived]
  · have := hperm.filterMap (fun x => match x with | .bus i => s.bus[i]? | _ => none)
    rw [List.filterMap_append, List.filterMap_map, List.filterMap_map] at this
    have e1 : List.filterMap ((fun x : Item => match x with | .bus i => s.bus[i]? | _ => none) ∘
        Item.alg) (positions (fun e : GExpr p V => !e.vars.isEmpty) s.algebraic) = [] := by
      simp
    have e2 := filterMap_positions (fun b : BusInteraction (GExpr p V) => !(busVars b).isEmpty) s.bus
    rw [e1, List.nil_append] at this
    refine List.Perm.trans (List.Perm.of_eq ?_) (this.trans (List.Perm.of_eq e2))
    rw [List.filterMap_filter, List.filterMap_flatten, List.flatMap]
    congr 1
    apply List.map_congr_left
    intro l _
    rw [systemOfRefs_bus]
    apply List.filterMap_congr
    intro x _
    cases x <;> simp [Item.isDerived]

end Verif
