import Verif.Model.ExhaustiveSearch
import Verif.Proofs.Indexed
import Verif.Proofs.TransformVars
import Verif.Spec.Reachability

/-! Proofs about exhaustive search. -/

set_option linter.unusedSectionVars false

namespace Verif

open GExpr

variable {p : ℕ} {V : Type} [LinearOrder V] [Fact p.Prime]

/-! ### Sets -/

theorem mem_btreeSetInsert {v w : V} {l : List V} : v ∈ btreeSetInsert w l ↔ v = w ∨ v ∈ l := by
  induction l with
  | nil => simp [btreeSetInsert]
  | cons x t ih =>
    rw [btreeSetInsert]
    split
    · simp
    · split
      · rename_i h; subst h; simp
      · simp only [List.mem_cons, ih]; tauto

theorem mem_btreeSet {v : V} {l : List V} : v ∈ btreeSet l ↔ v ∈ l := by
  unfold btreeSet
  induction l with
  | nil => simp
  | cons x t ih => rw [List.foldr_cons, mem_btreeSetInsert, ih, List.mem_cons]

theorem sorted_btreeSetInsert {w : V} {l : List V} (h : l.Pairwise (· < ·)) :
    (btreeSetInsert w l).Pairwise (· < ·) := by
  induction l with
  | nil => simp [btreeSetInsert]
  | cons x t ih =>
    rw [List.pairwise_cons] at h
    rw [btreeSetInsert]
    split
    · rename_i hx
      rw [List.pairwise_cons]
      refine ⟨fun y hy => ?_, List.pairwise_cons.2 h⟩
      rcases List.mem_cons.1 hy with rfl | hy
      · exact hx
      · exact hx.trans (h.1 y hy)
    · rename_i hx
      split
      · exact List.pairwise_cons.2 h
      · rename_i hne
        rw [List.pairwise_cons]
        refine ⟨fun y hy => ?_, ih h.2⟩
        rcases mem_btreeSetInsert.1 hy with rfl | hy
        · exact lt_of_le_of_ne (not_lt.1 hx) (Ne.symm hne)
        · exact h.1 y hy

theorem sorted_btreeSet (l : List V) : (btreeSet l).Pairwise (· < ·) := by
  unfold btreeSet
  induction l with
  | nil => simp
  | cons x t ih => exact sorted_btreeSetInsert ih

theorem btreeSet_eq_sort (l : List V) : btreeSet l = l.toFinset.sort (· ≤ ·) := by
  have h := sorted_btreeSet l
  have h1 : (btreeSet l).toFinset = l.toFinset := by ext v; simp [mem_btreeSet]
  rw [← h1]
  exact ((List.toFinset_sort (r := (· ≤ ·)) (h.imp fun h => ne_of_lt h)).2 (h.imp le_of_lt)).symm

/-! ### Assignments -/

theorem mem_cartesian {α : Type} {ls : List (List α)} {x : List α} :
    x ∈ cartesian ls ↔ List.Forall₂ (fun a l => a ∈ l) x ls := by
  induction ls generalizing x with
  | nil => simp [cartesian]
  | cons l t ih =>
    simp only [cartesian, List.mem_flatMap, List.mem_map]
    constructor
    · rintro ⟨a, ha, r, hr, rfl⟩
      exact .cons ha (ih.1 hr)
    · intro h
      cases h with
      | cons h1 h2 => exact ⟨_, h1, _, ih.2 h2, rfl⟩

theorem mem_allowedValues {r : RangeConstraint p} {l : List (ZMod p)}
    (h : r.allowedValues = some l) (v : ZMod p) : v ∈ l ↔ r.Allows v := by
  unfold RangeConstraint.allowedValues at h
  split at h
  · simp only [Option.some.injEq] at h
    subst h
    rw [List.mem_filter, RangeConstraint.allowsValue_iff]
    constructor
    · exact fun h => h.2
    · intro ha
      refine ⟨List.mem_map.2 ⟨(v - r.min).val, List.mem_range.2 ?_, ?_⟩, ha⟩
      · have := ha.1
        unfold InCyc at this
        unfold RangeConstraint.width
        rw [rangeWidth_eq]
        omega
      · rw [ZMod.natCast_zmod_val]; ring
  · cases h

theorem allowedValues_isSome {r : RangeConstraint p} (h : r.width < 2 ^ 32) :
    ∃ l, r.allowedValues = some l := by
  unfold RangeConstraint.allowedValues
  rw [if_pos h]
  exact ⟨_, rfl⟩

variable {rc : V → RangeConstraint p}

theorem allowedValuesOf_spec {vs : List V} {ls : List (List (V × ZMod p))}
    (h : allowedValuesOf rc vs = .ok ls) {x : List (V × ZMod p)} :
    List.Forall₂ (fun a l => a ∈ l) x ls ↔
      x.map (·.1) = vs ∧ ∀ a ∈ x, (rc a.1).Allows a.2 := by
  induction vs generalizing ls x with
  | nil =>
    cases h
    simp only [List.forall₂_nil_right_iff, List.map_eq_nil_iff]
    constructor
    · rintro rfl; simp
    · exact fun h => h.1
  | cons v t ih =>
    unfold allowedValuesOf at h
    cases hv : (rc v).allowedValues with
    | none => rw [hv] at h; cases h
    | some values =>
      rw [hv] at h
      simp only at h
      cases ht : allowedValuesOf rc t with
      | error e => rw [ht] at h; cases h
      | ok r =>
        rw [ht] at h
        cases h
        constructor
        · intro hx
          cases hx with
          | @cons a _ x' _ h1 h2 =>
            obtain ⟨y, hy, rfl⟩ := List.mem_map.1 h1
            obtain ⟨h3, h4⟩ := (ih ht).1 h2
            refine ⟨by simp [h3], ?_⟩
            intro a ha
            rcases List.mem_cons.1 ha with rfl | ha
            · exact (mem_allowedValues hv y).1 hy
            · exact h4 a ha
        · rintro ⟨h1, h2⟩
          cases x with
          | nil => simp at h1
          | cons a x =>
            simp only [List.map_cons, List.cons.injEq] at h1
            obtain ⟨rfl, h1⟩ := h1
            refine .cons ?_ ((ih ht).2 ⟨h1, fun a ha => h2 a (by simp [ha])⟩)
            exact List.mem_map.2 ⟨a.2, (mem_allowedValues hv _).2 (h2 a (by simp)), rfl⟩

theorem allowedValuesOf_total {vs : List V} (h : ∀ v ∈ vs, (rc v).width < 2 ^ 32) :
    ∃ ls, allowedValuesOf rc vs = .ok ls := by
  induction vs with
  | nil => exact ⟨_, rfl⟩
  | cons v t ih =>
    obtain ⟨l, hl⟩ := allowedValues_isSome (h v (by simp))
    obtain ⟨ls, hls⟩ := ih fun v hv => h v (by simp [hv])
    unfold allowedValuesOf
    rw [hl]
    simp only [hls]
    exact ⟨_, rfl⟩

theorem keys_insertEntry {v w : V} {k : ZMod p} {m : List (V × ZMod p)} :
    w ∈ (insertEntry v k m).map (·.1) ↔ w = v ∨ w ∈ m.map (·.1) := by
  induction m with
  | nil => simp [insertEntry]
  | cons a t ih =>
    obtain ⟨x, y⟩ := a
    rw [insertEntry]
    split
    · rename_i h; subst h; simp
    · split
      · simp
      · rw [List.map_cons, List.mem_cons, ih, List.map_cons, List.mem_cons]
        tauto

theorem foldl_insertEntry_spec {l m : List (V × ZMod p)} :
    (∀ a ∈ l.foldl (fun m e => insertEntry e.1 e.2 m) m, a ∈ l ∨ a ∈ m) ∧
    ∀ w, w ∈ (l.foldl (fun m e => insertEntry e.1 e.2 m) m).map (·.1) ↔
      w ∈ l.map (·.1) ∨ w ∈ m.map (·.1) := by
  induction l generalizing m with
  | nil => simp
  | cons x t ih =>
    obtain ⟨h1, h2⟩ := ih (m := insertEntry x.1 x.2 m)
    refine ⟨?_, ?_⟩
    · intro a ha
      rcases h1 a ha with h | h
      · exact Or.inl (List.mem_cons_of_mem _ h)
      · rcases mem_insertEntry h with h | h
        · exact Or.inl (by rw [show a = x from h]; exact List.mem_cons_self)
        · exact Or.inr h
    · intro w
      rw [List.foldl_cons, h2, keys_insertEntry, List.map_cons, List.mem_cons]
      tauto

theorem mem_collectAssignment {l : List (V × ZMod p)} {a : V × ZMod p}
    (h : a ∈ collectAssignment l) : a ∈ l := by
  rcases foldl_insertEntry_spec.1 a h with h | h
  · exact h
  · cases h

theorem keys_collectAssignment {l : List (V × ZMod p)} {w : V} :
    w ∈ (collectAssignment l).map (·.1) ↔ w ∈ l.map (·.1) := by
  unfold collectAssignment
  rw [foldl_insertEntry_spec.2]
  simp

/-- The assignment agrees with `σ`. -/
def AgreesWith (σ : V → ZMod p) (a : List (V × ZMod p)) : Prop := ∀ x ∈ a, σ x.1 = x.2

theorem allPossibleAssignments_complete {vs : List V} {l : List (List (V × ZMod p))}
    (h : allPossibleAssignments rc vs = .ok l) {σ : V → ZMod p}
    (hr : ∀ v ∈ vs, (rc v).Allows (σ v)) :
    ∃ a ∈ l, AgreesWith σ a ∧ ∀ v, v ∈ a.map (·.1) ↔ v ∈ vs := by
  unfold allPossibleAssignments at h
  cases hv : allowedValuesOf rc vs with
  | error e => rw [hv] at h; cases h
  | ok ls =>
    rw [hv] at h
    cases h
    refine ⟨collectAssignment (vs.map fun v => (v, σ v)), List.mem_map.2
      ⟨vs.map fun v => (v, σ v), mem_cartesian.2 ?_, rfl⟩, ?_, ?_⟩
    · rw [allowedValuesOf_spec hv]
      refine ⟨by simp [Function.comp_def], ?_⟩
      intro a ha
      obtain ⟨v, hv, rfl⟩ := List.mem_map.1 ha
      exact hr v hv
    · intro a ha
      obtain ⟨v, -, rfl⟩ := List.mem_map.1 (mem_collectAssignment ha)
      rfl
    · intro v
      rw [keys_collectAssignment]
      simp [Function.comp_def]

theorem allPossibleAssignments_sound {vs : List V} {l : List (List (V × ZMod p))}
    (h : allPossibleAssignments rc vs = .ok l) {a : List (V × ZMod p)} (ha : a ∈ l) :
    (∀ x ∈ a, (rc x.1).Allows x.2) ∧ ∀ v, v ∈ a.map (·.1) ↔ v ∈ vs := by
  unfold allPossibleAssignments at h
  cases hv : allowedValuesOf rc vs with
  | error e => rw [hv] at h; cases h
  | ok ls =>
    rw [hv] at h
    cases h
    obtain ⟨x, hx, rfl⟩ := List.mem_map.1 ha
    obtain ⟨h1, h2⟩ := (allowedValuesOf_spec hv).1 (mem_cartesian.1 hx)
    refine ⟨fun y hy => h2 y (mem_collectAssignment hy), fun v => ?_⟩
    rw [keys_collectAssignment, h1]

theorem allPossibleAssignments_total {vs : List V} (h : ∀ v ∈ vs, (rc v).width < 2 ^ 32) :
    ∃ l, allPossibleAssignments rc vs = .ok l := by
  obtain ⟨ls, hls⟩ := allowedValuesOf_total h
  unfold allPossibleAssignments
  rw [hls]
  exact ⟨_, rfl⟩

/-! ### Substituting an assignment -/

theorem wf_substAssignment (a : List (V × ZMod p)) {e : GExpr p V} (h : WF e) :
    WF (substAssignment a e) := by
  unfold substAssignment
  induction a generalizing e with
  | nil => exact h
  | cons x t ih => exact ih (wf_substKnown x.1 x.2 h)

theorem eval_substAssignment {σ : V → ZMod p} {a : List (V × ZMod p)} (ha : AgreesWith σ a)
    {e : GExpr p V} (h : WF e) : eval σ (substAssignment a e) = eval σ e := by
  unfold substAssignment
  induction a generalizing e with
  | nil => rfl
  | cons x t ih =>
    rw [List.foldl_cons, ih (fun y hy => ha y (by simp [hy])) (wf_substKnown x.1 x.2 h),
      eval_substKnown σ x.1 x.2 h, ← ha x (by simp), Function.update_eq_self]

theorem vars_substAssignment {a : List (V × ZMod p)} {e : GExpr p V} {v : V}
    (h : v ∈ vars (substAssignment a e)) : v ∈ vars e ∧ v ∉ a.map (·.1) := by
  unfold substAssignment at h
  induction a generalizing e with
  | nil => exact ⟨h, by simp⟩
  | cons x t ih =>
    obtain ⟨h1, h2⟩ := ih h
    obtain ⟨h3, h4⟩ := vars_substKnown x.1 x.2 h1
    refine ⟨h3, ?_⟩
    rw [List.map_cons, List.mem_cons, not_or]
    exact ⟨h4, h2⟩

/-! ### Effects under an assignment -/

theorem effect_allows {eff : Effect p V} {σ : V → ZMod p} {x : V × RangeConstraint p}
    (hs : effectToRangeConstraint eff = some x) (hh : eff.Holds σ) : x.2.Allows (σ x.1) := by
  cases eff with
  | assignment w k =>
    simp only [effectToRangeConstraint, Option.some.injEq] at hs
    subst hs
    exact (RangeConstraint.fromValue_allows _ _).2 hh
  | rangeConstraint w r =>
    simp only [effectToRangeConstraint, Option.some.injEq] at hs
    subst hs
    exact (RangeConstraint.allowsValue_iff _ _).1 hh
  | assertion => cases hs
  | conditionalAssignment => cases hs

/-- All its expressions are well-formed. -/
def ConstraintRef.WF : ConstraintRef p V → Prop
  | .alg e => GExpr.WF e
  | .bus b => b.WF

theorem evalAt_map {σ : V → ZMod p} {f : GExpr p V → GExpr p V} {b : BusInteraction (GExpr p V)}
    (h : ∀ e ∈ b.fields, eval σ (f e) = eval σ e) : (b.map f).evalAt σ = b.evalAt σ := by
  unfold BusInteraction.evalAt BusInteraction.map
  simp only [BusInteraction.mk.injEq, List.map_map]
  exact ⟨h _ (by simp [BusInteraction.fields]), h _ (by simp [BusInteraction.fields]),
    List.map_congr_left fun e he => h e (by simp [BusInteraction.fields, he])⟩

theorem busWF_map {f : GExpr p V → GExpr p V} (hf : ∀ e, GExpr.WF e → GExpr.WF (f e))
    {b : BusInteraction (GExpr p V)} (h : b.WF) : (b.map f).WF := by
  intro e he
  rw [fields_map] at he
  obtain ⟨e', he', rfl⟩ := List.mem_map.1 he
  exact hf e' (h e' he')

theorem busInRange_all {σ : V → ZMod p} (hr : ∀ v, (rc v).Allows (σ v))
    (b : BusInteraction (GExpr p V)) : BusInRange rc σ b :=
  fun _ _ => inRange_of_vars fun v _ => hr v

variable {bus : Bus p} {h : Handler p}

theorem solveUnder_spec (hs : h.Sound bus) {a : List (V × ZMod p)} {c : ConstraintRef p V}
    (hw : c.WF) {σ : V → ZMod p} (hr : ∀ v, (rc v).Allows (σ v)) (ha : AgreesWith σ a)
    (hc : c.Holds bus σ) {o : Option (List (Effect p V))} (ho : solveUnder rc h a c = .ok o) :
    ∃ l, o = some l ∧ ∀ eff ∈ l, eff.Holds σ := by
  cases c with
  | alg e =>
    obtain ⟨o', ho', hg⟩ := solve_spec (rc := rc) (wf_substAssignment a hw)
    rw [solveUnder] at ho
    rw [ho'] at ho
    have hir : InRange rc σ (substAssignment a e) := inRange_of_vars fun v _ => hr v
    have h0 : eval σ (substAssignment a e) = 0 := by rw [eval_substAssignment ha hw]; exact hc
    cases o' with
    | error x => exact absurd h0 (hg σ hir)
    | ok r =>
      cases ho
      exact ⟨_, rfl, hg.sound σ hir h0⟩
  | bus b =>
    rw [solveUnder] at ho
    cases hb : solveBus rc h (b.map (substAssignment a)) with
    | error x => rw [hb] at ho; cases ho
    | ok o' =>
      rw [hb] at ho
      have := solveBus_spec hs (busWF_map (fun e => wf_substAssignment a) hw) hb
      have hev : bus ((b.map (substAssignment a)).evalAt σ) := by
        rw [evalAt_map fun e he => eval_substAssignment ha (hw e he)]; exact hc
      cases o' with
      | error x => exact absurd hev (this σ (busInRange_all hr _))
      | ok effects =>
        cases ho
        exact ⟨_, rfl, this σ (busInRange_all hr _) hev⟩

theorem solveUnder_total (hs : h.Sound bus) (ht : h.Total) (a : List (V × ZMod p))
    {c : ConstraintRef p V} (hw : c.WF) : ∃ o, solveUnder rc h a c = .ok o := by
  cases c with
  | alg e =>
    obtain ⟨o', ho', -⟩ := solve_spec (rc := rc) (wf_substAssignment a hw)
    rw [solveUnder]
    rw [ho']
    cases o' with
    | error x => exact ⟨_, rfl⟩
    | ok r => exact ⟨_, rfl⟩
  | bus b =>
    obtain ⟨o', ho'⟩ := solveBus_total (rc := rc) hs ht
      (busWF_map (fun e => wf_substAssignment a) hw)
    rw [solveUnder]
    rw [ho']
    cases o' with
    | error x => exact ⟨_, rfl⟩
    | ok r => exact ⟨_, rfl⟩

theorem solveAllUnder_spec (hs : h.Sound bus) {a : List (V × ZMod p)}
    {cs : List (ConstraintRef p V)} (hw : ∀ c ∈ cs, c.WF) {σ : V → ZMod p}
    (hr : ∀ v, (rc v).Allows (σ v)) (ha : AgreesWith σ a) (hc : ∀ c ∈ cs, c.Holds bus σ)
    {o : Option (List (Effect p V))} (ho : solveAllUnder rc h a cs = .ok o) :
    ∃ l, o = some l ∧ ∀ eff ∈ l, eff.Holds σ := by
  induction cs generalizing o with
  | nil => cases ho; exact ⟨[], rfl, by simp⟩
  | cons c t ih =>
    unfold solveAllUnder at ho
    cases h1 : solveUnder rc h a c with
    | error x => rw [h1] at ho; cases ho
    | ok o1 =>
      obtain ⟨l1, rfl, hl1⟩ := solveUnder_spec hs (hw c (by simp)) hr ha (hc c (by simp)) h1
      rw [h1, ok_bind] at ho
      simp only at ho
      cases h2 : solveAllUnder rc h a t with
      | error x => rw [h2] at ho; cases ho
      | ok o2 =>
        obtain ⟨l2, rfl, hl2⟩ := ih (fun c hc => hw c (by simp [hc]))
          (fun c hc' => hc c (by simp [hc'])) h2
        rw [h2, ok_bind] at ho
        cases ho
        refine ⟨_, rfl, fun eff he => ?_⟩
        rcases List.mem_append.1 he with he | he
        · exact hl1 eff he
        · exact hl2 eff he

theorem solveAllUnder_total (hs : h.Sound bus) (ht : h.Total) (a : List (V × ZMod p))
    {cs : List (ConstraintRef p V)} (hw : ∀ c ∈ cs, c.WF) :
    ∃ o, solveAllUnder rc h a cs = .ok o := by
  induction cs with
  | nil => exact ⟨_, rfl⟩
  | cons c t ih =>
    obtain ⟨o1, h1⟩ := solveUnder_total (rc := rc) hs ht a (hw c (by simp))
    obtain ⟨o2, h2⟩ := ih fun c hc => hw c (by simp [hc])
    unfold solveAllUnder
    rw [h1, ok_bind]
    cases o1 with
    | none => exact ⟨_, rfl⟩
    | some l =>
      simp only [h2, ok_bind]
      cases o2 with
      | none => exact ⟨_, rfl⟩
      | some l' => exact ⟨_, rfl⟩

/-! ### Maps of range constraints -/

/-- All entries allow the value of their variable. -/
def AllAllow (σ : V → ZMod p) (m : List (V × RangeConstraint p)) : Prop :=
  ∀ x ∈ m, x.2.Allows (σ x.1)

theorem insertRc_spec {σ : V → ZMod p} {v : V} {r : RangeConstraint p}
    {m : List (V × RangeConstraint p)} (hm : AllAllow σ m) (hr : r.Allows (σ v)) :
    ∃ m', insertRc v r m = some m' ∧ AllAllow σ m' := by
  induction m with
  | nil => exact ⟨_, rfl, by simpa [AllAllow] using hr⟩
  | cons a t ih =>
    obtain ⟨w, s⟩ := a
    have hs : s.Allows (σ w) := hm (w, s) (by simp)
    have ht : AllAllow σ t := fun x hx => hm x (by simp [hx])
    rw [insertRc]
    split
    · rename_i hvw
      subst hvw
      split
      · rename_i hd
        exact absurd ⟨hs, hr⟩ (RangeConstraint.isDisjoint_sound hd _)
      · refine ⟨_, rfl, fun x hx => ?_⟩
        rcases List.mem_cons.1 hx with rfl | hx
        · exact RangeConstraint.conjunction_allows hs hr
        · exact ht x hx
    · split
      · refine ⟨_, rfl, fun x hx => ?_⟩
        rcases List.mem_cons.1 hx with rfl | hx
        · exact hr
        · exact hm x hx
      · obtain ⟨m', h1, h2⟩ := ih ht
        rw [h1]
        refine ⟨_, rfl, fun x hx => ?_⟩
        rcases List.mem_cons.1 hx with rfl | hx
        · exact hs
        · exact h2 x hx

theorem insertRcs_spec {σ : V → ZMod p} {l m : List (V × RangeConstraint p)}
    (hm : AllAllow σ m) (hl : AllAllow σ l) : ∃ m', insertRcs l m = some m' ∧ AllAllow σ m' := by
  induction l generalizing m with
  | nil => exact ⟨m, rfl, hm⟩
  | cons x t ih =>
    obtain ⟨m1, h1, h2⟩ := insertRc_spec hm (hl x (by simp))
    obtain ⟨m2, h3, h4⟩ := ih h2 fun y hy => hl y (by simp [hy])
    refine ⟨m2, ?_, h4⟩
    rw [insertRcs, h1]
    exact h3

/-! ### Search -/

theorem refAt_mem {s : ConstraintSystem p V} {x : Item} {c : ConstraintRef p V}
    (h : refAt s x = some c) : (∀ e, c = .alg e → e ∈ s.algebraic) ∧ ∀ b, c = .bus b → b ∈ s.bus := by
  cases x with
  | alg i =>
    simp only [refAt, Option.map_eq_some_iff] at h
    obtain ⟨e, he, rfl⟩ := h
    exact ⟨fun e' h => by cases h; exact List.mem_of_getElem? he, fun b h => by cases h⟩
  | bus i =>
    simp only [refAt, Option.map_eq_some_iff] at h
    obtain ⟨e, he, rfl⟩ := h
    exact ⟨fun e' h => (by cases h), fun b h => by cases h; exact List.mem_of_getElem? he⟩
  | derived i => cases h

theorem refAt_wf {s : ConstraintSystem p V} (hw : s.WF) {x : Item} {c : ConstraintRef p V}
    (h : refAt s x = some c) : c.WF := by
  cases c with
  | alg e => exact hw.1 e ((refAt_mem h).1 e rfl)
  | bus b => exact hw.2 b ((refAt_mem h).2 b rfl)

theorem refAt_holds {s : ConstraintSystem p V} {σ : V → ZMod p} (hs : s.Satisfied bus σ) {x : Item}
    {c : ConstraintRef p V} (h : refAt s x = some c) : c.Holds bus σ := by
  cases c with
  | alg e => exact hs.algebraic e ((refAt_mem h).1 e rfl)
  | bus b => exact hs.bus b ((refAt_mem h).2 b rfl)

variable {s : Indexed p V}

theorem deriveNewRangeConstraints_spec (hs : h.Sound bus) (hi : s.Inv) (hw : s.sys.WF)
    {a : List (V × ZMod p)} {σ : V → ZMod p} (hr : ∀ v, (rc v).Allows (σ v))
    (ha : AgreesWith σ a) (hsat : s.sys.Satisfied bus σ)
    {o : Option (List (V × RangeConstraint p))}
    (ho : deriveNewRangeConstraints s a rc h = .ok o) : ∃ m, o = some m ∧ AllAllow σ m := by
  unfold deriveNewRangeConstraints at ho
  rw [Indexed.constraintsReferencing_ok hi, ok_bind] at ho
  cases h1 : solveAllUnder rc h a
      ((s.itemsReferencing (a.map (·.1))).filterMap (refAt s.sys)) with
  | error x => rw [h1] at ho; cases ho
  | ok o1 =>
    obtain ⟨l, rfl, hl⟩ := solveAllUnder_spec hs (fun c hc => by
      obtain ⟨x, -, hx⟩ := List.mem_filterMap.1 hc
      exact refAt_wf hw hx) hr ha (fun c hc => by
      obtain ⟨x, -, hx⟩ := List.mem_filterMap.1 hc
      exact refAt_holds hsat hx) h1
    rw [h1, ok_bind] at ho
    cases ho
    refine insertRcs_spec (by simp [AllAllow]) fun x hx => ?_
    rcases List.mem_append.1 hx with hx | hx
    · obtain ⟨eff, he, hx⟩ := List.mem_filterMap.1 hx
      exact effect_allows hx (hl eff he)
    · obtain ⟨y, hy, rfl⟩ := List.mem_map.1 hx
      exact (RangeConstraint.fromValue_allows _ _).2 (ha y hy)

theorem deriveNewRangeConstraints_total (hs : h.Sound bus) (ht : h.Total) (hi : s.Inv)
    (hw : s.sys.WF) (a : List (V × ZMod p)) :
    ∃ o, deriveNewRangeConstraints s a rc h = .ok o := by
  unfold deriveNewRangeConstraints
  rw [Indexed.constraintsReferencing_ok hi, ok_bind]
  obtain ⟨o, ho⟩ := solveAllUnder_total (rc := rc) hs ht a
    (cs := (s.itemsReferencing (a.map (·.1))).filterMap (refAt s.sys)) (fun c hc => by
      obtain ⟨x, -, hx⟩ := List.mem_filterMap.1 hc
      exact refAt_wf hw hx)
  rw [ho, ok_bind]
  cases o with
  | none => exact ⟨_, rfl⟩
  | some l => exact ⟨_, rfl⟩

theorem deriveAll_mem {as : List (List (V × ZMod p))} {ms : List (List (V × RangeConstraint p))}
    (ho : deriveAll s rc h as = .ok ms) {a : List (V × ZMod p)} (ha : a ∈ as) :
    ∃ o, deriveNewRangeConstraints s a rc h = .ok o ∧ ∀ m, o = some m → m ∈ ms := by
  induction as generalizing ms with
  | nil => cases ha
  | cons b t ih =>
    unfold deriveAll at ho
    cases h1 : deriveNewRangeConstraints s b rc h with
    | error x => rw [h1] at ho; cases ho
    | ok o1 =>
      rw [h1, ok_bind] at ho
      cases h2 : deriveAll s rc h t with
      | error x => rw [h2] at ho; cases ho
      | ok rs =>
        rw [h2] at ho
        cases ho
        rcases List.mem_cons.1 ha with rfl | ha
        · exact ⟨o1, h1, fun m hm => by simp [hm]⟩
        · obtain ⟨o, h3, h4⟩ := ih h2 ha
          exact ⟨o, h3, fun m hm => by simp [h4 m hm]⟩

theorem deriveAll_total (hs : h.Sound bus) (ht : h.Total) (hi : s.Inv) (hw : s.sys.WF)
    (as : List (List (V × ZMod p))) : ∃ ms, deriveAll s rc h as = .ok ms := by
  induction as with
  | nil => exact ⟨_, rfl⟩
  | cons a t ih =>
    obtain ⟨o, ho⟩ := deriveNewRangeConstraints_total (rc := rc) hs ht hi hw a
    obtain ⟨ms, hms⟩ := ih
    unfold deriveAll
    rw [ho, ok_bind, hms]
    exact ⟨_, rfl⟩

theorem disjunctionStep_spec {σ : V → ZMod p} {acc new acc' : List (V × RangeConstraint p)}
    (hh : AllAllow σ acc ∨ AllAllow σ new) (hd : disjunctionStep rc acc new = some acc') :
    AllAllow σ acc' := by
  unfold disjunctionStep at hd
  simp only at hd
  split at hd
  · cases hd
  · cases hd
    intro x hx
    obtain ⟨y, hy, rfl⟩ := List.mem_map.1 (List.mem_filter.1 hx).1
    apply RangeConstraint.disjunction_allows
    rcases hh with hh | hh
    · exact Or.inl (hh y hy)
    · right
      cases hg : getConstraint y.1 new with
      | none => exact RangeConstraint.unconstrained_allows _
      | some r => exact hh _ (getConstraint_mem hg)

theorem disjunctionFold_spec {σ : V → ZMod p} {ms : List (List (V × RangeConstraint p))}
    {acc : List (V × RangeConstraint p)} (hh : AllAllow σ acc ∨ ∃ m ∈ ms, AllAllow σ m) :
    AllAllow σ (disjunctionFold rc ms acc) := by
  induction ms generalizing acc with
  | nil =>
    rcases hh with hh | ⟨m, hm, -⟩
    · exact hh
    · cases hm
  | cons new t ih =>
    rw [disjunctionFold]
    cases hd : disjunctionStep rc acc new with
    | none => intro x hx; cases hx
    | some acc' =>
      apply ih
      rcases hh with hh | ⟨m, hm, hh⟩
      · exact Or.inl (disjunctionStep_spec (Or.inl hh) hd)
      · rcases List.mem_cons.1 hm with rfl | hm
        · exact Or.inl (disjunctionStep_spec (Or.inr hh) hd)
        · exact Or.inr ⟨m, hm, hh⟩

theorem exhaustiveSearchOn_spec (hs : h.Sound bus) (hi : s.Inv) (hw : s.sys.WF) {vs : List V}
    {σ : V → ZMod p} (hr : ∀ v, (rc v).Allows (σ v)) (hsat : s.sys.Satisfied bus σ)
    {o : Except Unit (List (V × RangeConstraint p))} (ho : exhaustiveSearchOn s vs rc h = .ok o) :
    ∃ m, o = .ok m ∧ AllAllow σ m := by
  unfold exhaustiveSearchOn at ho
  cases h1 : allPossibleAssignments rc vs with
  | error x => rw [h1] at ho; cases ho
  | ok as =>
    rw [h1, ok_bind] at ho
    obtain ⟨a, ha, hag, -⟩ := allPossibleAssignments_complete h1 fun v _ => hr v
    cases h2 : deriveAll s rc h as with
    | error x => rw [h2] at ho; cases ho
    | ok ms =>
      rw [h2, ok_bind] at ho
      obtain ⟨o', ho', hmem⟩ := deriveAll_mem h2 ha
      obtain ⟨m, rfl, hm⟩ := deriveNewRangeConstraints_spec hs hi hw hr hag hsat ho'
      have hin := hmem m rfl
      cases ms with
      | nil => cases hin
      | cons first rest =>
        cases ho
        refine ⟨_, rfl, disjunctionFold_spec ?_⟩
        rcases List.mem_cons.1 hin with rfl | hin
        · exact Or.inl hm
        · exact Or.inr ⟨m, hin, hm⟩

theorem exhaustiveSearchOn_total (hs : h.Sound bus) (ht : h.Total) (hi : s.Inv) (hw : s.sys.WF)
    {vs : List V} (hv : ∀ v ∈ vs, (rc v).width < 2 ^ 32) :
    ∃ o, exhaustiveSearchOn s vs rc h = .ok o := by
  obtain ⟨as, has⟩ := allPossibleAssignments_total hv
  obtain ⟨ms, hms⟩ := deriveAll_total (rc := rc) hs ht hi hw as
  unfold exhaustiveSearchOn
  rw [has, ok_bind, hms, ok_bind]
  cases ms with
  | nil => exact ⟨_, rfl⟩
  | cons first rest => exact ⟨_, rfl⟩

/-! ### Candidates -/

theorem isCandidate_width {vs : List V} (h : isCandidate rc vs = true) :
    ∀ v ∈ vs, (rc v).width ≤ maxVarRangeWidth := by
  unfold isCandidate at h
  simp only [Bool.and_eq_true, List.all_eq_true, decide_eq_true_eq] at h
  exact h.2

theorem bruteForceCandidates_width {s : ConstraintSystem p V} {vs : List V}
    (h : vs ∈ bruteForceCandidates s rc) : ∀ v ∈ vs, (rc v).width < 2 ^ 32 := by
  unfold bruteForceCandidates at h
  rw [List.mem_eraseDups, List.mem_filter, List.mem_filterMap] at h
  obtain ⟨⟨ws, -, hc⟩, -⟩ := h
  intro v hv
  have : (rc v).width ≤ maxVarRangeWidth := by
    unfold candidateFor at hc
    split at hc
    · rename_i h
      cases hc
      exact isCandidate_width h v hv
    · simp only at hc
      split at hc
      · rename_i h
        cases hc
        exact isCandidate_width h v hv
      · cases hc
  unfold maxVarRangeWidth at this
  omega

/-! ### Concrete values -/

theorem countAssignments_le {vs : List V} {acc n : ℕ} (hacc : 0 < acc)
    (h : countAssignments rc vs acc = some n) : acc ≤ n ∧ ∀ v ∈ vs, (rc v).width ≤ n := by
  induction vs generalizing acc with
  | nil => cases h; exact ⟨le_rfl, by simp⟩
  | cons v t ih =>
    rw [countAssignments] at h
    split at h
    · have hpos := RangeConstraint.width_pos (rc v)
      obtain ⟨h1, h2⟩ := ih (Nat.mul_pos hacc hpos) h
      refine ⟨le_trans (Nat.le_mul_of_pos_right _ hpos) h1, ?_⟩
      intro w hw
      rcases List.mem_cons.1 hw with rfl | hw
      · exact le_trans (Nat.le_mul_of_pos_left _ hacc) h1
      · exact h2 w hw
    · cases h

theorem hasFew_width {vs : List V} {n : ℕ} (h : hasFewPossibleAssignments rc vs n = true) :
    ∀ v ∈ vs, (rc v).width ≤ n := by
  unfold hasFewPossibleAssignments at h
  cases hc : countAssignments rc vs 1 with
  | none => rw [hc] at h; cases h
  | some k =>
    rw [hc] at h
    simp only [decide_eq_true_eq] at h
    exact fun v hv => ((countAssignments_le one_pos hc).2 v hv).trans h

theorem known_of_no_vars {e : GExpr p V} (hw : WF e) (h : ∀ v, v ∉ vars e) :
    ∃ k, e.tryToKnown = some k := by
  induction e using GExpr.ind with
  | h q l c ih =>
    rcases q with _ | ⟨ab, q⟩
    · rcases l with _ | ⟨x, l⟩
      · exact ⟨c, rfl⟩
      · exact absurd (mem_vars_mk.2 (Or.inr ⟨x.2, by simp⟩)) (h x.1)
    · obtain ⟨h1, -, h3, -⟩ := (wf_inv hw).1 ab (by simp)
      obtain ⟨k, hk⟩ := (ih ab (by simp)).1 h1 fun v hv =>
        h v (mem_vars_mk.2 (Or.inl ⟨ab, by simp, Or.inl hv⟩))
      rw [h3] at hk
      cases hk

theorem concreteValues_spec {e : GExpr p V} {as : List (List (V × ZMod p))} {l : List (ZMod p)}
    (h : concreteValues e as = .ok l) (x : ZMod p) :
    x ∈ l ↔ ∃ a ∈ as, (substAssignment a e).tryToKnown = some x := by
  induction as generalizing l with
  | nil => cases h; simp
  | cons a t ih =>
    unfold concreteValues at h
    cases hk : (substAssignment a e).tryToKnown with
    | none => rw [hk] at h; cases h
    | some k =>
      rw [hk] at h
      simp only at h
      cases ht : concreteValues e t with
      | error y => rw [ht] at h; cases h
      | ok r =>
        rw [ht] at h
        cases h
        simp only [List.mem_cons, ih ht, exists_eq_or_imp, hk, Option.some.injEq, eq_comm (a := x)]

theorem concreteValues_total {e : GExpr p V} (hw : WF e) {as : List (List (V × ZMod p))}
    (h : ∀ a ∈ as, ∀ v ∈ vars e, v ∈ a.map (·.1)) : ∃ l, concreteValues e as = .ok l := by
  induction as with
  | nil => exact ⟨_, rfl⟩
  | cons a t ih =>
    obtain ⟨l, hl⟩ := ih fun a ha => h a (by simp [ha])
    obtain ⟨k, hk⟩ := known_of_no_vars (wf_substAssignment a hw) (fun v hv => by
      obtain ⟨h1, h2⟩ := vars_substAssignment hv
      exact h2 (h a (by simp) v h1))
    unfold concreteValues
    rw [hk]
    simp only [hl]
    exact ⟨_, rfl⟩

theorem possibleConcreteValues_spec {e : GExpr p V} (hw : WF e) {n : ℕ} {l : List (ZMod p)}
    (ho : possibleConcreteValues rc e n = .ok (some l)) (x : ZMod p) :
    (∀ σ, (∀ v ∈ vars e, (rc v).Allows (σ v)) → eval σ e = x → x ∈ l) := by
  intro σ hr hx
  unfold possibleConcreteValues at ho
  split at ho
  · cases h1 : allPossibleAssignments rc e.vars with
    | error y => rw [h1] at ho; cases ho
    | ok as =>
      rw [h1, ok_bind] at ho
      cases h2 : concreteValues e as with
      | error y => rw [h2] at ho; cases ho
      | ok r =>
        rw [h2] at ho
        cases ho
        obtain ⟨a, ha, hag, hkeys⟩ := allPossibleAssignments_complete h1 hr
        obtain ⟨k, hk⟩ := known_of_no_vars (wf_substAssignment a hw) (fun v hv => by
          obtain ⟨h3, h4⟩ := vars_substAssignment hv
          exact h4 ((hkeys v).2 h3))
        refine (concreteValues_spec h2 x).2 ⟨a, ha, ?_⟩
        rw [hk, ← eval_known σ hk, eval_substAssignment hag hw, hx]
  · cases ho

theorem sorted_collectAssignment (l : List (V × ZMod p)) :
    (collectAssignment l).Pairwise fun e f => e.1 < f.1 := by
  unfold collectAssignment
  have : ∀ m : List (V × ZMod p), (m.Pairwise fun e f => e.1 < f.1) →
      (l.foldl (fun m e => insertEntry e.1 e.2 m) m).Pairwise fun e f => e.1 < f.1 := by
    induction l with
    | nil => exact fun m hm => hm
    | cons x t ih => exact fun m hm => ih _ (sorted_insertEntry hm)
  exact this [] .nil

theorem allPossibleAssignments_sorted {vs : List V} {l : List (List (V × ZMod p))}
    (h : allPossibleAssignments rc vs = .ok l) {a : List (V × ZMod p)} (ha : a ∈ l) :
    a.Pairwise fun e f => e.1 < f.1 := by
  unfold allPossibleAssignments at h
  cases hv : allowedValuesOf rc vs with
  | error e => rw [hv] at h; cases h
  | ok ls =>
    rw [hv] at h
    cases h
    obtain ⟨x, hx, rfl⟩ := List.mem_map.1 ha
    exact sorted_collectAssignment x

theorem possibleConcreteValues_exact {e : GExpr p V} (hw : WF e) {n : ℕ} {l : List (ZMod p)}
    (ho : possibleConcreteValues rc e n = .ok (some l)) {x : ZMod p} (hx : x ∈ l) :
    ∃ σ, (∀ v ∈ vars e, (rc v).Allows (σ v)) ∧ eval σ e = x := by
  unfold possibleConcreteValues at ho
  split at ho
  · cases h1 : allPossibleAssignments rc e.vars with
    | error y => rw [h1] at ho; cases ho
    | ok as =>
      rw [h1, ok_bind] at ho
      cases h2 : concreteValues e as with
      | error y => rw [h2] at ho; cases ho
      | ok r =>
        rw [h2] at ho
        cases ho
        obtain ⟨a, ha, hk⟩ := (concreteValues_spec h2 x).1 hx
        obtain ⟨h3, h4⟩ := allPossibleAssignments_sound h1 ha
        have hsort := allPossibleAssignments_sorted h1 ha
        have hl : ∀ y ∈ a, (Linear.lookup y.1 a).getD 0 = y.2 := by
          intro y hy
          rw [lookup_of_mem hsort (show (y.1, y.2) ∈ a from hy)]
          rfl
        refine ⟨fun v => (Linear.lookup v a).getD 0, ?_, ?_⟩
        · intro v hv
          obtain ⟨y, hy, rfl⟩ := List.mem_map.1 ((h4 v).2 hv)
          show (rc y.1).Allows ((Linear.lookup y.1 a).getD 0)
          rw [hl y hy]
          exact h3 y hy
        · rw [← eval_substAssignment (a := a) (fun y hy => hl y hy) hw, eval_known _ hk]
  · cases ho

theorem possibleConcreteValues_total {e : GExpr p V} (hw : WF e) {n : ℕ} (hn : n < 2 ^ 32) :
    ∃ o, possibleConcreteValues rc e n = .ok o := by
  unfold possibleConcreteValues
  split
  · rename_i hf
    obtain ⟨as, h1⟩ := allPossibleAssignments_total (rc := rc) (vs := e.vars)
      fun v hv => lt_of_le_of_lt (hasFew_width hf v hv) hn
    obtain ⟨l, h2⟩ := concreteValues_total hw (as := as) fun a ha v hv =>
      ((allPossibleAssignments_sound h1 ha).2 v).2 hv
    rw [h1, ok_bind, h2]
    exact ⟨_, rfl⟩
  · exact ⟨_, rfl⟩

end Verif
