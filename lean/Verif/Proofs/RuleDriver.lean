import Verif.Spec.RuleDriver
import Verif.Proofs.ConstraintSystem
import Verif.Proofs.ItemDB
import Verif.Proofs.RuleReplacements
import Verif.Proofs.Derived
import Mathlib.Data.Finset.Card
import Mathlib.Data.List.Forall2

/-! # Proofs about the rule driver -/

set_option linter.unusedSectionVars false

namespace Verif

open RangeConstraint GExpr

variable {p : ℕ} {V : Type} [LinearOrder V]

/-! ### Degrees -/

theorem foldl_natMax_le {l : List ℕ} {a n : ℕ} : l.foldl Nat.max a ≤ n ↔ a ≤ n ∧ ∀ x ∈ l, x ≤ n := by
  induction l generalizing a with
  | nil => simp
  | cons x t ih =>
    rw [List.foldl_cons, ih]
    simp only [List.mem_cons, forall_eq_or_imp, Nat.max_def]
    constructor
    · rintro ⟨h, h'⟩; refine ⟨?_, ?_, h'⟩ <;> split at h <;> omega
    · rintro ⟨h, h', h''⟩; refine ⟨?_, h''⟩; split <;> omega

theorem maxDegree_le {es : List (GExpr p V)} {n : ℕ} :
    maxDegree es ≤ n ↔ ∀ e ∈ es, degree e ≤ n := by
  unfold maxDegree
  rw [foldl_natMax_le]
  simp

theorem maxDegree_attained (es : List (GExpr p V)) :
    maxDegree es = 0 ∨ ∃ e ∈ es, degree e = maxDegree es := by
  by_contra hc
  simp only [not_or, not_exists, not_and] at hc
  have : maxDegree es ≤ maxDegree es - 1 := by
    rw [maxDegree_le]
    intro e he
    have h1 := hc.2 e he
    have h2 := maxDegree_le.1 le_rfl e he
    omega
  omega

theorem le_maxDegree {es : List (GExpr p V)} {n : ℕ} :
    n ≤ maxDegree es ↔ n = 0 ∨ ∃ e ∈ es, n ≤ degree e := by
  constructor
  · intro h
    rcases maxDegree_attained es with h0 | ⟨e, he, h0⟩
    · left; omega
    · right; exact ⟨e, he, by omega⟩
  · rintro (rfl | ⟨e, he, h⟩)
    · omega
    · exact h.trans (maxDegree_le.1 le_rfl e he)

/-! ### The batch -/

theorem replacementFound_length {cs : List (GExpr p V)} {r : ReplacementAction p V}
    (hr : r.replace.Nodup) :
    (replacementFound cs r).length = r.replace.length ↔ ∀ e ∈ r.replace, e ∈ cs := by
  have h1 : (replacementFound cs r).length = (replacementFound cs r).toFinset.card := by
    rw [List.toFinset_card_of_nodup]; exact List.nodup_dedup _
  have h2 : r.replace.length = r.replace.toFinset.card := by
    rw [List.toFinset_card_of_nodup hr]
  have hsub : (replacementFound cs r).toFinset ⊆ r.replace.toFinset := by
    intro e he
    simp only [replacementFound, List.mem_toFinset, List.mem_dedup, List.mem_filter,
      decide_eq_true_eq] at he ⊢
    exact he.2
  constructor
  · intro h e he
    have heq := Finset.eq_of_subset_of_card_le hsub (by omega)
    have : e ∈ (replacementFound cs r).toFinset := by rw [heq]; simpa using he
    simp only [replacementFound, List.mem_toFinset, List.mem_dedup, List.mem_filter] at this
    exact this.1
  · intro h
    rw [h1, h2]
    congr 1
    apply Finset.Subset.antisymm hsub
    intro e he
    simp only [List.mem_toFinset] at he
    simp only [replacementFound, List.mem_toFinset, List.mem_dedup, List.mem_filter,
      decide_eq_true_eq]
    exact ⟨h e he, he⟩

/-- Which replacements the loop accepts. -/
theorem batchLoop_spec (cs : List (GExpr p V)) (rs : List (ReplacementAction p V))
    (hrs : ∀ r ∈ rs, r.replace.Nodup) (remove add : List (GExpr p V)) :
    ∃ acc : List (ReplacementAction p V), acc.Sublist rs ∧
      batchLoop cs rs (remove, add) =
        (remove ++ acc.flatMap (·.replace), add ++ acc.flatMap (·.replaceBy)) ∧
      (∀ r ∈ acc, (∀ e ∈ r.replace, e ∈ cs) ∧ ∀ e ∈ r.replace, e ∉ remove) ∧
      acc.Pairwise (fun a b => ∀ e ∈ a.replace, e ∉ b.replace) ∧
      ∀ r ∈ rs, (∀ e ∈ r.replace, e ∈ cs) →
        (∀ e ∈ r.replace, e ∉ remove ∧ ∀ a ∈ acc, e ∉ a.replace) → r ∈ acc := by
  induction rs generalizing remove add with
  | nil => exact ⟨[], by simp [batchLoop]⟩
  | cons r rs ih =>
    have hnd := hrs r (by simp)
    have hrs' : ∀ r ∈ rs, r.replace.Nodup := fun r h => hrs r (by simp [h])
    have skip : ¬ ((∀ e ∈ r.replace, e ∈ cs) ∧ ∀ e ∈ r.replace, e ∉ remove) →
        batchLoop cs (r :: rs) (remove, add) = batchLoop cs rs (remove, add) →
        ∃ acc : List (ReplacementAction p V), acc.Sublist (r :: rs) ∧
          batchLoop cs (r :: rs) (remove, add) =
            (remove ++ acc.flatMap (·.replace), add ++ acc.flatMap (·.replaceBy)) ∧
          (∀ r ∈ acc, (∀ e ∈ r.replace, e ∈ cs) ∧ ∀ e ∈ r.replace, e ∉ remove) ∧
          acc.Pairwise (fun a b => ∀ e ∈ a.replace, e ∉ b.replace) ∧
          ∀ r' ∈ r :: rs, (∀ e ∈ r'.replace, e ∈ cs) →
            (∀ e ∈ r'.replace, e ∉ remove ∧ ∀ a ∈ acc, e ∉ a.replace) → r' ∈ acc := by
      intro hno heq
      obtain ⟨acc, h1, h2, h3, h4, h5⟩ := ih hrs' remove add
      refine ⟨acc, h1.cons _, heq ▸ h2, h3, h4, ?_⟩
      intro r' hr' ha hb
      rcases List.mem_cons.1 hr' with rfl | hr'
      · exact absurd ⟨ha, fun e he => (hb e he).1⟩ hno
      · exact h5 r' hr' ha hb
    by_cases hf : ∀ e ∈ r.replace, e ∈ cs
    · by_cases hc : ∀ e ∈ r.replace, e ∉ remove
      · obtain ⟨acc, h1, h2, h3, h4, h5⟩ := ih hrs' (remove ++ r.replace) (add ++ r.replaceBy)
        have hstep : batchLoop cs (r :: rs) (remove, add)
            = batchLoop cs rs (remove ++ r.replace, add ++ r.replaceBy) := by
          rw [batchLoop, if_neg (by simpa using (replacementFound_length hnd).2 hf),
            if_neg (by simpa using hc)]
        refine ⟨r :: acc, h1.cons_cons _, ?_, ?_, ?_, ?_⟩
        · rw [hstep, h2]; simp
        · intro r' hr'
          rcases List.mem_cons.1 hr' with rfl | hr'
          · exact ⟨hf, hc⟩
          · refine ⟨(h3 r' hr').1, fun e he hm => (h3 r' hr').2 e he ?_⟩
            simp [hm]
        · rw [List.pairwise_cons]
          refine ⟨fun b hb e he hm => (h3 b hb).2 e hm ?_, h4⟩
          simp [he]
        · intro r' hr' ha hb
          rcases List.mem_cons.1 hr' with rfl | hr'
          · simp
          · refine List.mem_cons_of_mem _ (h5 r' hr' ha fun e he => ⟨?_, fun a ha' =>
              (hb e he).2 a (by simp [ha'])⟩)
            rw [List.mem_append, not_or]
            exact ⟨(hb e he).1, (hb e he).2 r (by simp)⟩
      · refine skip (fun h => hc h.2) ?_
        rw [batchLoop, if_neg (by simpa using (replacementFound_length hnd).2 hf),
          if_pos (by simpa using hc)]
    · refine skip (fun h => hf h.1) ?_
      rw [batchLoop, if_pos (fun h => hf ((replacementFound_length hnd).1 h))]

/-- The valid replacements come from requested ones. -/
theorem batchReplace_spec (s : ConstraintSystem p V) (rs : List (ReplacementAction p V))
    (bound : Option DegreeBound) :
    ∃ acc : List (ReplacementAction p V), acc.Sublist rs ∧
      ((batchReplace s rs bound).2 =
        ⟨(s.algebraic.filter fun c => ∀ a ∈ acc, c ∉ a.replace) ++ acc.flatMap (·.replaceBy),
          s.bus, s.derived⟩) ∧
      ((batchReplace s rs bound).1 = true ↔ ∃ a ∈ acc, a.replace ≠ []) ∧
      ((batchReplace s rs bound).1 = false → acc = []) ∧
      (∀ r ∈ acc, r.withinDegreeBound bound = true ∧ ∀ e ∈ r.replace, e ∈ s.algebraic) ∧
      acc.Pairwise (fun a b => ∀ e ∈ a.replace, e ∉ b.replace) ∧
      ∀ r ∈ rs, r.withinDegreeBound bound = true → r.replace ≠ [] →
        (∀ e ∈ r.replace, e ∈ s.algebraic) →
        ∃ a ∈ acc, ∃ e ∈ r.replace, e ∈ a.replace := by
  have hnd : ∀ r ∈ validReplacements rs bound, r.replace.Nodup := by
    intro r hr
    simp only [validReplacements, List.mem_map, List.mem_filter] at hr
    obtain ⟨r', _, rfl⟩ := hr
    exact List.nodup_dedup _
  obtain ⟨acc', h1, h2, h3, h4, h5⟩ := batchLoop_spec s.algebraic (validReplacements rs bound) hnd
    [] []
  rw [validReplacements, List.sublist_map_iff] at h1
  obtain ⟨acc, h1, rfl⟩ := h1
  have hrem : ∀ c : GExpr p V,
      c ∈ ((acc.map fun r => (⟨r.replace.dedup, r.replaceBy⟩ : ReplacementAction p V)).flatMap
        (·.replace)) ↔ ∃ a ∈ acc, c ∈ a.replace := by
    intro c; simp [List.mem_flatMap]
  have hadd : ((acc.map fun r => (⟨r.replace.dedup, r.replaceBy⟩ : ReplacementAction p V)).flatMap
        (·.replaceBy)) = acc.flatMap (·.replaceBy) := by
    rw [List.flatMap_map]
  simp only [List.nil_append, hadd] at h2
  have hsub : acc.Sublist rs := h1.trans List.filter_sublist
  have hacc : ∀ r ∈ acc, r.withinDegreeBound bound = true ∧ ∀ e ∈ r.replace, e ∈ s.algebraic := by
    intro r hr
    refine ⟨(List.mem_filter.1 (h1.subset hr)).2, fun e he => ?_⟩
    exact (h3 _ (List.mem_map_of_mem hr)).1 e (by simpa using he)
  have hpw : acc.Pairwise (fun a b => ∀ e ∈ a.replace, e ∉ b.replace) := by
    have := List.pairwise_map.1 h4
    exact this.imp (by simp)
  have hmax : ∀ r ∈ rs, r.withinDegreeBound bound = true →
        (∀ e ∈ r.replace, e ∈ s.algebraic) →
        (∀ e ∈ r.replace, ∀ a ∈ acc, e ∉ a.replace) →
        (⟨r.replace.dedup, r.replaceBy⟩ : ReplacementAction p V) ∈
          acc.map fun r => (⟨r.replace.dedup, r.replaceBy⟩ : ReplacementAction p V) := by
    intro r hr hb ha hd
    refine h5 _ (List.mem_map_of_mem (List.mem_filter.2 ⟨hr, hb⟩)) (by simpa using ha) ?_
    simpa using hd
  -- a replacement with a left hand side that is claimed by nobody cannot exist
  have hmem : ∀ r ∈ rs, r.withinDegreeBound bound = true → r.replace ≠ [] →
        (∀ e ∈ r.replace, e ∈ s.algebraic) →
        ¬ (∀ e ∈ r.replace, ∀ a ∈ acc, e ∉ a.replace) := by
    intro r hr hb hne ha hd
    obtain ⟨e, he⟩ := List.exists_mem_of_ne_nil _ hne
    obtain ⟨a, ha', heq⟩ := List.mem_map.1 (hmax r hr hb ha hd)
    have : e ∈ a.replace := by
      have h := congrArg ReplacementAction.replace heq
      simp only at h
      have : e ∈ a.replace.dedup := by rw [h]; simpa using he
      simpa using this
    exact hd e he a ha' this
  unfold batchReplace
  rw [h2]
  simp only
  split
  · rename_i hemp
    rw [List.isEmpty_iff] at hemp
    have hnone : ∀ a ∈ acc, a.replace = [] := by
      intro a ha
      by_contra hne
      obtain ⟨e, he⟩ := List.exists_mem_of_ne_nil _ hne
      have := (hrem e).2 ⟨a, ha, he⟩
      rw [hemp] at this; simp at this
    refine ⟨[], by simp, by simp, by simp, by simp, by simp, by simp, ?_⟩
    intro r hr hb hne ha
    refine absurd ?_ (hmem r hr hb hne ha)
    intro e he a ha'
    rw [hnone a ha']; simp
  · rename_i hemp
    refine ⟨acc, hsub, ?_, ?_, by simp, hacc, hpw, fun r hr hb hne ha => ?_⟩
    · simp only
      congr 2
      apply List.filter_congr
      intro c _
      rw [decide_eq_decide, hrem]
      simp
    · simp only [true_iff]
      rw [List.isEmpty_iff] at hemp
      obtain ⟨e, he⟩ := List.exists_mem_of_ne_nil _ hemp
      obtain ⟨a, ha, he⟩ := (hrem e).1 he
      exact ⟨a, ha, List.ne_nil_of_mem he⟩
    · by_contra hno
      exact hmem r hr hb hne ha fun e he a ha' hm => hno ⟨a, ha', e, he, hm⟩

theorem satisfied_batchReplace {bus : Bus p} {s : ConstraintSystem p V} {σ : V → ZMod p}
    {rs : List (ReplacementAction p V)} {bound : Option DegreeBound}
    (h : ∀ r ∈ rs, AllZero σ r.replace → AllZero σ r.replaceBy) (hs : s.Satisfied bus σ) :
    (batchReplace s rs bound).2.Satisfied bus σ := by
  obtain ⟨acc, h1, h2, -, -, h3, -⟩ := batchReplace_spec s rs bound
  rw [h2]
  refine ⟨fun e he => ?_, hs.bus⟩
  simp only [List.mem_append, List.mem_filter, List.mem_flatMap] at he
  rcases he with he | ⟨r, hr, he⟩
  · exact hs.algebraic e he.1
  · exact h r (h1.subset hr) (fun e he => hs.algebraic e ((h3 r hr).2 e he)) e he

theorem satisfied_of_batchReplace {bus : Bus p} {s : ConstraintSystem p V} {σ : V → ZMod p}
    {rs : List (ReplacementAction p V)} {bound : Option DegreeBound}
    (h : ∀ r ∈ rs, AllZero σ r.replaceBy → AllZero σ r.replace)
    (hs : (batchReplace s rs bound).2.Satisfied bus σ) : s.Satisfied bus σ := by
  obtain ⟨acc, h1, h2, -, -, h3, -⟩ := batchReplace_spec s rs bound
  rw [h2] at hs
  refine ⟨fun e he => ?_, hs.bus⟩
  by_cases hc : ∃ a ∈ acc, e ∈ a.replace
  · obtain ⟨a, ha, hm⟩ := hc
    exact h a (h1.subset ha) (fun f hf => hs.algebraic f (by
      simp only [List.mem_append, List.mem_flatMap]
      exact Or.inr ⟨a, ha, hf⟩)) e hm
  · refine hs.algebraic e ?_
    simp only [List.mem_append, List.mem_filter, decide_eq_true_eq]
    exact Or.inl ⟨he, fun a ha hm => hc ⟨a, ha, hm⟩⟩

theorem wf_batchReplace {s : ConstraintSystem p V}
    {rs : List (ReplacementAction p V)} {bound : Option DegreeBound}
    (h : ∀ r ∈ rs, ∀ e ∈ r.replaceBy, GExpr.WF e) (hs : s.WF) :
    (batchReplace s rs bound).2.WF := by
  obtain ⟨acc, h1, h2, -⟩ := batchReplace_spec s rs bound
  rw [h2]
  refine ⟨fun e he => ?_, hs.2⟩
  simp only [List.mem_append, List.mem_filter, List.mem_flatMap] at he
  rcases he with he | ⟨r, hr, he⟩
  · exact hs.1 e he.1
  · exact h r (h1.subset hr) e he

/-! ### Actions -/

section Actions

variable [Fact p.Prime]

theorem satisfied_mapExprs {bus : Bus p} {s : ConstraintSystem p V} {σ : V → ZMod p}
    {f : GExpr p V → GExpr p V} (hf : ∀ e, GExpr.WF e → eval σ (f e) = eval σ e) (hs : s.WF) :
    (s.mapExprs f).Satisfied bus σ ↔ s.Satisfied bus σ := by
  have hb : ∀ b ∈ s.bus, (b.map f).evalAt σ = b.evalAt σ := by
    intro b hb
    have hw := hs.2 b hb
    unfold BusInteraction.WF BusInteraction.fields at hw
    simp only [List.mem_cons, forall_eq_or_imp] at hw
    unfold BusInteraction.evalAt BusInteraction.map
    simp only [hf _ hw.1, hf _ hw.2.1, List.map_map, BusInteraction.mk.injEq, true_and]
    exact List.map_congr_left fun e he => hf e (hw.2.2 e he)
  constructor
  · intro h
    refine ⟨fun e he => ?_, fun b hb' => ?_⟩
    · rw [← hf e (hs.1 e he)]
      exact h.algebraic _ (List.mem_map_of_mem he)
    · rw [← hb b hb']
      exact h.bus _ (List.mem_map_of_mem hb')
  · intro h
    refine ⟨fun e he => ?_, fun b hb' => ?_⟩
    · obtain ⟨e, he', rfl⟩ := List.mem_map.1 he
      rw [hf e (hs.1 e he')]
      exact h.algebraic _ he'
    · obtain ⟨b, hb'', rfl⟩ := List.mem_map.1 hb'
      rw [hb b hb'']
      exact h.bus _ hb''

theorem wf_mapExprs {s : ConstraintSystem p V} {f : GExpr p V → GExpr p V}
    (hf : ∀ e, GExpr.WF e → GExpr.WF (f e)) (hs : s.WF) : (s.mapExprs f).WF := by
  refine ⟨fun e he => ?_, fun b hb => ?_⟩
  · obtain ⟨e, he', rfl⟩ := List.mem_map.1 he
    exact hf e (hs.1 e he')
  · obtain ⟨b, hb', rfl⟩ := List.mem_map.1 hb
    intro e he
    rw [fields_map] at he
    obtain ⟨e, he', rfl⟩ := List.mem_map.1 he
    exact hf e (hs.2 b hb' e he')

theorem eval_substKnown_of_eq {σ : V → ZMod p} {v : V} {k : ZMod p} (h : σ v = k)
    (e : GExpr p V) (he : GExpr.WF e) : eval σ (substKnown v k e) = eval σ e := by
  rw [eval_substKnown σ v k he, ← h, Function.update_eq_self]

theorem eval_substVar_of_eq {σ : V → ZMod p} {v w : V} (h : σ v = σ w)
    (e : GExpr p V) (_ : GExpr.WF e) : eval σ (subst v (var w) e) = eval σ e := by
  rw [eval_subst σ v _ e, eval_var, ← h, Function.update_eq_self]

/-- What an action claims about a solution. -/
def RuleAction.Holds (σ : V → ZMod p) : RuleAction p V → Prop
  | .updateRange v rc => rc.allowsValue (σ v) = true
  | .substituteByConstant v k => σ v = k
  | .substituteByVariable v w => σ v = σ w

/-- The invariant of the loop for one solution. -/
structure DriverState.Good (bus : Bus p) (σ : V → ZMod p) (st : DriverState p V) : Prop where
  sat : st.system.Satisfied bus σ
  ranges : VarRangesHold σ st.ranges
  assignments : AssignmentsHold σ st.assignments

theorem mem_mapInsert {K W : Type} [DecidableEq K] {k : K} {w : W} {m : List (K × W)} {x : K × W}
    (h : x ∈ mapInsert k w m) : x = (k, w) ∨ x ∈ m := by
  induction m with
  | nil => simpa [mapInsert] using h
  | cons a t ih =>
    rw [mapInsert] at h
    split at h
    · rcases List.mem_cons.1 h with h | h
      · exact Or.inl h
      · exact Or.inr (by simp [h])
    · rcases List.mem_cons.1 h with h | h
      · exact Or.inr (by simp [h])
      · rcases ih h with h | h
        · exact Or.inl h
        · exact Or.inr (by simp [h])

theorem mem_of_mapGet {K W : Type} [DecidableEq K] {k : K} {w : W} {m : List (K × W)}
    (h : mapGet k m = some w) : (k, w) ∈ m := by
  induction m with
  | nil => simp [mapGet] at h
  | cons a t ih =>
    rw [mapGet] at h
    split at h
    · rename_i heq
      simp only [Option.some.injEq] at h
      simp [heq, ← h]
    · simp [ih h]

theorem assignmentsHold_append {σ : V → ZMod p} {as bs : List (V × GExpr p V)} :
    AssignmentsHold σ (as ++ bs) ↔ AssignmentsHold σ as ∧ AssignmentsHold σ bs := by
  simp only [AssignmentsHold, List.mem_append, or_imp, forall_and]

theorem assignmentsHold_single {σ : V → ZMod p} {v : V} {e : GExpr p V} :
    AssignmentsHold σ [(v, e)] ↔ σ v = eval σ e := by
  simp [AssignmentsHold]

theorem wf_applyAction {st : DriverState p V} (hw : st.system.WF) (a : RuleAction p V) :
    (applyAction st a).system.WF := by
  cases a with
  | updateRange v rc =>
    simp only [applyAction]
    split
    · split
      · exact wf_mapExprs (fun e he => wf_substKnown _ _ he) hw
      · exact hw
    · exact hw
  | substituteByConstant v k => exact wf_mapExprs (fun e he => wf_substKnown _ _ he) hw
  | substituteByVariable v w => exact wf_mapExprs (fun e he => wf_subst _ (wf_var w) he) hw

theorem good_applyAction {bus : Bus p} {σ : V → ZMod p} {st : DriverState p V}
    (hw : st.system.WF) (h : st.Good bus σ) {a : RuleAction p V} (ha : a.Holds σ) :
    (applyAction st a).Good bus σ := by
  cases a with
  | updateRange v rc =>
    have hnew : (((mapGet v st.ranges).getD unconstrained).conjunction rc).Allows (σ v) := by
      refine conjunction_allows ?_ ((allowsValue_iff _ _).1 ha)
      cases hg : mapGet v st.ranges with
      | none => exact unconstrained_allows _
      | some r => exact (allowsValue_iff _ _).1 (h.ranges _ (mem_of_mapGet hg))
    simp only [applyAction]
    split
    · split
      · rename_i val hval
        have hv := (tryToSingleValue_eq_some hval _).1 hnew
        exact ⟨(satisfied_mapExprs (eval_substKnown_of_eq hv) hw).2 h.sat, h.ranges,
          assignmentsHold_append.2 ⟨h.assignments, by
            rw [assignmentsHold_single, eval_const]; exact hv⟩⟩
      · refine ⟨h.sat, fun x hx => ?_, h.assignments⟩
        rcases mem_mapInsert hx with rfl | hx
        · exact (allowsValue_iff _ _).2 hnew
        · exact h.ranges x hx
    · exact h
  | substituteByConstant v k =>
    exact ⟨(satisfied_mapExprs (eval_substKnown_of_eq ha) hw).2 h.sat, h.ranges,
      assignmentsHold_append.2 ⟨h.assignments, by
        rw [assignmentsHold_single, eval_const]; exact ha⟩⟩
  | substituteByVariable v w =>
    exact ⟨(satisfied_mapExprs (eval_substVar_of_eq ha) hw).2 h.sat, h.ranges,
      assignmentsHold_append.2 ⟨h.assignments, by
        rw [assignmentsHold_single, eval_var]; exact ha⟩⟩

theorem of_applyAction {bus : Bus p} {σ : V → ZMod p} {st : DriverState p V}
    (hw : st.system.WF) {a : RuleAction p V} (hs : (applyAction st a).system.Satisfied bus σ)
    (ha : AssignmentsHold σ (applyAction st a).assignments) :
    st.system.Satisfied bus σ ∧ AssignmentsHold σ st.assignments := by
  cases a with
  | updateRange v rc =>
    simp only [applyAction] at hs ha
    split at hs
    · rename_i hne
      rw [if_pos hne] at ha
      split at hs
      · rename_i val hval
        rw [hval] at ha
        simp only at ha hs
        rw [assignmentsHold_append, assignmentsHold_single, eval_const] at ha
        exact ⟨(satisfied_mapExprs (eval_substKnown_of_eq ha.2) hw).1 hs, ha.1⟩
      · rename_i hval
        rw [hval] at ha
        exact ⟨hs, ha⟩
    · rename_i hne
      rw [if_neg hne] at ha
      exact ⟨hs, ha⟩
  | substituteByConstant v k =>
    simp only [applyAction] at hs ha
    rw [assignmentsHold_append, assignmentsHold_single, eval_const] at ha
    exact ⟨(satisfied_mapExprs (eval_substKnown_of_eq ha.2) hw).1 hs, ha.1⟩
  | substituteByVariable v w =>
    simp only [applyAction] at hs ha
    rw [assignmentsHold_append, assignmentsHold_single, eval_var] at ha
    exact ⟨(satisfied_mapExprs (eval_substVar_of_eq ha.2) hw).1 hs, ha.1⟩

theorem wf_foldl_applyAction {st : DriverState p V} (hw : st.system.WF)
    (as : List (RuleAction p V)) : (as.foldl applyAction st).system.WF := by
  induction as generalizing st with
  | nil => exact hw
  | cons a t ih => exact ih (wf_applyAction hw a)

theorem good_foldl_applyAction {bus : Bus p} {σ : V → ZMod p} {st : DriverState p V}
    (hw : st.system.WF) (h : st.Good bus σ) {as : List (RuleAction p V)}
    (ha : ∀ a ∈ as, a.Holds σ) : (as.foldl applyAction st).Good bus σ := by
  induction as generalizing st with
  | nil => exact h
  | cons a t ih =>
    exact ih (wf_applyAction hw a) (good_applyAction hw h (ha a (by simp)))
      fun b hb => ha b (by simp [hb])

theorem of_foldl_applyAction {bus : Bus p} {σ : V → ZMod p} {st : DriverState p V}
    (hw : st.system.WF) {as : List (RuleAction p V)}
    (hs : (as.foldl applyAction st).system.Satisfied bus σ)
    (ha : AssignmentsHold σ (as.foldl applyAction st).assignments) :
    st.system.Satisfied bus σ ∧ AssignmentsHold σ st.assignments := by
  induction as generalizing st with
  | nil => exact ⟨hs, ha⟩
  | cons a t ih =>
    have := ih (wf_applyAction hw a) hs ha
    exact of_applyAction hw this.1 this.2

/-! ### The input of a round -/

theorem busRanges_spec {rc : V → RangeConstraint p} {h : Handler p} {bus : Bus p}
    (hh : h.Sound bus) {σ : V → ZMod p} (hrc : ∀ v, (rc v).allowsValue (σ v) = true)
    {bs : List (BusInteraction (GExpr p V))} (hbus : ∀ b ∈ bs, bus (b.evalAt σ))
    {out : List (GExpr p V × RangeConstraint p)} (hout : busRanges rc h bs = .ok out) :
    ∀ x ∈ out, x.2.Allows (eval σ x.1) ∧ ∃ b ∈ bs, x.1 ∈ b.fields := by
  induction bs generalizing out with
  | nil => simp only [busRanges] at hout; cases hout; simp
  | cons b t ih =>
    rw [busRanges] at hout
    cases hu : h (toRangeConstraints rc b) with
    | error x => rw [hu] at hout; cases hout
    | ok updated =>
      rw [hu] at hout
      cases hr : busRanges rc h t with
      | error x => rw [hr] at hout; cases hout
      | ok rest =>
        rw [hr] at hout
        cases hout
        have hin : (b.evalAt σ).Within updated :=
          (hh _ _ hu).2 _ (hbus b (by simp))
            (within_toRangeConstraints fun e _ v _ => hrc v)
        rw [within_iff, fields_evalAt, List.forall₂_map_left_iff] at hin
        intro x hx
        rcases List.mem_append.1 hx with hx | hx
        · have hz := (List.mem_filter.1 hx).1
          refine ⟨?_, b, by simp, (List.of_mem_zip (a := x.1) (b := x.2) hz).1⟩
          exact List.forall₂_zip hin (a := x.1) (b := x.2) hz
        · obtain ⟨h1, c, hc, h2⟩ := ih (fun b hb => hbus b (by simp [hb])) hr x hx
          exact ⟨h1, c, by simp [hc], h2⟩

theorem groupRanges_spec (P : GExpr p V → RangeConstraint p → Prop)
    (hP : ∀ e r r', P e r → P e r' → P e (r.conjunction r'))
    {l : List (GExpr p V × RangeConstraint p)} (hl : ∀ x ∈ l, P x.1 x.2) :
    ∀ x ∈ groupRanges l, P x.1 x.2 := by
  induction l with
  | nil => simp [groupRanges]
  | cons a t ih =>
    have ih := ih fun x hx => hl x (by simp [hx])
    rcases a with ⟨e, r⟩
    rw [groupRanges]
    split
    · rename_i r' hg
      intro x hx
      rcases mem_mapInsert hx with rfl | hx
      · exact hP e r r' (hl (e, r) (by simp)) (ih (e, r') (mem_of_mapGet hg))
      · exact ih x hx
    · intro x hx
      rcases List.mem_cons.1 hx with rfl | hx
      · exact hl _ (by simp)
      · exact ih x hx

theorem length_linear_le [Fintype V] {e : GExpr p V} (h : GExpr.WF e) :
    e.linear.length ≤ Fintype.card V := by
  rcases e with ⟨q, l, c⟩
  obtain ⟨-, h2, -⟩ := wf_inv h
  have hnd : (l.map Prod.fst).Nodup := by
    rw [List.nodup_iff_pairwise_ne, List.pairwise_map]
    exact h2.imp fun h => ne_of_lt h
  have := hnd.length_le_card
  simpa [linear] using this

theorem assignmentsHold_of_applyAction {σ : V → ZMod p} {st : DriverState p V} {a : RuleAction p V}
    (ha : AssignmentsHold σ (applyAction st a).assignments) : AssignmentsHold σ st.assignments := by
  cases a with
  | updateRange v rc =>
    simp only [applyAction] at ha
    split at ha
    · split at ha
      · rw [assignmentsHold_append] at ha; exact ha.1
      · exact ha
    · exact ha
  | substituteByConstant v k =>
    simp only [applyAction] at ha
    rw [assignmentsHold_append] at ha; exact ha.1
  | substituteByVariable v w =>
    simp only [applyAction] at ha
    rw [assignmentsHold_append] at ha; exact ha.1

theorem assignmentsHold_of_foldl {σ : V → ZMod p} {st : DriverState p V}
    {as : List (RuleAction p V)} (ha : AssignmentsHold σ (as.foldl applyAction st).assignments) :
    AssignmentsHold σ st.assignments := by
  induction as generalizing st with
  | nil => exact ha
  | cons a t ih => exact assignmentsHold_of_applyAction (ih ha)

theorem busRanges_mem {rc : V → RangeConstraint p} {h : Handler p}
    {bs : List (BusInteraction (GExpr p V))} {out : List (GExpr p V × RangeConstraint p)}
    (hout : busRanges rc h bs = .ok out) : ∀ x ∈ out, ∃ b ∈ bs, x.1 ∈ b.fields := by
  induction bs generalizing out with
  | nil => simp only [busRanges] at hout; cases hout; simp
  | cons b t ih =>
    rw [busRanges] at hout
    cases hu : h (toRangeConstraints rc b) with
    | error x => rw [hu] at hout; cases hout
    | ok updated =>
      rw [hu] at hout
      cases hr : busRanges rc h t with
      | error x => rw [hr] at hout; cases hout
      | ok rest =>
        rw [hr] at hout
        cases hout
        intro x hx
        rcases List.mem_append.1 hx with hx | hx
        · exact ⟨b, by simp, (List.of_mem_zip (a := x.1) (b := x.2) (List.mem_filter.1 hx).1).1⟩
        · obtain ⟨c, hc, h2⟩ := ih hr x hx
          exact ⟨c, by simp [hc], h2⟩

/-- What the input of a round is made of. -/
theorem driverInput_ok {rc : V → RangeConstraint p} {h : Handler p}
    {lt : GExpr p V → GExpr p V → Prop} {fresh : V → ComputationMethod p (GExpr p V) → Prop}
    {intBits : ℕ} {st : DriverState p V} {inp : RuleInput p V}
    (hinp : driverInput rc h lt fresh intBits st = .ok inp) :
    ∃ ranges, busRanges rc h st.system.bus = .ok ranges ∧
      inp.constraints = st.system.algebraic ∧ inp.exprRanges = groupRanges ranges ∧
      inp.varRanges = st.ranges ∧ inp.single = singleOccurrence st.system ∧ inp.fresh = fresh ∧
      inp.intBits = intBits := by
  unfold driverInput at hinp
  cases hr : busRanges rc h st.system.bus with
  | error x => rw [hr] at hinp; cases hinp
  | ok ranges =>
    rw [hr] at hinp
    cases hinp
    exact ⟨ranges, rfl, rfl, rfl, rfl, rfl, rfl, rfl⟩

theorem wf_driverInput {rc : V → RangeConstraint p} {h : Handler p}
    {lt : GExpr p V → GExpr p V → Prop} {fresh : V → ComputationMethod p (GExpr p V) → Prop}
    {intBits : ℕ} {st : DriverState p V} (hw : st.system.WF) {inp : RuleInput p V}
    (hinp : driverInput rc h lt fresh intBits st = .ok inp) : inp.WF := by
  obtain ⟨ranges, hr, h1, h2, -⟩ := driverInput_ok hinp
  refine ⟨by rw [h1]; exact hw.1, ?_⟩
  rw [h2]
  refine groupRanges_spec (fun e _ => GExpr.WF e) (fun e r r' h _ => h) fun x hx => ?_
  obtain ⟨b, hb, hm⟩ := busRanges_mem hr x hx
  exact hw.2 b hb _ hm

theorem solvedBy_driverInput {rc : V → RangeConstraint p} {h : Handler p} {bus : Bus p}
    (hh : h.Sound bus) {σ : V → ZMod p} (hrc : ∀ v, (rc v).allowsValue (σ v) = true)
    {lt : GExpr p V → GExpr p V → Prop} {fresh : V → ComputationMethod p (GExpr p V) → Prop}
    {intBits : ℕ} {st : DriverState p V} (hst : st.Good bus σ) {inp : RuleInput p V}
    (hinp : driverInput rc h lt fresh intBits st = .ok inp) : inp.SolvedBy σ := by
  obtain ⟨ranges, hr, h1, h2, h3, -⟩ := driverInput_ok hinp
  refine ⟨by rw [h1]; exact hst.sat.algebraic, fun x hx => ?_, by rw [h3]; exact hst.ranges⟩
  rw [h2] at hx
  refine (allowsValue_iff _ _).2 (groupRanges_spec (fun e r => r.Allows (eval σ e))
    (fun e r r' h h' => conjunction_allows h h') (fun x hx => ?_) x hx)
  exact (busRanges_spec hh hrc hst.sat.bus hr x hx).1

theorem single_driverInput {rc : V → RangeConstraint p} {h : Handler p}
    {lt : GExpr p V → GExpr p V → Prop} {fresh : V → ComputationMethod p (GExpr p V) → Prop}
    {intBits : ℕ} {st : DriverState p V} {inp : RuleInput p V}
    (hinp : driverInput rc h lt fresh intBits st = .ok inp) :
    ∀ v ∈ inp.single, ∀ e ∈ inp.constraints, e.vars.count v ≤ 1 := by
  obtain ⟨ranges, hr, h1, -, -, h4, -⟩ := driverInput_ok hinp
  rw [h1, h4]
  intro v hv e he
  simp only [singleOccurrence, List.mem_filter, decide_eq_true_eq] at hv
  have h5 := hv.2
  rw [ConstraintSystem.vars, List.count_append] at h5
  obtain ⟨a, b, hab⟩ := List.append_of_mem he
  rw [hab, List.flatMap_append, List.flatMap_cons, List.count_append, List.count_append] at h5
  omega

theorem holds_of_requested [Fintype V] (hV : Fintype.card V ≤ p) {inp : RuleInput p V}
    (hint : 2 * (p - 1) < 2 ^ inp.intBits) (hw : inp.WF) {σ : V → ZMod p} (hσ : inp.SolvedBy σ)
    {a : RuleAction p V} (ha : a.Requested inp) : a.Holds σ := by
  have key : ∀ {f}, Derives inp f → f.Holds σ := fun hd =>
    holds_of_derives hw hint (fun e he => (length_linear_le (hw.1 e he)).trans hV) hσ hd
  cases a with
  | updateRange v rc => exact key ha
  | substituteByConstant v k => exact key ha
  | substituteByVariable v w => exact key ha

theorem wf_requested {inp : RuleInput p V} (hw : inp.WF) {r : ReplacementAction p V}
    (hr : r.Requested inp) : ∀ e ∈ r.replaceBy, GExpr.WF e := by
  cases hr with
  | one h => simpa using wf_replaceBy hw h
  | many h => exact wf_replaceManyBy hw h

theorem keeps_requested [Fintype V] (hV : Fintype.card V ≤ p) {inp : RuleInput p V}
    (hint : 2 * (p - 1) < 2 ^ inp.intBits) (hw : inp.WF) {σ : V → ZMod p} (hσ : inp.SolvedBy σ)
    (hsingle : ∀ v ∈ inp.single, ∀ e ∈ inp.constraints, e.vars.count v ≤ 1)
    (hnew : ∀ w m, inp.fresh w m → σ w = m.value σ)
    (hcmp : ∀ constrs result vs, Derives inp (.equalZeroCheck constrs result vs) →
      (σ result = 1 ↔ ∀ v ∈ vs, σ v = 0)) {r : ReplacementAction p V}
    (hr : r.Requested inp) : AllZero σ r.replace → AllZero σ r.replaceBy := by
  have hlen : ∀ e ∈ inp.constraints, e.linear.length ≤ p := fun e he =>
    (length_linear_le (hw.1 e he)).trans hV
  cases hr with
  | one h =>
    intro _ e he
    rw [List.mem_singleton.1 he]
    exact replaceBy_keeps hw hint hlen hsingle hσ hnew h
  | many h => exact replaceManyBy_keeps hw hσ hnew (hcmp _) h

theorem wf_addDerived {s : ConstraintSystem p V} (h : s.WF) (new : List (DerivedVariable p V)) :
    (s.addDerived new).WF := h

theorem satisfied_addDerived {bus : Bus p} {σ : V → ZMod p} {s : ConstraintSystem p V}
    {new : List (DerivedVariable p V)} : (s.addDerived new).Satisfied bus σ ↔ s.Satisfied bus σ :=
  ⟨fun h => ⟨h.1, h.2⟩, fun h => ⟨h.1, h.2⟩⟩

variable {ok : RuleInput p V → ConstraintSystem p V → ConstraintSystem p V → Prop}
  {news : List (DerivedVariable p V)}

theorem wf_of_run {rc : V → RangeConstraint p} {h : Handler p}
    {lt : GExpr p V → GExpr p V → Prop} {intBits : ℕ} {bound : Option DegreeBound}
    {st st' : DriverState p V} (hw : st.system.WF)
    (run : DriverRun rc h lt intBits bound ok st st' news) : st'.system.WF := by
  induction run with
  | refl => exact hw
  | round run new inp hinp hnew actions hactions rs hrs hok ih =>
    exact wf_batchReplace (fun r hr => wf_requested (wf_driverInput ih hinp) (hrs r hr))
      (wf_addDerived (wf_foldl_applyAction ih actions) _)

theorem good_of_run [Fintype V] (hV : Fintype.card V ≤ p)
    {rc : V → RangeConstraint p} {h : Handler p} {bus : Bus p}
    (hh : h.Sound bus) {σ : V → ZMod p} (hrc : ∀ v, (rc v).allowsValue (σ v) = true)
    {lt : GExpr p V → GExpr p V → Prop} {intBits : ℕ}
    (hint : 2 * (p - 1) < 2 ^ intBits) {bound : Option DegreeBound}
    (hcmp : ComparisonsRight σ ok)
    {st st' : DriverState p V} (hw : st.system.WF) (hst : st.Good bus σ)
    (run : DriverRun rc h lt intBits bound ok st st' news) (hnews : ∀ d ∈ news, d.Computed σ) :
    st'.Good bus σ := by
  induction run with
  | refl => exact hst
  | round run new inp hinp hnew actions hactions rs hrs hok ih =>
    have ih := ih fun d hd => hnews d (List.mem_append.2 (Or.inl hd))
    have hw' := wf_of_run hw run
    have i1 := wf_driverInput hw' hinp
    have i2 := solvedBy_driverInput hh hrc ih hinp
    obtain ⟨-, -, -, -, -, -, i3, i4⟩ := driverInput_ok hinp
    have hint' : 2 * (p - 1) < 2 ^ inp.intBits := by rw [i4]; exact hint
    have h1 := good_foldl_applyAction hw' ih (as := actions)
      fun a ha => holds_of_requested hV hint' i1 i2 (hactions a ha)
    refine ⟨satisfied_batchReplace (fun r hr => ?_) (satisfied_addDerived.2 h1.sat), h1.ranges,
      h1.assignments⟩
    refine keeps_requested hV hint' i1 i2 (single_driverInput hinp) (fun w m hwm => ?_)
      (hcmp inp _ _ hok) (hrs r hr)
    rw [i3] at hwm
    exact hnews ⟨w, m⟩ (List.mem_append.2 (Or.inr hwm))

theorem of_run {rc : V → RangeConstraint p} {h : Handler p} {bus : Bus p}
    {σ : V → ZMod p}
    {lt : GExpr p V → GExpr p V → Prop} {intBits : ℕ} {bound : Option DegreeBound}
    (hok' : ∀ inp a b, ok inp a b → b.Satisfied bus σ → a.Satisfied bus σ)
    {st st' : DriverState p V} (hw : st.system.WF)
    (run : DriverRun rc h lt intBits bound ok st st' news)
    (hs : st'.system.Satisfied bus σ) (ha : AssignmentsHold σ st'.assignments) :
    st.system.Satisfied bus σ ∧ AssignmentsHold σ st.assignments := by
  induction run with
  | refl => exact ⟨hs, ha⟩
  | round run new inp hinp hnew actions hactions rs hrs hok ih =>
    have hw' := wf_of_run hw run
    have h1 := satisfied_addDerived.1 (hok' _ _ _ hok hs)
    have h2 := of_foldl_applyAction hw' h1 ha
    exact ih h2.1 h2.2

/-! ### Derived variables -/

theorem derivedGood_applyAction {σ : V → ZMod p} {st : DriverState p V} {a : RuleAction p V}
    (hd : DerivedGood σ st.system.derived)
    (ha : AssignmentsHold σ (applyAction st a).assignments) :
    DerivedGood σ (applyAction st a).system.derived ∧ AssignmentsHold σ st.assignments := by
  have key : ∀ v k, σ v = k → DerivedGood σ (st.system.mapExprs (substKnown v k)).derived :=
    fun v k h => derivedGood_map (eval_substKnown_of_eq h) (fun e he => wf_substKnown v k he) hd
  cases a with
  | updateRange v rc =>
    simp only [applyAction] at ha ⊢
    split
    · rename_i hne
      rw [if_pos hne] at ha
      split
      · rename_i val hval
        rw [hval] at ha
        simp only at ha
        rw [assignmentsHold_append, assignmentsHold_single, eval_const] at ha
        exact ⟨key v val ha.2, ha.1⟩
      · rename_i hval
        rw [hval] at ha
        exact ⟨hd, ha⟩
    · rename_i hne
      rw [if_neg hne] at ha
      exact ⟨hd, ha⟩
  | substituteByConstant v k =>
    simp only [applyAction] at ha ⊢
    rw [assignmentsHold_append, assignmentsHold_single, eval_const] at ha
    exact ⟨key v k ha.2, ha.1⟩
  | substituteByVariable v w =>
    simp only [applyAction] at ha ⊢
    rw [assignmentsHold_append, assignmentsHold_single, eval_var] at ha
    exact ⟨derivedGood_map (eval_substVar_of_eq ha.2) (fun e he => wf_subst v (wf_var w) he) hd,
      ha.1⟩

theorem derivedGood_foldl {σ : V → ZMod p} {st : DriverState p V} {as : List (RuleAction p V)}
    (hd : DerivedGood σ st.system.derived)
    (ha : AssignmentsHold σ (as.foldl applyAction st).assignments) :
    DerivedGood σ (as.foldl applyAction st).system.derived := by
  induction as using List.reverseRecOn with
  | nil => exact hd
  | append_singleton as a ih =>
    rw [List.foldl_append] at ha ⊢
    simp only [List.foldl_cons, List.foldl_nil] at ha ⊢
    have h1 : AssignmentsHold σ (as.foldl applyAction st).assignments :=
      assignmentsHold_of_applyAction ha
    exact (derivedGood_applyAction (ih h1) ha).1

theorem derivedGood_of_run {rc : V → RangeConstraint p} {h : Handler p} {σ : V → ZMod p}
    {lt : GExpr p V → GExpr p V → Prop} {intBits : ℕ} {bound : Option DegreeBound}
    {st st' : DriverState p V} (hw : st.system.WF)
    (run : DriverRun rc h lt intBits bound ok st st' news) (hnews : ∀ d ∈ news, d.Computed σ)
    (hd : DerivedGood σ st.system.derived) (ha : AssignmentsHold σ st'.assignments) :
    DerivedGood σ st'.system.derived := by
  induction run with
  | refl => exact hd
  | round run new inp hinp hnew actions hactions rs hrs hok ih =>
    rename_i st' news
    have i1 := wf_driverInput (wf_of_run hw run) hinp
    have ha' : AssignmentsHold σ st'.assignments := assignmentsHold_of_foldl ha
    have ih := ih (fun d hd => hnews d (List.mem_append.2 (Or.inl hd))) ha'
    obtain ⟨acc, -, h2, -⟩ := batchReplace_spec (beforeBatch st' actions new) rs bound
    have e : (driverRound st' actions new rs bound).system.derived =
        (actions.foldl applyAction st').system.derived ++ new := by
      simp only [driverRound, h2]
      rfl
    rw [e]
    intro d hd
    rcases List.mem_append.1 hd with hd | hd
    · exact derivedGood_foldl ih ha d hd
    · refine ⟨?_, hnews d (List.mem_append.2 (Or.inr hd))⟩
      have := hnew d hd
      obtain ⟨c, m⟩ := d
      cases m with
      | constant c => trivial
      | quotientOrZero e1 e2 => exact wf_methodRequested i1 this

end Actions

end Verif
