import Verif.Proofs.TrivialSimplifications
import Verif.Proofs.Reachability

/-!
# What is left after the trivial simplifications (C105)
-/

namespace Verif
namespace Simplest

open GExpr

set_option linter.unusedSectionVars false

variable {p : ℕ} [Fact p.Prime] {V : Type} [LinearOrder V]

/-! ### Bus interactions -/

theorem retainUnseen_idem (f : ZMod p → Bool) (l seen : List (BusInteraction (GExpr p V))) :
    retainUnseen f seen (retainUnseen f seen l) = retainUnseen f seen l := by
  induction l generalizing seen with
  | nil => simp [retainUnseen]
  | cons b t ih =>
    cases hb : b.busId.tryToNumber with
    | none => simp only [retainUnseen, hb, ih]
    | some id =>
      by_cases hs : f id = true
      · simp only [retainUnseen, hb, hs, if_true, ih]
      · by_cases hm : b ∈ seen
        · simp only [retainUnseen, hb, hs, hm, if_true]
          simp only [Bool.false_eq_true, if_false, ih]
        · have hc : ∀ u, retainUnseen f seen (b :: u) = b :: retainUnseen f (b :: seen) u := by
            intro u
            simp only [retainUnseen, hb, hs, hm, if_false]
            simp only [Bool.false_eq_true, if_false]
          rw [hc, hc, ih]

theorem retainUnseen_not_seen (f : ZMod p → Bool) {l seen : List (BusInteraction (GExpr p V))}
    {b : BusInteraction (GExpr p V)} {id : ZMod p} (hb : b.busId.tryToNumber = some id)
    (hf : f id = false) (h : b ∈ retainUnseen f seen l) : b ∉ seen := by
  induction l generalizing seen with
  | nil => simp [retainUnseen] at h
  | cons c t ih =>
    rw [retainUnseen] at h
    split at h
    · rename_i hc
      rcases List.mem_cons.1 h with rfl | h
      · rw [hc] at hb; cases hb
      · exact ih h
    · rename_i id' hc
      split at h
      · rename_i hs
        rcases List.mem_cons.1 h with rfl | h
        · rw [hc] at hb; cases hb; rw [hf] at hs; cases hs
        · exact ih h
      · split at h
        · exact ih h
        · rename_i hn
          rcases List.mem_cons.1 h with rfl | h
          · exact hn
          · exact fun hm => ih h (List.mem_cons_of_mem _ hm)

theorem retainUnseen_pairwise (f : ZMod p → Bool) (l seen : List (BusInteraction (GExpr p V))) :
    (retainUnseen f seen l).Pairwise fun b c =>
      ∀ id, b.busId.tryToNumber = some id → f id = false → b ≠ c := by
  induction l generalizing seen with
  | nil => simp [retainUnseen]
  | cons b t ih =>
    rw [retainUnseen]
    split
    · rename_i hb
      refine List.pairwise_cons.2 ⟨fun c _ id h => ?_, ih seen⟩
      rw [hb] at h; cases h
    · rename_i id' hb
      split
      · rename_i hs
        refine List.pairwise_cons.2 ⟨fun c _ id h h' => ?_, ih seen⟩
        rw [hb] at h; cases h; rw [hs] at h'; cases h'
      · split
        · exact ih seen
        · refine List.pairwise_cons.2 ⟨fun c hc id h h' hbc => ?_, ih _⟩
          subst hbc
          exact retainUnseen_not_seen f h h' hc List.mem_cons_self

/-! ### Constraints -/

/-- What the removal of duplicate factors leaves. -/
theorem loop_result {l : List (GExpr p V)} {r : List (GExpr p V) × List (GExpr p V)}
    (hw : ∀ e ∈ l, WF e) (hz : ∀ e ∈ l, e.isZero = false)
    (h : duplicateFactorsLoop l = .ok r) :
    ∀ e ∈ r.1 ++ r.2, e.tryToKnown = none ∧ toFactors e ≠ [] ∧ (toFactors e).Nodup := by
  induction l generalizing r with
  | nil => rw [duplicateFactorsLoop] at h; cases h; simp
  | cons e t ih =>
    obtain ⟨hne, k, a, ht, hr⟩ := duplicateFactorsLoop_cons h
    have hall := ih (fun e he => hw e (List.mem_cons_of_mem _ he))
      (fun e he => hz e (List.mem_cons_of_mem _ he)) ht
    have hc : e.tryToKnown = none ∧
        ∀ f ∈ toFactors e, f.tryToKnown = none ∧ toFactors f = [f] := by
      rcases toFactors_cases (hw e List.mem_cons_self) with ⟨h0, -⟩ | ⟨c, -, -, h0⟩ | ⟨h0, -, h1⟩
      · have := hz e List.mem_cons_self
        rw [h0] at this
        simp [isZero, zero, tryToKnown] at this
      · exact absurd h0 hne
      · exact ⟨h0, h1⟩
    rcases hr with ⟨product, -, hp, rfl⟩ | ⟨hlt, rfl⟩
    · intro x hx
      simp only [List.mem_append, List.mem_cons] at hx
      rcases hx with hx | rfl | hx
      · exact hall x (List.mem_append_left _ hx)
      · cases hu : (toFactors e).eraseDups with
        | nil => rw [hu] at hp; cases hp
        | cons f u =>
          have hfacts : ∀ g ∈ f :: u, g.tryToKnown = none ∧ toFactors g = [g] := by
            intro g hg
            rw [← hu] at hg
            exact hc.2 g (mem_eraseDups'.1 hg)
          have hp' := toFactors_foldl_mul (l := u) (hfacts f List.mem_cons_self).1
            fun g hg => hfacts g (List.mem_cons_of_mem _ hg)
          rw [(hfacts f List.mem_cons_self).2] at hp'
          have hnd : (f :: u).Nodup := hu ▸ nodup_eraseDups (toFactors e)
          rw [hu, productOf] at hp
          cases hp
          refine ⟨hp'.1, ?_⟩
          rw [hp'.2]
          exact ⟨by simp, hnd⟩
      · exact hall x (List.mem_append_right _ hx)
    · intro x hx
      simp only [List.cons_append, List.mem_cons] at hx
      rcases hx with rfl | hx
      · exact ⟨hc.1, hne, eraseDups_length_lt hlt⟩
      · exact hall x hx

theorem eraseDups_nodup {α : Type} [DecidableEq α] {l : List α} (h : l.Nodup) :
    l.eraseDups = l := by
  induction l with
  | nil => simp
  | cons a t ih =>
    rw [List.nodup_cons] at h
    rw [List.eraseDups_cons]
    have : (t.filter fun b => !b == a) = t :=
      List.filter_eq_self.2 fun b hb => by
        have : b ≠ a := by rintro rfl; exact h.1 hb
        simp [this]
    rw [this, ih h.2]

theorem loop_same {l : List (GExpr p V)} (h : ∀ e ∈ l, toFactors e ≠ [] ∧ (toFactors e).Nodup) :
    duplicateFactorsLoop l = .ok (l, []) := by
  induction l with
  | nil => rw [duplicateFactorsLoop]
  | cons e t ih =>
    obtain ⟨h1, h2⟩ := h e List.mem_cons_self
    rw [duplicateFactorsLoop]
    simp only [h1, if_false, eraseDups_nodup h2, lt_irrefl,
      ih fun e he => h e (List.mem_cons_of_mem _ he)]
    rfl

/-- The factors of one of two constraints are all factors of the other. -/
def Related (a b : GExpr p V) : Prop :=
  toFactors a ⊆ toFactors b ∨ toFactors b ⊆ toFactors a

theorem pairwise_kept {α : Type} {R : α → α → Prop} {l : List α} {r : List ℕ}
    (h : ∀ i j x y, i < j → l[i]? = some x → l[j]? = some y → i ∉ r → j ∉ r → R x y) :
    ((l.zipIdx.filter fun x => x.2 ∉ r).map Prod.fst).Pairwise R := by
  rw [List.pairwise_map]
  have h1 : l.zipIdx.Pairwise fun a b => a.2 ∉ r → b.2 ∉ r → R a.1 b.1 := by
    rw [List.pairwise_iff_getElem]
    intro i j hi hj hij h1 h2
    simp only [List.length_zipIdx] at hi hj
    simp only [List.getElem_zipIdx, Nat.zero_add] at h1 h2 ⊢
    exact h i j _ _ hij (List.getElem?_eq_getElem hi) (List.getElem?_eq_getElem hj) h1 h2
  refine (h1.filter _).imp_of_mem ?_
  intro a b ha hb hab
  exact hab (by simpa using (List.mem_filter.1 ha).2) (by simpa using (List.mem_filter.1 hb).2)

theorem redundant_result {s s' : ConstraintSystem p V} (hw : s.WF)
    (hz : ∀ e ∈ s.algebraic, e.isZero = false) (h : removeRedundant s = .ok s') :
    (∀ e ∈ s'.algebraic, e.tryToKnown = none ∧ toFactors e ≠ [] ∧ (toFactors e).Nodup) ∧
    s'.algebraic.Pairwise fun a b => ¬ Related a b := by
  obtain ⟨a, r, ha, -, hr, rfl⟩ := removeRedundant_ok h
  have hall := loop_result hw.1 hz ha
  refine ⟨fun e he => ?_, ?_⟩
  · obtain ⟨i, hi, -⟩ := mem_keptIndices.1 he
    exact hall e (List.mem_of_getElem? hi)
  · refine pairwise_kept fun i j x y hij hx hy hi hj hrel => ?_
    have gx : ((a.1 ++ a.2).map toFactors)[i]? = some (toFactors x) := by
      rw [List.getElem?_map, hx]; rfl
    have gy : ((a.1 ++ a.2).map toFactors)[j]? = some (toFactors y) := by
      rw [List.getElem?_map, hy]; rfl
    have nx := (hall x (List.mem_of_getElem? hx)).2.2
    have ny := (hall y (List.mem_of_getElem? hy)).2.2
    have hxy : toFactors x ⊆ toFactors y → False := by
      intro hsub
      refine hj ((redundantIndices_ok hr j).2 ⟨(toFactors x, i),
        List.mk_mem_zipIdx_iff_getElem?.2 gx, _, gy, fun f hf => hsub hf, ?_⟩)
      have := (List.subperm_of_subset nx hsub).length_le
      simp only
      omega
    rcases hrel with hsub | hsub
    · exact hxy hsub
    · have hlen := (List.subperm_of_subset ny hsub).length_le
      by_cases heq : (toFactors y).length = (toFactors x).length
      · exact hxy ((List.subperm_of_subset ny hsub).perm_of_length_le (by omega)).symm.subset
      · exact hi ((redundantIndices_ok hr i).2 ⟨(toFactors y, j),
          List.mk_mem_zipIdx_iff_getElem?.2 gy, _, gx, fun f hf => hsub hf,
          Or.inl (by simp only; omega)⟩)

theorem redundant_same {s : ConstraintSystem p V}
    (h1 : ∀ e ∈ s.algebraic, toFactors e ≠ [] ∧ (toFactors e).Nodup)
    (h2 : s.algebraic.Pairwise fun a b => ¬ Related a b) : removeRedundant s = .ok s := by
  obtain ⟨r, hr⟩ := redundantIndices_total (s.algebraic.map toFactors)
    (s.algebraic.map toFactors).zipIdx (by
      rintro ⟨f, i⟩ hx
      have := List.fst_mem_of_mem_zipIdx hx
      obtain ⟨e, he, rfl⟩ := List.mem_map.1 this
      exact (h1 e he).2)
  have hr0 : r = [] := by
    refine List.eq_nil_iff_forall_not_mem.2 fun j hj => ?_
    obtain ⟨⟨fs, i⟩, hm, gs, hg, hsub, hlt⟩ := (redundantIndices_ok hr j).1 hj
    rw [List.mk_mem_zipIdx_iff_getElem?, List.getElem?_map, Option.map_eq_some_iff] at hm
    rw [List.getElem?_map, Option.map_eq_some_iff] at hg
    obtain ⟨x, hx, rfl⟩ := hm
    obtain ⟨y, hy, rfl⟩ := hg
    obtain ⟨hi, rfl⟩ := List.getElem?_eq_some_iff.1 hx
    obtain ⟨hj', rfl⟩ := List.getElem?_eq_some_iff.1 hy
    simp only at hsub hlt
    rw [List.pairwise_iff_getElem] at h2
    rcases Nat.lt_trichotomy i j with hij | rfl | hij
    · exact h2 i j hi hj' hij (Or.inl fun f hf => hsub f hf)
    · omega
    · exact h2 j i hj' hi hij (Or.inr fun f hf => hsub f hf)
  subst hr0
  unfold removeRedundant removeDuplicateFactors
  rw [loop_same h1]
  simp only [bind, Except.bind, pure, Except.pure, List.append_nil]
  split
  · rename_i h
    rw [List.any_eq_true] at h
    obtain ⟨f, hf, hf0⟩ := h
    obtain ⟨e, he, rfl⟩ := List.mem_map.1 hf
    exact absurd (List.isEmpty_iff.1 hf0) (h1 e he).1
  · simp only [hr, List.not_mem_nil, not_false_eq_true, decide_true, List.filter_true,
      List.zipIdx_map_fst]

/-! ### All together -/

theorem result {f : ZMod p → Bool} {s s' : ConstraintSystem p V} (hw : s.WF)
    (h : trivialSimplifications f s = .ok s') :
    ∃ s1, removeRedundant (removeEqualBus f (removeTrivial s)) = .ok s1 ∧
      s' = removeUnreferencedDerived s1 ∧
      s1.bus = retainUnseen f [] (s.bus.filter fun b => !b.multiplicity.isZero) ∧
      (∀ e ∈ s1.algebraic, e.tryToKnown = none ∧ toFactors e ≠ [] ∧ (toFactors e).Nodup) ∧
      s1.algebraic.Pairwise fun a b => ¬ Related a b := by
  unfold trivialSimplifications at h
  simp only at h
  cases h1 : removeRedundant (removeEqualBus f (removeTrivial s)) with
  | error e => rw [h1] at h; cases h
  | ok s1 =>
    rw [h1] at h
    cases h
    have hw1 : (removeEqualBus f (removeTrivial s)).WF :=
      ⟨fun e he => hw.1 e (List.mem_filter.1 he).1,
       fun b hb => hw.2 b (List.mem_filter.1 ((retainUnseen_sublist f _ _).subset hb)).1⟩
    have hz : ∀ e ∈ (removeEqualBus f (removeTrivial s)).algebraic, e.isZero = false := by
      intro e he
      simpa using (List.mem_filter.1 he).2
    obtain ⟨r1, r2⟩ := redundant_result hw1 hz h1
    exact ⟨s1, rfl, rfl, (removeRedundant_spec h1 hw1).2.1, r1, r2⟩

theorem idempotent {f : ZMod p → Bool} {s s' : ConstraintSystem p V} (hw : s.WF)
    (h : trivialSimplifications f s = .ok s') : trivialSimplifications f s' = .ok s' := by
  obtain ⟨s1, -, rfl, hb, h1, h2⟩ := result hw h
  have t : removeTrivial (removeUnreferencedDerived s1) = removeUnreferencedDerived s1 := by
    unfold removeTrivial
    have e1 : (removeUnreferencedDerived s1).algebraic.filter (fun e => !e.isZero) =
        (removeUnreferencedDerived s1).algebraic := by
      refine List.filter_eq_self.2 fun e he => ?_
      have := (h1 e he).1
      simp [isZero, this]
    have e2 : (removeUnreferencedDerived s1).bus.filter (fun b => !b.multiplicity.isZero) =
        (removeUnreferencedDerived s1).bus := by
      refine List.filter_eq_self.2 fun b hb' => ?_
      have hb' : b ∈ s1.bus := hb'
      rw [hb] at hb'
      exact (List.mem_filter.1 ((retainUnseen_sublist f _ _).subset hb')).2
    rw [e1, e2]
  have u : removeEqualBus f (removeUnreferencedDerived s1) = removeUnreferencedDerived s1 := by
    unfold removeEqualBus
    have : retainUnseen f [] (removeUnreferencedDerived s1).bus =
        (removeUnreferencedDerived s1).bus := by
      show retainUnseen f [] s1.bus = s1.bus
      rw [hb, retainUnseen_idem]
    rw [this]
  have v : removeRedundant (removeUnreferencedDerived s1) = .ok (removeUnreferencedDerived s1) :=
    redundant_same (fun e he => (h1 e he).2) h2
  unfold trivialSimplifications
  simp only [t, u, v]
  show Except.ok _ = Except.ok _
  congr 1
  unfold removeUnreferencedDerived
  simp only [List.filter_filter, ConstraintSystem.mk.injEq, true_and]
  refine List.filter_congr fun d _ => ?_
  exact Bool.and_self _

end Simplest
end Verif
