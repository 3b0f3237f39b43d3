import Verif.Proofs.OptimizerShape
import Verif.Proofs.SearchExact

/-!
# Simplification by exhaustive search finds constant fields (C108)
-/

namespace Verif
namespace SimplifyExact

open GExpr RangeConstraint SearchExact

set_option linter.unusedSectionVars false

variable {p : ℕ} [Fact p.Prime] {V : Type} [LinearOrder V]
variable {rc : V → RangeConstraint p} {s : Indexed p V}

/-! ### The entries -/

theorem insertSimplified_new {e : GExpr p V} {b : Bool} {l : List (Simplified p V)} :
    ∃ x ∈ insertSimplified e b l, x.expr = e ∧ (b = true → x.isAlgebraic = true) := by
  induction l with
  | nil => exact ⟨_, List.mem_singleton.2 rfl, rfl, fun h => h⟩
  | cons y t ih =>
    rw [insertSimplified]
    split
    · rename_i hy
      exact ⟨_, List.mem_cons_self, hy, fun h => by simp [h]⟩
    · obtain ⟨x, hx, h⟩ := ih
      exact ⟨x, List.mem_cons_of_mem _ hx, h⟩

theorem insertSimplified_old {e : GExpr p V} {b : Bool} {l : List (Simplified p V)}
    {x : Simplified p V} (hx : x ∈ l) :
    ∃ y ∈ insertSimplified e b l, y.expr = x.expr ∧ (x.isAlgebraic = true → y.isAlgebraic = true) := by
  induction l with
  | nil => cases hx
  | cons z t ih =>
    rw [insertSimplified]
    split
    · rcases List.mem_cons.1 hx with rfl | hx
      · exact ⟨_, List.mem_cons_self, rfl, fun h => by simp [h]⟩
      · exact ⟨x, List.mem_cons_of_mem _ hx, rfl, id⟩
    · rcases List.mem_cons.1 hx with rfl | hx
      · exact ⟨x, List.mem_cons_self, rfl, id⟩
      · obtain ⟨y, hy, h⟩ := ih hx
        exact ⟨y, List.mem_cons_of_mem _ hy, h⟩

theorem foldl_insert_old {l : List (GExpr p V × Bool)} {acc : List (Simplified p V)}
    {x : Simplified p V} (hx : x ∈ acc) :
    ∃ y ∈ l.foldl (fun acc x => insertSimplified x.1 x.2 acc) acc, y.expr = x.expr ∧
      (x.isAlgebraic = true → y.isAlgebraic = true) := by
  induction l generalizing acc x with
  | nil => exact ⟨x, hx, rfl, id⟩
  | cons z t ih =>
    obtain ⟨y, hy, h1, h2⟩ := insertSimplified_old (e := z.1) (b := z.2) hx
    obtain ⟨w, hw, h3, h4⟩ := ih hy
    exact ⟨w, hw, h3.trans h1, fun h => h4 (h2 h)⟩

theorem init_mem {refs : List (ConstraintRef p V)} {z : GExpr p V × Bool}
    (hz : z ∈ refs.flatMap ConstraintRef.exprs) :
    ∃ x ∈ simplifiedInit refs, x.expr = z.1 ∧ (z.2 = true → x.isAlgebraic = true) := by
  unfold simplifiedInit
  obtain ⟨l, r, h⟩ := List.mem_iff_append.1 hz
  rw [h, List.foldl_append, List.foldl_cons]
  obtain ⟨y, hy, h1, h2⟩ := insertSimplified_new (e := z.1) (b := z.2)
    (l := l.foldl (fun acc x => insertSimplified x.1 x.2 acc) [])
  obtain ⟨w, hw, h3, h4⟩ := foldl_insert_old (l := r) hy
  exact ⟨w, hw, h3.trans h1, fun h => h4 (h2 h)⟩

/-! ### The fold -/

/-- The condition under which an assignment is skipped. -/
def Conflict (a : List (V × ZMod p)) (xs : List (Simplified p V)) : Prop :=
  ∃ x ∈ xs, x.isAlgebraic = true ∧ ∃ n, (substKnownMulti a x.expr).tryToNumber = some n ∧ n ≠ 0

theorem simplifyUnder_conflict {a : List (V × ZMod p)} {xs : List (Simplified p V)}
    (h : Conflict a xs) : simplifyUnder xs a = xs := by
  obtain ⟨x, hx, ha, n, hn, h0⟩ := h
  unfold simplifyUnder
  simp only
  rw [if_pos]
  rw [List.any_eq_true]
  exact ⟨x, hx, by simp [ha, hn, h0]⟩

theorem simplifyUnder_ok {a : List (V × ZMod p)} {xs : List (Simplified p V)}
    (h : ¬ Conflict a xs) : simplifyUnder xs a =
      (xs.map fun x => x.update (substKnownMulti a x.expr)).filter fun x =>
        x.isAlgebraic || decide (x.simplified ≠ some none) := by
  unfold simplifyUnder
  simp only
  rw [if_neg]
  rw [List.any_eq_true]
  rintro ⟨x, hx, hc⟩
  rw [Bool.and_eq_true] at hc
  obtain ⟨ha, hc⟩ := hc
  split at hc
  · rename_i n hn
    exact h ⟨x, hx, ha, n, hn, by simpa using hc⟩
  · cases hc

/-- The algebraic constraints `A` have entries. -/
def Has (A : GExpr p V → Prop) (xs : List (Simplified p V)) : Prop :=
  ∀ e, A e → ∃ x ∈ xs, x.expr = e ∧ x.isAlgebraic = true

theorem Has.step {A : GExpr p V → Prop} {xs : List (Simplified p V)} (h : Has A xs)
    (a : List (V × ZMod p)) : Has A (simplifyUnder xs a) := by
  by_cases hc : Conflict a xs
  · rw [simplifyUnder_conflict hc]; exact h
  · rw [simplifyUnder_ok hc]
    intro e he
    obtain ⟨x, hx, h1, h2⟩ := h e he
    obtain ⟨u1, u2⟩ := update_expr (substKnownMulti a x.expr) x
    refine ⟨_, List.mem_filter.2 ⟨List.mem_map.2 ⟨x, hx, rfl⟩, ?_⟩, u1.trans h1, u2.trans h2⟩
    simp [u2, h2]

/-- The field has an entry, which is empty or has the value. -/
def Entry (e r : GExpr p V) (o : Option (Option (GExpr p V)) → Prop) (xs : List (Simplified p V)) :
    Prop := ∃ x ∈ xs, x.expr = e ∧ o x.simplified ∧ (x.simplified = none ∨ x.simplified = some (some r))

theorem Entry.step {e r : GExpr p V} {o : Option (Option (GExpr p V)) → Prop}
    {xs : List (Simplified p V)} (h : Entry e r o xs) {a : List (V × ZMod p)}
    (hc : ¬ Conflict a xs) (ha : substKnownMulti a e = r) :
    Entry e r (· = some (some r)) (simplifyUnder xs a) := by
  rw [simplifyUnder_ok hc]
  obtain ⟨x, hx, h1, -, h2⟩ := h
  have hu : (x.update (substKnownMulti a x.expr)).simplified = some (some r) := by
    rw [h1, ha]
    unfold Simplified.update
    rcases h2 with h2 | h2
    · rw [h2]
    · rw [h2]; simp [h2]
  refine ⟨_, List.mem_filter.2 ⟨List.mem_map.2 ⟨x, hx, rfl⟩, ?_⟩,
    (update_expr _ x).1.trans h1, hu, Or.inr hu⟩
  simp [hu]

theorem fold_entry {A : GExpr p V → Prop} {e r : GExpr p V} {as : List (List (V × ZMod p))}
    (hval : ∀ a ∈ as, ∀ xs, Has A xs → ¬ Conflict a xs → substKnownMulti a e = r)
    {xs : List (Simplified p V)} (hA : Has A xs) {o : Option (Option (GExpr p V)) → Prop}
    (hno : ∀ q, o q → q = some (some r) → (fun q => q = some (some r)) q)
    (he : Entry e r o xs) :
    Has A (as.foldl simplifyUnder xs) ∧
      (Entry e r (· = some (some r)) (as.foldl simplifyUnder xs) ∨
        Entry e r o (as.foldl simplifyUnder xs)) := by
  induction as generalizing xs o with
  | nil => exact ⟨hA, Or.inr he⟩
  | cons a t ih =>
    rw [List.foldl_cons]
    have ih' := fun {o} => ih (fun b hb => hval b (List.mem_cons_of_mem _ hb)) (o := o) (hA.step a)
    by_cases hc : Conflict a xs
    · refine ih' hno ?_
      rw [simplifyUnder_conflict hc]; exact he
    · obtain ⟨i1, i2⟩ := ih' (o := (· = some (some r))) (fun q h _ => h)
        (he.step hc (hval a List.mem_cons_self xs hA hc))
      exact ⟨i1, Or.inl (i2.elim id id)⟩

/-! ### One candidate -/

theorem not_conflict {σ : V → ZMod p} {a : List (V × ZMod p)} (hσ : AgreesWith σ a)
    {xs : List (Simplified p V)}
    (hxs : ∀ x ∈ xs, WF x.expr ∧ (x.isAlgebraic = true → x.expr.eval σ = 0)) : ¬ Conflict a xs := by
  rintro ⟨x, hx, ha, n, hn, h0⟩
  refine h0 ?_
  rw [← eval_known σ hn, eval_substKnownMulti_agrees hσ (hxs x hx).1]
  exact (hxs x hx).2 ha

theorem candidate (hi : s.Inv) (hw : s.sys.WF) {vs : List V}
    {l : List (GExpr p V × GExpr p V)} (h : substitutionsFor s rc vs = .ok l)
    {σ : V → ZMod p} (hr : ∀ v ∈ vs, (rc v).Allows (σ v)) (h0 : ∀ e ∈ s.sys.algebraic, eval σ e = 0)
    {b : BusInteraction (GExpr p V)} (hb : b ∈ s.sys.bus) {e : GExpr p V} (he : e ∈ b.fields)
    (hne : ∃ v, Occurs v e) (hsub : ∀ v, Occurs v e → v ∈ vs) {c : ZMod p}
    (hc : ∀ τ, SearchConsistent s.sys (fun _ => True) rc vs τ → eval τ e = c) :
    (e, const c) ∈ l := by
  unfold substitutionsFor at h
  rw [Indexed.constraintsReferencing_ok hi, Except.bind_ok_iff] at h
  obtain ⟨refs, h1, h⟩ := h
  cases h1
  rw [Except.bind_ok_iff] at h
  obtain ⟨as, h2, h⟩ := h
  cases h
  set refs := (s.itemsReferencing vs).filterMap (refAt s.sys) with hrefs
  have hwr : ∀ c ∈ refs, c.WF := by
    intro c hc
    obtain ⟨i, -, hi'⟩ := List.mem_filterMap.1 hc
    exact refAt_wf hw hi'
  have hspec := simplifiedInit_spec (σ := σ) hwr fun e he => h0 e ((mem_refs hi).1 he)
  let A : GExpr p V → Prop := fun e => e ∈ s.sys.algebraic ∧ (∃ v, Occurs v e) ∧
    ∀ v, Occurs v e → v ∈ vs
  have hA : Has A (simplifiedInit refs) := by
    rintro e ⟨h3, ⟨v, hv⟩, h5⟩
    obtain ⟨x, hx, h6, h7⟩ := init_mem (refs := refs) (z := (e, true))
      (List.mem_flatMap.2 ⟨_, mem_refs_alg hi h3 hv (h5 v hv), List.mem_singleton.2 rfl⟩)
    exact ⟨x, hx, h6, h7 rfl⟩
  have hE : Entry e (const c) (· = none) (simplifiedInit refs) := by
    obtain ⟨v, hv⟩ := hne
    obtain ⟨x, hx, h6, -⟩ := init_mem (refs := refs) (z := (e, false))
      (List.mem_flatMap.2 ⟨_, mem_refs_bus hi hb he hv (hsub v hv),
        List.mem_map.2 ⟨e, he, rfl⟩⟩)
    exact ⟨x, hx, h6, (hspec x hx).2.2, Or.inl (hspec x hx).2.2⟩
  have hval : ∀ a ∈ as, ∀ xs, Has A xs → ¬ Conflict a xs → substKnownMulti a e = const c := by
    intro a ha xs hxs hn
    have hsort := allPossibleAssignments_sorted h2 ha
    obtain ⟨h4, h5⟩ := allPossibleAssignments_sound h2 ha
    show substAssignment a e = const c
    rw [subst_known hsort (hw.2 b hb e he) fun v hv => (h5 v).2 (hsub v hv)]
    rw [hc (valueOf a)]
    refine ⟨fun v hv => ?_, fun e' he' hne' hsub' => ?_, fun _ _ _ _ => trivial⟩
    · obtain ⟨y, hy, rfl⟩ := List.mem_map.1 ((h5 v).2 hv)
      rw [valueOf_mem hsort hy, allowsValue_iff]
      exact h4 y hy
    · obtain ⟨x, hx, h6, h7⟩ := hxs e' ⟨he', hne', hsub'⟩
      by_contra h8
      refine hn ⟨x, hx, h7, eval (valueOf a) e', ?_, h8⟩
      rw [h6]
      show (substAssignment a e').tryToNumber = _
      rw [subst_known hsort (hw.1 e' he') fun v hv => (h5 v).2 (hsub' v hv)]
      rfl
  obtain ⟨a, ha, hag, -⟩ := allPossibleAssignments_complete h2 hr
  obtain ⟨l1, l2, rfl⟩ := List.mem_iff_append.1 ha
  have hfin : Entry e (const c) (· = some (some (const c)))
      ((l1 ++ a :: l2).foldl simplifyUnder (simplifiedInit refs)) := by
    rw [List.foldl_append, List.foldl_cons]
    obtain ⟨i1, i2⟩ := fold_entry (as := l1) (fun b hb => hval b (by simp [hb])) hA
      (fun q h h' => h') hE
    have hn : ¬ Conflict a (l1.foldl simplifyUnder (simplifiedInit refs)) :=
      not_conflict hag (simplify_fold fun x hx => ⟨(hspec x hx).1, (hspec x hx).2.1⟩)
    have hv := hval a (by simp) _ i1 hn
    have i3 : Entry e (const c) (· = some (some (const c)))
        (simplifyUnder (l1.foldl simplifyUnder (simplifiedInit refs)) a) :=
      i2.elim (fun i => i.step hn hv) (fun i => i.step hn hv)
    obtain ⟨-, i4⟩ := fold_entry (as := l2) (fun b hb => hval b (by simp [hb])) (i1.step a)
      (fun q h _ => h) i3
    exact i4.elim id id
  obtain ⟨x, hx, h3, h4, -⟩ := hfin
  refine List.mem_filterMap.2 ⟨x, hx, ?_⟩
  simp only [h4]
  rw [if_pos, h3]
  rw [h3]
  rintro rfl
  obtain ⟨v, hv⟩ := hne
  have := mem_vars_iff_occurs.2 hv
  simp [const, vars, varsQ] at this

/-! ### All candidates -/

theorem mapGet_mapInsert_ne_none {K W : Type} [DecidableEq K] {k k' : K} {w : W}
    {m : List (K × W)} (h : mapGet k m ≠ none ∨ k = k') : mapGet k (mapInsert k' w m) ≠ none := by
  rw [mapGet_mapInsert]
  split
  · simp
  · rename_i hne
    rcases h with h | rfl
    · exact h
    · exact absurd rfl hne

theorem foldl_mapInsert_ne_none {K W : Type} [DecidableEq K] {k : K}
    {l m : List (K × W)} (h : mapGet k m ≠ none ∨ k ∈ l.map (·.1)) :
    mapGet k (l.foldl (fun acc x => mapInsert x.1 x.2 acc) m) ≠ none := by
  induction l generalizing m with
  | nil => simpa using h
  | cons x t ih =>
    rw [List.foldl_cons]
    refine ih ?_
    rcases h with h | h
    · exact Or.inl (mapGet_mapInsert_ne_none (Or.inl h))
    · rcases List.mem_cons.1 h with h | h
      · exact Or.inl (mapGet_mapInsert_ne_none (Or.inr h))
      · exact Or.inr h

theorem all_ne_none {e : GExpr p V} {vss : List (List V)} {acc subs : List (GExpr p V × GExpr p V)}
    (h : allSubstitutions s rc vss acc = .ok subs)
    (he : mapGet e acc ≠ none ∨ ∃ vs ∈ vss, ∀ l, substitutionsFor s rc vs = .ok l →
      e ∈ l.map (·.1)) : mapGet e subs ≠ none := by
  induction vss generalizing acc with
  | nil =>
    rw [allSubstitutions] at h
    cases h
    simpa using he
  | cons vs t ih =>
    rw [allSubstitutions, Except.bind_ok_iff] at h
    obtain ⟨l, h1, h⟩ := h
    refine ih h ?_
    rcases he with he | ⟨ws, hws, he⟩
    · exact Or.inl (foldl_mapInsert_ne_none (Or.inl he))
    · rcases List.mem_cons.1 hws with rfl | hws
      · exact Or.inl (foldl_mapInsert_ne_none (Or.inr (he l h1)))
      · exact Or.inr ⟨ws, hws, he⟩

theorem countAssignments_of_le : ∀ (vs : List V) (acc : ℕ), 0 < acc →
    acc * (vs.map fun v => (rc v).width).prod ≤ 1024 →
    countAssignments rc vs acc = some (acc * (vs.map fun v => (rc v).width).prod) := by
  intro vs
  induction vs with
  | nil => intro acc _ _; simp [countAssignments]
  | cons v t ih =>
    intro acc hacc h
    simp only [List.map_cons, List.prod_cons] at h ⊢
    rw [← Nat.mul_assoc] at h ⊢
    have hpos := RangeConstraint.width_pos (rc v)
    have hprod : 0 < (t.map fun v => (rc v).width).prod :=
      List.prod_pos (by
        intro n hn
        obtain ⟨w, -, rfl⟩ := List.mem_map.1 hn
        exact RangeConstraint.width_pos _)
    have h1 : acc * (rc v).width ≤ 1024 := (Nat.le_mul_of_pos_right _ hprod).trans h
    have h2 : (rc v).width ≤ 1024 := (Nat.le_mul_of_pos_left _ hacc).trans h1
    rw [countAssignments, if_pos (by omega)]
    exact ih _ (Nat.mul_pos hacc hpos) h

theorem isCandidate_of {vs : List V} (h1 : ∀ v ∈ vs, (rc v).width ≤ 5)
    (h2 : (vs.map fun v => (rc v).width).prod ≤ 1024) : isCandidate rc vs = true := by
  unfold isCandidate hasFewPossibleAssignments
  rw [countAssignments_of_le vs 1 one_pos (by rwa [one_mul])]
  simp only [one_mul, Bool.and_eq_true, decide_eq_true_eq, List.all_eq_true]
  exact ⟨h2, h1⟩

theorem field (hi : s.Inv) (hw : s.sys.WF) {subs : List (GExpr p V × GExpr p V)}
    (h : allSubstitutions s rc (bruteForceCandidates s.sys rc) [] = .ok subs)
    {σ : V → ZMod p} (hr : ∀ v, (rc v).Allows (σ v)) (h0 : ∀ e ∈ s.sys.algebraic, eval σ e = 0)
    {b : BusInteraction (GExpr p V)} (hb : b ∈ s.sys.bus) {e : GExpr p V} (he : e ∈ b.fields)
    (hne : ∃ v, Occurs v e) {vs : List V} (hnd : vs.Nodup) (hvs : ∀ v, v ∈ vs ↔ Occurs v e)
    (h5 : ∀ v ∈ vs, (rc v).width ≤ 5) (h1024 : (vs.map fun v => (rc v).width).prod ≤ 1024) {c : ZMod p}
    (hc : ∀ τ, SearchConsistent s.sys (fun _ => True) rc vs τ → eval τ e = c) :
    (replaceField subs e).1 ≠ e ∧ ∀ v, Occurs v (replaceField subs e).1 → Occurs v e := by
  have hmem : ∀ v, v ∈ varSet e ↔ v ∈ vs := fun v => by
    rw [hvs]; unfold varSet; rw [mem_btreeSet, mem_vars_iff_occurs]
  have hperm : (varSet e).Perm vs := (List.perm_ext_iff_of_nodup
    ((sorted_btreeSet _).imp fun h => ne_of_lt h) hnd).2 hmem
  have hcand : varSet e ∈ bruteForceCandidates s.sys rc := by
    unfold bruteForceCandidates
    rw [List.mem_eraseDups, List.mem_filter, List.mem_filterMap]
    refine ⟨⟨varSet e, ?_, ?_⟩, ?_⟩
    · rw [List.mem_eraseDups]
      exact List.mem_map.2 ⟨e, List.mem_append_right _ (List.mem_flatMap.2 ⟨b, hb, he⟩), rfl⟩
    · unfold candidateFor
      rw [if_pos]
      refine isCandidate_of (fun v hv => h5 v ((hmem v).1 hv)) ?_
      rw [(hperm.map _).prod_eq]
      exact h1024
    · obtain ⟨v, hv⟩ := hne
      have := (hmem v).2 ((hvs v).2 hv)
      cases hl : varSet e with
      | nil => rw [hl] at this; cases this
      | cons => rfl
  have hg : mapGet e subs ≠ none := by
    refine all_ne_none h (Or.inr ⟨_, hcand, fun l hl => ?_⟩)
    have := candidate hi hw hl (fun v _ => hr v) h0 hb he hne
      (fun v hv => (hmem v).2 ((hvs v).2 hv)) (c := c) fun τ hτ => hc τ
        ⟨fun v hv => hτ.ranges v ((hmem v).2 hv),
          fun e' he' hn' hs' => hτ.algebraic e' he' hn' fun v hv => (hmem v).2 (hs' v hv),
          fun _ _ _ _ => trivial⟩
    exact List.mem_map.2 ⟨_, this, rfl⟩
  unfold replaceField
  cases hm : mapGet e subs with
  | none => exact absurd hm hg
  | some q =>
    obtain ⟨k1, l, k2⟩ := allSubstitutions_form h (fun x hx => by cases hx) _ (mapGet_mem hm)
    refine ⟨k1, fun v hv => ?_⟩
    have hv' : v ∈ vars q := mem_vars_iff_occurs.2 hv
    rw [show q = substAssignment l e from k2] at hv'
    exact mem_vars_iff_occurs.1 (vars_substAssignment hv').1

end SimplifyExact
end Verif
