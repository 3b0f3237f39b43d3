import Verif.Proofs.SolverBase
import Verif.Props.Indexed

/-! # Property C20: exhaustive search -/

namespace Verif

open GExpr

set_option linter.unusedSectionVars false

variable {p : ℕ} [Fact p.Prime] {V : Type} [LinearOrder V]

/-- C20: for every system, after any history of modifications, every set of variables and every
sound handler, the range constraints found hold in every solution that respects the known range
constraints. -/
theorem C20_search_sound (bus : Bus p) (h : Handler p) (hs : h.Sound bus)
    (t : ConstraintSystem p V) (ops : List (IndexedOp p V)) (hw : (indexedHistory t ops).sys.WF)
    (rc : V → RangeConstraint p) (vs : List V) (m : List (V × RangeConstraint p))
    (ho : exhaustiveSearchOn (indexedHistory t ops) vs rc h = .ok (.ok m)) (σ : V → ZMod p)
    (hr : ∀ v, (rc v).allowsValue (σ v) = true)
    (hsat : (indexedHistory t ops).sys.Satisfied bus σ) :
    ∀ x ∈ m, x.2.allowsValue (σ x.1) = true := by
  obtain ⟨m', h1, h2⟩ := exhaustiveSearchOn_spec hs (Indexed.inv_history t ops) hw
    (fun v => (RangeConstraint.allowsValue_iff _ _).1 (hr v)) hsat ho
  cases h1
  exact fun x hx => (RangeConstraint.allowsValue_iff _ _).2 (h2 x hx)

/-- C20: a contradiction is reported only if there is no solution that respects the known range
constraints. -/
theorem C20_contradiction_real (bus : Bus p) (h : Handler p) (hs : h.Sound bus)
    (t : ConstraintSystem p V) (ops : List (IndexedOp p V)) (hw : (indexedHistory t ops).sys.WF)
    (rc : V → RangeConstraint p) (vs : List V)
    (ho : exhaustiveSearchOn (indexedHistory t ops) vs rc h = .ok (.error ())) (σ : V → ZMod p)
    (hr : ∀ v, (rc v).allowsValue (σ v) = true) :
    ¬ (indexedHistory t ops).sys.Satisfied bus σ := by
  intro hsat
  obtain ⟨m', h1, h2⟩ := exhaustiveSearchOn_spec hs (Indexed.inv_history t ops) hw
    (fun v => (RangeConstraint.allowsValue_iff _ _).1 (hr v)) hsat ho
  cases h1

theorem solve_known_nonzero {rc : V → RangeConstraint p} {e : GExpr p V} {k : ZMod p}
    (h : e.tryToKnown = some k) (hk : k ≠ 0) (r : ProcessResult p V) :
    solve rc e ≠ .ok (.ok r) := by
  rw [tryToKnown_eq_some] at h
  subst h
  rw [solve]
  split
  · simp
  · simp

theorem solveAllUnder_none {rc : V → RangeConstraint p} {h : Handler p} {a : List (V × ZMod p)}
    {e : GExpr p V} {k : ZMod p} (he : (substAssignment a e).tryToKnown = some k) (hk : k ≠ 0) :
    ∀ {l : List (ConstraintRef p V)}, .alg e ∈ l → ∀ es, solveAllUnder rc h a l ≠ .ok (some es) := by
  intro l
  induction l with
  | nil => intro hl; cases hl
  | cons c t ih =>
    intro hl es ho
    rw [solveAllUnder] at ho
    cases h1 : solveUnder rc h a c with
    | error x => rw [h1] at ho; cases ho
    | ok o =>
      rw [h1, ok_bind] at ho
      cases o with
      | none => cases ho
      | some l1 =>
        simp only at ho
        cases h2 : solveAllUnder rc h a t with
        | error x => rw [h2] at ho; cases ho
        | ok o2 =>
          rw [h2, ok_bind] at ho
          cases o2 with
          | none => cases ho
          | some l2 =>
            rcases List.mem_cons.1 hl with rfl | hl
            · rw [solveUnder] at h1
              cases h3 : solve rc (substAssignment a e) with
              | error x => rw [h3] at h1; cases h1
              | ok o3 =>
                rw [h3, ok_bind] at h1
                cases o3 with
                | error x => cases h1
                | ok r => exact solve_known_nonzero he hk r h3
            · exact ih hl l2 h2

/-- C20: if the searched variables include all variables of an algebraic constraint, and no
combination of their allowed values satisfies it, then the search reports the contradiction. -/
theorem C20_contradiction_reported (h : Handler p)
    (t : ConstraintSystem p V) (ops : List (IndexedOp p V)) (hw : (indexedHistory t ops).sys.WF)
    (rc : V → RangeConstraint p) (vs : List V) (e : GExpr p V)
    (he : e ∈ (indexedHistory t ops).sys.algebraic) (hv : ∀ v, Occurs v e → v ∈ vs)
    (hne : ∃ v, Occurs v e)
    (hno : ∀ σ : V → ZMod p, (∀ v ∈ vs, (rc v).allowsValue (σ v) = true) → eval σ e ≠ 0)
    (m : List (V × RangeConstraint p)) :
    exhaustiveSearchOn (indexedHistory t ops) vs rc h ≠ .ok (.ok m) := by
  intro ho
  have hi := Indexed.inv_history t ops
  generalize indexedHistory t ops = s at *
  unfold exhaustiveSearchOn at ho
  cases h1 : allPossibleAssignments rc vs with
  | error x => rw [h1] at ho; cases ho
  | ok as =>
    rw [h1, ok_bind] at ho
    cases h2 : deriveAll s rc h as with
    | error x => rw [h2] at ho; cases ho
    | ok ms =>
      rw [h2, ok_bind] at ho
      cases ms with
      | nil => cases ho
      | cons first rest =>
        obtain ⟨a, ha, h3⟩ := deriveAll_sound h2 (m := first) (by simp)
        obtain ⟨h4, h5⟩ := allPossibleAssignments_sound h1 ha
        unfold deriveNewRangeConstraints at h3
        rw [Indexed.constraintsReferencing_ok hi, ok_bind] at h3
        have hwe : WF e := hw.1 e he
        have hkeys : ∀ v ∈ vars e, v ∈ a.map (·.1) := fun v h =>
          (h5 v).2 (hv v (mem_vars_iff_occurs.1 h))
        obtain ⟨k, hk⟩ := known_of_no_vars (wf_substAssignment a hwe) (fun v hv => by
          obtain ⟨h6, h7⟩ := vars_substAssignment hv
          exact h7 (hkeys v h6))
        have hk0 : k ≠ 0 := by
          rintro rfl
          have hsort := allPossibleAssignments_sorted h1 ha
          have hl : ∀ y ∈ a, (Linear.lookup y.1 a).getD 0 = y.2 := by
            intro y hy
            rw [lookup_of_mem hsort (show (y.1, y.2) ∈ a from hy)]
            rfl
          refine hno (fun v => (Linear.lookup v a).getD 0) ?_ ?_
          · intro v hv
            obtain ⟨y, hy, rfl⟩ := List.mem_map.1 ((h5 v).2 hv)
            show (rc y.1).allowsValue ((Linear.lookup y.1 a).getD 0) = true
            rw [hl y hy, RangeConstraint.allowsValue_iff]
            exact h4 y hy
          · rw [← eval_substAssignment (a := a) (fun y hy => hl y hy) hwe, eval_known _ hk]
        obtain ⟨i, hi', hei⟩ := List.getElem_of_mem he
        obtain ⟨v, hve⟩ := hne
        have hmem : ConstraintRef.alg e ∈
            (s.itemsReferencing (a.map (·.1))).filterMap (refAt s.sys) := by
          rw [List.mem_filterMap]
          refine ⟨.alg i, Indexed.mem_itemsReferencing.2 ⟨v, hkeys v (mem_vars_iff_occurs.2 hve),
            hi.complete v (.alg i) ⟨e, ?_, hve⟩⟩, ?_⟩
          · rw [List.getElem?_eq_getElem hi', hei]
          · simp [refAt, List.getElem?_eq_getElem hi', hei]
        cases h6 : solveAllUnder rc h a
            ((s.itemsReferencing (a.map (·.1))).filterMap (refAt s.sys)) with
        | error x => rw [h6] at h3; cases h3
        | ok o =>
          rw [h6, ok_bind] at h3
          cases o with
          | none => cases h3
          | some es => exact solveAllUnder_none hk hk0 hmem es h6

/-- C20: the search does not panic on the candidates the solver chooses. -/
theorem C20_no_panic (bus : Bus p) (h : Handler p) (hs : h.Sound bus) (ht : h.Total)
    (t : ConstraintSystem p V) (ops : List (IndexedOp p V)) (hw : (indexedHistory t ops).sys.WF)
    (rc : V → RangeConstraint p) (vs : List V)
    (hc : vs ∈ bruteForceCandidates (indexedHistory t ops).sys rc) (x : Panic) :
    exhaustiveSearchOn (indexedHistory t ops) vs rc h ≠ .error x := by
  obtain ⟨o, ho⟩ := exhaustiveSearchOn_total (rc := rc) hs ht (Indexed.inv_history t ops) hw
    (bruteForceCandidates_width hc)
  rw [ho]; simp

/-- C20: the candidates are non-empty sets of variables that occur together in an expression, each
with at most five possible values, at most 1024 combinations. -/
theorem C20_candidates (s : ConstraintSystem p V) (rc : V → RangeConstraint p) (vs : List V)
    (hc : vs ∈ bruteForceCandidates s rc) :
    vs ≠ [] ∧ (∀ v ∈ vs, (rc v).width ≤ 5) ∧ (vs.map fun v => (rc v).width).prod ≤ 1024 ∧
      ((∃ e ∈ s.algebraic, ∀ v ∈ vs, Occurs v e) ∨
        ∃ b ∈ s.bus, ∃ e ∈ b.fields, ∀ v ∈ vs, Occurs v e) := by
  unfold bruteForceCandidates at hc
  rw [List.mem_eraseDups, List.mem_filter, List.mem_filterMap] at hc
  obtain ⟨⟨ws, hws, hc⟩, hne⟩ := hc
  rw [List.mem_eraseDups, List.mem_map] at hws
  obtain ⟨e, he, rfl⟩ := hws
  have hsub : (∀ v ∈ vs, v ∈ varSet e) ∧ isCandidate rc vs = true := by
    unfold candidateFor at hc
    split at hc
    · rename_i h
      cases hc
      exact ⟨fun v hv => hv, h⟩
    · simp only at hc
      split at hc
      · rename_i h
        cases hc
        refine ⟨fun v hv => ?_, h⟩
        have hi : ∀ (l : List V) (w : V), w ∈ l.foldr (insertBySize rc) [] → w ∈ l := by
          intro l w
          induction l with
          | nil => exact fun h => h
          | cons a t ih =>
            have : ∀ (l : List V), w ∈ insertBySize rc a l → w = a ∨ w ∈ l := by
              intro l
              induction l with
              | nil => simp [insertBySize]
              | cons b l ihl =>
                rw [insertBySize]
                split
                · intro h; simpa using h
                · intro h
                  rcases List.mem_cons.1 h with rfl | h
                  · simp
                  · rcases ihl h with h | h
                    · exact Or.inl h
                    · exact Or.inr (List.mem_cons_of_mem _ h)
            intro h
            rcases this _ h with h | h
            · rw [h]; exact List.mem_cons_self
            · exact List.mem_cons_of_mem _ (ih h)
        rw [mem_btreeSet] at hv
        exact hi _ v (List.mem_of_mem_take hv)
      · cases hc
  have hprod : ∀ (vs : List V) (acc n : ℕ), countAssignments rc vs acc = some n →
      acc * (vs.map fun v => (rc v).width).prod = n := by
    intro vs
    induction vs with
    | nil => intro acc n h; cases h; simp
    | cons v t ih =>
      intro acc n h
      rw [countAssignments] at h
      split at h
      · rw [List.map_cons, List.prod_cons, ← mul_assoc]
        exact ih _ _ h
      · cases h
  refine ⟨by rintro rfl; simp at hne, isCandidate_width hsub.2, ?_, ?_⟩
  · have h := hsub.2
    unfold isCandidate at h
    rw [Bool.and_eq_true] at h
    have h := h.1
    unfold hasFewPossibleAssignments at h
    cases hk : countAssignments rc vs 1 with
    | none => rw [hk] at h; cases h
    | some k =>
      rw [hk] at h
      have h2 : k ≤ 2 ^ 10 := of_decide_eq_true h
      have := hprod vs 1 k hk
      omega
  · have hocc : ∀ v ∈ vs, Occurs v e := by
      intro v hv
      have := hsub.1 v hv
      unfold varSet at this
      rw [mem_btreeSet] at this
      exact mem_vars_iff_occurs.1 this
    rcases List.mem_append.1 he with he | he
    · exact Or.inl ⟨e, he, hocc⟩
    · obtain ⟨b, hb, hf⟩ := List.mem_flatMap.1 he
      exact Or.inr ⟨b, hb, e, hf, hocc⟩

/-- C20: the list of concrete values of an expression contains exactly the values it takes for
assignments within the range constraints. -/
theorem C20_concrete_values (rc : V → RangeConstraint p) (e : GExpr p V) (hw : WF e) (n : ℕ)
    (l : List (ZMod p)) (ho : possibleConcreteValues rc e n = .ok (some l)) (x : ZMod p) :
    x ∈ l ↔ ∃ σ, InRange rc σ e ∧ eval σ e = x := by
  constructor
  · intro hx
    obtain ⟨σ, h1, h2⟩ := possibleConcreteValues_exact hw ho hx
    exact ⟨σ, inRange_of_vars h1, h2⟩
  · rintro ⟨σ, h1, h2⟩
    exact possibleConcreteValues_spec hw ho x σ (inRange_vars h1) h2

/-- C20: computing the concrete values does not panic, for a bound of less than 32 bits. -/
theorem C20_concrete_values_no_panic (rc : V → RangeConstraint p) (e : GExpr p V) (hw : WF e)
    (n : ℕ) (hn : n < 2 ^ 32) (x : Panic) : possibleConcreteValues rc e n ≠ .error x := by
  obtain ⟨o, ho⟩ := possibleConcreteValues_total (rc := rc) hw hn
  rw [ho]; simp

/-- `x0` and `x1` are Boolean; `x0 + x1 = 2`, and `x2 = 2 * x0 + 1`. -/
def sampleSearch : ConstraintSystem 17 ℕ :=
  ⟨[var 0 * var 1 - const 1, var 2 - scale 2 (var 0) - const 1], [], []⟩

def sampleSearchRc (v : ℕ) : RangeConstraint 17 :=
  if v = 2 then .unconstrained else .fromRange 0 1

example : exhaustiveSearchOn (indexedHistory sampleSearch []) [0, 1] sampleSearchRc defaultHandler =
    .ok (.ok [(0, .fromValue 1), (1, .fromValue 1), (2, .fromValue 3)]) := by decide +kernel
example : exhaustiveSearchOn (indexedHistory sampleSearch [.extend ⟨[var 0 + var 1], [], []⟩])
    [0, 1] sampleSearchRc defaultHandler = .ok (.error ()) := by decide +kernel
example : sampleSearch.Satisfied (fun _ => True) (fun v => if v = 2 then 3 else 1) :=
  ⟨by decide +kernel, by simp⟩
example : possibleConcreteValues sampleSearchRc (var 0 + scale 2 (var 1) * var 0) 10 =
    .ok (some [0, 1, 0, 1, 0, 3, 0, 3]) := by decide +kernel
example : possibleConcreteValues sampleSearchRc (var 0 + var 2) 10 = .ok none := by decide +kernel

end Verif
