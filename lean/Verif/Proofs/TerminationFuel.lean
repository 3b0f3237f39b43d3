import Verif.Proofs.TerminationLoop

/-! Helper lemmas for the termination of the solver: the bound on the number of iterations. -/

set_option linter.unusedSectionVars false

namespace Verif

open GExpr

variable {p : ℕ} {V : Type} [Fact p.Prime] [LinearOrder V]

namespace Solver

variable {s s' : Solver p V} {O : List V} {h : Handler p}

/-! ### Functions without a bound on the number of iterations -/

theorem noFuel_bind {α β : Type} {o : Except Stop α} {f : α → Except Stop β} (h1 : o ≠ .error .fuel)
    (h2 : ∀ a, o = .ok a → f a ≠ .error .fuel) : (o >>= f) ≠ .error .fuel := by
  cases o with
  | error x =>
    intro hh
    apply h1
    cases hh
    rfl
  | ok a => exact h2 a rfl

theorem noFuel_lift {α : Type} (o : Except Panic α) : liftPanic o ≠ .error .fuel := by
  cases o <;> simp [liftPanic]

theorem noFuel_ok {α : Type} (a : α) : (.ok a : Except Stop α) ≠ .error .fuel := by simp

theorem noFuel_pure {α : Type} (a : α) : (pure a : Except Stop α) ≠ .error .fuel := by
  intro h; cases h

theorem variableUpdated_noFuel (x : SVar V) (s : Solver p V) :
    variableUpdated x s ≠ .error .fuel := by
  unfold variableUpdated
  exact noFuel_bind (noFuel_lift _) fun _ _ => noFuel_pure _

theorem constrainBoolean_noFuel (x : SVar V) (s : Solver p V) :
    constrainBoolean x s ≠ .error .fuel := by
  unfold constrainBoolean
  split
  · exact noFuel_ok _
  · split
    · simp
    · exact variableUpdated_noFuel _ _

theorem constrainBooleans_noFuel : ∀ (l : List (SVar V)) (s : Solver p V),
    constrainBooleans l s ≠ .error .fuel
  | [], _ => noFuel_ok _
  | z :: t, s => by
    rw [constrainBooleans]
    exact noFuel_bind (constrainBoolean_noFuel _ _) fun _ _ => constrainBooleans_noFuel t _

theorem extractAll_noFuel : ∀ (l : List (GExpr p (SVar V))) (s : Solver p V),
    extractAll l s ≠ .error .fuel
  | [], _ => noFuel_ok _
  | e :: t, s => by
    rw [extractAll]
    refine noFuel_bind ?_ fun _ _ => noFuel_bind (extractAll_noFuel t _) fun _ _ => noFuel_pure _
    unfold tryExtractBoolean
    exact noFuel_bind (constrainBooleans_noFuel _ _) fun _ _ => noFuel_pure _

theorem addAlgebraic_noFuel (l : List (GExpr p (SVar V))) (s : Solver p V) :
    addAlgebraic l s ≠ .error .fuel := by
  unfold addAlgebraic
  exact noFuel_bind (extractAll_noFuel _ _) fun _ _ =>
    noFuel_bind (noFuel_lift _) fun _ _ => noFuel_pure _

theorem addBus_noFuel (l : List (BusInteraction (GExpr p (SVar V)))) (s : Solver p V) :
    addBus l s ≠ .error .fuel := by
  unfold addBus
  exact noFuel_bind (addAlgebraic_noFuel _ _) fun _ _ =>
    noFuel_bind (noFuel_lift _) fun _ _ => noFuel_pure _

theorem applyAssignment_noFuel (x : SVar V) (r : GExpr p (SVar V)) (s : Solver p V) :
    applyAssignment x r s ≠ .error .fuel := by
  unfold applyAssignment
  exact noFuel_bind (noFuel_lift _) fun _ _ => noFuel_bind (noFuel_lift _) fun _ _ =>
    noFuel_bind (constrainBooleans_noFuel _ _) fun _ _ =>
    noFuel_bind (addAlgebraic_noFuel _ _) fun _ _ => noFuel_pure _

theorem applyRc_noFuel (x : SVar V) (r : RangeConstraint p) (s : Solver p V) :
    applyRc x r s ≠ .error .fuel := by
  unfold applyRc
  split
  · exact noFuel_ok _
  · split
    · exact noFuel_bind (applyAssignment_noFuel _ _ _) fun _ _ => noFuel_pure _
    · exact noFuel_bind (variableUpdated_noFuel _ _) fun _ _ => noFuel_pure _

theorem addRange_noFuel (x : SVar V) (r : RangeConstraint p) (s : Solver p V) :
    addRange x r s ≠ .error .fuel := by
  unfold addRange
  exact noFuel_bind (applyRc_noFuel _ _ _) fun _ _ => noFuel_pure _

theorem applyEffects_noFuel : ∀ (l : List (Effect p (SVar V))) (s : Solver p V),
    applyEffects l s ≠ .error .fuel
  | [], _ => noFuel_ok _
  | e :: t, s => by
    rw [applyEffects]
    refine noFuel_bind ?_ fun _ _ => noFuel_bind (applyEffects_noFuel t _) fun _ _ => noFuel_pure _
    cases e with
    | assignment v a => exact noFuel_bind (applyAssignment_noFuel _ _ _) fun _ _ => noFuel_pure _
    | rangeConstraint v r => exact applyRc_noFuel _ _ _
    | assertion a b c => simp [applyEffect]
    | conditionalAssignment a b c d e => simp [applyEffect]

theorem filterNew_noFuel (s : Solver p V) : ∀ l : List (GExpr p (SVar V)),
    filterNew s l ≠ .error .fuel
  | [] => noFuel_ok _
  | e :: t => by
    rw [filterNew]
    refine noFuel_bind ?_ fun _ _ => noFuel_bind (filterNew_noFuel s t) fun _ _ => noFuel_pure _
    unfold containsAlgebraic
    exact noFuel_bind (noFuel_lift _) fun _ _ => noFuel_pure _

theorem addAlgebraicIfNew_noFuel (l : List (GExpr p (SVar V))) (s : Solver p V) :
    addAlgebraicIfNew l s ≠ .error .fuel := by
  unfold addAlgebraicIfNew
  refine noFuel_bind (filterNew_noFuel _ _) fun _ _ => ?_
  split
  · exact noFuel_pure _
  · exact noFuel_bind (addAlgebraic_noFuel _ _) fun _ _ => noFuel_pure _

theorem process_noFuel (order : Rearrange (Effect p (SVar V))) (c : ConstraintRef p (SVar V))
    (s : Solver p V) : process h order c s ≠ .error .fuel := by
  cases c with
  | bus b =>
    simp only [process, processBus]
    refine noFuel_bind (noFuel_lift _) fun o _ => ?_
    cases o with
    | error x => simp
    | ok l => exact applyEffects_noFuel _ _
  | alg e =>
    simp only [process, processAlgebraic]
    split
    · exact noFuel_bind (applyAssignment_noFuel _ _ _) fun _ _ => noFuel_pure _
    · refine noFuel_bind (noFuel_lift _) fun o _ => ?_
      cases o with
      | error x => simp
      | ok l =>
        refine noFuel_bind (noFuel_lift _) fun o _ => ?_
        cases o with
        | none =>
          exact noFuel_bind (noFuel_pure _) fun _ _ =>
            noFuel_bind (applyEffects_noFuel _ _) fun _ _ => noFuel_pure _
        | some parts =>
          exact noFuel_bind (addAlgebraicIfNew_noFuel _ _) fun _ _ =>
            noFuel_bind (applyEffects_noFuel _ _) fun _ _ => noFuel_pure _

theorem applyRcs_noFuel : ∀ (l : List (SVar V × RangeConstraint p)) (s : Solver p V),
    applyRcs l s ≠ .error .fuel
  | [], _ => noFuel_ok _
  | x :: t, s => by
    rw [applyRcs]
    exact noFuel_bind (applyRc_noFuel _ _ _) fun _ _ =>
      noFuel_bind (applyRcs_noFuel t _) fun _ _ => noFuel_pure _

theorem searchSets_noFuel : ∀ (sets bad : List (List (SVar V))) (progress : Bool)
    (s : Solver p V), searchSets h sets bad progress s ≠ .error .fuel
  | [], _, _, _ => noFuel_ok _
  | vs :: t, bad, progress, s => by
    rw [searchSets]
    split
    · exact searchSets_noFuel t _ _ _
    · refine noFuel_bind (noFuel_lift _) fun o _ => ?_
      cases o with
      | error x => simp
      | ok m =>
        simp only
        split
        · exact searchSets_noFuel t _ _ _
        · exact noFuel_bind (applyRcs_noFuel _ _) fun _ _ => searchSets_noFuel t _ _ _

theorem exhaustiveSearch_noFuel (s : Solver p V) : exhaustiveSearch h s ≠ .error .fuel :=
  searchSets_noFuel _ _ _ _

theorem retain_noFuel (keep : List (SVar V)) (s : Solver p V) : retain keep s ≠ .error .fuel := by
  unfold retain
  split
  · simp
  · exact noFuel_bind (noFuel_lift _) fun _ _ => noFuel_bind (noFuel_lift _) fun _ _ =>
      noFuel_pure _

theorem solveForExpr_noFuel (e : GExpr p (SVar V)) : ∀ l : List (GExpr p (SVar V)),
    solveForExpr e l ≠ .error .fuel
  | [] => noFuel_ok _
  | c :: t => by
    rw [solveForExpr]
    exact noFuel_bind (noFuel_lift _) fun _ _ =>
      noFuel_bind (solveForExpr_noFuel e t) fun _ _ => noFuel_pure _

theorem equivalentExpressions_noFuel (e : GExpr p (SVar V)) (s : Solver p V) :
    equivalentExpressions e s ≠ .error .fuel := by
  unfold equivalentExpressions
  split
  · exact noFuel_ok _
  · split
    · exact noFuel_ok _
    · exact noFuel_bind (noFuel_lift _) fun _ _ =>
        noFuel_bind (solveForExpr_noFuel e _) fun _ _ => noFuel_pure _

theorem anyDifferent_noFuel (rc : SVar V → RangeConstraint p) :
    ∀ l : List (GExpr p (SVar V) × GExpr p (SVar V)), anyDifferent rc l ≠ .error .fuel
  | [] => noFuel_ok _
  | (a, b) :: t => by
    rw [anyDifferent]
    refine noFuel_bind (noFuel_lift _) fun _ _ => ?_
    split
    · exact noFuel_pure _
    · exact anyDifferent_noFuel rc t

theorem knownDifferent_noFuel (a b : GExpr p (SVar V)) (s : Solver p V) :
    knownDifferent a b s ≠ .error .fuel := by
  unfold knownDifferent
  split
  · exact noFuel_ok _
  · exact noFuel_bind (equivalentExpressions_noFuel _ _) fun _ _ =>
      noFuel_bind (equivalentExpressions_noFuel _ _) fun _ _ =>
      noFuel_bind (anyDifferent_noFuel _ _) fun _ _ => noFuel_pure _

theorem originalAssignments_noFuel : ∀ l : List (SVar V × GExpr p (SVar V)),
    originalAssignments l ≠ .error .fuel
  | [] => noFuel_ok _
  | (x, e) :: t => by
    rw [originalAssignments]
    split
    · exact noFuel_bind (originalAssignments_noFuel t) fun _ _ => noFuel_pure _
    · simp

/-! ### Finitely many results -/

theorem process_order (h : Handler p) (c : ConstraintRef p (SVar V)) (s : Solver p V) :
    ∃ (effects : List (Effect p (SVar V)))
      (F : List (Effect p (SVar V)) → Except Stop (Bool × Solver p V)),
      ∀ order : Rearrange (Effect p (SVar V)), process h order c s = F (order.1 effects) := by
  cases c with
  | bus b =>
    simp only [process, processBus]
    cases hb : liftPanic (solveBus s.rcs h b) with
    | error x => exact ⟨[], fun _ => .error x, fun _ => rfl⟩
    | ok o =>
      cases o with
      | error x => exact ⟨[], fun _ => .error (.error .bus), fun _ => rfl⟩
      | ok effects => exact ⟨effects, fun l => applyEffects l s, fun _ => rfl⟩
  | alg e =>
    simp only [process, processAlgebraic]
    cases trySimpleEquivalence e with
    | some y =>
      exact ⟨[], fun _ => do
        let s ← applyAssignment y.1 y.2 s
        pure (false, s), fun _ => rfl⟩
    | none =>
      simp only
      cases hb : liftPanic (GExpr.solve s.rcs e) with
      | error x => exact ⟨[], fun _ => .error x, fun _ => rfl⟩
      | ok o =>
        cases o with
        | error x => exact ⟨[], fun _ => .error (.error (.algebraic x)), fun _ => rfl⟩
        | ok result =>
          cases hsp : liftPanic (Splitter.trySplit s.rcs e) with
          | error x => exact ⟨[], fun _ => .error x, fun _ => rfl⟩
          | ok split =>
            cases split with
            | none =>
              exact ⟨result.effects, fun l => do
                let r ← applyEffects l s
                pure (false || r.1, r.2), fun _ => rfl⟩
            | some parts =>
              exact ⟨result.effects, fun l => do
                let n ← addAlgebraicIfNew parts s
                let r ← applyEffects l n.2
                pure (n.1 || r.1, r.2), fun _ => rfl⟩

theorem process_finite (h : Handler p) (c : ConstraintRef p (SVar V)) (s : Solver p V) :
    ∃ M : List (Except Stop (Bool × Solver p V)), ∀ order, process h order c s ∈ M := by
  obtain ⟨effects, F, hF⟩ := process_order h c s
  refine ⟨effects.permutations.map F, fun order => ?_⟩
  rw [hF]
  exact List.mem_map_of_mem (List.mem_permutations.2 (order.2 effects))

/-- A common bound for finitely many. -/
theorem exists_common {β γ : Type} {P : ℕ → List γ → β → Prop}
    (mono : ∀ {N N' L L' b}, N ≤ N' → (∀ x ∈ L, x ∈ L') → P N L b → P N' L' b) :
    ∀ {M : List β}, (∀ b ∈ M, ∃ N L, P N L b) → ∃ N L, ∀ b ∈ M, P N L b
  | [], _ => ⟨0, [], by simp⟩
  | b :: t, h => by
    obtain ⟨N1, L1, h1⟩ := h b (by simp)
    obtain ⟨N2, L2, h2⟩ := exists_common (P := P) mono (M := t) fun c hc => h c (by simp [hc])
    refine ⟨max N1 N2, L1 ++ L2, fun c hc => ?_⟩
    rcases List.mem_cons.1 hc with rfl | hc
    · exact mono (le_max_left _ _) (fun x hx => List.mem_append_left _ hx) h1
    · exact mono (le_max_right _ _) (fun x hx => List.mem_append_right _ hx) (h2 c hc)

/-! ### The loops -/

/-- `N` iterations are enough and lead to one of the states `L`. -/
def IsolationBound (h : Handler p) (O : List V) (s : Solver p V) (N : ℕ) (L : List (Solver p V)) :
    Prop :=
  ∀ (order : ℕ → Rearrange (Effect p (SVar V))) (fuel : ℕ) (progress : Bool), N ≤ fuel →
    solveInIsolation h order fuel progress s ≠ .error .fuel ∧
    ∀ r, solveInIsolation h order fuel progress s = .ok r → r.2 ∈ L ∧ TInv O r.2 ∧
      (full O r.2 < full O s ∨ r = (progress, s))

theorem isolation_bound (h : Handler p) (O : List V) (s : Solver p V) (ht : TInv O s) :
    ∃ N L, IsolationBound h O s N L := by
  revert ht
  refine WellFounded.induction (C := fun s => TInv O s → ∃ N L, IsolationBound h O s N L)
    (InvImage.wf (full O) (wellFounded_lt)) s ?_
  intro s ih ht
  rcases Queued.popFront_ok ht.inv.cs with ⟨hq, hp⟩ | ⟨x, c, cs, hp, h1, h2, h3, h4⟩
  · refine ⟨1, [s], fun order fuel progress hf => ?_⟩
    obtain ⟨n, rfl⟩ : ∃ n, fuel = n + 1 := ⟨fuel - 1, by omega⟩
    rw [solveInIsolation, hp]
    refine ⟨noFuel_pure _, fun r hr => ?_⟩
    cases hr
    exact ⟨by simp, ht, Or.inr rfl⟩
  · obtain ⟨M, hM⟩ := process_finite h c ({ s with cs := cs } : Solver p V)
    obtain ⟨N, L, hb⟩ := exists_common (M := M)
      (P := fun N L m => ∀ r, m = .ok r → full O r.2 < full O s → TInv O r.2 →
        IsolationBound h O r.2 N L)
      (fun hN hL hP r hr hlt hti order fuel progress hf => by
        obtain ⟨a, b⟩ := hP r hr hlt hti order fuel progress (le_trans hN hf)
        exact ⟨a, fun r' hr' => ⟨hL _ (b r' hr').1, (b r' hr').2⟩⟩)
      (fun m _ => by
        by_cases hm : ∃ r, m = .ok r ∧ full O r.2 < full O s ∧ TInv O r.2
        · obtain ⟨r, rfl, hlt, hti⟩ := hm
          obtain ⟨N, L, hb⟩ := ih r.2 hlt hti
          exact ⟨N, L, fun r' hr' _ _ => by cases hr'; exact hb⟩
        · exact ⟨0, [], fun r hr hlt hti => absurd ⟨r, hr, hlt, hti⟩ hm⟩)
    refine ⟨N + 1, L, fun order fuel progress hf => ?_⟩
    obtain ⟨n, rfl⟩ : ∃ n, fuel = n + 1 := ⟨fuel - 1, by omega⟩
    rw [solveInIsolation, hp]
    simp only [liftPanic_ok, stop_bind]
    have hdec := fun r hr => process_decreases (h := h) (order := order n) ht h1 h2 h3 h4 (r := r) hr
    have hmem := hM (order n)
    cases hr : process h (order n) c ({ s with cs := cs } : Solver p V) with
    | error e =>
      have := process_noFuel (h := h) (order n) c ({ s with cs := cs } : Solver p V)
      rw [hr] at this
      exact ⟨fun hh => this (by cases hh; rfl), fun r hh => by cases hh⟩
    | ok r =>
      rw [hr] at hmem
      obtain ⟨hti, hlt⟩ := hdec r hr
      rw [stop_bind]
      obtain ⟨a, b⟩ := hb _ hmem r rfl hlt hti order n (progress || r.1) (by omega)
      refine ⟨a, fun r' hr' => ?_⟩
      obtain ⟨b1, b2, b3⟩ := b r' hr'
      refine ⟨b1, b2, Or.inl ?_⟩
      rcases b3 with hh | hh
      · exact lt_trans hh hlt
      · rw [hh]
        exact hlt

theorem loop_bound (h : Handler p) (O : List V) (s : Solver p V) (ht : TInv O s) :
    ∃ N, ∀ (ch : Choices p V) (n : ℕ), N ≤ ch.fuel → N ≤ n →
      loopUntilNoProgress h ch n s ≠ .error .fuel := by
  revert ht
  refine WellFounded.induction (C := fun s => TInv O s → ∃ N, ∀ (ch : Choices p V) (n : ℕ),
    N ≤ ch.fuel → N ≤ n → loopUntilNoProgress h ch n s ≠ .error .fuel)
    (InvImage.wf (full O) (wellFounded_lt)) s ?_
  intro s ih ht
  obtain ⟨N0, L, hiso⟩ := isolation_bound h O s ht
  have hloop : ∀ t : Solver p V, ∃ N, full O t < full O s → TInv O t →
      ∀ (ch : Choices p V) (n : ℕ), N ≤ ch.fuel → N ≤ n →
      loopUntilNoProgress h ch n t ≠ .error .fuel := by
    intro t
    by_cases ht : full O t < full O s ∧ TInv O t
    · obtain ⟨N, hN⟩ := ih t ht.1 ht.2
      exact ⟨N, fun _ _ => hN⟩
    · exact ⟨0, fun h1 h2 => absurd ⟨h1, h2⟩ ht⟩
  obtain ⟨N1, -, hb⟩ := exists_common (M := L) (γ := Unit)
    (P := fun N _ t => (full O t < full O s → TInv O t → ∀ (ch : Choices p V) (n : ℕ),
        N ≤ ch.fuel → N ≤ n → loopUntilNoProgress h ch n t ≠ .error .fuel) ∧
      ∀ o, exhaustiveSearch h t = .ok o → full O o.2 < full O s → TInv O o.2 →
        ∀ (ch : Choices p V) (n : ℕ), N ≤ ch.fuel → N ≤ n →
        loopUntilNoProgress h ch n o.2 ≠ .error .fuel)
    (fun hN _ hP => ⟨fun h1 h2 ch n h3 h4 => hP.1 h1 h2 ch n (le_trans hN h3) (le_trans hN h4),
      fun o ho h1 h2 ch n h3 h4 => hP.2 o ho h1 h2 ch n (le_trans hN h3) (le_trans hN h4)⟩)
    (fun t _ => by
      obtain ⟨N2, h2⟩ := hloop t
      cases ho : exhaustiveSearch h t with
      | error x => exact ⟨N2, [], h2, fun o hh => by cases hh⟩
      | ok o =>
        obtain ⟨N3, h3⟩ := hloop o.2
        refine ⟨max N2 N3, [], fun g1 g2 ch n g3 g4 => h2 g1 g2 ch n (by omega) (by omega),
          fun o' hh g1 g2 ch n g3 g4 => ?_⟩
        cases hh
        exact h3 g1 g2 ch n (by omega) (by omega))
  refine ⟨max N0 N1 + 1, fun ch n hf hn => ?_⟩
  obtain ⟨n, rfl⟩ : ∃ m, n = m + 1 := ⟨n - 1, by omega⟩
  rw [loopUntilNoProgress]
  obtain ⟨a, b⟩ := hiso ch.effects ch.fuel false (by omega)
  refine noFuel_bind a fun r hr => ?_
  obtain ⟨b1, b2, b3⟩ := b r hr
  have hle : full O r.2 ≤ full O s := by
    rcases b3 with hh | hh
    · exact le_of_lt hh
    · rw [hh]
  split
  · rename_i h1
    rw [stop_pure, stop_bind]
    simp only [h1, if_true]
    refine (hb _ b1).1 ?_ b2 ch n (by omega) (by omega)
    rcases b3 with hh | hh
    · exact hh
    · rw [hh] at h1
      cases h1
  · refine noFuel_bind (exhaustiveSearch_noFuel _) fun o ho => ?_
    obtain ⟨c1, c2⟩ := exhaustiveSearch_decreases b2 ho
    simp only
    split
    · rename_i h1
      exact (hb _ b1).2 o ho (lt_of_lt_of_le (c2 h1) hle) c1 ch n (by omega) (by omega)
    · exact noFuel_pure _

theorem solve_bound (h : Handler p) (hi : s.Inv) : ∃ N, ∀ ch : Choices p V, N ≤ ch.fuel →
    solve h ch s ≠ .error .fuel := by
  obtain ⟨O, ht⟩ := exists_tinv hi.clearCache
  obtain ⟨N, hN⟩ := loop_bound h O _ ht
  refine ⟨N, fun ch hf => ?_⟩
  unfold solve
  exact noFuel_bind (hN ch ch.fuel hf hf) fun _ _ => noFuel_pure _

end Solver

end Verif
