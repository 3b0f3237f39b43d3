import Verif.Spec.RangeOptimizer
import Verif.Props.Solver
import Verif.Proofs.Conjunction
import Verif.Proofs.OpenVmPure

set_option linter.unusedSectionVars false

/-! # The range constraint optimizer preserves the solutions -/

namespace Verif

open RangeConstraint GExpr

variable {p : ℕ} [Fact p.Prime] {V : Type} [LinearOrder V]

theorem collectPure_spec {rh : RangeHandler p V} : ∀ {bs kept : List (BusInteraction (GExpr p V))}
    {rcs : RangeConstraints p V}, collectPure rh bs = .ok (kept, rcs) →
    (∀ b ∈ kept, b ∈ bs) ∧
    (∀ b ∈ bs, b ∈ kept ∨ b.multiplicity = const 1 ∧
      ∃ r, rh.pure b = .ok (some r) ∧ ∀ x ∈ r, x ∈ rcs) ∧
    ∀ x ∈ rcs, ∃ b ∈ bs, b.multiplicity = const 1 ∧ ∃ r, rh.pure b = .ok (some r) ∧ x ∈ r
  | [], kept, rcs, h => by cases h; simp
  | b :: t, kept, rcs, h => by
    rw [collectPure] at h
    cases hr : collectPure rh t with
    | error x =>
      rw [hr] at h
      exfalso
      split at h
      · cases h
      · cases hp : rh.pure b with
        | error x => rw [hp] at h; cases h
        | ok o => rw [hp] at h; cases o <;> cases h
    | ok res =>
      obtain ⟨k', r'⟩ := res
      obtain ⟨h1, h2, h3⟩ := collectPure_spec hr
      rw [hr] at h
      have keepCase : kept = b :: k' → rcs = r' → (∀ c ∈ kept, c ∈ b :: t) ∧
          (∀ c ∈ b :: t, c ∈ kept ∨ c.multiplicity = const 1 ∧
            ∃ r, rh.pure c = .ok (some r) ∧ ∀ x ∈ r, x ∈ rcs) ∧
          ∀ x ∈ rcs, ∃ c ∈ b :: t, c.multiplicity = const 1 ∧
            ∃ r, rh.pure c = .ok (some r) ∧ x ∈ r := by
        rintro rfl rfl
        refine ⟨?_, ?_, ?_⟩
        · intro c hc
          rcases List.mem_cons.1 hc with rfl | hc
          · simp
          · exact List.mem_cons_of_mem _ (h1 c hc)
        · intro c hc
          rcases List.mem_cons.1 hc with rfl | hc
          · simp
          · rcases h2 c hc with h | h
            · exact Or.inl (List.mem_cons_of_mem _ h)
            · exact Or.inr h
        · intro x hx
          obtain ⟨c, hc, h⟩ := h3 x hx
          exact ⟨c, List.mem_cons_of_mem _ hc, h⟩
      split at h
      · cases h; exact keepCase rfl rfl
      · rename_i hmul
        cases hp : rh.pure b with
        | error x => rw [hp] at h; cases h
        | ok o =>
          rw [hp] at h
          cases o with
          | none => cases h; exact keepCase rfl rfl
          | some r =>
            cases h
            refine ⟨fun c hc => List.mem_cons_of_mem _ (h1 c hc), ?_, ?_⟩
            · intro c hc
              rcases List.mem_cons.1 hc with rfl | hc
              · exact Or.inr ⟨not_not.1 hmul, r, hp, fun x hx => List.mem_append_left _ hx⟩
              · rcases h2 c hc with h | ⟨h, r2, h4, h5⟩
                · exact Or.inl h
                · exact Or.inr ⟨h, r2, h4, fun x hx => List.mem_append_right _ (h5 x hx)⟩
            · intro x hx
              rcases List.mem_append.1 hx with hx | hx
              · exact ⟨b, by simp, not_not.1 hmul, r, hp, hx⟩
              · obtain ⟨c, hc, h⟩ := h3 x hx
                exact ⟨c, List.mem_cons_of_mem _ hc, h⟩

theorem foldl_conjunction_zero : ∀ (l : List (RangeConstraint p)) (a : RangeConstraint p),
    a.min = 0 → (∀ r ∈ l, r.min = 0) →
    (l.foldl conjunction a).min = 0 ∧ (l.foldl conjunction a).max.val ≤ a.max.val ∧
      (∀ r ∈ l, (l.foldl conjunction a).max.val ≤ r.max.val) ∧
      ∀ v, (l.foldl conjunction a).Allows v ↔ a.Allows v ∧ ∀ r ∈ l, r.Allows v
  | [], a, ha, _ => by simp [ha]
  | r :: t, a, ha, hl => by
    have hr := hl r (by simp)
    obtain ⟨c1, c2, c3, c4⟩ := conjunction_zero ha hr
    obtain ⟨i1, i2, i3, i4⟩ := foldl_conjunction_zero t (a.conjunction r) c1
      fun x hx => hl x (List.mem_cons_of_mem _ hx)
    rw [List.foldl_cons]
    refine ⟨i1, i2.trans c2, ?_, fun v => ?_⟩
    · intro x hx
      rcases List.mem_cons.1 hx with rfl | hx
      · exact i2.trans c3
      · exact i3 x hx
    · rw [i4, c4]
      simp only [List.mem_cons, forall_eq_or_imp, and_assoc]

theorem mem_mergeRanges {rcs : RangeConstraints p V} {x : GExpr p V × RangeConstraint p} :
    x ∈ mergeRanges rcs ↔ (∃ rc, (x.1, rc) ∈ rcs) ∧ x.2 = mergedRange rcs x.1 := by
  unfold mergeRanges
  simp only [List.mem_map, List.mem_reverse, List.mem_dedup]
  constructor
  · rintro ⟨e, ⟨y, hy, rfl⟩, rfl⟩
    exact ⟨⟨y.2, hy⟩, rfl⟩
  · rintro ⟨⟨rc, h⟩, h2⟩
    exact ⟨x.1, ⟨_, h, rfl⟩, by rw [← h2]⟩

theorem mergeRanges_spec {rcs : RangeConstraints p V} {w : ℕ}
    (h : ∀ x ∈ rcs, x.2.min = 0 ∧ x.2.max.val < w) :
    (∀ x ∈ mergeRanges rcs, x.2.min = 0 ∧ x.2.max.val < w) ∧
    ∀ σ : V → ZMod p, (∀ x ∈ mergeRanges rcs, x.2.Allows (eval σ x.1)) ↔
      ∀ x ∈ rcs, x.2.Allows (eval σ x.1) := by
  have key : ∀ e, (mergedRange rcs e).min = 0 ∧
      (∀ rc, (e, rc) ∈ rcs → (mergedRange rcs e).max.val ≤ rc.max.val) ∧
      ∀ v, (mergedRange rcs e).Allows v ↔ ∀ rc, (e, rc) ∈ rcs → rc.Allows v := by
    intro e
    unfold mergedRange
    have hmem : ∀ r, r ∈ (rcs.filter fun x => decide (x.1 = e)).map Prod.snd ↔ (e, r) ∈ rcs := by
      intro r
      simp only [List.mem_map, List.mem_filter, decide_eq_true_eq]
      constructor
      · rintro ⟨x, ⟨hx, rfl⟩, rfl⟩; exact hx
      · intro hx; exact ⟨_, ⟨hx, rfl⟩, rfl⟩
    obtain ⟨c1, c2, c3, c4⟩ := foldl_conjunction_zero
      ((rcs.filter fun x => decide (x.1 = e)).map Prod.snd) unconstrained rfl
      (fun r hr => (h _ ((hmem r).1 hr)).1)
    refine ⟨c1, fun rc hrc => c3 rc ((hmem rc).2 hrc), fun v => ?_⟩
    rw [c4]
    simp only [unconstrained_allows, true_and, hmem]
  constructor
  · intro x hx
    obtain ⟨⟨rc, h1⟩, h2⟩ := mem_mergeRanges.1 hx
    rw [h2]
    exact ⟨(key x.1).1, ((key x.1).2.1 rc h1).trans_lt (h _ h1).2⟩
  · intro σ
    constructor
    · intro ha x hx
      have := ha (x.1, mergedRange rcs x.1) (mem_mergeRanges.2 ⟨⟨x.2, hx⟩, rfl⟩)
      exact ((key x.1).2.2 _).1 this x.2 hx
    · intro ha x hx
      obtain ⟨-, h2⟩ := mem_mergeRanges.1 hx
      rw [h2]
      exact ((key x.1).2.2 _).2 fun rc hrc => ha _ hrc

theorem solvedSolver_spec {bus : Bus p} {h : Handler p} (hs : h.Sound bus) {ch : Choices p V}
    {cs : ConstraintSystem p V} (hw : cs.WF) {s : Solver p V}
    (ho : solvedSolver h ch cs = .ok s) {σ : V → ZMod p} (hσ : cs.Satisfied bus σ) {e : GExpr p V}
    (he : WF e) : (s.rangeConstraintForExpression e).Allows (eval σ e) := by
  have hops : ∀ op ∈ [SolverOp.addAlgebraic cs.algebraic, .addBus cs.bus, .solve ch], op.WF := by
    intro op hop
    simp only [List.mem_cons, List.not_mem_nil, or_false] at hop
    rcases hop with rfl | rfl | rfl
    · exact hw.1
    · exact hw.2
    · trivial
  have hsat : ∀ op ∈ [SolverOp.addAlgebraic cs.algebraic, .addBus cs.bus, .solve ch],
      op.Holds bus σ := by
    intro op hop
    simp only [List.mem_cons, List.not_mem_nil, or_false] at hop
    rcases hop with rfl | rfl | rfl
    · exact hσ.algebraic
    · exact hσ.bus
    · trivial
  have hrun : ∃ outs, runOps h [SolverOp.addAlgebraic cs.algebraic, .addBus cs.bus, .solve ch]
      Solver.new = .ok (outs, s) := by
    unfold solvedSolver newSolver at ho
    simp only [runOps]
    cases h1 : (Solver.new (p := p) (V := V)).addAlgebraic (cs.algebraic.map transformExpr) with
    | error x => rw [h1] at ho; cases ho
    | ok s1 =>
      rw [h1] at ho
      simp only [Solver.stop_bind] at ho
      cases h2 : s1.addBus (cs.bus.map fun b => b.map transformExpr) with
      | error x => rw [h2] at ho; cases ho
      | ok s2 =>
        rw [h2] at ho
        simp only [Solver.stop_bind] at ho
        have e1 : SolverOp.run h Solver.new (.addAlgebraic cs.algebraic) = .ok (.unit, s1) := by
          rw [SolverOp.run, h1]; rfl
        have e2 : SolverOp.run h s1 (.addBus cs.bus) = .ok (.unit, s2) := by
          rw [SolverOp.run, h2]; rfl
        rw [e1, Solver.stop_bind, e2, Solver.stop_bind]
        cases h3 : SolverOp.run h s2 (.solve ch) with
        | error x =>
          rw [h3] at ho
          cases x <;> cases ho
        | ok r =>
          rw [h3] at ho
          cases ho
          exact ⟨_, rfl⟩
  obtain ⟨outs, hrun⟩ := hrun
  exact (allowsValue_iff _ _).1
    ((C21_queries_correct bus h hs _ hops outs s hrun σ hsat).2.1 e he)

theorem eval_assertBool (σ : V → ZMod p) (e : GExpr p V) :
    eval σ (assertBool e) = 0 ↔ (fromMask 1 : RangeConstraint p).Allows (eval σ e) := by
  unfold assertBool
  rw [eval_mul, eval_sub, eval_const, fromMask_one_allows, mul_eq_zero, sub_eq_zero]

/-- What a successful run does. -/
theorem optimizeRangeConstraints_ok {h : Handler p} {rh : RangeHandler p V} {ch : Choices p V}
    {bound : DegreeBound} {s s' : ConstraintSystem p V}
    (ho : optimizeRangeConstraints h rh ch bound s = .ok s') :
    ∃ kept rcs solver made, collectPure rh s.bus = .ok (kept, rcs) ∧
      solvedSolver h ch { s with bus := kept } = .ok solver ∧
      rh.make (((mergeRanges rcs).filter (rangeNeeded solver)).filter
        fun x => !asBit bound x) = .ok (some made) ∧
      (∀ b ∈ made, b.multiplicity.tryToNumber = some 1) ∧
      s' = { s with
        bus := kept ++ made
        algebraic := s.algebraic ++
          (((mergeRanges rcs).filter (rangeNeeded solver)).filter (asBit bound)).map
            fun x => assertBool x.1 } := by
  unfold optimizeRangeConstraints at ho
  cases h1 : collectPure rh s.bus with
  | error x => rw [h1] at ho; cases ho
  | ok r =>
  obtain ⟨kept, rcs⟩ := r
  rw [h1] at ho
  simp only [liftPanic, Solver.stop_bind] at ho
  cases h2 : solvedSolver h ch { s with bus := kept } with
  | error x => rw [h2] at ho; cases ho
  | ok solver =>
  rw [h2] at ho
  simp only [Solver.stop_bind] at ho
  cases h3 : rh.make (((mergeRanges rcs).filter (rangeNeeded solver)).filter
      fun x => !asBit bound x) with
  | error x => rw [h3] at ho; cases ho
  | ok o =>
  rw [h3] at ho
  cases o with
  | none => cases ho
  | some made =>
  simp only [Solver.stop_bind] at ho
  split at ho
  · rename_i hall
    cases ho
    exact ⟨kept, rcs, solver, made, rfl, h2, h3, by simpa using hall, rfl⟩
  · cases ho

theorem optimizeRangeConstraints_iff {bus : Bus p} {h : Handler p} (hs : h.Sound bus)
    {rh : RangeHandler p V} {w : ℕ} {ch : Choices p V} {bound : DegreeBound}
    {s s' : ConstraintSystem p V} (he : rh.Exact bus w s.bus) (hw : s.WF)
    (ho : optimizeRangeConstraints h rh ch bound s = .ok s') (σ : V → ZMod p) :
    s'.Satisfied bus σ ↔ s.Satisfied bus σ := by
  obtain ⟨kept, rcs, solver, made, h1, h2, h3, -, rfl⟩ := optimizeRangeConstraints_ok ho
  obtain ⟨c1, c2, c3⟩ := collectPure_spec h1
  have hr : ∀ x ∈ rcs, x.2.min = 0 ∧ x.2.max.val < w := by
    intro x hx
    obtain ⟨b, hb, hm, r, hp, hxr⟩ := c3 x hx
    exact (he.shape b hb hm r hp x hxr).2
  have hwf : ∀ x ∈ rcs, WF x.1 := by
    intro x hx
    obtain ⟨b, hb, hm, r, hp, hxr⟩ := c3 x hx
    exact hw.2 b hb _ (List.mem_cons_of_mem _ (List.mem_cons_of_mem _
      (he.shape b hb hm r hp x hxr).1))
  obtain ⟨m1, m2⟩ := mergeRanges_spec hr
  set cs : ConstraintSystem p V := { s with bus := kept } with hcs
  have hcw : cs.WF := ⟨hw.1, fun b hb => hw.2 b (c1 b hb)⟩
  have e1 : s.Satisfied bus σ ↔ cs.Satisfied bus σ ∧
      ∀ x ∈ mergeRanges rcs, x.2.Allows (eval σ x.1) := by
    rw [m2 σ]
    constructor
    · intro hσ
      refine ⟨⟨hσ.algebraic, fun b hb => hσ.bus b (c1 b hb)⟩, fun x hx => ?_⟩
      obtain ⟨b, hb, hm, r, hp, hxr⟩ := c3 x hx
      exact (allowsValue_iff _ _).1 ((he.pureExact b hb hm r hp σ).1 (hσ.bus b hb) x hxr)
    · rintro ⟨hσ, hx⟩
      refine ⟨hσ.algebraic, fun b hb => ?_⟩
      rcases c2 b hb with hk | ⟨hm, r, hp, hxr⟩
      · exact hσ.bus b hk
      · exact (he.pureExact b hb hm r hp σ).2 fun x hx' =>
          (allowsValue_iff _ _).2 (hx x (hxr x hx'))
  have e2 : cs.Satisfied bus σ → ((∀ x ∈ mergeRanges rcs, x.2.Allows (eval σ x.1)) ↔
      ∀ x ∈ (mergeRanges rcs).filter (rangeNeeded solver), x.2.Allows (eval σ x.1)) := by
    intro hσ
    constructor
    · exact fun h x hx => h x (List.mem_filter.1 hx).1
    · intro h x hx
      by_cases hn : rangeNeeded solver x = true
      · exact h x (List.mem_filter.2 ⟨hx, hn⟩)
      · unfold rangeNeeded at hn
        simp only [ne_eq, decide_not, Bool.not_eq_true, Bool.not_eq_false', decide_eq_true_eq] at hn
        obtain ⟨⟨rc, hrc⟩, -⟩ := mem_mergeRanges.1 hx
        obtain ⟨z1, z2⟩ := m1 x hx
        have := he.half
        exact allows_of_conjunction_eq z1 (by omega) hn
          (solvedSolver_spec hs hcw h2 hσ (hwf (x.1, rc) hrc))
  have e3 := he.makeExact (((mergeRanges rcs).filter (rangeNeeded solver)).filter
    fun x => !asBit bound x)
    (fun x hx => m1 x (List.mem_filter.1 (List.mem_filter.1 hx).1).1) made h3 σ
  have e4 : (∀ x ∈ (mergeRanges rcs).filter (rangeNeeded solver), x.2.Allows (eval σ x.1)) ↔
      (∀ x ∈ ((mergeRanges rcs).filter (rangeNeeded solver)).filter (asBit bound),
        eval σ (assertBool x.1) = 0) ∧ ∀ b ∈ made, bus (b.evalAt σ) := by
    rw [e3]
    constructor
    · intro h
      refine ⟨fun x hx => ?_, fun x hx => ?_⟩
      · obtain ⟨hx1, hx2⟩ := List.mem_filter.1 hx
        unfold asBit at hx2
        simp only [Bool.and_eq_true, decide_eq_true_eq] at hx2
        rw [eval_assertBool, ← hx2.1]
        exact h x hx1
      · exact (allowsValue_iff _ _).2 (h x (List.mem_filter.1 hx).1)
    · rintro ⟨ha, hb⟩ x hx
      by_cases hx2 : asBit bound x = true
      · have := ha x (List.mem_filter.2 ⟨hx, hx2⟩)
        rw [eval_assertBool] at this
        unfold asBit at hx2
        simp only [Bool.and_eq_true, decide_eq_true_eq] at hx2
        rw [hx2.1]; exact this
      · exact (allowsValue_iff _ _).1 (hb x (List.mem_filter.2 ⟨hx, by simpa using hx2⟩))
  rw [e1]
  constructor
  · intro hσ
    have hc : cs.Satisfied bus σ := ⟨fun e he' => hσ.algebraic e (List.mem_append_left _ he'),
      fun b hb => hσ.bus b (List.mem_append_left _ hb)⟩
    refine ⟨hc, (e2 hc).2 (e4.2 ⟨fun x hx => ?_, fun b hb => ?_⟩)⟩
    · exact hσ.algebraic _ (List.mem_append_right _ (List.mem_map.2 ⟨x, hx, rfl⟩))
    · exact hσ.bus b (List.mem_append_right _ hb)
  · rintro ⟨hc, hx⟩
    obtain ⟨f1, f2⟩ := e4.1 ((e2 hc).1 hx)
    constructor
    · intro e he'
      rcases List.mem_append.1 he' with h | h
      · exact hc.algebraic e h
      · obtain ⟨x, hx, rfl⟩ := List.mem_map.1 h
        exact f1 x hx
    · intro b hb
      rcases List.mem_append.1 hb with h | h
      · exact hc.bus b h
      · exact f2 b h

theorem tryToNumber_eq {e : GExpr p V} {k : ZMod p} (h : e.tryToNumber = some k) :
    e = const k := by
  unfold tryToNumber tryToKnown at h
  split at h
  · cases h
    rfl
  · cases h

/-- When an interaction is reported to be a pure range constraint. -/
theorem pure_cases {m : BusMap} {b : BusInteraction (GExpr p V)} {rcs : RangeConstraints p V}
    (h : pureRangeConstraints m b = .ok (some rcs)) :
    ∃ id t, b.busId = const id ∧ (id.val, t) ∈ m ∧
      ((∃ x y z, t = .other .bitwiseLookup ∧ b.payload = [x, y, z, const 0] ∧
          rcs = [(x, fromMask 0xff), (y, fromMask 0xff), (z, fromValue 0)]) ∨
        (∃ x z op, t = .other .bitwiseLookup ∧ b.payload = [x, x, z, op] ∧
          rcs = [(x, fromMask 0xff), (z, fromValue 0), (op, fromMask 1)]) ∨
        (∃ x n, t = .other .variableRangeChecker ∧ b.payload = [x, const n] ∧
          rcs = [(x, fromMask (u64Mask n.val))]) ∨
        ∃ x y s0 s1, t = .other (.tupleRangeChecker s0 s1) ∧ b.payload = [x, y] ∧ 0 < s0 ∧ 0 < s1 ∧
          rcs = [(x, fromRange 0 ((s0 - 1 : ℕ) : ZMod p)),
            (y, fromRange 0 ((s1 - 1 : ℕ) : ZMod p))]) := by
  unfold pureRangeConstraints at h
  split at h
  · cases h
  · rename_i id hid
    cases hn : toU64 id with
    | error x => rw [hn] at h; cases h
    | ok n =>
      rw [hn] at h
      have hv := toU64_ok hn
      cases ht : m.busType n with
      | error x => simp only [bind, Except.bind, ht] at h; cases h
      | ok t =>
        simp only [bind, Except.bind, ht] at h
        refine ⟨id, t, tryToNumber_eq hid, by rw [hv]; exact busType_ok ht, ?_⟩
        split at h
        · cases h
        · cases h
        · cases h
        · unfold bitwisePure at h
          split at h
          · rename_i x y z op heq
            split at h
            · rename_i hop
              cases h
              exact Or.inl ⟨x, y, z, rfl, by rw [heq, tryToNumber_eq hop], rfl⟩
            · split at h
              · rename_i hxy
                cases h
                exact Or.inr (Or.inl ⟨x, z, op, rfl, by rw [heq, hxy], rfl⟩)
              · cases h
          · cases h
        · unfold variableRangeCheckerPure at h
          split at h
          · rename_i x bits heq
            split at h
            · cases h
            · rename_i k hk
              cases hk' : toU64 k with
              | error x => rw [hk'] at h; cases h
              | ok j =>
                rw [hk'] at h
                cases h
                exact Or.inr (Or.inr (Or.inl ⟨x, k, rfl, by rw [heq, tryToNumber_eq hk],
                  by rw [toU64_ok hk']⟩))
          · cases h
        · rename_i s0 s1
          unfold tupleRangeCheckerPure at h
          split at h
          · rename_i x y heq
            cases hr : tupleRanges (p := p) s0 s1 with
            | error x => rw [hr] at h; cases h
            | ok r =>
              obtain ⟨p0, p1, rfl⟩ := tupleRanges_ok hr
              rw [hr] at h
              cases h
              exact Or.inr (Or.inr (Or.inr ⟨x, y, s0, s1, rfl, heq, p0, p1, rfl⟩))
          · cases h

theorem fromMask_max {n : ℕ} (h : n < p) : (fromMask n : RangeConstraint p).max.val = n := by
  unfold fromMask
  simp only
  rw [val_neg_one]
  have : Nat.min n (p - 1) = n := Nat.min_eq_left (by omega)
  rw [this, val_cast_of_lt h]

/-- The OpenVM handler fulfils the contract. -/
theorem openVm_exact {m : BusMap} (hm : m.Fits p) (hp : 2 ^ 26 ≤ p)
    (hsz : ∀ id s0 s1, (id, BusType.other (.tupleRangeChecker s0 s1)) ∈ m →
      s0 ≤ 2 ^ 25 ∧ s1 ≤ 2 ^ 25)
    {bs : List (BusInteraction (GExpr p V))} (hb : SmallBitCounts m bs) :
    (openVmRangeHandler m : RangeHandler p V).Exact (openVmBus m) (2 ^ 25) bs := by
  have hbig : (2 : ℕ) ^ 26 = 67108864 := by norm_num
  have hbig' : (2 : ℕ) ^ 25 = 33554432 := by norm_num
  refine ⟨by omega, fun b hmem hmul rcs h => ?_, fun b hmem hmul rcs h σ => ?_,
    fun rcs hr made h σ => ?_⟩
  · obtain ⟨id, t, hid, ht, hc⟩ := pure_cases h
    rcases hc with ⟨x, y, z, -, hpl, rfl⟩ | ⟨x, z, op, -, hpl, rfl⟩ | ⟨x, n, rfl, hpl, rfl⟩ |
      ⟨x, y, s0, s1, rfl, hpl, p0, p1, rfl⟩
    · have h255 := fromMask_max (p := p) (n := 0xff) (by omega)
      rw [hpl]
      intro w hw
      simp only [List.mem_cons, List.not_mem_nil, or_false] at hw
      rcases hw with rfl | rfl | rfl
      · exact ⟨by simp, rfl, by rw [h255]; norm_num⟩
      · exact ⟨by simp, rfl, by rw [h255]; norm_num⟩
      · exact ⟨by simp, rfl, by simp [fromValue]⟩
    · have h255 := fromMask_max (p := p) (n := 0xff) (by omega)
      have h1 := fromMask_max (p := p) (n := 1) (by omega)
      rw [hpl]
      intro w hw
      simp only [List.mem_cons, List.not_mem_nil, or_false] at hw
      rcases hw with rfl | rfl | rfl
      · exact ⟨by simp, rfl, by rw [h255]; norm_num⟩
      · exact ⟨by simp, rfl, by simp [fromValue]⟩
      · exact ⟨by simp, rfl, by rw [h1]; norm_num⟩
    · rw [hpl]
      intro w hw
      simp only [List.mem_cons, List.not_mem_nil, or_false] at hw
      subst hw
      have hn := hb b hmem id x n hid hpl ht
      have hpow : 2 ^ n.val ≤ 2 ^ 25 := Nat.pow_le_pow_right (by norm_num) hn
      have hpos : 0 < 2 ^ n.val := by positivity
      refine ⟨by simp, rfl, ?_⟩
      rw [u64Mask_eq (by omega), fromMask_max (by omega)]
      omega
    · obtain ⟨q0, q1⟩ := hsz _ _ _ ht
      rw [hpl]
      intro w hw
      simp only [List.mem_cons, List.not_mem_nil, or_false] at hw
      rcases hw with rfl | rfl
      · refine ⟨by simp, rfl, ?_⟩
        simp only [fromRange]
        rw [val_cast_of_lt (by omega)]; omega
      · refine ⟨by simp, rfl, ?_⟩
        simp only [fromRange]
        rw [val_cast_of_lt (by omega)]; omega
  · simp only [allowsValue_iff]
    refine pure_iff hm h (by rw [hmul, eval_const]; exact one_ne_zero) ?_
    intro x bits hpl hid'
    obtain ⟨id, t, hid, ht, hc⟩ := pure_cases h
    rw [hid, eval_const] at hid'
    rcases hc with ⟨_, _, _, -, hpl', -⟩ | ⟨_, _, _, -, hpl', -⟩ | ⟨y, n, -, hpl', -⟩ |
      ⟨_, _, s0, s1, rfl, -, -⟩
    · rw [hpl] at hpl'; simp at hpl'
    · rw [hpl] at hpl'; simp at hpl'
    · have hn := hb b hmem id y n hid hpl' hid'
      rw [hpl] at hpl'
      simp only [List.cons.injEq, and_true] at hpl'
      rw [hpl'.2, eval_const]
      exact hn
    · exact absurd (key_unique hm.keys hid' ht) (by simp)
  · simp only [allowsValue_iff]
    obtain ⟨rest, hrest, hiff⟩ := batchMake_iff (by omega) hm h σ
    rw [hiff]
    refine and_iff_left fun x hx => ?_
    obtain ⟨hx1, n, hn, hx2⟩ := hrest x hx
    refine ⟨n, ?_, hx2⟩
    by_contra hgt
    obtain ⟨-, hrc⟩ := rangeConstraintToNumBits_some hx2
    have hmax := (hr x hx1).2
    rw [hrc] at hmax
    have hpow : 2 ^ 26 ≤ 2 ^ n := Nat.pow_le_pow_right (by norm_num) (by omega)
    unfold fromMask at hmax
    simp only at hmax
    rw [val_neg_one, val_cast_of_lt (lt_of_le_of_lt (Nat.min_le_right (2 ^ n - 1) (p - 1)) (by omega))] at hmax
    have : 2 ^ 26 - 1 ≤ Nat.min (2 ^ n - 1) (p - 1) := Nat.le_min.2 ⟨by omega, by omega⟩
    omega

end Verif
