import Verif.Proofs.Empirical
import Mathlib.Data.ZMod.Basic

/-! # Properties of empirical constraints -/

set_option linter.unusedSectionVars false

namespace Verif

/-- **C53 (combination of two).** Combining two sets of statistics panics exactly if their debug
information disagrees. Otherwise a range becomes the smallest range containing both, an equality is kept
exactly if it is in both (for instructions and blocks that occur in both; the others are taken over), and
the counts are added. -/
theorem C53_combine {a b : EmpiricalConstraints} (ha : a.WF) (hb : b.WF) :
    (∃ r, a.CombineWith b r) ∧ ∀ r, a.CombineWith b r →
      (¬ (MapsAgree a.debugInfo.airIdByPc b.debugInfo.airIdByPc ∧
        MapsAgree a.debugInfo.columnNamesByAirId b.debugInfo.columnNamesByAirId) → r = .error .panic) ∧
      (MapsAgree a.debugInfo.airIdByPc b.debugInfo.airIdByPc →
        MapsAgree a.debugInfo.columnNamesByAirId b.debugInfo.columnNamesByAirId →
        ∃ s, r = .ok s ∧ s.WF ∧
          (∀ pc, a.columnRangesByPc.lookup pc = none →
            s.columnRangesByPc.lookup pc = b.columnRangesByPc.lookup pc) ∧
          (∀ pc, b.columnRangesByPc.lookup pc = none →
            s.columnRangesByPc.lookup pc = a.columnRangesByPc.lookup pc) ∧
          (∀ pc, (a.columnRangesByPc.lookup pc).isSome → (b.columnRangesByPc.lookup pc).isSome →
            (s.columnRangesByPc.lookup pc).isSome ∧
              ∀ col, s.range pc col = hull (a.range pc col) (b.range pc col)) ∧
          (∀ k, s.HasBlock k ↔ a.HasBlock k ∨ b.HasBlock k) ∧
          (∀ k x y, s.Equates k x y ↔
            (a.HasBlock k → a.Equates k x y) ∧ (b.HasBlock k → b.Equates k x y) ∧
              (a.HasBlock k ∨ b.HasBlock k ∨ x = y)) ∧
          (∀ pc, s.count pc = a.count pc + b.count pc) ∧
          (∀ pc, s.debugInfo.airIdByPc.lookup pc =
            (a.debugInfo.airIdByPc.lookup pc).or (b.debugInfo.airIdByPc.lookup pc)) ∧
          ∀ i, s.debugInfo.columnNamesByAirId.lookup i =
            (a.debugInfo.columnNamesByAirId.lookup i).or (b.debugInfo.columnNamesByAirId.lookup i)) := by
  constructor
  · obtain ⟨c, hc⟩ := combineClasses_exists (a := a.equivalenceClassesByBlock)
      (b := b.equivalenceClassesByBlock)
    exact ⟨_, c, hc, rfl⟩
  · rintro r ⟨c, hc, rfl⟩
    obtain ⟨cl, e, c1, c2, c3⟩ := combineClasses_ok hb.blocks ha.blocks hb.classes ha.classes hc
    subst e
    obtain ⟨m1, m2⟩ := mergeMaps_spec hb.airs ha.airs
    obtain ⟨n1, n2⟩ := mergeMaps_spec hb.names ha.names
    constructor
    · intro hd
      change (do
        let debugInfo ← a.debugInfo.combineWith b.debugInfo
        _) = _
      rw [DebugInfo.combineWith]
      by_cases h1 : MapsAgree a.debugInfo.airIdByPc b.debugInfo.airIdByPc
      · obtain ⟨m, e, -⟩ := m1 h1
        rw [e, n2 fun h2 => hd ⟨h1, h2⟩]
        rfl
      · rw [m2 h1]
        rfl
    · intro h1 h2
      obtain ⟨m, em, mk, ml⟩ := m1 h1
      obtain ⟨n, en, nk, nl⟩ := n1 h2
      obtain ⟨r1, r2⟩ := combineRanges_spec hb.ranges ha.ranges
      obtain ⟨k1, k2⟩ := combineCounts_spec hb.counts ha.counts
      refine ⟨⟨combineRanges a.columnRangesByPc b.columnRangesByPc, cl, ⟨m, n⟩,
        combineCounts a.pcCounts b.pcCounts⟩, ?_, ⟨r1, c1, mk, nk, k1, c2⟩, ?_, ?_, ?_, ?_, ?_, k2, ml,
        nl⟩
      · change (do
          let debugInfo ← a.debugInfo.combineWith b.debugInfo
          _) = _
        rw [DebugInfo.combineWith, em, en]
        rfl
      · intro pc h
        rw [r2, h]
      · intro pc h
        rw [r2, h]
        cases a.columnRangesByPc.lookup pc <;> rfl
      · intro pc hpa hpb
        obtain ⟨x, hx⟩ := Option.isSome_iff_exists.1 hpa
        obtain ⟨y, hy⟩ := Option.isSome_iff_exists.1 hpb
        have hl : (combineRanges a.columnRangesByPc b.columnRangesByPc).lookup pc =
            some (widenLoop x 0 y) := by
          rw [r2, hx, hy]
        refine ⟨by rw [hl]; rfl, fun col => ?_⟩
        rw [EmpiricalConstraints.range, EmpiricalConstraints.range, EmpiricalConstraints.range, hl, hx,
          hy]
        simp only [Option.bind_some]
        rw [widenLoop_getElem, if_neg (by omega)]
        rfl
      · intro k
        have := c3 k
        rw [EmpiricalConstraints.HasBlock, EmpiricalConstraints.HasBlock, EmpiricalConstraints.HasBlock]
        cases hx : a.equivalenceClassesByBlock.lookup k with
        | none =>
          rw [hx] at this
          rw [this]
          simp
        | some x =>
          cases hy : b.equivalenceClassesByBlock.lookup k with
          | none =>
            rw [hx, hy] at this
            rw [this]
            simp
          | some y =>
            rw [hx, hy] at this
            obtain ⟨z, hz, -⟩ := this
            rw [hz]
            simp
      · intro k u v
        have := c3 k
        simp only [EmpiricalConstraints.HasBlock, EmpiricalConstraints.Equates,
          EmpiricalConstraints.blockClasses]
        cases hx : a.equivalenceClassesByBlock.lookup k with
        | none =>
          rw [hx] at this
          rw [this]
          cases hy : b.equivalenceClassesByBlock.lookup k with
          | none => simp [default_same]
          | some y => simp
        | some x =>
          cases hy : b.equivalenceClassesByBlock.lookup k with
          | none =>
            rw [hx, hy] at this
            rw [this]
            simp
          | some y =>
            rw [hx, hy] at this
            obtain ⟨z, hz, hzs⟩ := this
            rw [hz]
            simp [hzs]

theorem hull_isSome {a b : Option (ℕ × ℕ)} : (hull a b).isSome = a.isSome := by
  cases a <;> cases b <;> rfl

theorem range_isSome {e : EmpiricalConstraints} {pc : ℕ} {l : List (ℕ × ℕ)}
    (h : e.columnRangesByPc.lookup pc = some l) (col : ℕ) : e.range pc col = l[col]? := by
  rw [EmpiricalConstraints.range, h]
  rfl

/-- Two statistics combined behave in the combination with a third one. -/
theorem consistent_combine {a b s : EmpiricalConstraints} {t : List EmpiricalConstraints}
    (h : Consistent (a :: b :: t)) (ha : a.WF) (hb : b.WF) (hs : a.CombineWith b (.ok s)) :
    Consistent (s :: t) := by
  obtain ⟨s', e, -, h1, h2, h3, -, -, -, h6, h7⟩ := ((C53_combine ha hb).2 _ hs).2
    (h.airs a (by simp) b (by simp)) (h.names a (by simp) b (by simp))
  cases e
  have hcol : ∀ pc x, s.columnRangesByPc.lookup pc = some x →
      ∃ c ∈ [a, b], ∃ y, c.columnRangesByPc.lookup pc = some y ∧ x.length = y.length := by
    intro pc x hx
    cases hpa : a.columnRangesByPc.lookup pc with
    | none =>
      rw [h1 pc hpa] at hx
      exact ⟨b, by simp, x, hx, rfl⟩
    | some y =>
      refine ⟨a, by simp, y, hpa, ?_⟩
      cases hpb : b.columnRangesByPc.lookup pc with
      | none =>
        rw [h2 pc hpb, hpa] at hx
        cases hx
        rfl
      | some z =>
        have h8 := (h3 pc (by rw [hpa]; rfl) (by rw [hpb]; rfl)).2
        have h9 : ∀ col : ℕ, (x[col]?).isSome = (y[col]?).isSome := by
          intro col
          rw [← range_isSome hx col, h8, hull_isSome, range_isSome hpa]
        have h10 : ∀ col, col < x.length ↔ col < y.length := by
          intro col
          have := h9 col
          rw [Bool.eq_iff_iff] at this
          simpa [Option.isSome_iff_ne_none] using this
        have := h10 x.length
        have := h10 y.length
        omega
  have hmem : ∀ c ∈ [a, b], c ∈ a :: b :: t := by
    intro c hc
    simp only [List.mem_cons, List.not_mem_nil, or_false] at hc
    rcases hc with rfl | rfl <;> simp
  have hmt : ∀ c ∈ t, c ∈ a :: b :: t := fun c hc => by simp [hc]
  have key : ∀ c ∈ s :: t, ∀ pc x, c.columnRangesByPc.lookup pc = some x → ∃ d ∈ a :: b :: t, ∃ y,
      d.columnRangesByPc.lookup pc = some y ∧ x.length = y.length := by
    intro c hc pc x hx
    rcases List.mem_cons.1 hc with rfl | hc
    · obtain ⟨d, hd, y, h1, h2⟩ := hcol pc x hx
      exact ⟨d, hmem d hd, y, h1, h2⟩
    · exact ⟨c, hmt c hc, x, hx, rfl⟩
  have agree : ∀ {V : Type} (f : EmpiricalConstraints → List (ℕ × V)),
      (∀ k, (f s).lookup k = ((f a).lookup k).or ((f b).lookup k)) →
      (∀ c ∈ a :: b :: t, ∀ d ∈ a :: b :: t, MapsAgree (f c) (f d)) →
      ∀ c ∈ s :: t, ∀ d ∈ s :: t, MapsAgree (f c) (f d) := by
    intro V f hf hag
    have src : ∀ c ∈ s :: t, ∀ k v, (f c).lookup k = some v →
        ∃ d ∈ a :: b :: t, (f d).lookup k = some v := by
      intro c hc k v hv
      rcases List.mem_cons.1 hc with rfl | hc
      · rw [hf] at hv
        cases hk : (f a).lookup k with
        | none =>
          rw [hk, Option.none_or] at hv
          exact ⟨b, by simp, hv⟩
        | some w =>
          rw [hk, Option.some_or] at hv
          exact ⟨a, by simp, by rw [hk, hv]⟩
      · exact ⟨c, hmt c hc, hv⟩
    intro c hc d hd k v w hv hw
    obtain ⟨c', hc', hv'⟩ := src c hc k v hv
    obtain ⟨d', hd', hw'⟩ := src d hd k w hw
    exact hag c' hc' d' hd' k v w hv' hw'
  refine ⟨?_, ?_, ?_⟩
  · intro c hc d hd pc x y hx hy
    obtain ⟨c', hc', x', h1, h2⟩ := key c hc pc x hx
    obtain ⟨d', hd', y', h3, h4⟩ := key d hd pc y hy
    rw [h2, h4]
    exact h.columns c' hc' d' hd' pc x' y' h1 h3
  · exact agree (fun e => e.debugInfo.airIdByPc) h6 h.airs
  · exact agree (fun e => e.debugInfo.columnNamesByAirId) h7 h.names

/-- **C53 (all executions).** Combining consistent statistics never panics. Every recorded range is inside
the final one, whose bounds are recorded ones; an equality is kept exactly if it is in all the statistics
with that block; the counts are the sums. So the result does not depend on the order. -/
theorem C53_conservative {a : EmpiricalConstraints} {l : List EmpiricalConstraints}
    (hw : ∀ b ∈ a :: l, b.WF) (hc : Consistent (a :: l)) :
    (∃ r, CombineMany a l r) ∧ ∀ r, CombineMany a l r → ∃ s, r = .ok s ∧ s.WF ∧
      (∀ b ∈ a :: l, ∀ pc col lo hi, b.range pc col = some (lo, hi) →
        ∃ lo' hi', s.range pc col = some (lo', hi') ∧ lo' ≤ lo ∧ hi ≤ hi') ∧
      (∀ pc col lo hi, s.range pc col = some (lo, hi) →
        (∃ b ∈ a :: l, ∃ x, b.range pc col = some (lo, x)) ∧
        ∃ b ∈ a :: l, ∃ x, b.range pc col = some (x, hi)) ∧
      (∀ k, s.HasBlock k ↔ ∃ b ∈ a :: l, b.HasBlock k) ∧
      (∀ k, s.HasBlock k → ∀ x y, s.Equates k x y ↔
        ∀ b ∈ a :: l, b.HasBlock k → b.Equates k x y) ∧
      ∀ pc, s.count pc = ((a :: l).map fun b => b.count pc).sum := by
  induction l generalizing a with
  | nil =>
    refine ⟨⟨_, .nil⟩, fun r hr => ?_⟩
    cases hr
    refine ⟨a, rfl, hw a (by simp), ?_, ?_, ?_, ?_, ?_⟩
    · intro b hb pc col lo hi h
      rw [List.mem_singleton] at hb
      subst hb
      exact ⟨lo, hi, h, le_rfl, le_rfl⟩
    · intro pc col lo hi h
      exact ⟨⟨a, by simp, hi, h⟩, a, by simp, lo, h⟩
    · simp
    · intro k hk x y
      simp [hk]
    · simp
  | cons b t ih =>
    have ha := hw a (by simp)
    have hb := hw b (by simp)
    obtain ⟨⟨r0, hr0⟩, hspec⟩ := C53_combine ha hb
    obtain ⟨s0, e0, hs0, -⟩ := (hspec r0 hr0).2 (hc.airs a (by simp) b (by simp))
      (hc.names a (by simp) b (by simp))
    subst e0
    have next : ∀ {s : EmpiricalConstraints}, a.CombineWith b (.ok s) → s.WF →
        (∀ c ∈ s :: t, c.WF) ∧ Consistent (s :: t) := by
      intro s hs hsw
      refine ⟨?_, consistent_combine hc ha hb hs⟩
      intro c hc'
      rcases List.mem_cons.1 hc' with rfl | hc'
      · exact hsw
      · exact hw c (by simp [hc'])
    constructor
    · obtain ⟨h1, h2⟩ := next hr0 hs0
      obtain ⟨⟨r, hr⟩, -⟩ := ih h1 h2
      exact ⟨r, .cons hr0 hr⟩
    · intro r hr
      cases hr with
      | @cons _ _ _ s _ h1 h2 =>
        obtain ⟨s', e, hsw, g1, g2, g3, g4, g5, g6, -⟩ := (hspec _ h1).2
          (hc.airs a (by simp) b (by simp)) (hc.names a (by simp) b (by simp))
        cases e
        obtain ⟨n1, n2⟩ := next h1 hsw
        obtain ⟨f, e, hfw, f1, f2, f3, f4, f5⟩ := (ih n1 n2).2 r h2
        have hrange : ∀ c ∈ [a, b], ∀ pc col lo hi, c.range pc col = some (lo, hi) →
            ∃ lo' hi', s.range pc col = some (lo', hi') ∧ lo' ≤ lo ∧ hi ≤ hi' := by
          intro c hcm pc col lo hi h
          cases hpa : a.columnRangesByPc.lookup pc with
          | none =>
            have hca : c = b := by
              simp only [List.mem_cons, List.not_mem_nil, or_false] at hcm
              rcases hcm with rfl | rfl
              · rw [EmpiricalConstraints.range, hpa] at h
                cases h
              · rfl
            subst hca
            refine ⟨lo, hi, ?_, le_rfl, le_rfl⟩
            rw [EmpiricalConstraints.range, g1 pc hpa]
            exact h
          | some x =>
            cases hpb : b.columnRangesByPc.lookup pc with
            | none =>
              have hca : c = a := by
                simp only [List.mem_cons, List.not_mem_nil, or_false] at hcm
                rcases hcm with rfl | rfl
                · rfl
                · rw [EmpiricalConstraints.range, hpb] at h
                  cases h
              subst hca
              refine ⟨lo, hi, ?_, le_rfl, le_rfl⟩
              rw [EmpiricalConstraints.range, g2 pc hpb]
              exact h
            | some y =>
              have hlen := hc.columns a (by simp) b (by simp) pc x y hpa hpb
              have hin : col < x.length := by
                simp only [List.mem_cons, List.not_mem_nil, or_false] at hcm
                rcases hcm with rfl | rfl
                · rw [range_isSome hpa] at h
                  exact (List.getElem?_eq_some_iff.1 h).1
                · rw [range_isSome hpb] at h
                  rw [hlen]
                  exact (List.getElem?_eq_some_iff.1 h).1
              have e1 : a.range pc col = some x[col] := by
                rw [range_isSome hpa, List.getElem?_eq_getElem hin]
              have e2 : b.range pc col = some y[col] := by
                rw [range_isSome hpb, List.getElem?_eq_getElem (by omega)]
              have e3 := (g3 pc (by rw [hpa]; rfl) (by rw [hpb]; rfl)).2 col
              rw [e1, e2, hull] at e3
              refine ⟨_, _, e3, ?_⟩
              simp only [List.mem_cons, List.not_mem_nil, or_false] at hcm
              rcases hcm with rfl | rfl
              · rw [e1] at h
                simp only [Option.some.injEq] at h
                rw [h]
                simp only
                omega
              · rw [e2] at h
                simp only [Option.some.injEq] at h
                rw [h]
                simp only
                omega
        have hback : ∀ pc col lo hi, s.range pc col = some (lo, hi) →
            (∃ c ∈ [a, b], ∃ x, c.range pc col = some (lo, x)) ∧
            ∃ c ∈ [a, b], ∃ x, c.range pc col = some (x, hi) := by
          intro pc col lo hi h
          cases hpa : a.columnRangesByPc.lookup pc with
          | none =>
            rw [EmpiricalConstraints.range, g1 pc hpa] at h
            exact ⟨⟨b, by simp, hi, h⟩, b, by simp, lo, h⟩
          | some x =>
            cases hpb : b.columnRangesByPc.lookup pc with
            | none =>
              rw [EmpiricalConstraints.range, g2 pc hpb] at h
              exact ⟨⟨a, by simp, hi, h⟩, a, by simp, lo, h⟩
            | some y =>
              rw [(g3 pc (by rw [hpa]; rfl) (by rw [hpb]; rfl)).2 col] at h
              cases hra : a.range pc col with
              | none =>
                rw [hra] at h
                cases h
              | some u =>
                cases hrb : b.range pc col with
                | none =>
                  rw [hra, hrb] at h
                  simp only [hull, Option.some.injEq] at h
                  subst h
                  exact ⟨⟨a, by simp, hi, hra⟩, a, by simp, lo, hra⟩
                | some w =>
                  obtain ⟨u1, u2⟩ := u
                  obtain ⟨w1, w2⟩ := w
                  rw [hra, hrb] at h
                  simp only [hull, Option.some.injEq, Prod.mk.injEq] at h
                  obtain ⟨rfl, rfl⟩ := h
                  constructor
                  · rcases min_choice u1 w1 with hm | hm
                    · exact ⟨a, by simp, u2, by rw [hra, hm]⟩
                    · exact ⟨b, by simp, w2, by rw [hrb, hm]⟩
                  · rcases max_choice u2 w2 with hm | hm
                    · exact ⟨a, by simp, u1, by rw [hra, hm]⟩
                    · exact ⟨b, by simp, w1, by rw [hrb, hm]⟩
        refine ⟨f, e, hfw, ?_, ?_, ?_, ?_, ?_⟩
        · intro c hcm pc col lo hi h
          by_cases hab : c ∈ [a, b]
          · obtain ⟨lo', hi', h3, h4, h5⟩ := hrange c hab pc col lo hi h
            obtain ⟨lo'', hi'', h6, h7, h8⟩ := f1 s (by simp) pc col lo' hi' h3
            exact ⟨lo'', hi'', h6, by omega, by omega⟩
          · refine f1 c ?_ pc col lo hi h
            simp only [List.mem_cons, List.not_mem_nil, or_false, not_or] at hcm hab
            rcases hcm with h | h | h
            · exact absurd h hab.1
            · exact absurd h hab.2
            · simp [h]
        · intro pc col lo hi h
          obtain ⟨⟨c, hcm, x, hx⟩, d, hdm, y, hy⟩ := f2 pc col lo hi h
          have sub : ∀ c ∈ [a, b], c ∈ a :: b :: t := by
            intro c hc
            simp only [List.mem_cons, List.not_mem_nil, or_false] at hc
            rcases hc with rfl | rfl <;> simp
          constructor
          · rcases List.mem_cons.1 hcm with rfl | hcm
            · obtain ⟨⟨c', hc', x', hx'⟩, -⟩ := hback pc col lo x hx
              exact ⟨c', sub c' hc', x', hx'⟩
            · exact ⟨c, by simp [hcm], x, hx⟩
          · rcases List.mem_cons.1 hdm with rfl | hdm
            · obtain ⟨-, c', hc', x', hx'⟩ := hback pc col y hi hy
              exact ⟨c', sub c' hc', x', hx'⟩
            · exact ⟨d, by simp [hdm], y, hy⟩
        · intro k
          rw [f3]
          simp [g4, or_assoc]
        · intro k hk x y
          rw [f4 k hk]
          simp only [List.forall_mem_cons, g4, g5]
          constructor
          · rintro ⟨h3, h4⟩
            exact ⟨fun h => (h3 (.inl h)).1 h, fun h => (h3 (.inr h)).2.1 h, h4⟩
          · rintro ⟨h3, h4, h5⟩
            refine ⟨fun h => ⟨h3, h4, ?_⟩, h5⟩
            rcases h with h | h
            · exact .inl h
            · exact .inr (.inl h)
        · intro pc
          rw [f5]
          simp only [List.map_cons, List.sum_cons, g6]
          omega
      | panic h1 =>
        obtain ⟨s', e, -⟩ := (hspec _ h1).2 (hc.airs a (by simp) b (by simp))
          (hc.names a (by simp) b (by simp))
        cases e

/-- **C53 (a superblock).** The statistics of a superblock: the ranges of its program counters, and the
equalities of each of its blocks, at the instruction indices in the superblock. It panics for no block, and
not if the cells of the blocks are cells of their instructions. -/
theorem C53_for_block {I : Type} {e : EmpiricalConstraints} (h : e.WF) (step : ℕ)
    (blocks : List (BasicBlock I)) :
    (∃ r, e.ForBlock step blocks r) ∧ ∀ r, e.ForBlock step blocks r →
      (blocks = [] → r = .error .panic) ∧
      (blocks ≠ [] → (∀ b ∈ blocks, CellsInBlock e b) → ∃ s, r = .ok s ∧
        s.pcs = superBlockPcs step blocks ∧ s.equivalenceClasses.WF ∧
        (∀ pc col, s.range pc col = if pc ∈ (superBlockPcs step blocks).map pcU32 then e.range pc col
          else none) ∧
        ∀ x y, s.equivalenceClasses.Same x y ↔ x = y ∨ superBlockEquates e 0 blocks x y) := by
  constructor
  · obtain ⟨c, hc⟩ := superBlockClasses_exists e (indexedStartPcs 0 blocks)
    exact ⟨_, c, hc, rfl⟩
  · rintro r ⟨c, hc, rfl⟩
    constructor
    · rintro rfl
      rw [indexedStartPcs] at hc
      cases hc
      rfl
    · intro hne hin
      obtain ⟨s, e1, hs, hss⟩ := superBlockClasses_ok h hne hin hc
      subst e1
      refine ⟨_, rfl, rfl, hs, fun pc col => ?_, hss⟩
      simp only [BlockEmpiricalConstraints.range, blockRanges_lookup, EmpiricalConstraints.range]
      by_cases hm : pc ∈ (superBlockPcs step blocks).map pcU32
      · cases hl : e.columnRangesByPc.lookup pc with
        | none => simp
        | some l =>
          rw [if_pos ⟨hm, rfl⟩, if_pos hm]
          simp only [Option.map_some, Option.bind_some]
          rw [lookup_enum, if_pos (by omega)]
          rfl
      · rw [if_neg fun h => hm h.1, if_neg hm]
        rfl

/-- **C53 (threshold).** Exactly the statistics of instructions and blocks that were executed often enough
are kept. -/
theorem C53_threshold {e : EmpiricalConstraints} (h : e.WF) (threshold : ℕ) :
    (e.applyPcThreshold threshold).WF ∧
    (∀ pc col, (e.applyPcThreshold threshold).range pc col =
      if threshold ≤ e.count pc then e.range pc col else none) ∧
    (∀ k, (e.applyPcThreshold threshold).HasBlock k ↔ e.HasBlock k ∧ threshold ≤ e.count (pcU32 k)) ∧
    (∀ k x y, (e.applyPcThreshold threshold).Equates k x y ↔
      x = y ∨ threshold ≤ e.count (pcU32 k) ∧ e.Equates k x y) ∧
    ∀ pc, (e.applyPcThreshold threshold).count pc = e.count pc := by
  have lk : ∀ {V : Type} (p : ℕ → Bool) (k : ℕ) (m : List (ℕ × V)),
      (m.filter fun x => p x.1).lookup k = if p k then m.lookup k else none := by
    intro V p k m
    induction m with
    | nil => simp
    | cons x t ih =>
      obtain ⟨k', v⟩ := x
      rw [List.filter_cons]
      by_cases hk : k = k'
      · subst hk
        by_cases hp : p k = true
        · simp [hp]
        · simp only [hp, Bool.false_eq_true, if_false]
          rw [ih, if_neg hp]
      · by_cases hp : p k' = true
        · rw [if_pos hp, List.lookup_cons, ih, List.lookup_cons, beq_false_of_ne hk]
        · rw [if_neg hp, ih, List.lookup_cons, beq_false_of_ne hk]
  have l1 : ∀ pc, (e.applyPcThreshold threshold).columnRangesByPc.lookup pc =
      if threshold ≤ e.count pc then e.columnRangesByPc.lookup pc else none := by
    intro pc
    have := lk (fun pc => decide ((e.pcCounts.lookup pc).getD 0 ≥ threshold)) pc e.columnRangesByPc
    simp only [decide_eq_true_eq] at this
    exact this
  have l2 : ∀ k, (e.applyPcThreshold threshold).equivalenceClassesByBlock.lookup k =
      if threshold ≤ e.count (pcU32 k) then e.equivalenceClassesByBlock.lookup k else none := by
    intro k
    have := lk (fun k => decide ((e.pcCounts.lookup (pcU32 k)).getD 0 ≥ threshold)) k
      e.equivalenceClassesByBlock
    simp only [decide_eq_true_eq] at this
    exact this
  refine ⟨⟨?_, ?_, h.airs, h.names, h.counts, ?_⟩, ?_, ?_, ?_, fun _ => rfl⟩
  · exact h.ranges.sublist (List.filter_sublist.map _)
  · exact h.blocks.sublist (List.filter_sublist.map _)
  · exact fun x hx => h.classes x (List.mem_filter.1 hx).1
  · intro pc col
    rw [EmpiricalConstraints.range, l1]
    by_cases ht : threshold ≤ e.count pc
    · rw [if_pos ht, if_pos ht]
      rfl
    · rw [if_neg ht, if_neg ht]
      rfl
  · intro k
    rw [EmpiricalConstraints.HasBlock, l2, EmpiricalConstraints.HasBlock]
    by_cases ht : threshold ≤ e.count (pcU32 k)
    · simp [ht]
    · simp [ht]
  · intro k x y
    rw [EmpiricalConstraints.Equates, EmpiricalConstraints.blockClasses, l2,
      EmpiricalConstraints.Equates, EmpiricalConstraints.blockClasses]
    by_cases ht : threshold ≤ e.count (pcU32 k)
    · rw [if_pos ht]
      constructor
      · exact fun h => .inr ⟨ht, h⟩
      · rintro (h | h)
        · exact .inl h
        · exact h.2
    · simp [ht, default_same]

/-- **C53 (filtering).** For statistics as `for_block` returns them, filtering keeps a range exactly if
the predicate holds for the column in all instructions with that program counter, and an equality exactly
if it holds for both cells. -/
theorem C53_filtered {b : BlockEmpiricalConstraints} (hw : b.equivalenceClasses.WF)
    (hr : ∀ x ∈ b.columnRangesByPc, ∃ l : List (ℕ × ℕ), x.2 = l.zipIdx.map fun y => (y.2, y.1))
    (predicate : BlockCell → Bool) :
    (∃ r, b.Filtered predicate r) ∧ ∀ r, b.Filtered predicate r → ∃ s, r = .ok s ∧ s.pcs = b.pcs ∧
      s.equivalenceClasses.WF ∧
      (∀ pc col v, s.range pc col = some v ↔
        b.range pc col = some v ∧ ∀ i, b.pcs[i]? = some pc → predicate (i, col) = true) ∧
      ∀ x y, s.equivalenceClasses.Same x y ↔
        x = y ∨ b.equivalenceClasses.Same x y ∧ predicate x = true ∧ predicate y = true := by
  refine ⟨⟨_, _, ⟨_, .refl _, rfl⟩, rfl⟩, ?_⟩
  rintro r ⟨c, hc, rfl⟩
  obtain ⟨cl, e, ⟨h1, h2⟩, -, h3⟩ := toClasses_ok hw hc
  subst e
  have hn := filtered_flatten (p := predicate) h2
  obtain ⟨w1, w2⟩ := classMap_wf (l := (cl.map fun c => c.filter predicate).filter fun c => 1 < c.length)
    (fun c hc => by simpa using (List.mem_filter.1 hc).2) hn
  refine ⟨⟨b.pcs, b.columnRangesByPc.map fun x =>
      (x.1, filterRanges (pcInstructionIndices b.pcs x.1) predicate x.2), _⟩, by
    change (do
      let classes ← Partition.fromIter (cl.map fun c : List BlockCell => c.filter predicate)
      _) = _
    rw [fromIter_eq, if_pos hn]
    rfl, rfl, w1, ?_, ?_⟩
  · intro pc col v
    simp only [BlockEmpiricalConstraints.range]
    rw [lookup_map_snd (fun pc l => filterRanges (pcInstructionIndices b.pcs pc) predicate l)]
    cases hl : b.columnRangesByPc.lookup pc with
    | none => simp
    | some l =>
      obtain ⟨l', hl'⟩ := hr _ (pcMap_lookup_mem hl)
      simp only at hl'
      subst hl'
      simp only [Option.map_some, Option.bind_some, filterRanges]
      rw [filterRanges_lookup]
      by_cases hall : ((pcInstructionIndices b.pcs pc).all fun idx => predicate (idx, col)) = true
      · rw [if_pos hall]
        rw [List.all_eq_true] at hall
        constructor
        · exact fun h => ⟨h, fun i hi => hall i (mem_pcInstructionIndices.2 hi)⟩
        · exact fun h => h.1
      · rw [if_neg hall]
        rw [List.all_eq_true] at hall
        constructor
        · intro h
          cases h
        · exact fun h => absurd (fun i hi => h.2 i (mem_pcInstructionIndices.1 hi)) hall
  · intro x y
    rw [w2, classesSame]
    by_cases hxy : x = y
    · simp [hxy]
    · simp only [hxy, false_or]
      rw [← h3, classesSame]
      simp only [hxy, false_or, List.mem_filter, List.mem_map]
      constructor
      · rintro ⟨c, ⟨⟨c', hc', rfl⟩, -⟩, hx, hy⟩
        rw [List.mem_filter] at hx hy
        exact ⟨⟨c', hc', hx.1, hy.1⟩, hx.2, hy.2⟩
      · rintro ⟨⟨c', hc', hx, hy⟩, px, py⟩
        have hx' := List.mem_filter.2 ⟨hx, px⟩
        have hy' := List.mem_filter.2 ⟨hy, py⟩
        exact ⟨c'.filter predicate, ⟨⟨c', hc', rfl⟩, by simpa using nodup_two hx' hy' hxy⟩, hx', hy'⟩

/-- **C53 (generated constraints).** The generated constraints hold for an assignment exactly if every
column that had always the same value has it, and cells recorded as equal are equal. The generator panics
exactly if such a cell has no column. -/
theorem C53_generate {R F : Type} [NatCast F] {b : BlockEmpiricalConstraints}
    (hw : b.equivalenceClasses.WF) (hr : ∀ x ∈ b.columnRangesByPc, MapKeys x.2)
    (refs : BlockCell → Option R) (pcs : List ℕ) :
    (∃ r, b.Generate refs pcs r) ∧ ∀ r, b.Generate refs pcs r →
      (((∃ i pc c v, pcs[i]? = some pc ∧ b.range (pcU32 pc) c = some (v, v) ∧ refs (i, c) = none) ∨
        ∃ x y, x ≠ y ∧ b.equivalenceClasses.Same x y ∧ refs x = none) → r = .error .panic) ∧
      ((∀ i pc c v, pcs[i]? = some pc → b.range (pcU32 pc) c = some (v, v) → (refs (i, c)).isSome) →
        (∀ x y, x ≠ y → b.equivalenceClasses.Same x y → (refs x).isSome) →
        ∃ cs, r = .ok cs ∧ ∀ σ : R → F, (∀ k ∈ cs, k.Holds σ) ↔
          (∀ i pc c v r, pcs[i]? = some pc → b.range (pcU32 pc) c = some (v, v) →
            refs (i, c) = some r → σ r = (v : F)) ∧
          ∀ x y r s, b.equivalenceClasses.Same x y → refs x = some r → refs y = some s →
            σ r = σ s) := by
  refine ⟨⟨_, _, ⟨_, .refl _, rfl⟩, rfl⟩, ?_⟩
  rintro r ⟨c, hc, rfl⟩
  obtain ⟨cl, e, ⟨h1, h2⟩, -, h3⟩ := toClasses_ok hw hc
  subst e
  have hrange : ∀ pc c v, b.range (pcU32 pc) c = some (v, v) ↔
      ∃ l, b.columnRangesByPc.lookup (pcU32 pc) = some l ∧ (c, (v, v)) ∈ l := by
    intro pc c v
    rw [BlockEmpiricalConstraints.range]
    cases hl : b.columnRangesByPc.lookup (pcU32 pc) with
    | none => simp
    | some l =>
      simp only [Option.bind_some, Option.some.injEq, exists_eq_left']
      exact ⟨pcMap_lookup_mem, mem_lookup (hr _ (pcMap_lookup_mem hl))⟩
  have hne : ∀ cls ∈ cl, cls ≠ [] := by
    intro cls hcls h0
    have := h1 cls hcls
    rw [h0] at this
    simp at this
  obtain ⟨p1, p2⟩ := rangeConstraints_spec refs b.columnRangesByPc pcs 0
  obtain ⟨q1, q2⟩ := equivalenceConstraints_spec (F := F) refs cl hne
  simp only [Nat.zero_add] at p1 p2
  have hcls : ∀ cls ∈ cl, ∀ x ∈ cls, ∃ y, x ≠ y ∧ b.equivalenceClasses.Same x y := by
    intro cls hc x hx
    obtain ⟨u, hu, v, hv, huv⟩ := exists_two (h1 cls hc) ((List.nodup_flatten.1 h2).1 cls hc)
    by_cases hxu : x = u
    · exact ⟨v, hxu ▸ huv, (h3 x v).1 (.inr ⟨cls, hc, hx, hv⟩)⟩
    · exact ⟨u, hxu, (h3 x u).1 (.inr ⟨cls, hc, hx, hu⟩)⟩
  constructor
  · intro hp
    by_cases hr1 : ∃ i pc l c v, pcs[i]? = some pc ∧ b.columnRangesByPc.lookup (pcU32 pc) = some l ∧
        (c, (v, v)) ∈ l ∧ refs (i, c) = none
    · rw [p1 hr1]
      rfl
    · obtain ⟨cs, e, -⟩ := p2 (by
        intro i pc l c v h4 h5 h6
        by_contra hn
        exact hr1 ⟨i, pc, l, c, v, h4, h5, h6, by simpa using hn⟩)
      rw [e]
      rcases hp with ⟨i, pc, c, v, h4, h5, h6⟩ | ⟨x, y, hxy, h4, h5⟩
      · obtain ⟨l, h7, h8⟩ := (hrange pc c v).1 h5
        exact absurd ⟨i, pc, l, c, v, h4, h7, h8, h6⟩ hr1
      · obtain ⟨cls, h6, h7, -⟩ := ((h3 x y).2 h4).resolve_left hxy
        change (do
          let eqs ← equivalenceConstraints refs cl
          _) = _
        rw [q1 ⟨cls, h6, x, h7, h5⟩]
        rfl
  · intro hp hq
    obtain ⟨cs, e, hcs⟩ := p2 fun i pc l c v h4 h5 h6 => hp i pc c v h4 ((hrange pc c v).2 ⟨l, h5, h6⟩)
    obtain ⟨cs', e', hcs'⟩ := q2 (by
      intro cls hc x hx
      obtain ⟨y, hxy, hs⟩ := hcls cls hc x hx
      exact hq x y hxy hs)
    refine ⟨cs ++ cs', by
      rw [e]
      change (do
        let eqs ← equivalenceConstraints refs cl
        _) = _
      rw [e']
      rfl, fun σ => ?_⟩
    have hsplit : (∀ k ∈ cs ++ cs', k.Holds σ) ↔ (∀ k ∈ cs, k.Holds σ) ∧ ∀ k ∈ cs', k.Holds σ := by
      simp only [List.mem_append, or_imp, forall_and]
    rw [hsplit, hcs']
    refine and_congr ?_ ?_
    · constructor
      · intro h i pc c v r h4 h5 h6
        obtain ⟨l, h7, h8⟩ := (hrange pc c v).1 h5
        exact h ⟨r, .inr v⟩ ((hcs _).2 ⟨i, pc, l, c, v, r, h4, h7, h8, h6, rfl⟩)
      · intro h k hk
        obtain ⟨i, pc, l, c, v, r, h4, h7, h8, h6, rfl⟩ := (hcs k).1 hk
        exact h i pc c v r h4 ((hrange pc c v).2 ⟨l, h7, h8⟩) h6
    · constructor
      · intro h x y r s hxy hx hy
        rcases (h3 x y).2 hxy with rfl | ⟨cls, hc, hxc, hyc⟩
        · rw [hx] at hy
          cases hy
          rfl
        · exact h cls hc x hxc y hyc r s hx hy
      · intro h cls hc x hx y hy r s hr hs
        exact h x y r s ((h3 x y).1 (.inr ⟨cls, hc, hx, hy⟩)) hr hs

/-- **C53 (columns of cells).** The reference of a cell is the column with the id that the allocator gave
to that cell. Building the map panics exactly if a column has an id that was not given to a cell. -/
theorem C53_references {R : Type} (id : R → ℕ) {subs : List (List ℕ)} (hs : subs.flatten.Nodup)
    {columns : List R} (hc : (columns.map id).Nodup) :
    ((∃ r ∈ columns, id r ∉ subs.flatten) → newReferenceMapper id subs columns = .error .panic) ∧
    ((∀ r ∈ columns, id r ∈ subs.flatten) → ∃ m, newReferenceMapper id subs columns = .ok m ∧
      ∀ i c r, m.lookup (i, c) = some r ↔ r ∈ columns ∧ ∃ l, subs[i]? = some l ∧ l[c]? = some (id r)) := by
  have hlook : ∀ x cell, (idToCell 0 subs []).lookup x = some cell ↔
      ∃ l, subs[cell.1]? = some l ∧ l[cell.2]? = some x := by
    intro x cell
    rw [idToCell_lookup x subs 0 [] hs (by simp)]
    simp only [List.lookup_nil, reduceCtorEq, false_or, Nat.zero_add]
    constructor
    · rintro ⟨j, l, h1, h2, h3⟩
      exact ⟨l, by rw [h3]; exact h1, h2⟩
    · rintro ⟨l, h1, h2⟩
      exact ⟨cell.1, l, h1, h2, rfl⟩
  have hnone : ∀ x, (idToCell 0 subs []).lookup x = none ↔ x ∉ subs.flatten := by
    intro x
    constructor
    · intro h hx
      obtain ⟨l, hl, hx⟩ := List.mem_flatten.1 hx
      obtain ⟨i, hi⟩ := List.mem_iff_getElem?.1 hl
      obtain ⟨c, hc⟩ := List.mem_iff_getElem?.1 hx
      rw [(hlook x (i, c)).2 ⟨l, hi, hc⟩] at h
      cases h
    · intro h
      cases hl : (idToCell 0 subs []).lookup x with
      | none => rfl
      | some cell =>
        obtain ⟨l, h1, h2⟩ := (hlook x cell).1 hl
        exact absurd (List.mem_flatten.2 ⟨l, List.mem_of_getElem? h1, List.mem_of_getElem? h2⟩) h
  obtain ⟨c1, c2⟩ := cellToReference_spec (id := id) (cells := idToCell 0 subs []) (by
    intro x y c hx hy
    obtain ⟨l, h1, h2⟩ := (hlook x c).1 hx
    obtain ⟨l', h3, h4⟩ := (hlook y c).1 hy
    rw [h1] at h3
    cases h3
    rw [h2] at h4
    cases h4
    rfl) columns [] hc (by simp)
  constructor
  · rintro ⟨r, hr, hn⟩
    exact c1 ⟨r, hr, (hnone _).2 hn⟩
  · intro h
    obtain ⟨m, e, hm⟩ := c2 (by
      intro r hr
      rw [Option.isSome_iff_ne_none, Ne, hnone]
      exact not_not_intro (h r hr))
    refine ⟨m, e, fun i c r => ?_⟩
    rw [hm]
    simp only [List.lookup_nil, reduceCtorEq, false_or, hlook]

/-! ## Examples -/

/-- Statistics of one execution of a block with two instructions of two columns. -/
def sampleStats : EmpiricalConstraints :=
  ⟨[(0, [(5, 5), (1, 3)]), (4, [(3, 3), (2, 2)])], [(0, ⟨[((0, 1), 0), ((1, 0), 0), ((1, 1), 0)], 1⟩)],
    ⟨[(0, 7), (4, 8)], [(7, ["a", "b"]), (8, ["c", "d"])]⟩, [(0, 2), (4, 2)]⟩

/-- Statistics of another one. -/
def sampleStats2 : EmpiricalConstraints :=
  ⟨[(0, [(5, 5), (2, 9)]), (4, [(3, 3), (1, 1)])], [(0, ⟨[((0, 1), 0), ((1, 0), 0)], 1⟩)],
    ⟨[(0, 7), (4, 8)], []⟩, [(0, 1), (4, 1)]⟩

theorem sampleStats_wf : sampleStats.WF := by
  refine ⟨?_, ?_, ?_, ?_, ?_, ?_⟩
  iterate 5 (unfold MapKeys; decide)
  intro x hx
  rw [sampleStats, List.mem_singleton] at hx
  subst hx
  refine ⟨by decide, by decide, ?_⟩
  intro c hc
  have : c = 0 := Nat.lt_one_iff.1 hc
  subst this
  exact ⟨(0, 1), (1, 0), by decide, by decide, by decide⟩

theorem sampleStats2_wf : sampleStats2.WF := by
  refine ⟨?_, ?_, ?_, ?_, ?_, ?_⟩
  iterate 5 (unfold MapKeys; decide)
  intro x hx
  rw [sampleStats2, List.mem_singleton] at hx
  subst hx
  refine ⟨by decide, by decide, ?_⟩
  intro c hc
  have : c = 0 := Nat.lt_one_iff.1 hc
  subst this
  exact ⟨(0, 1), (1, 0), by decide, by decide, by decide⟩

/-- Only the equality that is in both is kept. -/
example : sampleStats.CombineWith sampleStats2 (.ok
    ⟨[(0, [(5, 5), (1, 9)]), (4, [(3, 3), (1, 2)])], [(0, ⟨[((0, 1), 0), ((1, 0), 0)], 1⟩)],
      ⟨[(0, 7), (4, 8)], [(7, ["a", "b"]), (8, ["c", "d"])]⟩, [(0, 3), (4, 3)]⟩) := by
  refine ⟨.ok [(0, ⟨[((0, 1), 0), ((1, 0), 0)], 1⟩)], ?_, rfl⟩
  refine .occupied (p₀ := ⟨[((0, 1), 0), ((1, 0), 0), ((1, 1), 0)], 1⟩)
    (q := ⟨[((0, 1), 0), ((1, 0), 0)], 1⟩) rfl ?_ .nil
  exact ⟨_, [[(0, 1), (1, 0)]], .refl _, by decide +kernel, by rfl⟩

/-- A superblock that runs the block twice. -/
def sampleTwice : List (BasicBlock Unit) := [⟨0, [(), ()]⟩, ⟨0, [(), ()]⟩]

theorem sampleTwice_cells : ∀ b ∈ sampleTwice, CellsInBlock sampleStats b := by
  intro b hb x y hne h
  have hb' : b = ⟨0, [(), ()]⟩ := by
    simpa [sampleTwice] using hb
  subst hb'
  have h0 := (same_elements h hne).1
  have hall : ∀ x ∈ (sampleStats.blockClasses 0).elements, x.1 < 2 := by decide
  exact hall x h0

example : sampleStats.ForBlock 4 sampleTwice (.ok ⟨[0, 4, 0, 4],
    [(0, [(0, (5, 5)), (1, (1, 3))]), (4, [(0, (3, 3)), (1, (2, 2))])],
    ⟨[((0, 1), 0), ((1, 0), 0), ((1, 1), 0), ((2, 1), 1), ((3, 0), 1), ((3, 1), 1)], 2⟩⟩) := by
  refine ⟨.ok ⟨[((0, 1), 0), ((1, 0), 0), ((1, 1), 0), ((2, 1), 1), ((3, 0), 1), ((3, 1), 1)], 2⟩, ?_,
    by rfl⟩
  refine .cons (q := ⟨[((0, 1), 0), ((1, 0), 0), ((1, 1), 0)], 1⟩) ⟨_, .refl _, by rfl⟩ ?_
  refine .cons (q := ⟨[((2, 1), 0), ((3, 0), 0), ((3, 1), 0)], 1⟩) ⟨_, .refl _, by rfl⟩
    ⟨_, .refl _, rfl⟩ .nil

/-- The constraints of one run of the block. -/
example : (⟨[0, 4], [(0, [(0, (5, 5)), (1, (1, 3))]), (4, [(0, (3, 3)), (1, (2, 2))])],
    ⟨[((0, 1), 0), ((1, 0), 0), ((1, 1), 0)], 1⟩⟩ : BlockEmpiricalConstraints).Generate
    (fun c => some c) [0, 4] (.ok [⟨(0, 0), .inr 5⟩, ⟨(1, 0), .inr 3⟩, ⟨(1, 1), .inr 2⟩,
      ⟨(0, 1), .inl (1, 0)⟩, ⟨(0, 1), .inl (1, 1)⟩]) :=
  ⟨_, ⟨_, .refl _, rfl⟩, by rfl⟩

/-- Filtering a second time tests other columns than the ones that the ranges belong to: after column 0
was removed, the range of column 1 is kept or removed according to the predicate on column 0. -/
theorem C53_filtered_twice : ∃ (b b₁ b₂ : BlockEmpiricalConstraints) (p q : BlockCell → Bool),
    b.Filtered p (.ok b₁) ∧ b₁.Filtered q (.ok b₂) ∧ b₁.range 0 1 = some (7, 7) ∧
      q (0, 1) = false ∧ b₂.range 0 1 = some (7, 7) := by
  refine ⟨⟨[0], [(0, [(0, (5, 5)), (1, (7, 7))])], .default⟩, ⟨[0], [(0, [(1, (7, 7))])], .default⟩,
    ⟨[0], [(0, [(1, (7, 7))])], .default⟩, fun c => c.2 != 0, fun c => c.2 != 1, ?_, ?_, rfl, rfl, rfl⟩
  · exact ⟨_, ⟨_, .refl _, rfl⟩, by rfl⟩
  · exact ⟨_, ⟨_, .refl _, rfl⟩, by rfl⟩

/-- The references of the cells of two instructions. -/
example : newReferenceMapper (fun r : ℕ × String => r.1) [[0, 1], [2, 3]] [(3, "d"), (0, "a")] =
    .ok [((1, 1), (3, "d")), ((0, 0), (0, "a"))] := by rfl

end Verif
