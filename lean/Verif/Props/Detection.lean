import Verif.Proofs.Detection

/-! # Properties of the detection of empirical constraints -/

set_option linter.unusedSectionVars false

namespace Verif

/-- The loop over the inputs. -/
theorem detectInputs_ok {airOf : ℕ → ℕ} {names : ℕ → List String} {width : ℕ → ℕ}
    {counts : List (ℕ × ℕ)} {maxSegments : ℕ} (hmax : maxSegments ≠ 0) :
    ∀ {inputs : List (List (List ChipTrace))} {execs : List (List TraceRow)}
      {acc : EmpiricalConstraints}, acc.WF → StatsConform airOf names width acc →
      List.Forall₂ (fun input exec => ChipsConform airOf names width input ∧
        IsExecution (inputRows 0 input) exec ∧ WellBlocked counts exec ∧
        ∀ seg ∈ input.head?, ∃ row ∈ segmentRows 0 seg, (counts.lookup row.pc).isSome) inputs execs →
      (∃ r, DetectInputs counts maxSegments inputs acc r) ∧
      ∀ r, DetectInputs counts maxSegments inputs acc r → ∃ s statss, r = .ok s ∧ s.WF ∧
        CombineMany acc statss.flatten (.ok s) ∧ (∀ e ∈ statss.flatten, e.WF) ∧
        (∀ e ∈ statss.flatten, StatsConform airOf names width e) ∧
        List.Forall₂ (Pieces counts width) execs statss
  | _, _, acc, ha, _, .nil => by
    refine ⟨⟨_, .nil⟩, fun r hr => ?_⟩
    cases hr
    exact ⟨acc, [], rfl, ha, .nil, by simp, by simp, .nil⟩
  | _, _, acc, ha, hac, .cons (a := input) (b := exec) ⟨h1, h2, h3, h4⟩ ht => by
    have hw : ∀ row ∈ exec, row.cells.length = width row.pc := by
      have key : ∀ (segs : List (List ChipTrace)) (i : ℕ), ChipsConform airOf names width segs →
          ∀ row ∈ inputRows i segs, row.cells.length = width row.pc := by
        intro segs
        induction segs with
        | nil => intro i _ row hr; cases hr
        | cons seg t ih =>
          intro i hc row hr
          rw [inputRows, List.mem_append] at hr
          rcases hr with hr | hr
          · simp only [segmentRows, List.mem_flatMap, List.mem_map, List.mem_filter] at hr
            obtain ⟨chip, hchip, r, ⟨hr1, hr2⟩, rfl⟩ := hr
            exact hc.widths seg (by simp) chip hchip r hr1 hr2
          · exact ih (i + 1) ⟨fun x hx => hc.names x (by simp [hx]), fun x hx => hc.airs x (by simp [hx]),
              fun x hx => hc.widths x (by simp [hx])⟩ row hr
      exact fun row hr => key input 0 h1 row (h2.perm.mem_iff.1 hr)
    have hI := detectInput_ok (airOf := airOf) (names := names) (width := width) (counts := counts) hmax input
      0 [] exec ⟨[], []⟩ acc ha hac ⟨List.nodup_nil, List.nodup_nil, by simp, by simp⟩ h1 (by simpa using h2)
      h3 hw (by simp) (by simpa using h4)
    constructor
    · obtain ⟨⟨r, hr⟩, hI⟩ := hI
      obtain ⟨s, stats, e, k1, k2, -⟩ := hI r hr
      subst e
      obtain ⟨⟨r', hr'⟩, -⟩ := detectInputs_ok hmax k1 k2 ht
      exact ⟨r', .cons hr hr'⟩
    · intro r hr
      cases hr with
      | cons hr1 hr2 =>
        obtain ⟨s, stats, e, k1, k2, k3, k4, k5, k6⟩ := hI.2 _ hr1
        cases e
        obtain ⟨s', statss, e, g1, g2, g3, g4, g5⟩ := (detectInputs_ok hmax k1 k2 ht).2 r hr2
        refine ⟨s', stats :: statss, e, g1, combineMany_append k3 g2, ?_, ?_, .cons k6 g5⟩
        · intro x hx
          rw [List.flatten_cons, List.mem_append] at hx
          exact hx.elim (k4 x) (g3 x)
        · intro x hx
          rw [List.flatten_cons, List.mem_append] at hx
          exact hx.elim (k5 x) (g4 x)
      | panic hr1 =>
        obtain ⟨s, stats, e, -⟩ := hI.2 _ hr1
        cases e

theorem blockCounts_lookup {I : Type} {blocks : List (BasicBlock I)}
    (hn : (blocks.map fun b => b.startPc).Nodup) (pc n : ℕ) :
    (blocks.foldl (fun m b => pcMapInsert b.startPc b.instructions.length m) []).lookup pc = some n ↔
      ∃ b ∈ blocks, b.startPc = pc ∧ b.instructions.length = n := by
  have key : ∀ (bs : List (BasicBlock I)) (m : List (ℕ × ℕ)), (bs.map fun b => b.startPc).Nodup →
      ((bs.foldl (fun m b => pcMapInsert b.startPc b.instructions.length m) m).lookup pc = some n ↔
        (∃ b ∈ bs, b.startPc = pc ∧ b.instructions.length = n) ∨
          m.lookup pc = some n ∧ ∀ b ∈ bs, b.startPc ≠ pc) := by
    intro bs
    induction bs with
    | nil => simp
    | cons b t ih =>
      intro m hn
      rw [List.map_cons, List.nodup_cons] at hn
      rw [List.foldl_cons, ih _ hn.2, lookup_insert]
      by_cases hpc : pc = b.startPc
      · subst hpc
        rw [if_pos rfl]
        constructor
        · rintro (⟨b', hb, h1, h2⟩ | ⟨h1, h2⟩)
          · exact .inl ⟨b', by simp [hb], h1, h2⟩
          · exact .inl ⟨b, by simp, rfl, by simpa using h1⟩
        · rintro (⟨b', hb, h1, h2⟩ | ⟨h1, h2⟩)
          · rcases List.mem_cons.1 hb with rfl | hb
            · refine .inr ⟨by rw [h2], fun b'' hb'' e => ?_⟩
              exact hn.1 (List.mem_map.2 ⟨b'', hb'', e⟩)
            · exact absurd (List.mem_map.2 ⟨b', hb, h1⟩) hn.1
          · exact absurd rfl (h2 b (by simp))
      · rw [if_neg hpc]
        constructor
        · rintro (⟨b', hb, h1, h2⟩ | ⟨h1, h2⟩)
          · exact .inl ⟨b', by simp [hb], h1, h2⟩
          · refine .inr ⟨h1, fun b' hb => ?_⟩
            rcases List.mem_cons.1 hb with rfl | hb
            · exact fun e => hpc e.symm
            · exact h2 b' hb
        · rintro (⟨b', hb, h1, h2⟩ | ⟨h1, h2⟩)
          · rcases List.mem_cons.1 hb with rfl | hb
            · exact absurd h1.symm hpc
            · exact .inl ⟨b', hb, h1, h2⟩
          · exact .inr ⟨h1, fun b' hb => h2 b' (by simp [hb])⟩
  rw [key blocks [] hn]
  simp

/-- **C63.** Given the executions of all inputs, which follow the blocks of the program, detection ends
with statistics in which:
* a block is recorded exactly if it was executed, and two of its cells are recorded as equal exactly if
  they had the same value in every execution of the block, in all inputs, no matter how the traces are cut
  into segments;
* the counts are the numbers of executions;
* every column of an executed instruction has a range, whose bounds it had, and in at most one percent of
  the executions it was below and in at most one percent above. -/
theorem C63_detect {I : Type} {blocks : List (BasicBlock I)}
    (hn : (blocks.map fun b => b.startPc).Nodup) {maxSegments : ℕ} (hmax : maxSegments ≠ 0)
    {airOf : ℕ → ℕ} {names : ℕ → List String} {width : ℕ → ℕ}
    {inputs : List (List (List ChipTrace))} {execs : List (List TraceRow)}
    (h : List.Forall₂ (fun input exec => IsExecution (inputRows 0 input) exec ∧
      FollowsBlocks blocks exec ∧ ChipsConform airOf names width input ∧ ReachesBlock blocks input)
      inputs execs) :
    (∃ r, DetectEmpiricalConstraints blocks maxSegments inputs r) ∧
    ∀ r, DetectEmpiricalConstraints blocks maxSegments inputs r → ∃ s, r = .ok s ∧ s.WF ∧
      (∀ k, s.HasBlock k ↔ IsBlockStart blocks k ∧ ∃ exec ∈ execs, ∃ row ∈ exec, row.pc = k) ∧
      (∀ b ∈ blocks, s.HasBlock b.startPc → ∀ x y, s.Equates b.startPc x y ↔
        x = y ∨ ∀ exec ∈ execs, AlwaysEqual exec b.startPc b.instructions.length x y) ∧
      (∀ pc, s.count pc = (execs.map (executions pc)).sum) ∧
      (∀ exec ∈ execs, ∀ row ∈ exec, ∀ col < row.cells.length, ∃ lo hi,
        s.range row.pc col = some (lo, hi) ∧
          100 * (execs.map (executionsBelow row.pc col lo)).sum ≤ (execs.map (executions row.pc)).sum ∧
          100 * (execs.map (executionsAbove row.pc col hi)).sum ≤ (execs.map (executions row.pc)).sum) ∧
      ∀ pc col lo hi, s.range pc col = some (lo, hi) →
        (∃ exec ∈ execs, ∃ row ∈ exec, row.pc = pc ∧ row.cells[col]? = some lo) ∧
        ∃ exec ∈ execs, ∃ row ∈ exec, row.pc = pc ∧ row.cells[col]? = some hi := by
  set counts := blocks.foldl (fun m b => pcMapInsert b.startPc b.instructions.length m) [] with hcd
  have hlk : ∀ pc n, counts.lookup pc = some n ↔ ∃ b ∈ blocks, b.startPc = pc ∧ b.instructions.length = n :=
    blockCounts_lookup hn
  have hsome : ∀ pc, (counts.lookup pc).isSome ↔ IsBlockStart blocks pc := by
    intro pc
    rw [Option.isSome_iff_exists]
    constructor
    · rintro ⟨n, h⟩
      obtain ⟨b, h1, h2, -⟩ := (hlk pc n).1 h
      exact ⟨b, h1, h2⟩
    · rintro ⟨b, h1, h2⟩
      exact ⟨_, (hlk pc _).2 ⟨b, h1, h2, rfl⟩⟩
  have h' : List.Forall₂ (fun input exec => ChipsConform airOf names width input ∧
      IsExecution (inputRows 0 input) exec ∧ WellBlocked counts exec ∧
      ∀ seg ∈ input.head?, ∃ row ∈ segmentRows 0 seg, (counts.lookup row.pc).isSome) inputs execs := by
    refine h.imp ?_
    rintro input exec ⟨h1, h2, h3, h4⟩
    refine ⟨h3, h1, ?_, ?_⟩
    · intro i row n hi hl
      obtain ⟨b, hb, e1, e2⟩ := (hlk _ _).1 hl
      obtain ⟨g1, g2⟩ := h2 i row hi b hb e1
      refine ⟨by rw [← e2]; exact List.length_pos_iff.2 g1, fun j row' hj hjn hr => ?_⟩
      obtain ⟨g3, g4⟩ := g2 j row' hj (by omega) hr
      refine ⟨g3, ?_⟩
      rw [← hsome] at g4
      cases hl' : counts.lookup row'.pc with
      | none => rfl
      | some v => exact absurd (by rw [hl']; rfl) g4
    · intro seg hs
      obtain ⟨row, hr, hp⟩ := h4 seg hs
      exact ⟨row, hr, (hsome _).2 hp⟩
  have hdw : EmpiricalConstraints.default.WF :=
    ⟨List.nodup_nil, List.nodup_nil, List.nodup_nil, List.nodup_nil, List.nodup_nil, by
      intro x hx
      cases hx⟩
  have hdc : StatsConform airOf names width EmpiricalConstraints.default :=
    ⟨fun _ _ h => (by cases h), fun _ _ h => (by cases h), fun _ _ h => (by cases h)⟩
  obtain ⟨hex, hall⟩ := detectInputs_ok hmax hdw hdc h'
  refine ⟨hex, fun r hr => ?_⟩
  obtain ⟨s, statss, e, -, g2, g3, g4, g5⟩ := hall r hr
  subst e
  have hcons : Consistent (EmpiricalConstraints.default :: statss.flatten) := by
    refine statsConform_consistent (airOf := airOf) (names := names) (width := width) ?_
    intro x hx
    rcases List.mem_cons.1 hx with rfl | hx
    · exact hdc
    · exact g4 x hx
  obtain ⟨s', e, hsw, c1, c2, c3, c4, c5⟩ := (C53_conservative (a := EmpiricalConstraints.default)
    (l := statss.flatten) (by
      intro x hx
      rcases List.mem_cons.1 hx with rfl | hx
      · exact hdw
      · exact g3 x hx) hcons).2 _ g2
  cases e
  obtain ⟨hlen, hP⟩ := List.forall₂_iff_get.1 g5
  have toE : ∀ exec ∈ execs, ∃ st ∈ statss, Pieces counts width exec st := by
    intro exec he
    obtain ⟨i, hi, rfl⟩ := List.mem_iff_getElem.1 he
    exact ⟨_, List.getElem_mem (by omega), hP i hi (by omega)⟩
  have toS : ∀ st ∈ statss, ∃ exec ∈ execs, Pieces counts width exec st := by
    intro st he
    obtain ⟨i, hi, rfl⟩ := List.mem_iff_getElem.1 he
    exact ⟨_, List.getElem_mem (by omega), hP i (by omega) hi⟩
  have hdb : ∀ k, ¬ EmpiricalConstraints.default.HasBlock k := by
    intro k h
    cases h
  have hdr : ∀ pc col, EmpiricalConstraints.default.range pc col = none := fun _ _ => rfl
  have hasS : ∀ k, s.HasBlock k ↔ IsBlockStart blocks k ∧ ∃ exec ∈ execs, ∃ row ∈ exec, row.pc = k := by
    intro k
    rw [c3]
    constructor
    · rintro ⟨b, hb, hk⟩
      rcases List.mem_cons.1 hb with rfl | hb
      · exact absurd hk (hdb k)
      · obtain ⟨st, hst, hb⟩ := List.mem_flatten.1 hb
        obtain ⟨exec, he, hp⟩ := toS st hst
        obtain ⟨h1, row, h2, h3⟩ := (hp.has k).1 ⟨b, hb, hk⟩
        exact ⟨(hsome k).1 h1, exec, he, row, h2, h3⟩
    · rintro ⟨h1, exec, he, row, h2, h3⟩
      obtain ⟨st, hst, hp⟩ := toE exec he
      obtain ⟨b, hb, hk⟩ := (hp.has k).2 ⟨(hsome k).2 h1, row, h2, h3⟩
      exact ⟨b, List.mem_cons_of_mem _ (List.mem_flatten.2 ⟨st, hst, hb⟩), hk⟩
  refine ⟨s, rfl, hsw, hasS, ?_, ?_, ?_, ?_⟩
  · intro b hb hk x y
    by_cases hxy : x = y
    · subst hxy
      simp [EmpiricalConstraints.Equates, Partition.Same]
    · rw [c4 _ hk]
      simp only [hxy, false_or]
      have hln : counts.lookup b.startPc = some b.instructions.length := (hlk _ _).2 ⟨b, hb, rfl, rfl⟩
      constructor
      · intro hA exec he
        obtain ⟨st, hst, hp⟩ := toE exec he
        refine (hp.eq _ _ hln x y hxy).1 fun e' he' hk' => ?_
        exact hA e' (List.mem_cons_of_mem _ (List.mem_flatten.2 ⟨st, hst, he'⟩)) hk'
      · intro hA e' he' hk'
        rcases List.mem_cons.1 he' with rfl | he'
        · exact absurd hk' (hdb _)
        · obtain ⟨st, hst, he'⟩ := List.mem_flatten.1 he'
          obtain ⟨exec, he, hp⟩ := toS st hst
          exact (hp.eq _ _ hln x y hxy).2 (hA exec he) e' he' hk'
  · intro pc
    rw [c5, List.map_cons, List.sum_cons]
    have h0 : EmpiricalConstraints.default.count pc = 0 := rfl
    rw [h0, Nat.zero_add]
    clear hP toE toS c1 c2 c3 c4 c5 g2 g3 g4 hcons hlen hr hasS hex hall h h'
    induction g5 with
    | nil => rfl
    | cons h1 _ ih =>
      rw [List.flatten_cons, List.map_append, List.sum_append, List.map_cons, List.sum_cons, ih, h1.count]
  · intro exec he row hr col hc
    have hwid : row.cells.length = width row.pc := by
      obtain ⟨i, hi, rfl⟩ := List.mem_iff_getElem.1 he
      obtain ⟨hlen', hF⟩ := List.forall₂_iff_get.1 h
      obtain ⟨q1, -, q3, -⟩ := hF i (by omega) hi
      have hrow := q1.perm.mem_iff.1 hr
      have key : ∀ (segs : List (List ChipTrace)) (i : ℕ), ChipsConform airOf names width segs →
          ∀ row ∈ inputRows i segs, row.cells.length = width row.pc := by
        intro segs
        induction segs with
        | nil => intro i _ row hr; cases hr
        | cons seg t ih =>
          intro i hc row hr
          rw [inputRows, List.mem_append] at hr
          rcases hr with hr | hr
          · simp only [segmentRows, List.mem_flatMap, List.mem_map, List.mem_filter] at hr
            obtain ⟨chip, hchip, r, ⟨hr1, hr2⟩, rfl⟩ := hr
            exact hc.widths seg (by simp) chip hchip r hr1 hr2
          · exact ih (i + 1) ⟨fun x hx => hc.names x (by simp [hx]), fun x hx => hc.airs x (by simp [hx]),
              fun x hx => hc.widths x (by simp [hx])⟩ row hr
      exact key _ 0 q3 row hrow
    obtain ⟨st, hst, hp⟩ := toE exec he
    obtain ⟨e', he', hs'⟩ := hp.present row.pc col ⟨row, hr, rfl⟩ (by omega)
    obtain ⟨⟨lo', hi'⟩, hrg⟩ := Option.isSome_iff_exists.1 hs'
    obtain ⟨lo, hi, hsr, -, -⟩ := c1 e' (List.mem_cons_of_mem _ (List.mem_flatten.2 ⟨st, hst, he'⟩)) row.pc
      col lo' hi' hrg
    refine ⟨lo, hi, hsr, ?_, ?_⟩
    · have hle : ∀ e'' ∈ statss.flatten, ∀ lo'' hi'', e''.range row.pc col = some (lo'', hi'') →
          lo ≤ lo'' := by
        intro e'' he'' lo'' hi'' hr''
        obtain ⟨l1, h1, q1, q2, -⟩ := c1 e'' (List.mem_cons_of_mem _ he'') row.pc col lo'' hi'' hr''
        rw [hsr] at q1
        cases q1
        exact q2
      clear hP toE toS c1 c2 c3 c4 c5 g2 g3 g4 hcons hlen he hst hasS hex hall h h'
      generalize row.pc = pc at *
      rw [hwid] at hc
      induction g5 with
      | nil => simp
      | cons h1 _ ih =>
        have a1 := h1.below pc col lo (fun e he => hle e (by simp [he])) hc
        have a2 := ih (fun e he => hle e (by simp only [List.flatten_cons, List.mem_append]; exact .inr he))
        simp only [List.map_cons, List.sum_cons]
        omega
    · have hle : ∀ e'' ∈ statss.flatten, ∀ lo'' hi'', e''.range row.pc col = some (lo'', hi'') →
          hi'' ≤ hi := by
        intro e'' he'' lo'' hi'' hr''
        obtain ⟨l1, h1, q1, -, q2⟩ := c1 e'' (List.mem_cons_of_mem _ he'') row.pc col lo'' hi'' hr''
        rw [hsr] at q1
        cases q1
        exact q2
      clear hP toE toS c1 c2 c3 c4 c5 g2 g3 g4 hcons hlen he hst hasS hex hall h h'
      generalize row.pc = pc at *
      rw [hwid] at hc
      induction g5 with
      | nil => simp
      | cons h1 _ ih =>
        have a1 := h1.above pc col hi (fun e he => hle e (by simp [he])) hc
        have a2 := ih (fun e he => hle e (by simp only [List.flatten_cons, List.mem_append]; exact .inr he))
        simp only [List.map_cons, List.sum_cons]
        omega
  · intro pc col lo hi hsr
    obtain ⟨⟨b1, m1, x1, r1⟩, b2, m2, x2, r2⟩ := c2 pc col lo hi hsr
    constructor
    · rcases List.mem_cons.1 m1 with rfl | m1
      · rw [hdr] at r1
        cases r1
      · obtain ⟨st, hst, hb⟩ := List.mem_flatten.1 m1
        obtain ⟨exec, he, hp⟩ := toS st hst
        exact ⟨exec, he, (hp.attained b1 hb pc col lo x1 r1).1⟩
    · rcases List.mem_cons.1 m2 with rfl | m2
      · rw [hdr] at r2
        cases r2
      · obtain ⟨st, hst, hb⟩ := List.mem_flatten.1 m2
        obtain ⟨exec, he, hp⟩ := toS st hst
        exact ⟨exec, he, (hp.attained b2 hb pc col x2 hi r2).2⟩

/-- With a limit of zero segments detection panics at the first segment. -/
theorem C63_zero_segments {I : Type} (blocks : List (BasicBlock I)) {airOf : ℕ → ℕ}
    {names : ℕ → List String} {width : ℕ → ℕ} {seg : List ChipTrace} {input : List (List ChipTrace)}
    {inputs : List (List (List ChipTrace))} (h : ChipsConform airOf names width (seg :: input))
    {r : Except LoopStop EmpiricalConstraints}
    (hr : DetectEmpiricalConstraints blocks 0 ((seg :: input) :: inputs) r) : r = .error .panic := by
  obtain ⟨d', ec, -⟩ := collectChips_ok (airOf := airOf) (names := names) 0 seg [] ⟨[], []⟩
    ⟨List.nodup_nil, List.nodup_nil, by simp, by simp⟩ (h.names seg (by simp)) (h.airs seg (by simp))
  have key : ∀ {acc r}, DetectInput (blocks.foldl (fun m b => pcMapInsert b.startPc b.instructions.length m)
      []) 0 0 (seg :: input) [] ⟨[], []⟩ acc r → r = .error .panic := by
    intro acc r hr
    cases hr with
    | collectPanic h => rw [ec] at h; cases h
    | zero _ _ => rfl
    | keep _ h0 => exact absurd rfl h0
    | cutPanic _ h0 => exact absurd rfl h0
    | processPanic _ h0 => exact absurd rfl h0
    | process _ h0 => exact absurd rfl h0
  cases hr with
  | cons h1 _ => cases key h1
  | panic h1 => exact key h1

/-- If the trace so far contains no start of a block when it is to be cut, detection panics. -/
theorem C63_no_block {counts : List (ℕ × ℕ)} {rows : List TraceRow}
    (h : ∀ row ∈ rows, counts.lookup row.pc = none) : takeCompleteBlocks counts rows = .error .panic := by
  have h0 : (rows.filter fun row => (counts.lookup row.pc).isSome) = [] := by
    rw [List.filter_eq_nil_iff]
    intro row hr
    rw [h row hr]
    simp
  rw [takeCompleteBlocks, h0]
  rfl

/-! ## Examples -/

/-- The program of the test in the code: an addition and a conditional branch back to it. -/
def sampleLoopBlocks : List (BasicBlock Unit) := [⟨0, [(), ()]⟩]

/-- Two iterations of the loop in two segments; the chips list their rows in their own order. -/
def sampleLoopInput : List (List ChipTrace) :=
  [[⟨7, ["r", "a", "b"], [⟨true, 0, 0, [1, 0, 1]⟩, ⟨false, 0, 0, [0, 0, 0]⟩, ⟨true, 0, 2, [2, 1, 1]⟩]⟩,
    ⟨8, ["t", "x", "y"], [⟨true, 4, 1, [0, 1, 2]⟩]⟩],
   [⟨8, ["t", "x", "y"], [⟨true, 4, 0, [12, 2, 2]⟩]⟩]]

/-- The execution. -/
def sampleLoopExecution : List TraceRow :=
  [⟨0, (0, 0), [1, 0, 1]⟩, ⟨4, (0, 1), [0, 1, 2]⟩, ⟨0, (0, 2), [2, 1, 1]⟩, ⟨4, (1, 0), [12, 2, 2]⟩]

theorem sampleLoop_execution : IsExecution (inputRows 0 sampleLoopInput) sampleLoopExecution :=
  ⟨by decide, by
    simp only [sampleLoopExecution, List.pairwise_cons, List.not_mem_nil, List.mem_cons, forall_eq_or_imp,
      Timestamp.Lt]
    simp⟩

theorem sampleLoop_follows : FollowsBlocks sampleLoopBlocks sampleLoopExecution := by
  intro i row hi b hb he
  rw [sampleLoopBlocks, List.mem_singleton] at hb
  subst hb
  refine ⟨by simp, fun j row' hj hjn hr => ?_⟩
  have hj1 : j = 1 := by
    simp only [List.length_cons, List.length_nil] at hjn
    omega
  subst hj1
  have hi4 : i < 4 := (List.getElem?_eq_some_iff.1 hi).1
  simp only [IsBlockStart, sampleLoopBlocks, List.mem_singleton, exists_eq_left]
  match i, hi4 with
  | 0, _ =>
    cases hi
    cases hr
    decide
  | 1, _ =>
    cases hi
    simp at he
  | 2, _ =>
    cases hi
    cases hr
    decide
  | 3, _ =>
    cases hi
    simp at he

theorem sampleLoop_conform : ChipsConform (fun pc => if pc = 0 then 7 else 8)
    (fun a => if a = 7 then ["r", "a", "b"] else ["t", "x", "y"]) (fun _ => 3) sampleLoopInput := by
  refine ⟨by decide, ?_, ?_⟩
  · intro seg hs chip hc row hr hv
    simp only [sampleLoopInput, List.mem_cons, List.not_mem_nil, or_false] at hs
    rcases hs with rfl | rfl <;> simp only [List.mem_cons, List.not_mem_nil, or_false] at hc
    · rcases hc with rfl | rfl <;> simp only [List.mem_cons, List.not_mem_nil, or_false] at hr
      · rcases hr with rfl | rfl | rfl <;> simp
      · subst hr
        simp
    · subst hc
      simp only [List.mem_cons, List.not_mem_nil, or_false] at hr
      subst hr
      simp
  · intro seg hs chip hc row hr hv
    simp only [sampleLoopInput, List.mem_cons, List.not_mem_nil, or_false] at hs
    rcases hs with rfl | rfl <;> simp only [List.mem_cons, List.not_mem_nil, or_false] at hc
    · rcases hc with rfl | rfl <;> simp only [List.mem_cons, List.not_mem_nil, or_false] at hr
      · rcases hr with rfl | rfl | rfl <;> simp
      · subst hr
        simp
    · subst hc
      simp only [List.mem_cons, List.not_mem_nil, or_false] at hr
      subst hr
      simp

/-- The hypotheses of `C63_detect` hold for the example, where the second iteration is cut by the end of
the first segment; the result of the addition is found to be the first operand of the branch. -/
example : ∀ r, DetectEmpiricalConstraints sampleLoopBlocks 1 [sampleLoopInput] r →
    ∃ s, r = .ok s ∧ s.Equates 0 (0, 0) (1, 1) ∧ ¬ s.Equates 0 (0, 0) (0, 2) ∧ s.count 4 = 2 ∧
      s.range 0 2 = some (1, 1) := by
  intro r hr
  obtain ⟨s, e, -, h1, h2, h3, h4, h5⟩ := (C63_detect (blocks := sampleLoopBlocks) (by decide)
    (maxSegments := 1) (by decide) (airOf := fun pc => if pc = 0 then 7 else 8)
    (names := fun a => if a = 7 then ["r", "a", "b"] else ["t", "x", "y"]) (width := fun _ => 3)
    (inputs := [sampleLoopInput]) (execs := [sampleLoopExecution])
    (.cons ⟨sampleLoop_execution, sampleLoop_follows, sampleLoop_conform, by
      intro seg hs
      cases hs
      exact ⟨⟨0, (0, 0), [1, 0, 1]⟩, by decide, ⟨0, [(), ()]⟩, by simp [sampleLoopBlocks], rfl⟩⟩ .nil)).2 r hr
  have hb : s.HasBlock 0 := (h1 0).2 ⟨⟨⟨0, [(), ()]⟩, by simp [sampleLoopBlocks], rfl⟩,
    sampleLoopExecution, by simp, _, List.mem_cons_self, rfl⟩
  have h2' := h2 ⟨0, [(), ()]⟩ (by simp [sampleLoopBlocks]) hb
  refine ⟨s, e, (h2' _ _).2 (.inr ?_), fun hc => ?_, h3 4, ?_⟩
  · intro exec he i row hi hp
    rw [List.mem_singleton] at he
    subst he
    have hi4 : i < 4 := (List.getElem?_eq_some_iff.1 hi).1
    match i, hi4 with
    | 0, _ => exact ⟨1, rfl, rfl⟩
    | 1, _ => cases hi; cases hp
    | 2, _ => exact ⟨2, rfl, rfl⟩
    | 3, _ => cases hi; cases hp
  · rcases (h2' _ _).1 hc with hc | hc
    · cases hc
    · obtain ⟨v, hv, hw⟩ := hc sampleLoopExecution (by simp) 2 _ rfl rfl
      cases hv
      cases hw
  · obtain ⟨lo, hi, hr, -, -⟩ := h4 sampleLoopExecution (by simp) ⟨0, (0, 0), [1, 0, 1]⟩ (by decide) 2
      (by decide)
    obtain ⟨⟨e1, m1, r1, n1, p1, v1⟩, e2, m2, r2, n2, p2, v2⟩ := h5 _ _ _ _ hr
    rw [List.mem_singleton] at m1 m2
    subst m1
    subst m2
    have hall : ∀ row ∈ sampleLoopExecution, row.pc = 0 → row.cells[2]? = some 1 := by decide
    rw [hall r1 n1 p1] at v1
    rw [hall r2 n2 p2] at v2
    cases v1
    cases v2
    exact hr

end Verif
