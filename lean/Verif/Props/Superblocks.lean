import Verif.Proofs.Superblocks
import Verif.Props.BasicBlocks

/-!
# C44: superblocks
-/

namespace Verif

variable {I : Type}

/-- C44: an execution is a sequence of basic blocks. -/
theorem C44_follows {c : DetectionConfig I} {program : List I} {is : List ℕ}
    (h : c.Follows program is) :
    ∃ bs : List (BasicBlock I), (∀ b ∈ bs, b ∈ collectBasicBlocks c program) ∧
      (is.map fun i => c.basePc + i * c.pcStep) = bs.flatMap (BasicBlock.pcs c.pcStep) := by
  refine follows_blocks is.length le_rfl ?_ h.valid h.step ?_
  · intro i hi x _ y hy h0
    rcases h.start i hi with rfl | hj
    · omega
    · have : y.1 = c.pc i := by
        simp only [DetectionConfig.located, List.getElem?_map, Option.mem_def,
          Option.map_eq_some_iff, List.getElem?_zipIdx] at hy
        obtain ⟨z, ⟨w, hw, rfl⟩, rfl⟩ := hy
        simp [DetectionConfig.pc]
      simp [DetectionConfig.sameBlock, this, DetectionConfig.pc, hj]
  · intro i hi x hx y hy _
    exact h.stop i hi x hx y hy

section
variable {blocks bs : List (BasicBlock I)} {step : ℕ}

/-- C44: the runs of an execution are the sequences of blocks between blocks with one instruction, with
the number of their occurrences. -/
theorem C44_runs (hd : (blocks.map (·.startPc)).Nodup) (hne : ∀ b ∈ blocks, b.instructions ≠ [])
    (hbs : ∀ b ∈ bs, b ∈ blocks) :
    ∃ runs, detectExecutionBbRuns blocks (bs.flatMap (BasicBlock.pcs step)) = .ok runs ∧
      (runs.map Prod.fst).Pairwise (· < ·) ∧
      ∀ r n, (r, n) ∈ runs ↔ n = (blockRuns bs).count r ∧ n ≠ 0 := by
  have hlen : bs.length < (bs.flatMap (BasicBlock.pcs step)).length + 1 := by
    have : ∀ l : List (BasicBlock I), (∀ b ∈ l, b ∈ blocks) →
        l.length ≤ (l.flatMap (BasicBlock.pcs step)).length := by
      intro l
      induction l with
      | nil => simp
      | cons b l ih =>
        intro h
        have h1 := ih fun x hx => h x (by simp [hx])
        have h2 := List.length_pos_iff.2 (hne b (h b (by simp)))
        rw [List.flatMap_cons, List.length_append, List.length_cons]
        have : (b.pcs step).length = b.instructions.length := by simp [BasicBlock.pcs]
        omega
    exact Nat.lt_succ_of_le (this bs hbs)
  have h := detectRunsLoop_ok (blocks := blocks) bs [] step _ [] []
    (fun b hb => ⟨(blockAt_eq hd).2 ⟨hbs b hb, rfl⟩, hne b (hbs b hb)⟩) hlen
  rw [List.nil_append, List.length_nil] at h
  have e : ∀ l : List (List ℕ), l.modifyHead ([] ++ ·) = l := by
    intro l
    cases l <;> simp
  rw [e] at h
  obtain ⟨h1, h2⟩ := foldl_endRun ((bs.splitOnP fun b => b.instructions.length = 1).map fun s =>
    s.map (·.startPc)) (runs := []) (by simp [SortedMap])
  refine ⟨_, h, List.pairwise_map.2 h1, fun r n => ?_⟩
  rw [← h1.lookup_iff, h2]
  change optAdd none (if (blockRuns bs).count r = 0 then none else some ((blockRuns bs).count r)) =
    some n ↔ _
  generalize (blockRuns bs).count r = k
  by_cases hk : k = 0
  · simp only [hk, if_true, optAdd, reduceCtorEq, false_iff]
    omega
  · simp only [hk, if_false, optAdd, Option.some.injEq]
    omega

/-- C44: the superblocks of a run are its contiguous non-empty parts up to the given length, with the
largest number of occurrences that do not overlap. -/
theorem C44_run (run : List ℕ) (maxLen : ℕ) :
    ∃ r, countSuperblocksInRun run maxLen = .ok r ∧ (r.map Prod.fst).Pairwise (· < ·) ∧
      ∀ q n, (q, n) ∈ r ↔ q ≠ [] ∧ q.length ≤ maxLen ∧ q <:+: run ∧ Uses run q n := by
  obtain ⟨r, h1, h2, h3⟩ := countSuperblocksInRun_ok run maxLen
  exact ⟨r, h1, List.pairwise_map.2 h2, fun q n => by rw [← h2.lookup_iff, h3]⟩

/-- C44: the superblocks of an execution, for any distribution of the work. -/
theorem C44_execution {runs r : List (List ℕ × ℕ)} {maxLen : ℕ}
    (h : CountSuperblocksInExecution runs maxLen r) :
    (r.map Prod.fst).Pairwise (· < ·) ∧ ∀ q n, (q, n) ∈ r ↔
      q ≠ [] ∧ q.length ≤ maxLen ∧ (∃ x ∈ runs, q <:+: x.1) ∧ ExecutionUses q runs n := by
  obtain ⟨maps, h1, h2⟩ := h
  obtain ⟨maps', h3, h4, h5⟩ := mapM_countInRunTimes maxLen runs
  rw [h1] at h3
  cases h3
  obtain ⟨h6, h7⟩ := parReduce_merge h2 h4
  exact ⟨List.pairwise_map.2 h6, fun q n => by rw [← h6.lookup_iff, h7, h5]⟩

/-- C44: the result exists and does not depend on the distribution of the work. -/
theorem C44_deterministic (runs : List (List ℕ × ℕ)) (maxLen : ℕ) :
    ∃! r, CountSuperblocksInExecution runs maxLen r := by
  obtain ⟨maps, h3, h4, h5⟩ := mapM_countInRunTimes maxLen runs
  obtain ⟨r, hr⟩ := parReduce_exists [] btreeMerge maps
  refine ⟨r, ⟨maps, h3, hr⟩, ?_⟩
  rintro r' ⟨maps', h1, h2⟩
  rw [h1] at h3
  cases h3
  obtain ⟨a1, a2⟩ := parReduce_merge hr h4
  obtain ⟨b1, b2⟩ := parReduce_merge h2 h4
  exact b1.ext a1 fun q => by rw [a2, b2]

/-- C44: superblock detection on an execution that is a sequence of basic blocks: it returns exactly the
sequences of basic blocks that occur in a run, are not too long and are used often enough, with the number
of uses. -/
theorem C44_detect (hd : (blocks.map (·.startPc)).Nodup) (hne : ∀ b ∈ blocks, b.instructions ≠ [])
    (hbs : ∀ b ∈ bs, b ∈ blocks) (cfg : SuperblockConfig) :
    ∃ r, DetectSuperblocks cfg (bs.flatMap (BasicBlock.pcs step)) blocks r ∧
      (∀ r', DetectSuperblocks cfg (bs.flatMap (BasicBlock.pcs step)) blocks r' → r' = r) ∧
      (∀ run n, (run, n) ∈ r.2 ↔ n = (blockRuns bs).count run ∧ n ≠ 0) ∧
      ∀ sb n, (sb, n) ∈ r.1 ↔ sb ≠ [] ∧ sb.length ≤ cfg.superblockMaxBbCount ∧
        (∀ b ∈ sb, b ∈ blocks) ∧ (∃ run ∈ blockRuns bs, sb.map (·.startPc) <:+: run) ∧
        ExecutionUses (sb.map (·.startPc)) ((blockRuns bs).map fun run => (run, 1)) n ∧
        cfg.apcExecCountCutoff ≤ n ∧
        (sb.flatMap (·.instructions)).length ≤ cfg.apcMaxInstructions := by
  obtain ⟨runs, h1, h2, h3⟩ := C44_runs (step := step) hd hne hbs
  obtain ⟨found, h4, h5⟩ := C44_deterministic runs cfg.superblockMaxBbCount
  obtain ⟨h6, h7⟩ := C44_execution h4
  have hstart : ∀ run ∈ blockRuns bs, ∀ pc ∈ run, pc ∈ blocks.map (·.startPc) := by
    intro run hr pc hpc
    rw [blockRuns] at hr
    obtain ⟨s, hs, rfl⟩ := List.mem_map.1 (List.mem_filter.1 hr).1
    obtain ⟨b, hb, rfl⟩ := List.mem_map.1 hpc
    refine List.mem_map_of_mem (hbs b ?_)
    have : ∀ l : List (BasicBlock I), ∀ s ∈ l.splitOnP (fun b => b.instructions.length = 1), ∀ x ∈ s,
        x ∈ l := by
      intro l
      induction l with
      | nil => simp
      | cons a l ih =>
        intro s hs x hx
        rw [List.splitOnP_cons_eq_if_modifyHead] at hs
        split_ifs at hs with hc
        · rcases List.mem_cons.1 hs with rfl | hs
          · cases hx
          · exact List.mem_cons_of_mem _ (ih s hs x hx)
        · cases hl : l.splitOnP (fun b => b.instructions.length = 1) with
          | nil => exact absurd hl (List.splitOnP_ne_nil _ _)
          | cons s' t =>
            rw [hl, List.modifyHead_cons] at hs
            rcases List.mem_cons.1 hs with rfl | hs
            · rcases List.mem_cons.1 hx with rfl | hx
              · exact List.mem_cons_self ..
              · exact List.mem_cons_of_mem _ (ih s' (by rw [hl]; simp) x hx)
            · exact List.mem_cons_of_mem _ (ih s (by rw [hl]; simp [hs]) x hx)
    exact this bs s hs b hb
  have hrun : ∀ q : List ℕ, (∃ x ∈ runs, q <:+: x.1) ↔ ∃ run ∈ blockRuns bs, q <:+: run := by
    intro q
    constructor
    · rintro ⟨⟨run, k⟩, hx, hq⟩
      obtain ⟨e1, e2⟩ := (h3 run k).1 hx
      rw [e1] at e2
      exact ⟨run, List.count_pos_iff.1 (by simpa using Nat.pos_of_ne_zero e2), hq⟩
    · rintro ⟨run, hr, hq⟩
      have := List.count_pos_iff.2 hr
      exact ⟨(run, (blockRuns bs).count run), (h3 _ _).2 ⟨rfl, by simpa using Nat.ne_of_gt this⟩, hq⟩
  obtain ⟨res, h8, h9⟩ := buildSuperblocks_ok (cfg := cfg) (found := found) hd (by
    rintro ⟨q, n⟩ hx
    obtain ⟨e1, e2, e3, e4⟩ := (h7 q n).1 hx
    refine ⟨e1, ?_⟩
    obtain ⟨run, hr, hq⟩ := (hrun q).1 e3
    exact fun pc hpc => hstart run hr pc (hq.subset hpc))
  refine ⟨(res, runs), ⟨found, h1, h4, h8⟩, ?_, h3, ?_⟩
  · rintro ⟨res', runs'⟩ ⟨found', e1, e2, e3⟩
    simp only at e1 e2 e3
    rw [h1] at e1
    cases e1
    rw [h5 _ e2, h8] at e3
    cases e3
    rfl
  · intro sb n
    rw [h9, h7, hrun]
    have hnil : sb.map (·.startPc) ≠ [] ↔ sb ≠ [] := by simp
    rw [hnil, List.length_map]
    constructor
    · rintro ⟨⟨a, b, c, d⟩, e, f, g⟩
      exact ⟨a, b, e, c, (executionUses_counts (hnil.2 a) h2.nodup h3 n).1 d, f, g⟩
    · rintro ⟨a, b, e, c, d, f, g⟩
      exact ⟨⟨a, b, c, (executionUses_counts (hnil.2 a) h2.nodup h3 n).2 d⟩, e, f, g⟩

/-- C44: detection of blocks and superblocks together: for an execution of a program, the hypotheses of
`C44_detect` are met. -/
theorem C44_program {c : DetectionConfig I} (hstep : 0 < c.pcStep) {program : List I} {is : List ℕ}
    (h : c.Follows program is) (cfg : SuperblockConfig) :
    ∃ bs : List (BasicBlock I), (∀ b ∈ bs, b ∈ collectBasicBlocks c program) ∧
      (is.map fun i => c.basePc + i * c.pcStep) = bs.flatMap (BasicBlock.pcs c.pcStep) ∧
      ∃! r, DetectSuperblocks cfg (is.map fun i => c.basePc + i * c.pcStep) (collectBasicBlocks c program) r := by
  obtain ⟨bs, h1, h2⟩ := C44_follows h
  obtain ⟨r, h3, h4, -⟩ := C44_detect (step := c.pcStep)
    ((C43_starts c program hstep).imp fun h => Nat.ne_of_lt h) (C43_partition c program).2.2 h1 cfg
  exact ⟨bs, h1, h2, r, by rw [h2]; exact h3, by rw [h2]; exact h4⟩

end

/-! Samples. -/

example : countSuperblocksInRun [1, 2, 1, 2, 1] 2 =
    .ok [([1], 3), ([1, 2], 2), ([2], 2), ([2, 1], 2)] := by decide +kernel

/-- The program of the sample in `BasicBlocks.lean`, executed with one jump back. -/
example : sampleDetection.Follows [0, 0, 1, 0, 0, 0, 2, 0, 1, 1, 2]
    [0, 1, 2, 3, 4, 5, 6, 7, 8, 5, 6, 7, 8, 9] where
  start := by decide
  valid := by decide
  step := by decide
  stop := by decide

example : detectExecutionBbRuns (collectBasicBlocks sampleDetection [0, 0, 1, 0, 0, 0, 2, 0, 1, 1, 2])
    ([0, 1, 2, 3, 4, 5, 6, 7, 8, 5, 6, 7, 8, 9].map sampleDetection.pc) =
    .ok [([100, 112], 1), ([128], 2)] := by decide +kernel

end Verif
