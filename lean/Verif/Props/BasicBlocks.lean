import Verif.Proofs.BasicBlocks

/-!
# C43: basic blocks
-/

namespace Verif

variable {I : Type} (c : DetectionConfig I) (program : List I)

/-- C43: the blocks are the program, with program counters, split exactly between instructions that must
not be in the same block. -/
theorem C43_blocks :
    (collectBasicBlocks c program).map (BasicBlock.pcInstructions c.pcStep) =
      (c.located program).splitBy c.sameBlock :=
  (collectBasicBlocks_segments program).eq_splitBy

theorem flatMap_pcInstructions (step : ℕ) (bs : List (BasicBlock I)) :
    (bs.flatMap (BasicBlock.pcInstructions step)).map Prod.snd = bs.flatMap (·.instructions) := by
  rw [List.map_flatMap]
  congr 1
  funext b
  simp [BasicBlock.pcInstructions, List.map_map, Function.comp_def]

/-- C43: every instruction is in exactly one block, in order, and no block is empty. -/
theorem C43_partition :
    (collectBasicBlocks c program).flatMap (·.instructions) = program ∧
    (collectBasicBlocks c program).flatMap (BasicBlock.pcInstructions c.pcStep) = c.located program ∧
    ∀ b ∈ collectBasicBlocks c program, b.instructions ≠ [] := by
  have h := collectBasicBlocks_segments (c := c) program
  have h2 : (collectBasicBlocks c program).flatMap (BasicBlock.pcInstructions c.pcStep) =
      c.located program := by
    rw [List.flatMap_def, h.flatten]
  refine ⟨?_, h2, ?_⟩
  · rw [← flatMap_pcInstructions c.pcStep, h2]
    simp [DetectionConfig.located, List.map_map, Function.comp_def]
  · intro b hb h0
    exact h.nonempty (List.mem_map.2 ⟨b, hb, by simp [BasicBlock.pcInstructions, h0]⟩)

/-- C43: inside a block, no instruction but the last one branches, no instruction but the first one is a
jump destination, and if there are several instructions, all are allowed. -/
theorem C43_inside {b : BasicBlock I} (hb : b ∈ collectBasicBlocks c program) :
    (b.pcInstructions c.pcStep).IsChain fun x y =>
      c.isBranching x.2 = false ∧ c.jumpDest y.1 = false ∧ c.isAllowed x.2 = true ∧
        c.isAllowed y.2 = true := by
  refine ((collectBasicBlocks_segments (c := c) program).inside _ (List.mem_map_of_mem hb)).imp ?_
  intro x y h
  simp only [DetectionConfig.sameBlock, Bool.and_eq_true, Bool.not_eq_true'] at h
  tauto

/-- C43: blocks are as long as possible: at every border there is a reason. -/
theorem C43_border {bs₁ bs₂ : List (BasicBlock I)} {a b : BasicBlock I}
    (h : collectBasicBlocks c program = bs₁ ++ a :: b :: bs₂) :
    ∃ x y, (a.pcInstructions c.pcStep).getLast? = some x ∧ (b.pcInstructions c.pcStep).head? = some y ∧
      (c.isBranching x.2 = true ∨ c.jumpDest y.1 = true ∨ c.isAllowed x.2 = false ∨
        c.isAllowed y.2 = false) := by
  have hs := collectBasicBlocks_segments (c := c) program
  have hne := (C43_partition c program).2.2
  have ha := hne a (by simp [h])
  have hb := hne b (by simp [h])
  have ha' : a.pcInstructions c.pcStep ≠ [] := by simpa [BasicBlock.pcInstructions] using ha
  have hb' : b.pcInstructions c.pcStep ≠ [] := by simpa [BasicBlock.pcInstructions] using hb
  refine ⟨_, _, List.getLast?_eq_some_getLast ha', List.head?_eq_some_head hb', ?_⟩
  have hc := hs.between
  rw [h, List.map_append, List.isChain_append] at hc
  have hc' := hc.2.1
  rw [List.map_cons, List.map_cons, List.isChain_cons] at hc'
  have := hc'.1 _ (by simp) _ (List.getLast?_eq_some_getLast ha') _ (List.head?_eq_some_head hb')
  simp only [DetectionConfig.sameBlock, Bool.and_eq_false_iff, Bool.not_eq_false'] at this
  tauto

/-- C43: a jump goes to the start of a block. -/
theorem C43_targets {i : ℕ} (hi : i < program.length) (hj : c.jumpDest (c.basePc + i * c.pcStep) = true) :
    ∃ b ∈ collectBasicBlocks c program, b.startPc = c.basePc + i * c.pcStep ∧
      b.instructions.head? = some program[i] := by
  obtain ⟨bs₁, b, bs₂, h1, -, h2, h3⟩ := block_at (c := c) hi (by
    intro x _ _
    simp [DetectionConfig.sameBlock, DetectionConfig.pc, hj])
  exact ⟨b, by simp [h1], h2, h3⟩

/-- C43: different blocks have different start addresses, in increasing order. -/
theorem C43_starts (hstep : 0 < c.pcStep) :
    ((collectBasicBlocks c program).map (·.startPc)).Pairwise (· < ·) := by
  have h2 := (C43_partition c program).2.1
  have hne := (C43_partition c program).2.2
  have hp : ((c.located program).map Prod.fst).Pairwise (· < ·) := by
    rw [List.pairwise_iff_getElem]
    intro i j hi hj hij
    simp only [DetectionConfig.located, List.getElem_map, List.getElem_zipIdx, DetectionConfig.pc]
    have := Nat.mul_lt_mul_of_pos_right hij hstep
    simpa using this
  rw [← h2] at hp
  generalize collectBasicBlocks c program = bs at hp hne
  have hmem : ∀ b : BasicBlock I, b.instructions ≠ [] →
      b.startPc ∈ (b.pcInstructions c.pcStep).map Prod.fst := by
    intro b hb
    obtain ⟨x, t, hx⟩ := List.exists_cons_of_ne_nil hb
    simp [BasicBlock.pcInstructions, hx]
  rw [List.map_flatMap, List.flatMap_def, List.pairwise_flatten, List.pairwise_map] at hp
  rw [List.pairwise_map]
  refine hp.2.imp_of_mem ?_
  intro a b ha hb h
  exact h _ (hmem a (hne a ha)) _ (hmem b (hne b hb))

/-! Sample: instruction 1 branches, instruction 2 is not allowed, address 20 is a jump destination. -/

/-- The sample configuration. -/
def sampleDetection : DetectionConfig ℕ where
  isBranching i := i = 1
  isAllowed i := i ≠ 2
  jumpDest pc := pc = 120
  basePc := 100
  pcStep := 4

example : collectBasicBlocks sampleDetection [0, 0, 1, 0, 0, 0, 2, 0, 1, 1, 2] =
    [⟨100, [0, 0, 1]⟩, ⟨112, [0, 0]⟩, ⟨120, [0]⟩, ⟨124, [2]⟩, ⟨128, [0, 1]⟩, ⟨136, [1]⟩,
      ⟨140, [2]⟩] := by decide +kernel

end Verif
