import Verif.Spec.Interpret
import Verif.Props.Optimistic

/-! # Interpretation of a precompile -/

set_option linter.unusedSectionVars false

namespace Verif

section
variable {I E X : Type} {vm : VmInterpreter I E X} {u : Unimplemented} {running : X → Bool}

theorem prepareInstruction_ok {x : ℕ × I} {h : X → Option X} :
    prepareInstruction vm x = .ok h ↔ vm.Prepares (pcU32 x.1) x.2 h := by
  rw [prepareInstruction, VmInterpreter.Prepares]
  cases vm.getExecutor (vm.opcode x.2) with
  | none => simp
  | some e => simp

theorem prepares_unique {pc : ℕ} {i : I} {h h' : X → Option X} (a : vm.Prepares pc i h) (b : vm.Prepares pc i h') :
    h = h' := by
  obtain ⟨e, h1, h2⟩ := a
  obtain ⟨e', h3, h4⟩ := b
  rw [h1] at h3
  cases h3
  rw [h2] at h4
  cases h4
  rfl

theorem interpretInstructions_iff {oc : OptConstraints Unit ℕ} {hs : List (X → Option X)} : ∀ {ev : OptEvaluator Unit ℕ}
    {x y : X}, interpretInstructions vm u oc hs ev x = some y ↔ ∃ ys, HandlerRun hs x ys ∧ (x :: ys).getLast? = some y ∧
      ∃ ev', runEvaluator u.limb oc (ys.map (vm.execState u)) ev = .ok (some ev') := by
  induction hs with
  | nil =>
    intro ev x y
    constructor
    · intro h
      exact ⟨[], .nil x, h, ev, rfl⟩
    · rintro ⟨ys, h, h2, -⟩
      cases h
      exact h2
  | cons h t ih =>
    intro ev x y
    rw [interpretInstructions]
    simp only [bind, Option.bind_eq_some_iff]
    constructor
    · rintro ⟨z, h1, ev', h2, h3⟩
      obtain ⟨ys, h4, h5, ev'', h6⟩ := ih.1 h3
      refine ⟨z :: ys, .cons h1 h4, by rw [List.getLast?_cons_cons]; exact h5, ev'', ?_⟩
      rw [assertNextStep] at h2
      rw [List.map_cons, runEvaluator]
      cases hn : ev.tryNext u.limb (vm.execState u z) oc with
      | error e => rw [hn] at h2; cases h2
      | ok r =>
        rw [hn] at h2
        cases r with
        | none => cases h2
        | some ev1 =>
          cases h2
          exact h6
    · rintro ⟨ys, h1, h2, ev', h3⟩
      cases h1 with
      | cons call rest =>
        rename_i z zs
        rw [List.map_cons, runEvaluator] at h3
        obtain ⟨r, hn, h3⟩ := exceptBind_ok.1 h3
        cases r with
        | none => cases h3
        | some ev1 =>
          refine ⟨z, call, ev1, by rw [assertNextStep, hn], ih.2 ⟨zs, rest, ?_, ev', h3⟩⟩
          rw [List.getLast?_cons_cons] at h2
          exact h2

theorem executeApc_iff {pre : ApcPreCompute X} {x y : X} : executeApc vm u pre x = some y ↔
    ∃ ys, HandlerRun pre.originalInstructions x ys ∧ (x :: ys).getLast? = some y ∧
      ∃ ev', runEvaluator u.limb pre.optimisticConstraints ((x :: ys).map (vm.execState u)) .new = .ok (some ev') := by
  rw [executeApc]
  simp only [bind, Option.bind_eq_some_iff]
  constructor
  · rintro ⟨ev, h1, h2⟩
    obtain ⟨ys, h3, h4, ev', h5⟩ := interpretInstructions_iff.1 h2
    refine ⟨ys, h3, h4, ev', ?_⟩
    rw [assertNextStep] at h1
    rw [List.map_cons, runEvaluator]
    cases hn : OptEvaluator.new.tryNext u.limb (vm.execState u x) pre.optimisticConstraints with
    | error e => rw [hn] at h1; cases h1
    | ok r =>
      rw [hn] at h1
      cases r with
      | none => cases h1
      | some ev1 =>
        cases h1
        exact h5
  · rintro ⟨ys, h1, h2, ev', h3⟩
    rw [List.map_cons, runEvaluator] at h3
    obtain ⟨r, hn, h3⟩ := exceptBind_ok.1 h3
    cases r with
    | none => cases h3
    | some ev1 => exact ⟨ev1, by rw [assertNextStep, hn], interpretInstructions_iff.2 ⟨ys, h1, h2, ev', h3⟩⟩

theorem handlerRun_length {hs : List (X → Option X)} {x : X} {ys : List X} (h : HandlerRun hs x ys) :
    ys.length = hs.length := by
  induction h with
  | nil => rfl
  | cons _ _ ih => simp [ih]

theorem handlerRun_step {hs : List (X → Option X)} {x : X} {ys : List X} (h : HandlerRun hs x ys) {k : ℕ}
    {f : X → Option X} (hk : hs[k]? = some f) : ∃ a b, (x :: ys)[k]? = some a ∧ (x :: ys)[k + 1]? = some b ∧
      f a = some b := by
  induction h generalizing k with
  | nil => simp at hk
  | cons call rest ih =>
    cases k with
    | zero =>
      simp at hk
      subst hk
      exact ⟨_, _, rfl, rfl, call⟩
    | succ k =>
      obtain ⟨a, b, h1, h2, h3⟩ := ih (by simpa using hk)
      exact ⟨a, b, by simpa using h1, by simpa using h2, h3⟩

theorem handlerRun_fold {hs : List (X → Option X)} : ∀ {x y : X},
    (∃ ys, HandlerRun hs x ys ∧ (x :: ys).getLast? = some y) ↔ hs.foldlM (fun x h => h x) x = some y := by
  induction hs with
  | nil =>
    intro x y
    constructor
    · rintro ⟨ys, h, h2⟩
      cases h
      exact h2
    · intro h
      exact ⟨[], .nil x, h⟩
  | cons f t ih =>
    intro x y
    simp only [List.foldlM_cons, bind, Option.bind_eq_some_iff]
    constructor
    · rintro ⟨ys, h, h2⟩
      cases h with
      | cons call rest =>
        rename_i z zs
        rw [List.getLast?_cons_cons] at h2
        exact ⟨z, call, ih.1 ⟨zs, rest, h2⟩⟩
    · rintro ⟨z, call, h⟩
      obtain ⟨zs, rest, h2⟩ := ih.2 h
      exact ⟨z :: zs, .cons call rest, by rw [List.getLast?_cons_cons]; exact h2⟩

/-- The instructions of a superblock with their positions. -/
theorem superBlockInstructions_fst (step : ℕ) (blocks : List (BasicBlock I)) :
    (superBlockInstructions step blocks).map Prod.fst = superBlockPcs step blocks := by
  rw [superBlockInstructions, superBlockPcs, List.map_flatMap]
  congr 1
  funext b
  rw [BasicBlock.pcInstructions, BasicBlock.pcs, List.map_map, List.range_eq_range']
  rw [← List.zipIdx_map_snd 0 b.instructions, List.map_map]
  rfl

theorem superBlockInstructions_snd (step : ℕ) (blocks : List (BasicBlock I)) :
    (superBlockInstructions step blocks).map Prod.snd = blocks.flatMap fun b => b.instructions := by
  rw [superBlockInstructions, List.map_flatMap]
  congr 1
  funext b
  rw [BasicBlock.pcInstructions, List.map_map]
  exact List.zipIdx_map_fst 0 b.instructions

theorem mem_superBlockInstructions {step : ℕ} {blocks : List (BasicBlock I)} {x : ℕ × I} :
    x ∈ superBlockInstructions step blocks ↔ ∃ b ∈ blocks, ∃ j, b.instructions[j]? = some x.2 ∧
      x.1 = b.startPc + j * step := by
  simp only [superBlockInstructions, List.mem_flatMap, BasicBlock.pcInstructions, List.mem_map]
  refine exists_congr fun b => and_congr_right fun _ => ?_
  constructor
  · rintro ⟨⟨i, j⟩, h, rfl⟩
    exact ⟨j, List.mem_zipIdx_iff_getElem?.1 h, rfl⟩
  · rintro ⟨j, h1, h2⟩
    exact ⟨(x.2, j), List.mem_zipIdx_iff_getElem?.2 h1, by rw [← h2]⟩

/-- Instruction `j` of a block has its place in the superblock. -/
theorem superBlockInstructions_at (step : ℕ) {before : List (BasicBlock I)} {b : BasicBlock I}
    {after : List (BasicBlock I)} {j : ℕ} {i : I} (hj : b.instructions[j]? = some i) :
    (superBlockInstructions step (before ++ b :: after))[(before.flatMap fun b => b.instructions).length + j]? =
      some (b.startPc + j * step, i) := by
  have hlen : (superBlockInstructions step before).length = (before.flatMap fun b => b.instructions).length := by
    rw [← superBlockInstructions_snd step before, List.length_map]
  have hsplit : superBlockInstructions step (before ++ b :: after) =
      superBlockInstructions step before ++ (b.pcInstructions step ++ superBlockInstructions step after) := by
    simp [superBlockInstructions]
  have hlt := (List.getElem?_eq_some_iff.1 hj).1
  have hl : (b.pcInstructions step).length = b.instructions.length := by simp [BasicBlock.pcInstructions]
  rw [hsplit, ← hlen, List.getElem?_append_right (by omega), Nat.add_sub_cancel_left,
    List.getElem?_append_left (by omega), BasicBlock.pcInstructions, List.getElem?_map, List.getElem?_zipIdx, hj]
  simp

end

end Verif
