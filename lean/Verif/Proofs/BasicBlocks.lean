import Verif.Spec.Blocks
import Mathlib.Data.List.SplitBy

/-! # Proofs about the detection of basic blocks -/

set_option linter.unusedSectionVars false

namespace Verif

section
variable {β : Type} {r : β → β → Bool}

/-- `m` is the list of longest segments of `l` with related neighbours. -/
structure Segments (r : β → β → Bool) (l : List β) (m : List (List β)) : Prop where
  flatten : m.flatten = l
  nonempty : [] ∉ m
  inside : ∀ s ∈ m, s.IsChain fun x y => r x y
  between : m.IsChain fun a b => ∀ x ∈ a.getLast?, ∀ y ∈ b.head?, r x y = false

theorem Segments.add {l : List β} {m : List (List β)} (h : Segments r l m) {y : β}
    (hy : ∀ x ∈ l.getLast?, r x y = false) : Segments r (l ++ [y]) (m ++ [[y]]) := by
  refine ⟨by simp [h.flatten], by simp [h.nonempty], ?_, ?_⟩
  · intro s hs
    rcases List.mem_append.1 hs with hs | hs
    · exact h.inside s hs
    · rw [List.mem_singleton.1 hs]
      simp
  · rw [List.isChain_append]
    refine ⟨h.between, by simp, ?_⟩
    intro a ha b hb x hx z hz
    simp only [List.head?_cons, Option.mem_def, Option.some.injEq] at hb
    subst hb
    simp only [List.head?_cons, Option.mem_def, Option.some.injEq] at hz
    subst hz
    refine hy x ?_
    obtain ⟨m', rfl⟩ : ∃ m', m = m' ++ [a] := by
      rw [Option.mem_def, List.getLast?_eq_some_iff] at ha
      exact ha
    rw [← h.flatten, List.flatten_append, List.flatten_singleton]
    rw [Option.mem_def, List.getLast?_append, Option.mem_def.1 hx]
    rfl

theorem Segments.extend {l s : List β} {m : List (List β)} (h : Segments r l (m ++ [s])) {y : β}
    (hy : ∀ x ∈ s.getLast?, r x y = true) : Segments r (l ++ [y]) (m ++ [s ++ [y]]) := by
  have hs : s ≠ [] := by
    rintro rfl
    exact h.nonempty (by simp)
  refine ⟨by rw [← h.flatten]; simp, ?_, ?_, ?_⟩
  · have := h.nonempty
    simp only [List.mem_append, List.mem_singleton, not_or] at this ⊢
    exact ⟨this.1, by simp⟩
  · intro t ht
    rcases List.mem_append.1 ht with ht | ht
    · exact h.inside t (List.mem_append_left _ ht)
    · rw [List.mem_singleton.1 ht, List.isChain_append]
      refine ⟨h.inside s (by simp), by simp, ?_⟩
      intro x hx z hz
      simp only [List.head?_cons, Option.mem_def, Option.some.injEq] at hz
      subst hz
      exact hy x hx
  · have := h.between
    rw [List.isChain_append] at this ⊢
    refine ⟨this.1, by simp, ?_⟩
    intro a ha b hb x hx z hz
    simp only [List.head?_cons, Option.mem_def, Option.some.injEq] at hb
    subst hb
    refine this.2.2 a ha s (by simp) x hx z ?_
    rwa [List.head?_append_of_ne_nil _ hs] at hz

theorem Segments.eq_splitBy {l : List β} {m : List (List β)} (h : Segments r l m) :
    m = l.splitBy r := by
  symm
  rw [List.splitBy_eq_iff]
  refine ⟨h.flatten.symm, h.nonempty, h.inside, ?_⟩
  have hne := h.nonempty
  have hb := h.between
  clear h
  induction m with
  | nil => simp
  | cons a t ih =>
    simp only [List.mem_cons, not_or] at hne
    rw [List.isChain_cons] at hb ⊢
    refine ⟨fun b hb' => ?_, ih hne.2 hb.2⟩
    have hb1 : b ≠ [] := fun e => hne.2 (e ▸ List.mem_of_mem_head? hb')
    exact ⟨Ne.symm hne.1, hb1, hb.1 b hb' _ (List.getLast?_eq_some_getLast (Ne.symm hne.1)) _
      (List.head?_eq_some_head hb1)⟩

theorem Segments.at_start : ∀ {m : List (List β)} {l pre post : List β} {y : β}, Segments r l m →
    l = pre ++ y :: post → (∀ x ∈ pre.getLast?, r x y = false) →
    ∃ m₁ s m₂, m = m₁ ++ (y :: s) :: m₂ ∧ m₁.flatten = pre
  | [], l, pre, post, y, h, hl, _ => by
    have := h.flatten
    rw [hl] at this
    simp at this
  | [] :: m, l, pre, post, y, h, hl, hy => absurd (by simp) h.nonempty
  | (a :: as) :: m, l, pre, post, y, h, hl, hy => by
    have hf := h.flatten
    rw [hl, List.flatten_cons] at hf
    by_cases hp : pre = []
    · subst hp
      simp only [List.nil_append, List.cons_append, List.cons.injEq] at hf
      exact ⟨[], as, m, by simp [hf.1], rfl⟩
    · rcases List.append_eq_append_iff.1 hf with ⟨u, h1, h2⟩ | ⟨u, h1, h2⟩
      · have h' : Segments r (u ++ y :: post) m := by
          have hb := h.between
          rw [List.isChain_cons] at hb
          exact ⟨h2, fun hm => h.nonempty (by simp [hm]), fun s hs => h.inside s (by simp [hs]), hb.2⟩
        obtain ⟨m₁, s, m₂, e1, e2⟩ := h'.at_start rfl (by
          intro x hx
          refine hy x ?_
          rw [h1, Option.mem_def, List.getLast?_append, Option.mem_def.1 hx]
          rfl)
        exact ⟨(a :: as) :: m₁, s, m₂, by rw [e1]; rfl, by rw [List.flatten_cons, e2, h1]⟩
      · cases u with
        | nil =>
          rw [List.nil_append] at h2
          have h' : Segments r (y :: post) m := by
            have hb := h.between
            rw [List.isChain_cons] at hb
            exact ⟨h2.symm, fun hm => h.nonempty (by simp [hm]), fun s hs => h.inside s (by simp [hs]),
              hb.2⟩
          obtain ⟨m₁, s, m₂, e1, e2⟩ := h'.at_start (pre := []) rfl (by simp)
          exact ⟨(a :: as) :: m₁, s, m₂, by rw [e1]; rfl, by
            rw [List.flatten_cons, e2, h1, List.append_nil, List.append_nil]⟩
        | cons z u =>
          rw [List.cons_append, List.cons.injEq] at h2
          obtain ⟨rfl, h2⟩ := h2
          have hi := h.inside _ (List.mem_cons_self ..)
          rw [h1, List.isChain_append] at hi
          have hx := List.getLast?_eq_some_getLast hp
          have := hi.2.2 _ hx y (by simp)
          rw [hy _ hx] at this
          cases this

end

section
variable {I : Type} {c : DetectionConfig I}

theorem pcInstructions_append (step : ℕ) (b : BasicBlock I) (x : I) :
    ({ b with instructions := b.instructions ++ [x] } : BasicBlock I).pcInstructions step =
      b.pcInstructions step ++ [(b.startPc + b.instructions.length * step, x)] := by
  simp [BasicBlock.pcInstructions, List.zipIdx_append]

/-- The blocks found so far. -/
def closeBlocks (st : List (BasicBlock I) × BasicBlock I) : List (BasicBlock I) :=
  if !st.2.instructions.isEmpty then st.1 ++ [st.2] else st.1

/-- What the loop maintains after the instructions `pre`. -/
structure CollectInv (c : DetectionConfig I) (pre : List I)
    (st : List (BasicBlock I) × BasicBlock I) : Prop where
  segments : Segments c.sameBlock (c.located pre)
    ((closeBlocks st).map (BasicBlock.pcInstructions c.pcStep))
  next : st.2.startPc + st.2.instructions.length * c.pcStep = c.pc pre.length
  empty : st.2.instructions = [] → ∀ x ∈ (c.located pre).getLast?, ∀ y, c.sameBlock x y = false
  current : ∀ x ∈ st.2.instructions.getLast?, c.isBranching x = false ∧ c.isAllowed x = true

theorem located_append (pre : List I) (x : I) :
    c.located (pre ++ [x]) = c.located pre ++ [(c.pc pre.length, x)] := by
  simp [DetectionConfig.located, DetectionConfig.pc, List.zipIdx_append]

theorem located_last (pre : List I) (x : I) :
    (c.located (pre ++ [x])).getLast? = some (c.pc pre.length, x) := by
  rw [located_append]
  simp

theorem pc_succ (i : ℕ) : c.pc (i + 1) = c.pc i + c.pcStep := by
  simp [DetectionConfig.pc, Nat.add_mul, Nat.add_assoc]

theorem closeBlocks_nil (bs : List (BasicBlock I)) (pc : ℕ) : closeBlocks (bs, ⟨pc, []⟩) = bs := rfl

theorem closeBlocks_append (bs : List (BasicBlock I)) (pc : ℕ) (l : List I) (x : I) :
    closeBlocks (bs, ⟨pc, l ++ [x]⟩) = bs ++ [⟨pc, l ++ [x]⟩] := by
  simp [closeBlocks]

/-- Add the instruction to the current block. -/
theorem CollectInv.push {pre : List I} {bs : List (BasicBlock I)} {curr : BasicBlock I}
    {x : I} (hx : c.isAllowed x = true) (hjump : curr.instructions ≠ [] → c.jumpDest (c.pc pre.length) = false)
    (hseg : Segments c.sameBlock (c.located pre)
      ((closeBlocks (bs, curr)).map (BasicBlock.pcInstructions c.pcStep)))
    (hnext : curr.startPc + curr.instructions.length * c.pcStep = c.pc pre.length)
    (hempty : curr.instructions = [] → ∀ y ∈ (c.located pre).getLast?,
      c.sameBlock y (c.pc pre.length, x) = false)
    (hcurr : ∀ x ∈ curr.instructions.getLast?, c.isBranching x = false ∧ c.isAllowed x = true) :
    Segments c.sameBlock (c.located (pre ++ [x]))
      ((bs ++ [{ curr with instructions := curr.instructions ++ [x] }]).map
        (BasicBlock.pcInstructions c.pcStep)) := by
  rw [located_append, List.map_append, List.map_singleton, pcInstructions_append, hnext]
  by_cases h : curr.instructions = []
  · have e : curr.pcInstructions c.pcStep = [] := by simp [BasicBlock.pcInstructions, h]
    rw [e, List.nil_append]
    refine Segments.add ?_ (hempty h)
    simpa [closeBlocks, h] using hseg
  · refine Segments.extend ?_ ?_
    · have h' : curr.instructions.isEmpty = false := by simpa using h
      simpa [closeBlocks, h'] using hseg
    · intro y hy
      have : ∃ z ∈ curr.instructions.getLast?, y.2 = z := by
        rw [BasicBlock.pcInstructions] at hy
        simp only [Option.mem_def, List.getLast?_map, Option.map_eq_some_iff] at hy ⊢
        obtain ⟨⟨z, k⟩, hz, rfl⟩ := hy
        refine ⟨z, ?_, rfl⟩
        rw [List.getLast?_eq_getElem?, List.getElem?_zipIdx] at hz
        rw [List.getLast?_eq_getElem?]
        simp only [List.length_zipIdx, Option.map_eq_some_iff, Prod.mk.injEq] at hz
        obtain ⟨a, ha, rfl, -⟩ := hz
        exact ha
      obtain ⟨z, hz, hyz⟩ := this
      simp [DetectionConfig.sameBlock, hjump h, hyz, hcurr z hz, hx]

theorem collectStep_forbidden (st : List (BasicBlock I) × BasicBlock I) (i : ℕ) {x : I}
    (h : c.isAllowed x = false) :
    collectStep c st i x = (closeBlocks st ++ [⟨c.pc i, [x]⟩], ⟨c.pc (i + 1), []⟩) := by
  simp [collectStep, closeBlocks, h]

/-- The state after looking at the jump destinations. -/
def openBlock (c : DetectionConfig I) (st : List (BasicBlock I) × BasicBlock I) (i : ℕ) :
    List (BasicBlock I) × BasicBlock I :=
  if c.jumpDest (c.pc i) then (closeBlocks st, ⟨c.pc i, []⟩) else st

theorem collectStep_branch (st : List (BasicBlock I) × BasicBlock I) (i : ℕ) {x : I}
    (h : c.isAllowed x = true) (hb : c.isBranching x = true) :
    collectStep c st i x = ((openBlock c st i).1 ++ [{ (openBlock c st i).2 with
      instructions := (openBlock c st i).2.instructions ++ [x] }], ⟨c.pc (i + 1), []⟩) := by
  by_cases hj : c.jumpDest (c.pc i) <;> simp [collectStep, closeBlocks, openBlock, h, hb, hj]

theorem collectStep_plain (st : List (BasicBlock I) × BasicBlock I) (i : ℕ) {x : I}
    (h : c.isAllowed x = true) (hb : c.isBranching x = false) :
    collectStep c st i x = ((openBlock c st i).1, { (openBlock c st i).2 with
      instructions := (openBlock c st i).2.instructions ++ [x] }) := by
  by_cases hj : c.jumpDest (c.pc i) <;> simp [collectStep, closeBlocks, openBlock, h, hb, hj]

theorem openBlock_push {pre : List I} {st : List (BasicBlock I) × BasicBlock I}
    (h : CollectInv c pre st) {x : I} (hx : c.isAllowed x = true) :
    Segments c.sameBlock (c.located (pre ++ [x]))
      (((openBlock c st pre.length).1 ++ [{ (openBlock c st pre.length).2 with
        instructions := (openBlock c st pre.length).2.instructions ++ [x] }]).map
        (BasicBlock.pcInstructions c.pcStep)) ∧
    (openBlock c st pre.length).2.startPc +
      (openBlock c st pre.length).2.instructions.length * c.pcStep = c.pc pre.length := by
  obtain ⟨bs, curr⟩ := st
  obtain ⟨hseg, hnext, hempty, hcurr⟩ := h
  by_cases hj : c.jumpDest (c.pc pre.length) = true
  · rw [openBlock, if_pos hj]
    exact ⟨CollectInv.push hx (by simp) (by rw [closeBlocks_nil]; exact hseg) (by simp)
      (by intro _ y _; simp [DetectionConfig.sameBlock, hj]) (by simp), by simp⟩
  · rw [openBlock, if_neg hj]
    exact ⟨CollectInv.push hx (fun _ => by simpa using hj) hseg hnext
      (fun he y hy => hempty he y hy _) hcurr, hnext⟩

theorem collectStep_inv {pre : List I} {st : List (BasicBlock I) × BasicBlock I}
    (h : CollectInv c pre st) (x : I) :
    CollectInv c (pre ++ [x]) (collectStep c st pre.length x) := by
  cases ha : c.isAllowed x with
  | false =>
    rw [collectStep_forbidden st _ ha]
    refine ⟨?_, by simp, ?_, by simp⟩
    · rw [closeBlocks_nil, List.map_append, located_append]
      have e2 : ([⟨c.pc pre.length, [x]⟩] : List (BasicBlock I)).map
          (BasicBlock.pcInstructions c.pcStep) = [[(c.pc pre.length, x)]] := by
        simp [BasicBlock.pcInstructions]
      rw [e2]
      refine h.segments.add ?_
      intro y _
      simp [DetectionConfig.sameBlock, ha]
    · intro _ y hy z
      rw [located_last] at hy
      cases hy
      simp [DetectionConfig.sameBlock, ha]
  | true =>
    obtain ⟨hp, hn⟩ := openBlock_push h ha
    cases hb : c.isBranching x with
    | true =>
      rw [collectStep_branch st _ ha hb]
      refine ⟨?_, by simp, ?_, by simp⟩
      · rw [closeBlocks_nil]
        exact hp
      · intro _ y hy z
        rw [located_last] at hy
        cases hy
        simp [DetectionConfig.sameBlock, hb]
    | false =>
      rw [collectStep_plain st _ ha hb]
      refine ⟨?_, ?_, by simp, ?_⟩
      · rw [closeBlocks_append]
        exact hp
      · simp only [List.length_append, List.length_singleton, pc_succ, ← hn]
        rw [Nat.add_mul, Nat.one_mul, Nat.add_assoc]
      · intro y hy
        simp at hy
        subst hy
        exact ⟨hb, ha⟩

theorem collectLoop_inv : ∀ {post pre : List I} {st : List (BasicBlock I) × BasicBlock I},
    CollectInv c pre st → CollectInv c (pre ++ post) (collectLoop c post pre.length st)
  | [], pre, st, h => by simpa [collectLoop] using h
  | x :: t, pre, st, h => by
    have := collectLoop_inv (post := t) (collectStep_inv h x)
    rw [List.append_assoc, List.singleton_append, List.length_append, List.length_singleton] at this
    exact this

theorem collectBasicBlocks_segments (program : List I) :
    Segments c.sameBlock (c.located program)
      ((collectBasicBlocks c program).map (BasicBlock.pcInstructions c.pcStep)) := by
  have := (collectLoop_inv (c := c) (post := program) (pre := []) (st := ([], ⟨c.pc 0, []⟩))
    ⟨⟨rfl, by simp [closeBlocks], by simp [closeBlocks], by simp [closeBlocks]⟩, by simp,
      by simp [DetectionConfig.located], by simp⟩).segments
  exact this

theorem located_length (program : List I) : (c.located program).length = program.length := by
  simp [DetectionConfig.located]

theorem located_getElem {program : List I} {i : ℕ} (hi : i < program.length) :
    (c.located program)[i]'(by rw [located_length]; exact hi) = (c.pc i, program[i]) := by
  simp [DetectionConfig.located, DetectionConfig.pc]

/-- A block starts at `i` if the previous instruction is not in the same block. -/
theorem block_at {program : List I} {i : ℕ} (hi : i < program.length)
    (hs : ∀ x ∈ (c.located program)[i - 1]?, 0 < i → c.sameBlock x (c.pc i, program[i]) = false) :
    ∃ bs₁ b bs₂, collectBasicBlocks c program = bs₁ ++ b :: bs₂ ∧
      bs₁.flatMap (BasicBlock.pcInstructions c.pcStep) = (c.located program).take i ∧
      b.startPc = c.pc i ∧ b.instructions.head? = some program[i] := by
  have hseg := collectBasicBlocks_segments (c := c) program
  have hlen : i < (c.located program).length := by rw [located_length]; exact hi
  have hl : c.located program = (c.located program).take i ++ (c.pc i, program[i]) ::
      (c.located program).drop (i + 1) := by
    rw [← located_getElem hi, List.getElem_cons_drop, List.take_append_drop]
  obtain ⟨m₁, s, m₂, h1, h2⟩ := hseg.at_start hl (by
    intro x hx
    rcases Nat.eq_zero_or_pos i with rfl | h0
    · simp at hx
    · refine hs x ?_ h0
      rw [List.getLast?_eq_getElem?, List.length_take, Nat.min_eq_left hlen.le,
        List.getElem?_take] at hx
      rw [if_pos (by omega)] at hx
      exact hx)
  obtain ⟨bs₁, bs₂', e1, e2, e3⟩ := List.map_eq_append_iff.1 h1
  obtain ⟨b, bs₂, e4, e5, e6⟩ := List.map_eq_cons_iff.1 e3
  subst e4
  refine ⟨bs₁, b, bs₂, e1, by rw [List.flatMap_def, e2, h2], ?_⟩
  cases hb : b.instructions with
  | nil =>
    rw [BasicBlock.pcInstructions, hb] at e5
    simp at e5
  | cons z t =>
    rw [BasicBlock.pcInstructions, hb] at e5
    simp only [List.zipIdx_cons, List.map_cons, Nat.zero_mul, Nat.add_zero, List.cons.injEq,
      Prod.mk.injEq] at e5
    exact ⟨e5.1.1, by simp [e5.1.2]⟩

end

end Verif
