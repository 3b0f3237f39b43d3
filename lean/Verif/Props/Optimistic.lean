import Verif.Spec.Optimistic
import Verif.Props.Evaluator
import Verif.Proofs.Empirical

/-!
# C66: the optimistic constraints of a superblock
-/

set_option linter.unusedSectionVars false

namespace Verif

section
variable {A V I S : Type} [DecidableEq A] [DecidableEq V] {toValue : ℕ → Option V} {step : ℕ}

theorem exceptBind_ok {ε α β : Type} {x : Except ε α} {f : α → Except ε β} {b : β} :
    (x >>= f) = .ok b ↔ ∃ a, x = .ok a ∧ f a = .ok b := by
  cases x <;> simp [bind, Except.bind]

theorem mem_indexedStartPcs {blocks : List (BasicBlock I)} : ∀ {i : ℕ} {x : ℕ × ℕ},
    x ∈ indexedStartPcs i blocks ↔ ∃ before b after, blocks = before ++ b :: after ∧
      x = (i + (before.flatMap fun b => b.instructions).length, b.startPc) := by
  induction blocks with
  | nil =>
    intro i x
    simp [indexedStartPcs]
  | cons b t ih =>
    intro i x
    rw [indexedStartPcs, List.mem_cons, ih]
    constructor
    · rintro (rfl | ⟨before, b', after, rfl, rfl⟩)
      · exact ⟨[], b, t, rfl, by simp⟩
      · exact ⟨b :: before, b', after, rfl, by simp [Nat.add_assoc]⟩
    · rintro ⟨before, b', after, h, rfl⟩
      cases before with
      | nil =>
        injection h with h1 h2
        exact .inl (by simp [h1])
      | cons c before =>
        injection h with h1 h2
        subst h1
        exact .inr ⟨before, b', after, h2, by simp [Nat.add_assoc]⟩

theorem pcConstraint_ok {x : ℕ × ℕ} {c : OptConstraint A V} :
    pcConstraint toValue x = .ok c ↔ ∃ v, toValue x.2 = some v ∧ c = ⟨.literal ⟨x.1, .pc⟩, .number v⟩ := by
  rw [pcConstraint]
  cases toValue x.2 with
  | none => simp
  | some v => simp [eq_comm]

theorem pcConstraints_mem {blocks : List (BasicBlock I)} {cs : List (OptConstraint A V)}
    (h : superblockPcConstraints toValue blocks = .ok cs) (c : OptConstraint A V) :
    c ∈ cs ↔ ∃ x ∈ indexedStartPcs 0 blocks, ∃ v, toValue x.2 = some v ∧
      c = ⟨.literal ⟨x.1, .pc⟩, .number v⟩ := by
  rw [superblockPcConstraints] at h
  generalize indexedStartPcs 0 blocks = l at h
  induction l generalizing cs with
  | nil => simp [pure, Except.pure] at h; subst h; simp
  | cons x t ih =>
    rw [List.mapM_cons] at h
    obtain ⟨c', hc', h⟩ := exceptBind_ok.1 h
    obtain ⟨cs', hcs', h⟩ := exceptBind_ok.1 h
    cases h
    rw [List.mem_cons, ih hcs']
    obtain ⟨v, hx, rfl⟩ := pcConstraint_ok.1 hc'
    constructor
    · rintro (rfl | ⟨y, hy, w, h1, h2⟩)
      · exact ⟨x, List.mem_cons_self, v, hx, rfl⟩
      · exact ⟨y, List.mem_cons_of_mem _ hy, w, h1, h2⟩
    · rintro ⟨y, hy, w, h1, h2⟩
      rcases List.mem_cons.1 hy with rfl | hy
      · rw [hx] at h1
        cases h1
        exact .inl h2
      · exact .inr ⟨y, hy, w, h1, h2⟩

theorem apcOptimisticConstraints_ok {blocks : List (BasicBlock I)} {oc : OptConstraints A V} :
    apcOptimisticConstraints toValue blocks = .ok oc ↔
      ∃ cs, superblockPcConstraints toValue blocks = .ok cs ∧ oc = .fromConstraints cs := by
  rw [apcOptimisticConstraints, exceptBind_ok]
  refine exists_congr fun cs => and_congr_right fun _ => ?_
  simp [pure, Except.pure, eq_comm]

/-- C66: the generation panics exactly if the start of some block is not a value of the machine. -/
theorem C66_panic (blocks : List (BasicBlock I)) :
    (∃ oc : OptConstraints A V, apcOptimisticConstraints toValue blocks = .ok oc) ↔
      ∀ b ∈ blocks, (toValue b.startPc).isSome := by
  have hpc : ∀ l : List (ℕ × ℕ), (∃ cs : List (OptConstraint A V),
      l.mapM (pcConstraint toValue) = .ok cs) ↔ ∀ x ∈ l, (toValue x.2).isSome := by
    intro l
    induction l with
    | nil => simp [pure, Except.pure]
    | cons x t ih =>
      rw [List.forall_mem_cons, ← ih]
      constructor
      · rintro ⟨cs, h⟩
        rw [List.mapM_cons] at h
        obtain ⟨c', hc', h⟩ := exceptBind_ok.1 h
        obtain ⟨cs', hcs', h⟩ := exceptBind_ok.1 h
        obtain ⟨v, hx, -⟩ := pcConstraint_ok.1 hc'
        exact ⟨by rw [hx]; rfl, cs', hcs'⟩
      · rintro ⟨h, cs', hcs'⟩
        obtain ⟨v, hv⟩ := Option.isSome_iff_exists.1 h
        rw [List.mapM_cons, pcConstraint_ok.2 ⟨v, hv, rfl⟩, hcs']
        exact ⟨_, rfl⟩
  have hmap : ∀ (i : ℕ), (indexedStartPcs i blocks).map Prod.snd = blocks.map BasicBlock.startPc := by
    induction blocks with
    | nil => intro i; rfl
    | cons b t ih => intro i; simp [indexedStartPcs, ih]
  have h2 : (∀ x ∈ indexedStartPcs 0 blocks, (toValue x.2).isSome) ↔
      ∀ b ∈ blocks, (toValue b.startPc).isSome := by
    have := hmap 0
    constructor
    · intro h b hb
      have hb' : b.startPc ∈ (indexedStartPcs 0 blocks).map Prod.snd := by
        rw [this]
        exact List.mem_map.2 ⟨b, hb, rfl⟩
      obtain ⟨x, hx, he⟩ := List.mem_map.1 hb'
      exact he ▸ h x hx
    · intro h x hx
      have hx' : x.2 ∈ blocks.map BasicBlock.startPc := by
        rw [← this]
        exact List.mem_map.2 ⟨x, hx, rfl⟩
      obtain ⟨b, hb, he⟩ := List.mem_map.1 hx'
      exact he ▸ h b hb
  rw [← h2, ← hpc]
  constructor
  · rintro ⟨oc, h⟩
    obtain ⟨cs, hcs, -⟩ := apcOptimisticConstraints_ok.1 h
    exact ⟨cs, hcs⟩
  · rintro ⟨cs, hcs⟩
    exact ⟨_, apcOptimisticConstraints_ok.2 ⟨cs, hcs, rfl⟩⟩

theorem pcConstraints_hold {blocks : List (BasicBlock I)} {cs : List (OptConstraint A V)}
    (h : superblockPcConstraints toValue blocks = .ok cs) (limb : V → ℕ → V)
    (states : List (ExecState A V)) :
    (∀ c ∈ cs, c.Holds limb states) ↔ BlocksEntered toValue blocks states := by
  have hsome : ∀ b ∈ blocks, (toValue b.startPc).isSome := by
    refine (C66_panic (A := A) (V := V) blocks).1 ⟨.fromConstraints cs, ?_⟩
    exact apcOptimisticConstraints_ok.2 ⟨cs, h, rfl⟩
  constructor
  · intro hc before b after hb
    obtain ⟨v, hv⟩ := Option.isSome_iff_exists.1 (hsome b (by rw [hb]; simp))
    have := hc ⟨.literal ⟨_, .pc⟩, .number v⟩ ((pcConstraints_mem h _).2
      ⟨_, mem_indexedStartPcs.2 ⟨before, b, after, hb, rfl⟩, v, hv, rfl⟩)
    obtain ⟨w, h1, h2⟩ := this
    simp only [OptExpr.read, OptLiteral.read, Option.map_eq_some_iff, Option.some.injEq] at h1 h2
    obtain ⟨st, h3, h4⟩ := h1
    refine ⟨st, by simpa using h3, ?_⟩
    rw [hv, h4, h2]
  · intro hb c hc
    obtain ⟨x, hx, v, hv, rfl⟩ := (pcConstraints_mem h c).1 hc
    obtain ⟨before, b, after, h1, rfl⟩ := mem_indexedStartPcs.1 hx
    obtain ⟨st, h2, h3⟩ := hb before b after h1
    refine ⟨v, ?_, rfl⟩
    simp only [OptExpr.read, OptLiteral.read, Nat.zero_add, h2, Option.map_some]
    rw [hv] at h3
    exact h3.symm

theorem pcConstraints_steps {blocks : List (BasicBlock I)} {cs : List (OptConstraint A V)}
    (h : superblockPcConstraints toValue blocks = .ok cs) {c : OptConstraint A V} (hc : c ∈ cs) {i : ℕ}
    (hi : c.MentionsStep i) : i ≤ (superBlockPcs step blocks).length := by
  obtain ⟨x, hx, v, hv, rfl⟩ := (pcConstraints_mem h c).1 hc
  obtain ⟨before, b, after, rfl, rfl⟩ := mem_indexedStartPcs.1 hx
  rcases hi with ⟨l, h1, rfl⟩ | ⟨l, h1, -⟩
  · injection h1 with h1
    subst h1
    simp [superBlockPcs, BasicBlock.pcs, List.length_flatMap]
  · cases h1

/-- C66: the evaluator accepts a run of the block (the states before each instruction and the state
after the last one) exactly if every basic block is entered at its start. -/
theorem C66_entered {blocks : List (BasicBlock I)} {oc : OptConstraints A V}
    (h : apcOptimisticConstraints toValue blocks = .ok oc) (limb : V → ℕ → V)
    (states : List (ExecState A V)) (hs : states.length = (superBlockPcs step blocks).length + 1) :
    (∃ ev, runEvaluator limb oc states .new = .ok (some ev)) ↔ BlocksEntered toValue blocks states := by
  obtain ⟨cs, hcs, rfl⟩ := apcOptimisticConstraints_ok.1 h
  rw [C38_complete limb cs states (by rw [← List.length_pos_iff]; omega), pcConstraints_hold hcs]
  intro c hc i hi
  have := pcConstraints_steps (step := step) hcs hc hi
  omega

/-- The positions of a superblock, block by block. -/
theorem superBlockPcs_getElem {blocks : List (BasicBlock I)} {k pc : ℕ} :
    (superBlockPcs step blocks)[k]? = some pc ↔ ∃ before b after i, blocks = before ++ b :: after ∧
      i < b.instructions.length ∧ k = (before.flatMap fun b => b.instructions).length + i ∧
      pc = b.startPc + i * step := by
  induction blocks generalizing k with
  | nil => simp [superBlockPcs]
  | cons b t ih =>
    have hb : (b.pcs step).length = b.instructions.length := by simp [BasicBlock.pcs]
    rw [superBlockPcs, List.flatMap_cons, List.getElem?_append, hb]
    split
    · rename_i hk
      have hpc : (b.pcs step)[k]? = some (b.startPc + k * step) := by
        simp [BasicBlock.pcs, hk]
      rw [hpc]
      constructor
      · intro h
        cases h
        exact ⟨[], b, t, k, rfl, hk, by simp, rfl⟩
      · rintro ⟨before, b', after, i, h1, h2, h3, rfl⟩
        cases before with
        | nil =>
          injection h1 with h1 h4
          subst h1
          simp at h3
          rw [h3]
        | cons c before =>
          injection h1 with h1 h4
          subst h1
          simp at h3
          omega
    · rename_i hk
      have := ih (k := k - b.instructions.length)
      rw [superBlockPcs] at this
      rw [this]
      constructor
      · rintro ⟨before, b', after, i, rfl, h2, h3, rfl⟩
        refine ⟨b :: before, b', after, i, rfl, h2, ?_, rfl⟩
        rw [List.flatMap_cons, List.length_append]
        clear this ih
        omega
      · rintro ⟨before, b', after, i, h1, h2, h3, rfl⟩
        cases before with
        | nil =>
          injection h1 with h1 h4
          subst h1
          simp at h3
          omega
        | cons c before =>
          injection h1 with h1 h4
          subst h1
          refine ⟨before, b', after, i, h4, h2, ?_, rfl⟩
          rw [List.flatMap_cons, List.length_append] at h3
          omega

/-- If execution goes straight on inside of basic blocks, and all blocks are entered, the instructions
executed are those of the superblock. -/
theorem follows_of_entered {blocks : List (BasicBlock I)} {states : List (ExecState A V)}
    (hs : states.length = (superBlockPcs step blocks).length + 1)
    (hline : StraightLine toValue step blocks states) (h : BlocksEntered toValue blocks states) (k pc : ℕ)
    (hk : (superBlockPcs step blocks)[k]? = some pc) :
    ∃ st, states[k]? = some st ∧ toValue pc = some st.pc := by
  obtain ⟨before, b, after, i, hb, hi, rfl, rfl⟩ := superBlockPcs_getElem.1 hk
  clear hk
  induction i with
  | zero =>
    obtain ⟨st, h1, h2⟩ := h before b after hb
    exact ⟨st, h1, by simpa using h2⟩
  | succ i ih =>
    obtain ⟨st, h1, h2⟩ := ih (by omega)
    have hlt : (before.flatMap fun b => b.instructions).length + (i + 1) < states.length := by
      rw [hs]
      have := superBlockPcs_getElem (step := step).2 ⟨before, b, after, i + 1, hb, hi, rfl, rfl⟩
      have := (List.getElem?_eq_some_iff.1 this).1
      omega
    refine ⟨states[_]'hlt, List.getElem?_eq_getElem hlt, ?_⟩
    exact hline b (by rw [hb]; simp) i hi _ st _ h1 (List.getElem?_eq_getElem hlt) h2

/-- C66: if execution goes straight on inside of basic blocks and no block is empty, then the evaluator
accepts a run exactly if the instructions executed are those of the superblock, in this order. -/
theorem C66_follows {blocks : List (BasicBlock I)} {oc : OptConstraints A V}
    (h : apcOptimisticConstraints toValue blocks = .ok oc) (limb : V → ℕ → V)
    (states : List (ExecState A V)) (hs : states.length = (superBlockPcs step blocks).length + 1)
    (hline : StraightLine toValue step blocks states) (hne : ∀ b ∈ blocks, b.instructions ≠ []) :
    (∃ ev, runEvaluator limb oc states .new = .ok (some ev)) ↔
      ∀ (k pc : ℕ), (superBlockPcs step blocks)[k]? = some pc →
        ∃ st : ExecState A V, states[k]? = some st ∧ toValue pc = some st.pc := by
  rw [C66_entered h limb states hs]
  refine ⟨follows_of_entered hs hline, fun h before b after hb => ?_⟩
  have := superBlockPcs_getElem (step := step).2 ⟨before, b, after, 0, hb,
    List.length_pos_iff.2 (hne b (by rw [hb]; simp)), rfl, rfl⟩
  simpa using h _ _ this

/-- C66: every call of a precompile found while the program runs replaces exactly the instructions of its
superblock: the program counters in the states of the call are those of the superblock, in order. -/
theorem C66_calls {limb : V → ℕ → V} {apcs : List (ExecApc A V)} {blocks : ℕ → List (BasicBlock I)}
    (hb : ∀ (id : ℕ) (apc : ExecApc A V), apcs[id]? = some apc →
      apcOptimisticConstraints toValue (blocks id) = .ok apc.optimisticConstraints ∧
      apc.cycleCount = (superBlockPcs step (blocks id)).length)
    {tr : List (ExecState A V × S)} {x : ExecCandidates A V S} {calls : List (ApcCall S)}
    (h : CandidateHistory limb apcs tr x calls)
    (hline : ∀ id < apcs.length, StraightLine toValue step (blocks id) (tr.map Prod.fst)) :
    ∃ ivs : List (ℕ × ℕ), ivs.Pairwise (fun a b => a.2 ≤ b.1 ∨ b.2 ≤ a.1) ∧
      List.Forall₂ (fun call iv =>
        call.apcId < apcs.length ∧
        iv.2 = iv.1 + (superBlockPcs step (blocks call.apcId)).length ∧
        tr[iv.1]?.map Prod.snd = some call.fromSnap ∧ tr[iv.2]?.map Prod.snd = some call.toSnap ∧
        ∀ k pc, (superBlockPcs step (blocks call.apcId))[k]? = some pc →
          ∃ st, tr[iv.1 + k]?.map Prod.fst = some st ∧ toValue pc = some st.pc) calls ivs := by
  let constraints : ℕ → List (OptConstraint A V) := fun id =>
    match superblockPcConstraints toValue (blocks id) with
    | .ok cs => cs
    | .error _ => []
  have hcs : ∀ (id : ℕ) (apc : ExecApc A V), apcs[id]? = some apc →
      superblockPcConstraints toValue (blocks id) = .ok (constraints id) ∧
      apc.optimisticConstraints = .fromConstraints (constraints id) := by
    intro id apc hap
    obtain ⟨cs, h1, h2⟩ := apcOptimisticConstraints_ok.1 (hb id apc hap).1
    have : constraints id = cs := by simp only [constraints, h1]
    rw [this]
    exact ⟨h1, h2⟩
  obtain ⟨ivs, h1, h2⟩ := C39_history (constraints := constraints)
    (fun id apc hap => (hcs id apc hap).2) h
  refine ⟨ivs, h2, h1.imp ?_⟩
  rintro call iv ⟨⟨apc, hap, hpos, hiv⟩, hfrom, hto, hall⟩
  have hlen := (hb _ apc hap).2
  rw [hlen] at hiv
  have hap' : call.apcId < apcs.length := (List.getElem?_eq_some_iff.1 hap).1
  refine ⟨hap', hiv, hfrom, hto, ?_⟩
  have h2lt : iv.2 < tr.length := by
    cases ht : tr[iv.2]? with
    | none => rw [ht] at hto; cases hto
    | some y => exact (List.getElem?_eq_some_iff.1 ht).1
  set states := ((tr.map Prod.fst).drop iv.1).take (iv.2 - iv.1 + 1) with hstates
  have hs : states.length = (superBlockPcs step (blocks call.apcId)).length + 1 := by
    rw [hstates, List.length_take, List.length_drop, List.length_map]
    omega
  have hget : ∀ k, k < states.length → states[k]? = tr[iv.1 + k]?.map Prod.fst := by
    intro k hk
    rw [hstates, List.getElem?_take, if_pos (by rw [hs] at hk; omega), List.getElem?_drop,
      List.getElem?_map]
  have hline' : StraightLine toValue step (blocks call.apcId) states := by
    intro b hb i hi k st st' h1 h2 h3
    have hk := (List.getElem?_eq_some_iff.1 h2).1
    rw [hget k (by omega), ← List.getElem?_map] at h1
    rw [hget (k + 1) hk, ← List.getElem?_map] at h2
    exact hline _ hap' b hb i hi (iv.1 + k) st st' h1 h2 h3
  have hent : BlocksEntered toValue (blocks call.apcId) states := by
    rw [← pcConstraints_hold (hcs _ apc hap).1 limb]
    refine fun c hc => hall c hc ⟨by omega, fun i hi => ?_⟩
    have := pcConstraints_steps (step := step) (hcs _ apc hap).1 hc hi
    omega
  intro k pc hk
  obtain ⟨st, g1, g2⟩ := follows_of_entered hs hline' hent k pc hk
  refine ⟨st, ?_, g2⟩
  rw [← hget k (List.getElem?_eq_some_iff.1 g1).1]
  exact g1

end

/-- Two blocks: 100, 104 and, after a jump, 200. -/
def samplePcBlocks : List (BasicBlock ℕ) := [⟨100, [0, 1]⟩, ⟨200, [2]⟩]

/-- Values of 32 bits. -/
def samplePcValue (pc : ℕ) : Option ℕ := if pc < 2 ^ 32 then some pc else none

def samplePcApc : ExecApc ℕ ℕ :=
  ⟨.fromConstraints [⟨.literal ⟨0, .pc⟩, .number 100⟩, ⟨.literal ⟨2, .pc⟩, .number 200⟩], 3, 0⟩

theorem samplePc_constraints :
    apcOptimisticConstraints samplePcValue samplePcBlocks = .ok samplePcApc.optimisticConstraints := rfl

def samplePcStates : List (ExecState ℕ ℕ) :=
  [sampleExecState 100 0 0, sampleExecState 104 0 1, sampleExecState 200 0 2, sampleExecState 300 0 3]

theorem samplePc_line (states : List (ExecState ℕ ℕ))
    (h : ∀ (k : ℕ) (st st' : ExecState ℕ ℕ), states[k]? = some st → states[k + 1]? = some st' →
      st.pc = 100 → st'.pc = 104) : StraightLine samplePcValue 4 samplePcBlocks states := by
  intro b hb i hi k st st' h1 h2 h3
  simp only [samplePcBlocks, List.mem_cons, List.not_mem_nil, or_false] at hb
  rcases hb with rfl | rfl
  · obtain rfl : i = 0 := by simp at hi; omega
    simp only [Nat.zero_mul, Nat.add_zero, samplePcValue] at h3 ⊢
    rw [if_pos (by decide)] at h3 ⊢
    injection h3 with h3
    rw [h k st st' h1 h2 h3.symm]
  · simp at hi

/-- The jump is taken: accepted. -/
example : ∃ ev, runEvaluator sampleLimb samplePcApc.optimisticConstraints samplePcStates .new =
    .ok (some ev) := by
  refine (C66_follows (step := 4) samplePc_constraints sampleLimb samplePcStates rfl ?_ (by decide)).2 ?_
  · apply samplePc_line
    intro k st st' h1 h2 h3
    rcases k with _ | _ | _ | _ | k <;> simp [samplePcStates, sampleExecState] at h1 h2 <;>
      subst h1 <;> subst h2 <;> simp_all
  · intro k pc hk
    rcases k with _ | _ | _ | k
    · cases hk; exact ⟨_, rfl, rfl⟩
    · cases hk; exact ⟨_, rfl, rfl⟩
    · cases hk; exact ⟨_, rfl, rfl⟩
    · simp [superBlockPcs, samplePcBlocks, BasicBlock.pcs] at hk

/-- The jump is not taken: rejected. -/
example : ¬ ∃ ev, runEvaluator sampleLimb samplePcApc.optimisticConstraints
    [sampleExecState 100 0 0, sampleExecState 104 0 1, sampleExecState 108 0 2, sampleExecState 112 0 3]
    .new = .ok (some ev) := by
  rw [C66_entered (step := 4) samplePc_constraints sampleLimb _ rfl]
  intro h
  obtain ⟨st, h1, h2⟩ := h [⟨100, [0, 1]⟩] ⟨200, [2]⟩ [] rfl
  cases h1
  cases h2

/-- A start that does not fit. -/
example : ¬ ∃ oc : OptConstraints ℕ ℕ,
    apcOptimisticConstraints samplePcValue [(⟨2 ^ 32, [0]⟩ : BasicBlock ℕ)] = .ok oc := by
  rw [C66_panic]
  simp [samplePcValue]

/-- A history with a call of the superblock. -/
example : ∃ (tr : List (ExecState ℕ ℕ × ℕ)) (x : ExecCandidates ℕ ℕ ℕ) (ivs : List (ℕ × ℕ)),
    CandidateHistory sampleLimb [samplePcApc] tr x [⟨0, 50, 53⟩] ∧ ivs.length = 1 ∧
    ∀ iv ∈ ivs, ∀ (k pc : ℕ), (superBlockPcs 4 samplePcBlocks)[k]? = some pc →
      ∃ st, tr[iv.1 + k]?.map Prod.fst = some st ∧ samplePcValue pc = some st.pc := by
  have h0 := CandidateHistory.start (limb := sampleLimb) (apcs := [samplePcApc])
    (sampleExecState 100 0 0, 50)
  have h1 := h0.insert 0 rfl rfl
  have h2 := h1.step (sampleExecState 104 0 1) 51 rfl (by decide) rfl
  have h3 := h2.step (sampleExecState 200 0 2) 52 rfl (by decide) rfl
  have h4 := h3.step (sampleExecState 300 0 3) 53 rfl (by decide) rfl
  have h5 := h4.extract rfl
  obtain ⟨ivs, -, h7⟩ := C66_calls (toValue := samplePcValue) (step := 4)
    (blocks := fun _ => samplePcBlocks) (by
      intro id apc h
      cases id with
      | zero => cases h; exact ⟨samplePc_constraints, rfl⟩
      | succ n => cases h) h5 (by
      intro id hid
      apply samplePc_line
      intro k st st' h1 h2 h3
      rcases k with _ | _ | _ | _ | k <;> simp [sampleExecState] at h1 h2 <;>
        subst h1 <;> subst h2 <;> simp_all)
  refine ⟨_, _, ivs, h5, by simpa using h7.length_eq.symm, ?_⟩
  intro iv hiv k pc hk
  cases h7 with
  | cons h8 h9 =>
    cases h9
    rw [List.mem_singleton] at hiv
    subst hiv
    exact h8.2.2.2.2 k pc hk

end Verif
