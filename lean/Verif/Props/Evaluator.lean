import Verif.Proofs.Candidates

/-! # Properties of the evaluation of optimistic constraints and of the tracker of candidates -/

set_option linter.unusedSectionVars false

namespace Verif

section
variable {A V S : Type} [DecidableEq A] [DecidableEq V]

/-- **C38.** Stepping the evaluator over the states of an execution never panics: in particular, a value of an
earlier step is always in its memory when it is needed. It succeeds exactly if every constraint that only refers
to these states holds, when read directly off the states. -/
theorem C38_run (limb : V → ℕ → V) (cs : List (OptConstraint A V)) (states : List (ExecState A V)) :
    (AllHold limb cs states ∧ ∃ ev, runEvaluator limb (.fromConstraints cs) states .new = .ok (some ev) ∧
      ev.instructionIndex = states.length) ∨
    (¬ AllHold limb cs states ∧ runEvaluator limb (.fromConstraints cs) states .new = .ok none) := by
  rcases runEvaluator_ok states [] (evalInv_new limb cs) with ⟨h1, ev, h2, h3⟩ | ⟨h1, h2⟩
  · exact .inl ⟨h1, ev, h2, h3.index⟩
  · exact .inr ⟨h1, h2⟩

/-- For a complete run the evaluator succeeds exactly if all constraints hold. -/
theorem C38_complete (limb : V → ℕ → V) (cs : List (OptConstraint A V)) (states : List (ExecState A V))
    (hne : states ≠ []) (hcs : ∀ c ∈ cs, ∀ i, c.MentionsStep i → i < states.length) :
    (∃ ev, runEvaluator limb (.fromConstraints cs) states .new = .ok (some ev)) ↔
      ∀ c ∈ cs, c.Holds limb states := by
  have hall : AllHold limb cs states ↔ ∀ c ∈ cs, c.Holds limb states :=
    ⟨fun h c hc => h c hc ⟨List.length_pos_iff.2 hne, hcs c hc⟩, fun h c hc _ => h c hc⟩
  rw [← hall]
  rcases C38_run limb cs states with ⟨h1, ev, h2, -⟩ | ⟨h1, h2⟩
  · exact ⟨fun _ => h1, fun _ => ⟨ev, h2⟩⟩
  · refine ⟨?_, fun h => absurd h h1⟩
    rintro ⟨ev, hev⟩
    rw [h2] at hev
    cases hev

/-- A failure is detected in the first state in which it can be known: the step succeeds in all states before
and fails in this one. -/
theorem C38_earliest (limb : V → ℕ → V) (cs : List (OptConstraint A V)) (states : List (ExecState A V))
    (st : ExecState A V) (h1 : AllHold limb cs states) (h2 : ¬ AllHold limb cs (states ++ [st])) :
    ∃ ev, runEvaluator limb (.fromConstraints cs) states .new = .ok (some ev) ∧
      ev.tryNext limb st (.fromConstraints cs) = .ok none := by
  rcases runEvaluator_ok states [] (evalInv_new limb cs) with ⟨_, ev, e2, e3⟩ | ⟨e1, _⟩
  · refine ⟨ev, e2, ?_⟩
    rw [List.nil_append] at e3
    rcases tryNext_ok e3 st with ⟨k1, -⟩ | ⟨-, k2⟩
    · exact absurd k1 h2
    · exact k2
  · exact absurd h1 e1

/-- **C39.** In every history of states, insertions, aborts and extractions, the calls extracted so far are runs
of their blocks: each has a place in the trace of as many steps as the block has cycles, its snapshots are those
of the two ends, and all optimistic constraints of the block hold there. The places of two calls never
overlap, even of calls extracted at different times. -/
theorem C39_history {limb : V → ℕ → V} {apcs : List (ExecApc A V)}
    {constraints : ℕ → List (OptConstraint A V)} (hb : BuiltFrom apcs constraints)
    {tr : List (ExecState A V × S)} {x : ExecCandidates A V S} {calls : List (ApcCall S)}
    (h : CandidateHistory limb apcs tr x calls) :
    ∃ ivs, List.Forall₂ (IsRun limb apcs constraints tr) calls ivs ∧
      ivs.Pairwise fun a b => a.2 ≤ b.1 ∨ b.2 ≤ a.1 := by
  obtain ⟨b, ivs, -, h2, h3, -⟩ := (histInv hb h).rest
  exact ⟨ivs, h2, h3⟩

/-- No operation panics: the next state, the insertion of a known block and the extraction always have a
result. -/
theorem C39_no_panic {limb : V → ℕ → V} {apcs : List (ExecApc A V)}
    {constraints : ℕ → List (OptConstraint A V)} (hb : BuiltFrom apcs constraints)
    {tr : List (ExecState A V × S)} {x : ExecCandidates A V S} {calls : List (ApcCall S)}
    (h : CandidateHistory limb apcs tr x calls) {cur : ExecState A V × S} (hcur : tr.getLast? = some cur) :
    (∀ st snap, cur.1.clk < st.clk → ∃ x', x.checkConditions limb st snap = .ok x') ∧
    (∀ id < apcs.length, ∃ r, x.tryInsert limb cur.1 id cur.2 = .ok r) ∧
    (∃ r, x.extractCalls = .ok r) ∧
    ((∀ c ∈ x.candidates, c.isInProgress = false) → x.AllFinished) := by
  have hi := histInv hb h
  refine ⟨fun st snap hclk => ?_, fun id hid => ?_, ?_, ?_⟩
  · obtain ⟨x', h1, -⟩ := histInv_step hb hi hcur hclk snap
    exact ⟨x', h1⟩
  · rcases histInv_insert hb hi hcur hid with ⟨-, x', h1, -⟩ | ⟨-, h1⟩
    · exact ⟨_, h1⟩
    · exact ⟨_, h1⟩
  · obtain ⟨x', new, h1, -⟩ := histInv_extract hi
    exact ⟨_, h1⟩
  · intro hf
    obtain ⟨x', new, -, -, h3⟩ := histInv_extract hi
    refine h3 ?_
    rw [List.any_eq_false]
    intro c hc
    rw [hf c hc]
    simp

/-- Nothing is returned, and nothing changes, while a candidate is in progress. -/
theorem C39_waits {x : ExecCandidates A V S} {c : ExecCandidate A V S} {ev : OptEvaluator A V}
    (hc : c ∈ x.candidates) (hs : c.status = .inProgress ev) : x.extractCalls = .ok (x, []) := by
  rw [ExecCandidates.extractCalls, if_pos]
  rw [List.any_eq_true]
  exact ⟨c, hc, by rw [ExecCandidate.isInProgress, hs]⟩

theorem preferred_asymm {x : ExecCandidates A V S} {i j : ℕ} (h : x.Preferred i j) : ¬ x.Preferred j i := by
  rintro ⟨id, lo, hi, a, b, id', lo', hi', a', b', ⟨t1, f1⟩, ⟨t2, f2⟩, p, p', g1, g2, g3⟩
  obtain ⟨_, _, _, _, _, _, _, _, _, _, ⟨t3, f3⟩, ⟨t4, f4⟩, q, q', k1, k2, k3⟩ := h
  rw [f2] at f3
  rw [f1] at f4
  cases f3
  cases f4
  rw [g2] at k1
  rw [g1] at k2
  cases k1
  cases k2
  omega

/-- When all candidates are finished, they are all taken out. The calls returned are those of some of them, in
order. No two of these overlap. A candidate that is not returned overlaps one that is preferred to it: by
priority, then by length, then by the time of insertion. So a candidate that is preferred to all that it
overlaps is returned. -/
theorem C39_extract {x : ExecCandidates A V S} (h : x.AllFinished) :
    ∃ calls keep, x.extractCalls = .ok (⟨x.apcs, []⟩, calls) ∧ x.CallsOf keep calls ∧
      keep.Pairwise (· < ·) ∧ (∀ i ∈ keep, ∀ j ∈ keep, i ≠ j → ¬ x.Overlap i j) ∧
      (∀ i < x.candidates.length, i ∉ keep → ∃ j, x.Overlap j i ∧ x.Preferred j i) ∧
      ∀ i < x.candidates.length, (∀ j, j ≠ i → x.Overlap j i → x.Preferred i j) → i ∈ keep := by
  obtain ⟨calls, keep, h1, h2, h3, h4, h5⟩ := extractCalls_ok h
  refine ⟨calls, keep, h1, h2, h3, h4, h5, fun i hi hp => ?_⟩
  by_contra hk
  obtain ⟨j, ho, hj⟩ := h5 i hi hk
  by_cases hji : j = i
  · subst hji
    exact preferred_asymm hj hj
  · exact preferred_asymm (hp j hji ho) hj

/-- Aborting removes exactly the candidates in progress and returns their blocks. Then the extraction is not
held up: all candidates are taken out. -/
theorem C39_abort {limb : V → ℕ → V} {apcs : List (ExecApc A V)}
    {constraints : ℕ → List (OptConstraint A V)} (hb : BuiltFrom apcs constraints)
    {tr : List (ExecState A V × S)} {x : ExecCandidates A V S} {calls : List (ApcCall S)}
    (h : CandidateHistory limb apcs tr x calls) :
    (∀ c, c ∈ x.abortInProgress.1.candidates ↔ c ∈ x.candidates ∧ ∃ hi s, c.status = .done hi s) ∧
    (∀ id, id ∈ x.abortInProgress.2 ↔ ∃ c ∈ x.candidates, c.apcId = id ∧ ∃ ev, c.status = .inProgress ev) ∧
    ∃ new, x.abortInProgress.1.extractCalls = .ok (⟨x.apcs, []⟩, new) := by
  have hip : ∀ c : ExecCandidate A V S, c.isInProgress = true ↔ ∃ ev, c.status = .inProgress ev := by
    intro c
    rw [ExecCandidate.isInProgress]
    cases c.status <;> simp
  have hdn : ∀ c : ExecCandidate A V S, (!c.isInProgress) = true ↔ ∃ hi s, c.status = .done hi s := by
    intro c
    rw [ExecCandidate.isInProgress]
    cases c.status <;> simp
  refine ⟨fun c => ?_, fun id => ?_, ?_⟩
  · simp only [ExecCandidates.abortInProgress, List.mem_filter, hdn]
  · simp only [ExecCandidates.abortInProgress, List.mem_map, List.mem_filter, hip]
    constructor
    · rintro ⟨c, ⟨h1, h2⟩, h3⟩
      exact ⟨c, h1, h3, h2⟩
    · rintro ⟨c, h1, h3, h2⟩
      exact ⟨c, ⟨h1, h2⟩, h3⟩
  · have hi := histInv hb (CandidateHistory.abort h)
    obtain ⟨x', new, -, -, h3⟩ := histInv_extract hi
    obtain ⟨new', keep, e, -⟩ := extractCalls_ok (h3 (by
      rw [List.any_eq_false]
      intro c hc
      have := (List.mem_filter.1 hc).2
      simpa using this))
    exact ⟨new', e⟩

/-- A block is only inserted if the constraints on the first state hold. From then on, after as many states as
it has cycles, the candidate is finished, with the last state, if all constraints hold in these states, and
dropped otherwise. It does not influence the other candidates. -/
theorem C39_confirmed {limb : V → ℕ → V} {x : ExecCandidates A V S} {id : ℕ} {apc : ExecApc A V}
    {cs : List (OptConstraint A V)} (hap : x.apcs[id]? = some apc)
    (hcs : apc.optimisticConstraints = .fromConstraints cs) (st0 : ExecState A V) (s0 : S) :
    (¬ AllHold limb cs [st0] → x.tryInsert limb st0 id s0 = .ok none) ∧
    (AllHold limb cs [st0] → ∃ x', x.tryInsert limb st0 id s0 = .ok (some x') ∧
      ∀ (sts : List (ExecState A V × S)) (stL : ExecState A V) (sL : S) (y : ExecCandidates A V S),
        sts.length + 1 = apc.cycleCount → runChecks limb (sts ++ [(stL, sL)]) x = .ok y →
        (AllHold limb cs (st0 :: sts.map Prod.fst ++ [stL]) → runChecks limb (sts ++ [(stL, sL)]) x' =
          .ok ⟨x.apcs, y.candidates ++ [⟨apc.cycleCount + 1, id, st0.clk, s0, .done stL.clk sL⟩]⟩) ∧
        (¬ AllHold limb cs (st0 :: sts.map Prod.fst ++ [stL]) →
          runChecks limb (sts ++ [(stL, sL)]) x' = .ok ⟨x.apcs, y.candidates⟩)) := by
  rcases tryNext_ok (evalInv_new limb cs) st0 with ⟨k1, ev, k2, k3⟩ | ⟨k1, k2⟩
  · refine ⟨fun h => absurd k1 h, fun _ => ⟨⟨x.apcs, x.candidates ++
      [⟨apc.cycleCount + 1, id, st0.clk, s0, .inProgress ev⟩]⟩, ?_, ?_⟩⟩
    · rw [ExecCandidates.tryInsert, hap]
      simp only
      rw [hcs, k2]
      rfl
    · intro sts stL sL y hl hy
      have hs := runChecks_single hap hcs (clk := st0.clk) (s0 := s0) stL sL sts [st0] ev k3
        (by simp; omega)
      rcases hs with ⟨a1, a2⟩ | ⟨a1, a2⟩
      · refine ⟨fun _ => runChecks_append _ hy a2, fun h => absurd a1 h⟩
      · refine ⟨fun h => absurd h a1, fun _ => ?_⟩
        have := runChecks_append _ hy a2
        simpa using this
  · refine ⟨fun _ => ?_, fun h => absurd h k1⟩
    rw [ExecCandidates.tryInsert, hap]
    simp only
    rw [hcs, k2]
    rfl

end

/-! ## Examples -/

/-- Limbs of eight bits. -/
def sampleLimb (v i : ℕ) : ℕ := v / 256 ^ i % 256

/-- States with one register that is increased by the program counter. -/
def sampleExecState (pc reg clk : ℕ) : ExecState ℕ ℕ := ⟨pc, fun _ => reg, clk⟩

/-- The low limb of register 5 before the block is its low limb after two steps; the program counter after the
first step is 4. -/
def sampleOptConstraints : List (OptConstraint ℕ ℕ) :=
  [⟨.literal ⟨0, .registerLimb 5 0⟩, .literal ⟨2, .registerLimb 5 0⟩⟩, ⟨.literal ⟨1, .pc⟩, .number 4⟩]

def sampleGoodStates : List (ExecState ℕ ℕ) :=
  [sampleExecState 0 258 0, sampleExecState 4 7 1, sampleExecState 8 514 2]

def sampleBadStates : List (ExecState ℕ ℕ) :=
  [sampleExecState 0 258 0, sampleExecState 4 7 1, sampleExecState 8 515 2]

example : ∃ ev, runEvaluator sampleLimb (.fromConstraints sampleOptConstraints) sampleGoodStates .new =
    .ok (some ev) := by
  refine (C38_complete sampleLimb sampleOptConstraints sampleGoodStates (by simp [sampleGoodStates]) ?_).2 ?_
  · intro c hc i hi
    simp only [sampleOptConstraints, List.mem_cons, List.not_mem_nil, or_false] at hc
    rcases hc with rfl | rfl <;> rcases hi with ⟨l, h1, h2⟩ | ⟨l, h1, h2⟩ <;> cases h1 <;> subst h2 <;> decide
  · intro c hc
    simp only [sampleOptConstraints, List.mem_cons, List.not_mem_nil, or_false] at hc
    rcases hc with rfl | rfl
    · exact ⟨2, rfl, rfl⟩
    · exact ⟨4, rfl, rfl⟩

/-- The failure is found in the last state. -/
example : ∃ ev, runEvaluator sampleLimb (.fromConstraints sampleOptConstraints) (sampleBadStates.take 2) .new =
    .ok (some ev) ∧ ev.tryNext sampleLimb (sampleExecState 8 515 2) (.fromConstraints sampleOptConstraints) =
      .ok none := by
  refine C38_earliest sampleLimb sampleOptConstraints _ _ ?_ ?_
  · intro c hc hk
    simp only [sampleOptConstraints, List.mem_cons, List.not_mem_nil, or_false] at hc
    rcases hc with rfl | rfl
    · have := hk.2 2 (.inr ⟨_, rfl, rfl⟩)
      exact absurd this (by decide)
    · exact ⟨4, rfl, rfl⟩
  · intro h
    obtain ⟨v, h1, h2⟩ := h ⟨.literal ⟨0, .registerLimb 5 0⟩, .literal ⟨2, .registerLimb 5 0⟩⟩
      (by simp [sampleOptConstraints]) ⟨by decide, by
        intro i hi
        rcases hi with ⟨l, h1, h2⟩ | ⟨l, h1, h2⟩ <;> cases h1 <;> subst h2 <;> decide⟩
    cases h1
    cases h2

/-- Three blocks: `0` of 2 cycles and low priority, `1` of 3 cycles, `2` of 2 cycles and high priority. -/
def sampleExecApcs : List (ExecApc ℕ ℕ) :=
  [⟨.fromConstraints [], 2, 0⟩, ⟨.fromConstraints [], 3, 1⟩, ⟨.fromConstraints [], 2, 2⟩]

/-- The candidates: cycles 0 to 2, 1 to 4 and 3 to 5. -/
def sampleChain : ExecCandidates ℕ ℕ ℕ :=
  ⟨sampleExecApcs, [⟨3, 0, 0, 0, .done 2 2⟩, ⟨4, 1, 1, 1, .done 4 4⟩, ⟨3, 2, 3, 3, .done 5 5⟩]⟩

/-- The choice is not maximal: candidate 0 is discarded because of candidate 1, which is discarded because of
candidate 2. Only candidate 2 is returned, although candidate 0 does not overlap it. -/
theorem C39_not_maximal : sampleChain.AllFinished ∧
    sampleChain.extractCalls = .ok (⟨sampleExecApcs, []⟩, [⟨2, 3, 5⟩]) ∧ ¬ sampleChain.Overlap 0 2 := by
  refine ⟨?_, rfl, ?_⟩
  · intro c hc
    simp only [sampleChain, List.mem_cons, List.not_mem_nil, or_false] at hc
    rcases hc with rfl | rfl | rfl
    · exact ⟨2, 2, _, rfl, rfl, by decide⟩
    · exact ⟨4, 4, _, rfl, rfl, by decide⟩
    · exact ⟨5, 5, _, rfl, rfl, by decide⟩
  · rintro ⟨id, lo, hi, a, b, id', lo', hi', a', b', ⟨t1, f1⟩, ⟨t2, f2⟩, t, h1, h2, h3, h4⟩
    cases f1
    cases f2
    omega

/-- A history in which a call is extracted. -/
example : ∃ (tr : List (ExecState ℕ ℕ × ℕ)) (x : ExecCandidates ℕ ℕ ℕ),
    CandidateHistory sampleLimb [⟨.fromConstraints sampleOptConstraints, 2, 0⟩] tr x [⟨0, 100, 102⟩] := by
  have h0 := CandidateHistory.start (limb := sampleLimb)
    (apcs := [⟨.fromConstraints sampleOptConstraints, 2, 0⟩]) (sampleExecState 0 258 0, 100)
  have h1 := h0.insert 0 rfl rfl
  have h2 := h1.step (sampleExecState 4 7 1) 101 rfl (by decide) rfl
  have h3 := h2.step (sampleExecState 8 514 2) 102 rfl (by decide) rfl
  exact ⟨_, _, h3.extract rfl⟩

example : BuiltFrom [(⟨.fromConstraints sampleOptConstraints, 2, 0⟩ : ExecApc ℕ ℕ)]
    (fun _ => sampleOptConstraints) := by
  intro id apc h
  cases id with
  | zero => cases h; rfl
  | succ n => cases h

end Verif
