import Verif.Model.Evaluator

/-! # Specification of the evaluation of optimistic constraints -/

namespace Verif

section
variable {A V : Type} [DecidableEq A] [DecidableEq V]

/-- The value of a literal, read off the states of the run of a block: the state before instruction `i` is at
position `i`. -/
def OptLiteral.read (limb : V → ℕ → V) (states : List (ExecState A V)) (l : OptLiteral A) : Option V :=
  states[l.instrIdx]?.map fun st =>
    match l.val with
    | .registerLimb a i => limb (st.reg a) i
    | .pc => st.pc

/-- The value of an expression. -/
def OptExpr.read (limb : V → ℕ → V) (states : List (ExecState A V)) : OptExpr A V → Option V
  | .number v => some v
  | .literal l => l.read limb states

/-- The constraint refers to a value of step `i`. -/
def OptConstraint.MentionsStep (c : OptConstraint A V) (i : ℕ) : Prop :=
  (∃ l, c.left = .literal l ∧ l.instrIdx = i) ∨ ∃ l, c.right = .literal l ∧ l.instrIdx = i

/-- After `n` states, `n > 0`, all values the constraint refers to are known. -/
def OptConstraint.Known (c : OptConstraint A V) (n : ℕ) : Prop := 0 < n ∧ ∀ i, c.MentionsStep i → i < n

/-- The constraint holds: both sides have the same value. -/
def OptConstraint.Holds (limb : V → ℕ → V) (states : List (ExecState A V)) (c : OptConstraint A V) : Prop :=
  ∃ v, c.left.read limb states = some v ∧ c.right.read limb states = some v

/-- All constraints that are known after these states hold. -/
def AllHold (limb : V → ℕ → V) (cs : List (OptConstraint A V)) (states : List (ExecState A V)) : Prop :=
  ∀ c ∈ cs, c.Known states.length → c.Holds limb states

/-- The use of an evaluator: one step per state, until a constraint fails. -/
def runEvaluator (limb : V → ℕ → V) (oc : OptConstraints A V) :
    List (ExecState A V) → OptEvaluator A V → Except LoopStop (Option (OptEvaluator A V))
  | [], ev => .ok (some ev)
  | st :: t, ev => do
    match ← ev.tryNext limb st oc with
    | none => pure none
    | some ev' => runEvaluator limb oc t ev'

/-- The constraints of the blocks are those given, prepared for evaluation. -/
def BuiltFrom (apcs : List (ExecApc A V)) (constraints : ℕ → List (OptConstraint A V)) : Prop :=
  ∀ (id : ℕ) (apc : ExecApc A V), apcs[id]? = some apc →
    apc.optimisticConstraints = .fromConstraints (constraints id)

/-- The history of a tracker of candidates: the states visited so far, in order, each with its snapshot (the
last one is the current state), the tracker and all calls extracted. -/
inductive CandidateHistory {S : Type} (limb : V → ℕ → V) (apcs : List (ExecApc A V)) :
    List (ExecState A V × S) → ExecCandidates A V S → List (ApcCall S) → Prop
  | start (x) : CandidateHistory limb apcs [x] (.new apcs) []
  | step {tr cur x x' calls} (st : ExecState A V) (snap : S) : CandidateHistory limb apcs tr x calls →
      tr.getLast? = some cur → cur.1.clk < st.clk → x.checkConditions limb st snap = .ok x' →
      CandidateHistory limb apcs (tr ++ [(st, snap)]) x' calls
  | insert {tr cur x x' calls} (id : ℕ) : CandidateHistory limb apcs tr x calls →
      tr.getLast? = some cur → x.tryInsert limb cur.1 id cur.2 = .ok (some x') →
      CandidateHistory limb apcs tr x' calls
  | reject {tr cur x calls} (id : ℕ) : CandidateHistory limb apcs tr x calls →
      tr.getLast? = some cur → x.tryInsert limb cur.1 id cur.2 = .ok none →
      CandidateHistory limb apcs tr x calls
  | abort {tr x calls} : CandidateHistory limb apcs tr x calls →
      CandidateHistory limb apcs tr x.abortInProgress.1 calls
  | extract {tr x x' calls new} : CandidateHistory limb apcs tr x calls →
      x.extractCalls = .ok (x', new) → CandidateHistory limb apcs tr x' (calls ++ new)

/-- The check of the conditions in several states, each with its snapshot. -/
def runChecks {S : Type} (limb : V → ℕ → V) : List (ExecState A V × S) → ExecCandidates A V S →
    Except LoopStop (ExecCandidates A V S)
  | [], x => .ok x
  | (st, snap) :: t, x => do
    let x' ← x.checkConditions limb st snap
    runChecks limb t x'

/-- The call is the run of its block in the states at the positions from `iv.1` to `iv.2`: as many steps as
the block has cycles, all constraints hold, and the snapshots are those of the two ends. -/
def IsRun {S : Type} (limb : V → ℕ → V) (apcs : List (ExecApc A V)) (constraints : ℕ → List (OptConstraint A V))
    (tr : List (ExecState A V × S)) (call : ApcCall S) (iv : ℕ × ℕ) : Prop :=
  (∃ apc, apcs[call.apcId]? = some apc ∧ 0 < apc.cycleCount ∧ iv.2 = iv.1 + apc.cycleCount) ∧
  (tr[iv.1]?.map Prod.snd) = some call.fromSnap ∧ (tr[iv.2]?.map Prod.snd) = some call.toSnap ∧
  AllHold limb (constraints call.apcId) (((tr.map Prod.fst).drop iv.1).take (iv.2 - iv.1 + 1))

/-- Candidate `i` is finished: its block and the clocks and snapshots at both ends. -/
def ExecCandidates.Finished {S : Type} (x : ExecCandidates A V S) (i id lo hi : ℕ) (a b : S) : Prop :=
  ∃ total, x.candidates[i]? = some ⟨total, id, lo, a, .done hi b⟩

/-- All candidates are finished, of a known block and end after their start. -/
def ExecCandidates.AllFinished {S : Type} (x : ExecCandidates A V S) : Prop :=
  ∀ c ∈ x.candidates, ∃ hi b apc, c.status = .done hi b ∧ x.apcs[c.apcId]? = some apc ∧ c.fromClk < hi

/-- Some cycle belongs to both candidates. -/
def ExecCandidates.Overlap {S : Type} (x : ExecCandidates A V S) (i j : ℕ) : Prop :=
  ∃ id lo hi a b id' lo' hi' a' b', x.Finished i id lo hi a b ∧ x.Finished j id' lo' hi' a' b' ∧
    ∃ t, lo ≤ t ∧ t < hi ∧ lo' ≤ t ∧ t < hi'

/-- Candidate `i` is preferred to candidate `j`: higher priority, or the same priority and longer, or the
same length, too, and inserted earlier. -/
def ExecCandidates.Preferred {S : Type} (x : ExecCandidates A V S) (i j : ℕ) : Prop :=
  ∃ id lo hi a b id' lo' hi' a' b', x.Finished i id lo hi a b ∧ x.Finished j id' lo' hi' a' b' ∧
    ∃ p p', x.apcs[id]? = some p ∧ x.apcs[id']? = some p' ∧
      (p'.priority < p.priority ∨ p'.priority = p.priority ∧
        (hi' - lo' < hi - lo ∨ hi' - lo' = hi - lo ∧ i < j))

/-- The calls are those of the candidates at the given positions. -/
def ExecCandidates.CallsOf {S : Type} (x : ExecCandidates A V S) (keep : List ℕ) (calls : List (ApcCall S)) :
    Prop :=
  List.Forall₂ (fun i call => ∃ lo hi, x.Finished i call.apcId lo hi call.fromSnap call.toSnap) keep calls

end

end Verif
