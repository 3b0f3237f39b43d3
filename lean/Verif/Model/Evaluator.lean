import Verif.Model.Partition

/-!
# Model of `autoprecompiles/src/execution/`

`ast.rs`, `evaluator.rs` and `candidates.rs`. A register address is an element of a type `A`, a value of a
type `V`. A `HashMap` built by `into_group_map` is the list of its groups (`groupMap`); it is only used
through lookups. The memory of the evaluator is the lookup function of the `HashMap`. Clocks and indices are
natural numbers. A panic is `.error .panic`.
-/

namespace Verif

section
variable {A V : Type} [DecidableEq A] [DecidableEq V]

/-- `ExecutionState` (execution/mod.rs:10-42), without the associated function `value_limb`, which is a
parameter of the evaluator. -/
structure ExecState (A V : Type) where
  pc : V
  reg : A → V
  clk : ℕ

/-- `LocalOptimisticLiteral` (execution/ast.rs:66-73). -/
inductive LocalLiteral (A : Type) where
  | registerLimb (a : A) (limb : ℕ)
  | pc
  deriving DecidableEq

/-- `OptimisticLiteral` (execution/ast.rs:119-125). -/
structure OptLiteral (A : Type) where
  instrIdx : ℕ
  val : LocalLiteral A
  deriving DecidableEq

/-- `OptimisticExpression` (execution/ast.rs:50-54). -/
inductive OptExpr (A V : Type) where
  | number (v : V)
  | literal (l : OptLiteral A)

/-- `OptimisticConstraint` (execution/ast.rs:9-13). -/
structure OptConstraint (A V : Type) where
  left : OptExpr A V
  right : OptExpr A V

/-- `LocalFetch` (execution/ast.rs:84-90). -/
inductive LocalFetch (A : Type) where
  | register (a : A)
  | pc
  deriving DecidableEq

/-- `LocalFetch::get` (execution/ast.rs:92-99). -/
def LocalFetch.get (f : LocalFetch A) (state : ExecState A V) : V :=
  match f with
  | .register a => state.reg a
  | .pc => state.pc

/-- `From<LocalOptimisticLiteral>` for `LocalFetch` (execution/ast.rs:75-82). -/
def LocalLiteral.toFetch : LocalLiteral A → LocalFetch A
  | .registerLimb a _ => .register a
  | .pc => .pc

/-- `Fetch` (execution/ast.rs:101-107). -/
abbrev Fetch (A : Type) := ℕ × LocalFetch A

/-- The literals of an expression (execution/ast.rs:24-43). -/
def OptExpr.literals : OptExpr A V → List (OptLiteral A)
  | .number _ => []
  | .literal l => [l]

/-- `unique_references` of a constraint (execution/ast.rs:15-43). -/
def OptConstraint.uniqueReferences (c : OptConstraint A V) : List (OptLiteral A) :=
  (c.left.literals ++ c.right.literals).dedup

/-- `first_evaluable_step` (execution/evaluator.rs:41-46). -/
def OptConstraint.firstEvaluableStep (c : OptConstraint A V) : ℕ :=
  (c.uniqueReferences.map fun r => r.instrIdx).foldl max 0

/-- `OptimisticConstraints` (execution/evaluator.rs:16-23). -/
structure OptConstraints (A V : Type) where
  fetchesByStep : List (ℕ × List (LocalFetch A))
  constraintsToCheckByStep : List (ℕ × List (OptConstraint A V))

/-- `OptimisticConstraints::from_constraints` (execution/evaluator.rs:35-80). -/
def OptConstraints.fromConstraints (cs : List (OptConstraint A V)) : OptConstraints A V :=
  ⟨groupMap (cs.flatMap fun c =>
      (c.uniqueReferences.filter fun l => c.firstEvaluableStep > l.instrIdx).map
        fun l => (l.instrIdx, l.val.toFetch)),
    groupMap (cs.map fun c => (c.firstEvaluableStep, c))⟩

/-- `OptimisticConstraintEvaluator` (execution/evaluator.rs:88-95). -/
structure OptEvaluator (A V : Type) where
  instructionIndex : ℕ
  memory : Fetch A → Option V

/-- `OptimisticConstraintEvaluator::new` (execution/evaluator.rs:107-112). -/
def OptEvaluator.new : OptEvaluator A V := ⟨0, fun _ => none⟩

/-- `StepOptimisticConstraintEvaluator::fetch` (execution/evaluator.rs:221-229). -/
def stepFetch (step : ℕ) (state : ExecState A V) (memory : Fetch A → Option V) (f : Fetch A) :
    Except LoopStop V :=
  if f.1 = step then .ok (f.2.get state)
  else match memory f with
    | some v => .ok v
    | none => .error .panic

/-- `StepOptimisticConstraintEvaluator::evaluate_expression` and `evaluate_literal`
(execution/evaluator.rs:197-219). A literal of a later step panics: in debug builds by the assertion, else
because it is not in the memory. -/
def stepExpr (limb : V → ℕ → V) (step : ℕ) (state : ExecState A V) (memory : Fetch A → Option V) :
    OptExpr A V → Except LoopStop V
  | .number v => .ok v
  | .literal l =>
    if l.instrIdx ≤ step then do
      let v ← stepFetch step state memory (l.instrIdx, l.val.toFetch)
      match l.val with
      | .registerLimb _ i => pure (limb v i)
      | .pc => pure v
    else .error .panic

/-- `evaluate_constraint` (execution/evaluator.rs:193-195). -/
def stepConstraint (limb : V → ℕ → V) (step : ℕ) (state : ExecState A V) (memory : Fetch A → Option V)
    (c : OptConstraint A V) : Except LoopStop Bool := do
  let l ← stepExpr limb step state memory c.left
  let r ← stepExpr limb step state memory c.right
  pure (decide (l = r))

/-- `all` over the constraints of the step (execution/evaluator.rs:140-143). -/
def stepAll (limb : V → ℕ → V) (step : ℕ) (state : ExecState A V) (memory : Fetch A → Option V) :
    List (OptConstraint A V) → Except LoopStop Bool
  | [] => .ok true
  | c :: t => do
    if ← stepConstraint limb step state memory c then stepAll limb step state memory t
    else pure false

/-- The loop over the fetches (execution/evaluator.rs:153-163). -/
def storeFetches (step : ℕ) (state : ExecState A V) : List (LocalFetch A) → (Fetch A → Option V) →
    (Fetch A → Option V)
  | [], m => m
  | f :: t, m => storeFetches step state t (Function.update m (step, f) (some (f.get state)))

/-- The check of the constraints of this step (execution/evaluator.rs:129-147). -/
def OptEvaluator.check (limb : V → ℕ → V) (ev : OptEvaluator A V) (state : ExecState A V)
    (oc : OptConstraints A V) : Except LoopStop Bool :=
  match oc.constraintsToCheckByStep.lookup ev.instructionIndex with
  | some cs => stepAll limb ev.instructionIndex state ev.memory cs
  | none => .ok true

/-- The memory after this step (execution/evaluator.rs:149-164). -/
def OptEvaluator.nextMemory (ev : OptEvaluator A V) (state : ExecState A V) (oc : OptConstraints A V) :
    Fetch A → Option V :=
  match oc.fetchesByStep.lookup ev.instructionIndex with
  | some fs => storeFetches ev.instructionIndex state fs ev.memory
  | none => ev.memory

/-- `try_next_execution_step` (execution/evaluator.rs:119-166). `.ok none` is
`Err(OptimisticConstraintFailed)`. -/
def OptEvaluator.tryNext (limb : V → ℕ → V) (ev : OptEvaluator A V) (state : ExecState A V)
    (oc : OptConstraints A V) : Except LoopStop (Option (OptEvaluator A V)) := do
  if ← ev.check limb state oc then
    pure (some ⟨ev.instructionIndex + 1, ev.nextMemory state oc⟩)
  else pure none

/-- The trait `Apc` (execution/candidates.rs:248-257). -/
structure ExecApc (A V : Type) where
  optimisticConstraints : OptConstraints A V
  cycleCount : ℕ
  priority : ℕ

/-- `ApcCall` (execution/candidates.rs:17-28). -/
structure ApcCall (S : Type) where
  apcId : ℕ
  fromSnap : S
  toSnap : S

/-- `CandidateStatus` (execution/candidates.rs:260-265). -/
inductive CandidateStatus (A V S : Type) where
  | inProgress (ev : OptEvaluator A V)
  | done (clk : ℕ) (snapshot : S)

/-- `ApcCandidate` (execution/candidates.rs:220-230). -/
structure ExecCandidate (A V S : Type) where
  totalCheckCount : ℕ
  apcId : ℕ
  fromClk : ℕ
  fromSnap : S
  status : CandidateStatus A V S

/-- `ApcCandidates` (execution/candidates.rs:10-15). -/
structure ExecCandidates (A V S : Type) where
  apcs : List (ExecApc A V)
  candidates : List (ExecCandidate A V S)

/-- `ApcCandidates::new` (execution/candidates.rs:31-36). -/
def ExecCandidates.new {S : Type} (apcs : List (ExecApc A V)) : ExecCandidates A V S := ⟨apcs, []⟩

/-- The closure of `retain_mut` in `check_conditions` (execution/candidates.rs:42-66). `none` drops the
candidate. -/
def checkCandidate {S : Type} (limb : V → ℕ → V) (apcs : List (ExecApc A V)) (state : ExecState A V)
    (snapshot : S) (c : ExecCandidate A V S) : Except LoopStop (Option (ExecCandidate A V S)) :=
  match c.status with
  | .inProgress ev =>
    match apcs[c.apcId]? with
    | none => .error .panic
    | some apc => do
      match ← ev.tryNext limb state apc.optimisticConstraints with
      | none => pure none
      | some ev' =>
        if c.totalCheckCount = ev'.instructionIndex then
          pure (some { c with status := .done state.clk snapshot })
        else pure (some { c with status := .inProgress ev' })
  | .done _ _ => .ok (some c)

/-- `retain_mut` with the closure. -/
def checkAllCandidates {S : Type} (limb : V → ℕ → V) (apcs : List (ExecApc A V)) (state : ExecState A V)
    (snapshot : S) : List (ExecCandidate A V S) → Except LoopStop (List (ExecCandidate A V S))
  | [] => .ok []
  | c :: t => do
    let c' ← checkCandidate limb apcs state snapshot c
    let t' ← checkAllCandidates limb apcs state snapshot t
    pure (c'.toList ++ t')

/-- `ApcCandidates::check_conditions` (execution/candidates.rs:40-68). -/
def ExecCandidates.checkConditions {S : Type} (limb : V → ℕ → V) (x : ExecCandidates A V S)
    (state : ExecState A V) (snapshot : S) : Except LoopStop (ExecCandidates A V S) := do
  let candidates ← checkAllCandidates limb x.apcs state snapshot x.candidates
  pure ⟨x.apcs, candidates⟩

/-- `matches!(c.status, CandidateStatus::InProgress(_))`. -/
def ExecCandidate.isInProgress {S : Type} (c : ExecCandidate A V S) : Bool :=
  match c.status with
  | .inProgress _ => true
  | .done _ _ => false

/-- `ApcCandidates::abort_in_progress` (execution/candidates.rs:73-78): the remaining candidates and the ids of
the aborted ones. -/
def ExecCandidates.abortInProgress {S : Type} (x : ExecCandidates A V S) :
    ExecCandidates A V S × List ℕ :=
  (⟨x.apcs, x.candidates.filter fun c => !c.isInProgress⟩,
    (x.candidates.filter fun c => c.isInProgress).map fun c => c.apcId)

/-- `CandidateRank` (execution/candidates.rs:195-202). -/
structure CandidateRank where
  priority : ℕ
  len : ℕ
  candidateId : ℕ

/-- `CandidateRank::cmp` (execution/candidates.rs:205-210). -/
def CandidateRank.cmp (a b : CandidateRank) : Ordering :=
  ((compare a.priority b.priority).then (compare a.len b.len)).then (compare b.candidateId a.candidateId)

/-- `candidate_range` (execution/candidates.rs:178-187). -/
def ExecCandidate.range {S : Type} (c : ExecCandidate A V S) : Except LoopStop (ℕ × ℕ) :=
  match c.status with
  | .done clk _ => .ok (c.fromClk, clk)
  | .inProgress _ => .error .panic

/-- `ranges_overlap` (execution/candidates.rs:189-191). -/
def rangesOverlap (a b : ℕ × ℕ) : Bool := a.1 < b.2 && b.1 < a.2

/-- `meta` (execution/candidates.rs:97-107). The length panics if the end is before the start, as in debug
builds. -/
def candidateMeta {S : Type} (apcs : List (ExecApc A V)) : ℕ → List (ExecCandidate A V S) →
    Except LoopStop (List (CandidateRank × (ℕ × ℕ)))
  | _, [] => .ok []
  | idx, c :: t => do
    let range ← c.range
    match apcs[c.apcId]? with
    | none => .error .panic
    | some apc =>
      if range.1 ≤ range.2 then do
        let rest ← candidateMeta apcs (idx + 1) t
        pure ((⟨apc.priority, range.2 - range.1, idx⟩, range) :: rest)
      else .error .panic

/-- `tuple_combinations` of pairs (itertools): the pairs in lexicographic order of the indices. -/
def tuplePairs {α : Type} : List α → List (α × α)
  | [] => []
  | a :: t => t.map (fun b => (a, b)) ++ tuplePairs t

/-- The closure of the fold over the pairs (execution/candidates.rs:110-135). -/
def discardStep (discard : List Bool) (x : (CandidateRank × (ℕ × ℕ)) × (CandidateRank × (ℕ × ℕ))) :
    Except LoopStop (List Bool) :=
  match discard[x.1.1.candidateId]?, discard[x.2.1.candidateId]? with
  | some l, some r =>
    if l || r || !rangesOverlap x.1.2 x.2.2 then .ok discard
    else match x.1.1.cmp x.2.1 with
      | .gt => .ok (discard.set x.2.1.candidateId true)
      | .lt => .ok (discard.set x.1.1.candidateId true)
      | .eq => .error .panic
  | _, _ => .error .panic

/-- The calls of the candidates that are not discarded (execution/candidates.rs:138-152). -/
def keptCalls {S : Type} : List (ExecCandidate A V S) → List Bool → Except LoopStop (List (ApcCall S))
  | [], [] => .ok []
  | c :: t, d :: ds => do
    let rest ← keptCalls t ds
    if d then pure rest
    else match c.status with
      | .done _ snap => pure (⟨c.apcId, c.fromSnap, snap⟩ :: rest)
      | .inProgress _ => .error .panic
  | _, _ => .error .panic

/-- `ApcCandidates::extract_calls` (execution/candidates.rs:81-153). -/
def ExecCandidates.extractCalls {S : Type} (x : ExecCandidates A V S) :
    Except LoopStop (ExecCandidates A V S × List (ApcCall S)) :=
  if x.candidates.any fun c => c.isInProgress then .ok (x, [])
  else do
    let metas ← candidateMeta x.apcs 0 x.candidates
    let discard ← (tuplePairs metas).foldlM discardStep (List.replicate x.candidates.length false)
    let calls ← keptCalls x.candidates discard
    pure (⟨x.apcs, []⟩, calls)

/-- `ApcCandidates::try_insert` (execution/candidates.rs:157-176). `.ok none` is
`Err(OptimisticConstraintFailed)`. -/
def ExecCandidates.tryInsert {S : Type} (limb : V → ℕ → V) (x : ExecCandidates A V S)
    (state : ExecState A V) (apcId : ℕ) (snapshot : S) :
    Except LoopStop (Option (ExecCandidates A V S)) :=
  match x.apcs[apcId]? with
  | none => .error .panic
  | some apc => do
    match ← OptEvaluator.new.tryNext limb state apc.optimisticConstraints with
    | none => pure none
    | some ev => pure (some ⟨x.apcs, x.candidates ++
        [⟨apc.cycleCount + 1, apcId, state.clk, snapshot, .inProgress ev⟩]⟩)

end

end Verif
