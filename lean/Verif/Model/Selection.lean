import Verif.Model.Blocks

/-!
# Model of the greedy selection of blocks

`autoprecompiles/src/pgo/cell/selection.rs` and its use in `autoprecompiles/src/pgo/cell/mod.rs`.

Simplifications: numbers are natural numbers (no overflow of `usize` and `u32`). The priority queue is a
list of entries; which entry is popped is left open, up to what the crate guarantees (`Pop`).
-/

namespace Verif

/-- `BlockCandidate` (selection.rs:12-25), without the cost before optimization, which is not used in the
selection. -/
structure BlockCandidate where
  startPcs : List ℕ
  costAfter : ℕ
  valuePerUse : ℕ
  executionCount : ℕ
deriving DecidableEq

/-- `BlockCandidate::value` (selection.rs:42-46). -/
def BlockCandidate.value (c : BlockCandidate) : ℕ := c.executionCount * c.valuePerUse

/-- `BlockCandidate::cost` (selection.rs:48-50). -/
def BlockCandidate.cost (c : BlockCandidate) : ℕ := c.costAfter

/-- `Density` (selection.rs:61-66). -/
structure Density where
  value : ℕ
  cost : ℕ
  tie : ℕ
deriving DecidableEq

/-- `BlockCandidate::density` (selection.rs:52-58). Indexing an empty list is a panic. -/
def BlockCandidate.density (c : BlockCandidate) : Except LoopStop Density :=
  match c.startPcs[0]? with
  | none => .error .panic
  | some tie => .ok ⟨c.value, c.cost, tie⟩

/-- `Density::cmp` (selection.rs:82-88) returns `Less`. -/
def Density.lt (a b : Density) : Bool :=
  let lhs := a.value * b.cost
  let rhs := b.value * a.cost
  lhs < rhs || (lhs = rhs && a.tie < b.tie)

/-- The state of `select_blocks_greedy` (selection.rs:139-157). `finished` is set by the `break`. -/
structure SelectState where
  candidates : List BlockCandidate
  queue : List (ℕ × Density)
  selected : List ℕ
  cost : ℕ
  execution : List (List ℕ × ℕ)
  finished : Bool
deriving DecidableEq

/-- The state before the loop (selection.rs:139-157). -/
def selectInit (candidates : List BlockCandidate) (execution : List (List ℕ × ℕ)) :
    Except LoopStop SelectState := do
  let ds ← candidates.mapM BlockCandidate.density
  pure ⟨candidates, ds.zipIdx.map fun x => (x.2, x.1), [], 0, execution, false⟩

/-- `pop` of the priority queue (crate `priority_queue`): removes an entry such that no other one has a
larger priority. This needs priorities that are ordered, which is only so for positive costs; otherwise any
entry may be returned. -/
def Pop (queue : List (ℕ × Density)) (e : ℕ × Density) (rest : List (ℕ × Density)) : Prop :=
  (∃ l r, queue = l ++ e :: r ∧ rest.Perm (l ++ r)) ∧
    ((∀ x ∈ queue, 0 < x.2.cost) → ∀ x ∈ queue, e.2.lt x.2 = false)

/-- The body of the loop after `pop` (selection.rs:160-187), for the popped index and the remaining
queue. -/
def selectBody (budget maxSelected : ℕ) (st : SelectState) (idx : ℕ) (queue : List (ℕ × Density)) :
    Except LoopStop SelectState :=
  match st.candidates[idx]? with
  | none => .error .panic
  | some c =>
    if st.cost + c.cost > budget then .ok { st with queue := queue }
    else
      match countAndUpdateExecution c.startPcs st.execution with
      | .error e => .error e
      | .ok (count, newExecution) =>
        if count = 0 then .ok { st with queue := queue }
        else if count < c.executionCount then
          let c := { c with executionCount := count }
          match c.density with
          | .error e => .error e
          | .ok d =>
            .ok { st with candidates := st.candidates.set idx c, queue := queue ++ [(idx, d)] }
        else
          .ok { st with
            queue := queue
            selected := st.selected ++ [idx]
            cost := st.cost + c.cost
            execution := newExecution
            finished := st.selected.length + 1 ≥ maxSelected }

/-- One round of the loop (selection.rs:159-187), with its possible results. -/
def SelectStep (budget maxSelected : ℕ) (st : SelectState) (r : Except LoopStop SelectState) : Prop :=
  st.finished = false ∧ ∃ e rest, Pop st.queue e rest ∧
    r = selectBody budget maxSelected st e.1 rest

/-- The states `select_blocks_greedy` can reach (selection.rs:132-189). -/
inductive SelectReaches (candidates : List BlockCandidate) (budget maxSelected : ℕ)
    (execution : List (List ℕ × ℕ)) : Except LoopStop SelectState → Prop
  | init : SelectReaches candidates budget maxSelected execution (selectInit candidates execution)
  | step {st r} : SelectReaches candidates budget maxSelected execution (.ok st) →
      SelectStep budget maxSelected st r → SelectReaches candidates budget maxSelected execution r

/-- `select_blocks_greedy` (selection.rs:132-189) can return the indices: the loop ends by `break` or
because the queue is empty. -/
def SelectBlocksGreedy (candidates : List BlockCandidate) (budget maxSelected : ℕ)
    (execution : List (List ℕ × ℕ)) (selected : List ℕ) : Prop :=
  ∃ st, SelectReaches candidates budget maxSelected execution (.ok st) ∧
    (st.finished = true ∨ st.queue = []) ∧ selected = st.selected

/-- `create_apcs_with_pgo` of `CellPgo` (pgo/cell/mod.rs:102-180): the indices of the candidates that are
returned, in this order. A missing budget is the largest number; here it is given as any number. -/
def CellPgoIndices (autoprecompiles skipAutoprecompiles budget : ℕ) (candidates : List BlockCandidate)
    (execution : List (List ℕ × ℕ)) (r : List ℕ) : Prop :=
  if autoprecompiles = 0 then r = []
  else ∃ selection, SelectBlocksGreedy candidates budget (autoprecompiles + skipAutoprecompiles)
      execution selection ∧ r = selection.drop (min skipAutoprecompiles selection.length)

end Verif
