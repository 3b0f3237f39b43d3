import Verif.Model.Selection
import Verif.Spec.Blocks

/-! # Specification of the greedy selection of blocks -/

namespace Verif

/-- What is left of an execution after removing the blocks one after the other, as described by C42. -/
inductive Removed : List (List ℕ) → List (List ℕ × ℕ) → List (List ℕ × ℕ) → Prop
  | nil {e} : Removed [] e e
  | cons {s t e e' e'' n} : countAndUpdateExecution s e = .ok (n, e') → Removed t e' e'' →
      Removed (s :: t) e e''

/-- The total cost of the candidates with the given indices. -/
def totalCost (candidates : List BlockCandidate) (is : List ℕ) : ℕ :=
  (is.map fun i => (candidates[i]?.map (·.costAfter)).getD 0).sum

/-- The blocks of the candidates with the given indices. -/
def blocksOf (candidates : List BlockCandidate) (is : List ℕ) : List (List ℕ) :=
  is.map fun i => (candidates[i]?.map (·.startPcs)).getD []

/-- Selecting candidate `i` after `before` is greedy: the candidate fits the budget and is used in the
execution that remains, and no other candidate that fits has more value per cost there. -/
def GreedyChoice (candidates : List BlockCandidate) (budget : ℕ) (execution : List (List ℕ × ℕ))
    (before : List ℕ) (i : ℕ) : Prop :=
  ∃ c rest n, candidates[i]? = some c ∧ totalCost candidates before + c.costAfter ≤ budget ∧
    Removed (blocksOf candidates before) execution rest ∧ ExecutionUses c.startPcs rest n ∧ 0 < n ∧
    ∀ (j : ℕ) (d : BlockCandidate) (m : ℕ), j ∉ before → candidates[j]? = some d →
      totalCost candidates before + d.costAfter ≤ budget →
      ExecutionUses d.startPcs rest m →
      (m * d.valuePerUse) * c.costAfter ≤ (n * c.valuePerUse) * d.costAfter

end Verif
