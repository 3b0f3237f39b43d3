import Verif.Model.Inliner
import Mathlib.Data.List.Sort

/-!
# Reachability and splitting of systems

Model of `constraint-solver/src/reachability.rs` and `constraint-solver/src/system_splitter.rs`.
-/

namespace Verif

open GExpr

variable {p : ℕ} {V : Type}

/-- The iteration order of a `HashSet` (std): any rearrangement of the elements. -/
structure SetOrder (V : Type) where
  order : List V → List V
  perm : ∀ l, (order l).Perm l

/-- `ConstraintRef::referenced_unknown_variables` (constraint_system.rs:320-327). -/
def ConstraintRef.vars : ConstraintRef p V → List V
  | .alg e => e.vars
  | .bus b => busVars b

section
variable [LinearOrder V]

/-- `HashSet::extend` (std); the set is a list without duplicates. -/
def setExtend (s : List V) (vs : List V) : List V :=
  vs.foldl (fun s v => if v ∈ s then s else s ++ [v]) s

/-- The loop over the constraints (reachability.rs:45-56). -/
def reachStep (blocking : List V) (s : List V) : List (ConstraintRef p V) → List V
  | [] => s
  | c :: t =>
    reachStep blocking
      (if c.vars.any fun v => v ∈ s && v ∉ blocking then setExtend s c.vars else s) t

/-- The loop of `reachable_variables_except_blocked` (reachability.rs:42-60) with a bound on the
number of rounds; `none` if it is exceeded. -/
def reachLoop (ord : SetOrder V) (ix : Indexed p V) (blocking : List V) :
    ℕ → List V → Except Panic (Option (List V))
  | 0, _ => .ok none
  | fuel + 1, s => do
    let refs ← ix.constraintsReferencing (ord.order s)
    let s' := reachStep blocking s refs
    if s'.length = s.length then pure (some s') else reachLoop ord ix blocking fuel s'

/-- `reachable_variables_except_blocked` (reachability.rs:30-62). -/
def reachableExceptBlocked (ord : SetOrder V) (fuel : ℕ) (initial blocking : List V)
    (ix : Indexed p V) : Except Panic (Option (List V)) :=
  reachLoop ord ix blocking fuel (setExtend [] initial)

/-- `reachable_variables` (reachability.rs:13-22). -/
def reachable (ord : SetOrder V) (fuel : ℕ) (initial : List V) (ix : Indexed p V) :
    Except Panic (Option (List V)) := reachableExceptBlocked ord fuel initial [] ix

/-- `variables` of a freshly indexed system, collected into a `BTreeSet` (system_splitter.rs:28,
indexed_constraint_system.rs:176-178, 402-451): all variables that occur in a constraint or in the
definition of a derived variable. -/
def indexedVariables (s : ConstraintSystem p V) : List V :=
  (systemVars s ++ s.derived.flatMap fun d => d.method.vars).dedup.insertionSort (· ≤ ·)

/-- The system assembled from references (system_splitter.rs:33-49). -/
def systemOfRefs (refs : List (ConstraintRef p V)) : ConstraintSystem p V :=
  ⟨refs.filterMap fun r => match r with | .alg e => some e | .bus _ => none,
    refs.filterMap fun r => match r with | .bus b => some b | .alg _ => none, []⟩

/-- The `while` loop (system_splitter.rs:30-55); the first argument bounds the number of rounds, the
second the rounds of each reachability search; `none` if one of them is exceeded. -/
def splitLoop (ord : SetOrder V) (ix : Indexed p V) (fuel : ℕ) :
    ℕ → List V → Except Panic (Option (List (ConstraintSystem p V)))
  | _, [] => .ok (some [])
  | 0, _ :: _ => .ok none
  | n + 1, v :: remaining => do
    match ← reachable ord fuel [v] ix with
    | none => pure none
    | some vs =>
      let refs ← ix.constraintsReferencing (ord.order vs)
      match ← splitLoop ord ix fuel n (remaining.filter fun w => w ∉ vs) with
      | none => pure none
      | some rest => pure (some (systemOfRefs refs :: rest))

/-- Dropping redundant constraints (system_splitter.rs:22-25; `is_redundant`:
algebraic_constraint/mod.rs:63-65). -/
def dropRedundant (s : ConstraintSystem p V) : ConstraintSystem p V :=
  { s with algebraic := s.algebraic.filter fun e => !e.isZero }

/-- `split_system` (system_splitter.rs:16-57). -/
def splitSystem (ord : SetOrder V) (fuel : ℕ) (ix : Indexed p V) :
    Except Panic (Option (List (ConstraintSystem p V))) :=
  let s := dropRedundant ix.sys
  splitLoop ord (Indexed.ofSystem s) fuel fuel (indexedVariables s)

end

end Verif
