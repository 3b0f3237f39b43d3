import Verif.Model.Indexed

/-!
# Linearizer

Model of `constraint-solver/src/solver/linearizer.rs`.
-/

namespace Verif

open GExpr

variable {p : ℕ} {V : Type}

/-- `Linearizer` (linearizer.rs:19-21). The hash map is an association list, the first entry
counts. -/
abbrev LinearSubs (p : ℕ) (V : Type) := List (GExpr p V × GExpr p V)

/-- `HashMap::get`. -/
def LinearSubs.get [DecidableEq V] (e : GExpr p V) : LinearSubs p V → Option (GExpr p V)
  | [] => none
  | (k, v) :: t => if k = e then some v else LinearSubs.get e t

/-- What the linearizer modifies: its substitutions, the number of variables dispensed so far and
the constraints appended to `constraint_collection`. -/
structure LinState (p : ℕ) (V : Type) where
  subs : LinearSubs p V
  next : ℕ
  constraints : List (GExpr p V)

section
variable [LinearOrder V]

/-- `try_substitute_by_existing_var` (linearizer.rs:132-141). -/
def trySubstituteByExistingVar (subs : LinearSubs p V) (e : GExpr p V) : Option (GExpr p V) :=
  if e.tryToKnown.isSome || e.tryToSimpleUnknown.isSome then some e else subs.get e

/-- `substitute_by_var` (linearizer.rs:111-129). `fresh n` is the `n`-th variable returned by the
dispenser. -/
def substituteByVar (fresh : ℕ → V) (e : GExpr p V) (st : LinState p V) : GExpr p V × LinState p V :=
  match trySubstituteByExistingVar st.subs e with
  | some s => (s, st)
  | none => (var (fresh st.next),
      ⟨(e, var (fresh st.next)) :: st.subs, st.next + 1,
        st.constraints ++ [e - var (fresh st.next)]⟩)

mutual
/-- `linearize_expression` (linearizer.rs:28-60). The `sum` over the summands starts from zero and
adds the quadratic, the linear and the constant component, in this order. -/
def linearizeExpression (fresh : ℕ → V) : GExpr p V → LinState p V → GExpr p V × LinState p V
  | mk [] l c, st => (mk [] l c, st)
  | mk (ab :: q) l c, st =>
    let r := linearizeQ fresh (ab :: q) st
    (sum (r.1 ++ l.map (fun e => scale e.2 (var e.1)) ++ if c = 0 then [] else [const c]), r.2)
/-- The quadratic components (linearizer.rs:39-51). -/
def linearizeQ (fresh : ℕ → V) : List (GExpr p V × GExpr p V) → LinState p V →
    List (GExpr p V) × LinState p V
  | [], st => ([], st)
  | (a, b) :: t, st =>
    let ra := linearizeExpression fresh a st
    let sa := substituteByVar fresh ra.1 ra.2
    let rb := linearizeExpression fresh b sa.2
    let sb := substituteByVar fresh rb.1 rb.2
    let s := substituteByVar fresh (mul sa.1 sb.1) sb.2
    let r := linearizeQ fresh t s.2
    (s.1 :: r.1, r.2)
end

mutual
/-- `try_linearize_existing` (linearizer.rs:63-91). -/
def tryLinearizeExisting (subs : LinearSubs p V) : GExpr p V → Option (GExpr p V)
  | mk [] l c => some (mk [] l c)
  | mk (ab :: q) l c =>
    (tryLinearizeExistingQ subs (ab :: q)).map fun r =>
      sum (r ++ l.map (fun e => scale e.2 (var e.1)) ++ if c = 0 then [] else [const c])
/-- The quadratic components (linearizer.rs:73-79). -/
def tryLinearizeExistingQ (subs : LinearSubs p V) : List (GExpr p V × GExpr p V) →
    Option (List (GExpr p V))
  | [] => some []
  | (a, b) :: t => do
    let la ← tryLinearizeExisting subs a
    let a' ← trySubstituteByExistingVar subs la
    let lb ← tryLinearizeExisting subs b
    let b' ← trySubstituteByExistingVar subs lb
    let ab ← trySubstituteByExistingVar subs (mul a' b')
    let r ← tryLinearizeExistingQ subs t
    pure (ab :: r)
end

/-- `internalized_versions_of_expression` (linearizer.rs:147-159). -/
def internalizedVersions (subs : LinearSubs p V) (e : GExpr p V) : List (GExpr p V) :=
  e :: ((trySubstituteByExistingVar subs e).toList ++ (tryLinearizeExisting subs e).toList)

/-- `apply_assignments` (linearizer.rs:164-172). The order in which the entries are drained and
inserted again is unspecified; the caller chooses the permutation, and an entry inserted
later wins. -/
def LinearSubs.applyAssignments (perm : LinearSubs p V → LinearSubs p V) (subs : LinearSubs p V)
    (assignments : List (V × GExpr p V)) : LinearSubs p V :=
  if assignments.isEmpty then subs
  else (applySubstitutionsToExpressions ((perm subs).map (·.1)) assignments).zip
    (applySubstitutionsToExpressions ((perm subs).map (·.2)) assignments)

end

end Verif
