import Verif.Model.Indexed
import Verif.Model.Solve

/-!
# Inlining of variables

Model of `constraint-solver/src/inliner.rs`.
-/

namespace Verif

open GExpr

variable {p : ℕ} {V : Type}

/-- `DegreeBound` (inliner.rs:13-17). -/
structure DegreeBound where
  identities : ℕ
  busInteractions : ℕ

section
variable [LinearOrder V]

mutual
/-- `expression_degree_with_virtual_substitution` (inliner.rs:132-148). -/
def virtualDegree (x : V) (d : ℕ) : GExpr p V → ℕ
  | mk q l _ => (virtualDegrees x d q ++ l.map fun e => if e.1 = x then d else 1).foldl Nat.max 0
/-- The degrees of the quadratic terms (inliner.rs:142-147). -/
def virtualDegrees (x : V) (d : ℕ) : List (GExpr p V × GExpr p V) → List ℕ
  | [] => []
  | (a, b) :: t => (virtualDegree x d a + virtualDegree x d b) :: virtualDegrees x d t
end

/-- The closure of `all` (inliner.rs:92-107). -/
def refBelowBound (x : V) (d : ℕ) (bound : DegreeBound) : ConstraintRef p V → Bool
  | .alg e => virtualDegree x d e ≤ bound.identities
  | .bus b => b.fields.all fun e => virtualDegree x d e ≤ bound.busInteractions

/-- `substitution_would_not_violate_degree_bound` (inliner.rs:82-108), which is also
`inline_everything_below_degree_bound` (inliner.rs:72-78). -/
def belowDegreeBound (bound : DegreeBound) (x : V) (e : GExpr p V) (s : Indexed p V) :
    Except Panic Bool := do
  let refs ← s.constraintsReferencing [x]
  pure (refs.all (refBelowBound x e.degree bound))

/-- The `filter_map` of `find_inlinable_variables` (inliner.rs:118-123), over a list of variables. -/
def findInlinable (e : GExpr p V) : List V → Except Panic (List (V × GExpr p V))
  | [] => .ok []
  | x :: t => do
    let r ← trySolveFor e x
    match r with
    | none => findInlinable e t
    | some rhs =>
      if x ∈ rhs.vars then .error .assertion
      else do
        let rest ← findInlinable e t
        pure ((x, rhs) :: rest)

/-- `find_inlinable_variables` (inliner.rs:111-125). -/
def findInlinableVariables (e : GExpr p V) : Except Panic (List (V × GExpr p V)) :=
  findInlinable e ((e.linear.map (·.1)).reverse)

/-- The type of the callback `should_inline` (inliner.rs:26). -/
abbrev ShouldInline (p : ℕ) (V : Type) := V → GExpr p V → Indexed p V → Except Panic Bool

/-- The local variables of `replace_constrained_witness_columns` (inliner.rs:31-32). The
`BTreeMap` of substitutions is a list of key/value pairs, the latest first. -/
structure InlineState (p : ℕ) (V : Type) where
  ix : Indexed p V
  toRemove : List ℕ
  subs : List (V × GExpr p V)

/-- `BTreeMap::insert` (std). -/
def subsInsert (x : V) (e : GExpr p V) (l : List (V × GExpr p V)) : List (V × GExpr p V) :=
  (x, e) :: l.filter fun y => y.1 ≠ x

/-- The loop over the candidates of one constraint (inliner.rs:39-50). -/
def inlineFirst (should : ShouldInline p V) (i : ℕ) (st : InlineState p V) :
    List (V × GExpr p V) → Except Panic (InlineState p V)
  | [] => .ok st
  | (x, e) :: t => do
    let yes ← should x e st.ix
    if yes then
      pure ⟨st.ix.subst x e, i :: st.toRemove, subsInsert x e st.subs⟩
    else inlineFirst should i st t

/-- One step of the loop over the constraints (inliner.rs:37-50); indexing out of bounds panics. -/
def inlineAt (should : ShouldInline p V) (i : ℕ) (st : InlineState p V) :
    Except Panic (InlineState p V) :=
  match st.ix.sys.algebraic[i]? with
  | none => .error .assertion
  | some e => do
    let cands ← findInlinableVariables e
    inlineFirst should i st cands

/-- One pass over a list of indices (inliner.rs:36-51). -/
def inlinePass (should : ShouldInline p V) :
    List ℕ → InlineState p V → Except Panic (InlineState p V)
  | [], st => .ok st
  | i :: t, st => do
    let st' ← inlineAt should i st
    inlinePass should t st'

/-- The outer loop (inliner.rs:34-56) with a bound on the number of passes; `none` if the bound is
exceeded. -/
def inlineLoop (should : ShouldInline p V) (count : ℕ) :
    ℕ → InlineState p V → Except Panic (Option (InlineState p V))
  | 0, _ => .ok none
  | fuel + 1, st => do
    let st' ← inlinePass should (List.range count).reverse st
    if st'.subs.length = st.subs.length then pure (some st')
    else inlineLoop should count fuel st'

/-- `ConstraintSystem::referenced_unknown_variables` (constraint_system.rs:61-70). -/
def systemVars (s : ConstraintSystem p V) : List V :=
  s.algebraic.flatMap vars ++ s.bus.flatMap busVars

/-- `replace_constrained_witness_columns` (inliner.rs:22-69) with a bound on the number of passes. -/
def replaceConstrainedWitnessColumns (fuel : ℕ) (s : Indexed p V) (should : ShouldInline p V) :
    Except Panic (Option (Indexed p V × List (V × GExpr p V))) := do
  let r ← inlineLoop should s.sys.algebraic.length fuel ⟨s, [], []⟩
  match r with
  | none => pure none
  | some st =>
    let ix := st.ix.retainAlgebraic fun i _ => i ∉ st.toRemove
    if (systemVars ix.sys).all fun v => !(st.subs.any fun y => y.1 = v) then
      pure (some (ix, st.subs))
    else .error .assertion

end

end Verif
