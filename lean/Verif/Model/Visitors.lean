import Verif.Model.Machine
import Verif.Model.Printed

/-!
# Model of the visitors of expressions

`expression/src/visitors.rs`, and their uses in `autoprecompiles/src/powdr.rs`. A closure that changes its captured
variables is a function that takes and returns a state. `ControlFlow::Break(b)` is `some b`, `Continue` is `none`.

The visitor that changes expressions in place visits the children of the changed expression, so it need not end. The
number of nested calls is bounded by an argument; `none` means that the bound was reached.
-/

namespace Verif

/-- `VisitOrder` (visitors.rs:25-29). -/
inductive VisitOrder where
  | pre
  | post
deriving DecidableEq

namespace AlgExpr

variable {T R S B : Type}

/-- `children` and `children_mut` (expression/src/lib.rs:79-91, 96-108). -/
def children : AlgExpr T R → List (AlgExpr T R)
  | reference _ => []
  | number _ => []
  | binary l _ r => [l, r]
  | minus e => [e]

/-- What is changed through the references of `children_mut` (expression/src/lib.rs:96-108). -/
def setChildren : AlgExpr T R → List (AlgExpr T R) → AlgExpr T R
  | binary _ op _, [l, r] => binary l op r
  | minus _, [e] => minus e
  | e, _ => e

/-- `all_children` (visitors.rs:130-134). -/
def allChildren : AlgExpr T R → List (AlgExpr T R)
  | reference r => [reference r]
  | number n => [number n]
  | binary l op r => binary l op r :: ([l.allChildren, r.allChildren]).flatten
  | minus e => minus e :: ([e.allChildren]).flatten

end AlgExpr

/-- The operator `?` between two steps: the second one is done unless the first one breaks. -/
def andThen {S B : Type} (a b : S → S × Option B) (s : S) : S × Option B :=
  match a s with
  | (s', some x) => (s', some x)
  | (s', none) => b s'

/-- A step that does nothing. -/
def skipStep {S B : Type} (s : S) : S × Option B := (s, none)

namespace AlgExpr

variable {T R S B : Type}

/-- `visit_expressions` (visitors.rs:114-128). -/
def visit (o : VisitOrder) (f : AlgExpr T R → S → S × Option B) : AlgExpr T R → S → S × Option B
  | reference r =>
    andThen (if o = .pre then f (reference r) else skipStep)
      (andThen skipStep (if o = .post then f (reference r) else skipStep))
  | number n =>
    andThen (if o = .pre then f (number n) else skipStep)
      (andThen skipStep (if o = .post then f (number n) else skipStep))
  | binary l op r =>
    andThen (if o = .pre then f (binary l op r) else skipStep)
      (andThen (andThen (visit o f l) (visit o f r)) (if o = .post then f (binary l op r) else skipStep))
  | minus e =>
    andThen (if o = .pre then f (minus e) else skipStep)
      (andThen (visit o f e) (if o = .post then f (minus e) else skipStep))

end AlgExpr

/-- `try_for_each` over children that are changed in place (visitors.rs:79-80, 106-107; std): the children after the first
break are left alone. -/
def visitList {S B α : Type} (v : S → α → Option (S × α × Option B)) : S → List α → Option (S × List α × Option B)
  | s, [] => some (s, [], none)
  | s, e :: t =>
    match v s e with
    | none => none
    | some (s', e', some b) => some (s', e' :: t, some b)
    | some (s', e', none) =>
      match visitList v s' t with
      | none => none
      | some (s'', t', b) => some (s'', e' :: t', b)

namespace AlgExpr

variable {T R S B : Type}

/-- `visit_expressions_mut` (visitors.rs:99-112). -/
def visitMut (o : VisitOrder) (f : S → AlgExpr T R → S × AlgExpr T R × Option B) :
    ℕ → S → AlgExpr T R → Option (S × AlgExpr T R × Option B)
  | 0, _, _ => none
  | n + 1, s, e =>
    match (if o = .pre then f s e else (s, e, none)) with
    | (s1, e1, some b) => some (s1, e1, some b)
    | (s1, e1, none) =>
      match visitList (visitMut o f n) s1 e1.children with
      | none => none
      | some (s2, cs, some b) => some (s2, e1.setChildren cs, some b)
      | some (s2, cs, none) =>
        if o = .post then some (f s2 (e1.setChildren cs)) else some (s2, e1.setChildren cs, none)

/-- `pre_visit_expressions_mut` and `post_visit_expressions_mut` (visitors.rs:40-66) with a closure that captures nothing
it changes. -/
def updateAll (o : VisitOrder) (g : AlgExpr T R → AlgExpr T R) (n : ℕ) (e : AlgExpr T R) : Option (AlgExpr T R) :=
  (visitMut o (fun (_ : Unit) e => ((), g e, (none : Option Unit))) n () e).map fun x => x.2.1

/-- `substitute_subexpressions` (powdr.rs:25-34). -/
def substituteSubexpressions (sub : AlgExpr T R → Option (AlgExpr T R)) (n : ℕ) (e : AlgExpr T R) :
    Option (AlgExpr T R) :=
  updateAll .pre (fun e => (sub e).getD e) n e

end AlgExpr

namespace SymMachine

variable {T R : Type}

/-- `pre_visit_expressions_mut` of a machine (visitors.rs:40-52, 74-81) with a closure that captures nothing it changes:
the expressions of the constraints, then those of the bus interactions (symbolic_machine.rs:211-222, 65-67, 103-105). -/
def updateAll (g : AlgExpr T R → AlgExpr T R) (n : ℕ) (m : SymMachine T R) : Option (SymMachine T R) := do
  let constraints ← m.constraints.mapM (AlgExpr.updateAll .pre g n)
  let bus ← m.bus.mapM fun b => do
    let mult ← b.mult.updateAll .pre g n
    let args ← b.args.mapM (AlgExpr.updateAll .pre g n)
    pure ⟨b.id, mult, args⟩
  pure ⟨constraints, bus, m.derived⟩

/-- `all_children` of a machine (visitors.rs:93-97). -/
def allChildren (m : SymMachine T R) : List (AlgExpr T R) := m.exprs.flatMap AlgExpr.allChildren

/-- `unique_references` with names (powdr.rs:45-57). -/
def uniqueReferences (m : SymMachine T SavedRef) : List SavedRef :=
  (m.allChildren.filterMap fun e =>
    match e with
    | .reference r => some r
    | _ => none).foldl (fun l r => insertColumn r l) []

/-- `globalized_name` (powdr.rs:93): the suffix is a number. -/
def globalizedName (suffix : ℕ) (name : List Char) : List Char := name ++ '_' :: Nat.toDigits 10 suffix

/-- `name_by_id` (powdr.rs:94-97). -/
def nameById (m : SymMachine T SavedRef) (suffix : ℕ) : List (ℕ × List Char) :=
  m.uniqueReferences.map fun r => (r.id, globalizedName suffix r.name)

/-- The closure (powdr.rs:100-104). `unwrap` of nothing is a panic, here: the name is kept, and
`globalizeReferenceNames` checks that it does not happen. -/
def renameReference (names : List (ℕ × List Char)) : AlgExpr T SavedRef → AlgExpr T SavedRef
  | .reference r => .reference ⟨(names.lookup r.id).getD r.name, r.id⟩
  | e => e

/-- `globalize_reference_names` (powdr.rs:88-107). The inner option is a panic. -/
def globalizeReferenceNames (n : ℕ) (m : SymMachine T SavedRef) (suffix : ℕ) : Option (Option (SymMachine T SavedRef)) :=
  if m.refs.all fun r => ((m.nameById suffix).lookup r.id).isSome then
    (m.updateAll (renameReference (m.nameById suffix)) n).map some
  else some none

end SymMachine
end Verif
