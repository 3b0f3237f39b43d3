import Verif.Model.TraceGen
import Verif.Spec.Expression

/-!
# Specification: the rows a precompile is made of
-/

namespace Verif

/-- The instructions lead from one state to another and produce the records, one each. -/
inductive Runs {I S R : Type} (step : I → S → Option (S × R)) : List I → S → List R → S → Prop
  | nil (s : S) : Runs step [] s [] s
  | cons {i : I} {is : List I} {s s' s'' : S} {r : R} {rs : List R} (h : step i s = some (s', r))
      (t : Runs step is s' rs s'') : Runs step (i :: is) s (r :: rs) s''

/-- One call of the precompile: the state before, the records of its instructions and the state after. -/
structure CallLog (S R : Type) where
  before : S
  records : List R
  after : S

/-- The instructions of the call that have a column in the precompile: the chip and the record. -/
def keptRecords {A R : Type} (airs : List A) (subs : List (List (ℕ × ℕ))) (records : List R) : List (A × R) :=
  (((airs.zip subs).zip records).filter fun x => decide (x.1.2 ≠ [])).map fun x => (x.1.1, x.2)

/-- The chips of the instructions that have a column in the precompile. -/
def keptAirs {A : Type} (airs : List A) (subs : List (List (ℕ × ℕ))) : List A :=
  ((airs.zip subs).filter fun x => !x.2.isEmpty).map Prod.fst

/-- The instructions that have a column in the precompile: the chip and the substitutions. -/
def keptInstrs {A : Type} (airs : List A) (subs : List (List (ℕ × ℕ))) : List (A × List (ℕ × ℕ)) :=
  (airs.zip subs).filter fun x => !x.2.isEmpty

/-- The chips of the original instructions write a row of fixed width for every record, in order, and then padding. -/
def WritesRows {A R F : Type} (gen : A → List R → DummyTrace F) (width : A → ℕ) (row : A → R → List F) : Prop :=
  (∀ a r, (row a r).length = width a) ∧
  ∀ a rs, (gen a rs).width = width a ∧ ∃ padding, (gen a rs).values = rs.flatMap (row a) ++ padding

/-- The columns used to compute a column. -/
def SymMethod.refs {T R : Type} : SymMethod T R → List R
  | constant _ => []
  | quotientOrZero e1 e2 => e1.refs ++ e2.refs

/-- The column is filled from an original row. -/
def IsCopied (subs : List (List (ℕ × ℕ))) (id : ℕ) : Prop := ∃ s ∈ subs, ∃ c, (c, id) ∈ s

/-- All columns of the machine can be filled: copied columns are columns of the machine, computed columns are columns of
the machine and use only columns of the machine that are copied or computed before, and there are no others. -/
structure Fillable {T : Type} (m : SymMachine T ℕ) (subs : List (List (ℕ × ℕ))) : Prop where
  copied : ∀ id, IsCopied subs id → id ∈ m.refs
  computed : ∀ before d after, m.derived = before ++ d :: after → d.1 ∈ m.refs ∧
    ∀ r ∈ d.2.refs, r ∈ m.refs ∧ (IsCopied subs r ∨ ∃ d' ∈ before, d'.1 = r)
  covered : ∀ id ∈ m.refs, IsCopied subs id ∨ ∃ d ∈ m.derived, d.1 = id

/-- The assignment has the values of the original rows in the copied columns, and the computed columns have the value
they should have. -/
structure Explains {A R F : Type} [Field F] [DecidableEq F] (m : SymMachine F ℕ) (airs : List A)
    (subs : List (List (ℕ × ℕ))) (row : A → R → List F) (records : List R) (σ : ℕ → F) : Prop where
  copied : ∀ (k : ℕ) (a : A) (s : List (ℕ × ℕ)) (r : R), airs[k]? = some a → subs[k]? = some s →
    records[k]? = some r → ∀ c id, (c, id) ∈ s → (row a r)[c]? = some (σ id)
  computed : ∀ d ∈ m.derived, σ d.1 = d.2.value σ

/-- The value of a column in a row of the matrix. -/
def columnValue {F : Type} [Zero F] (columns : List ℕ) (row : List F) (id : ℕ) : F :=
  row.getD (columns.idxOf id) 0

end Verif
