import Verif.Model.Extraction
import Verif.Spec.Expression

/-!
# Specification: what an AIR means, and which AIRs can be extracted
-/

namespace Verif

section
variable {F : Type} [CommRing F]

/-- The values that an AIR of OpenVM sees on a row: the parts of the main trace on this row and on the ones after it, the
columns of other traces, and the three selectors. -/
structure AirEnv (F : Type) where
  main : ℕ → ℕ → ℕ → F
  other : ℕ → ℕ → F
  first : F
  last : F
  transition : F

/-- The value of an expression of an AIR. -/
def AirExpr.value (env : AirEnv F) : AirExpr F → F
  | .constant c => c
  | .column (.main part offset) index => env.main part offset index
  | .column (.other kind) index => env.other kind index
  | .isFirstRow => env.first
  | .isLastRow => env.last
  | .isTransition => env.transition
  | .add x y => x.value env + y.value env
  | .sub x y => x.value env - y.value env
  | .mul x y => x.value env * y.value env
  | .neg x => -x.value env

/-- The message of an interaction of an AIR. -/
def AirInteraction.message' (env : AirEnv F) (i : AirInteraction F) : ℕ × F × List F :=
  (i.busIndex, i.count.value env, i.message.map (AirExpr.value env))

/-- The machine says the same about the current row as the AIR: the same constraints, in order, each of which holds if and
only if that of the AIR does, the same messages on the same buses, no computed columns, and only columns that the AIR
has. -/
structure SymMachine.Agrees (m : SymMachine F ℕ) (a : VmAir F) : Prop where
  constraints : ∀ env : AirEnv F, List.Forall₂
    (fun c e => c.value (env.main 0 0) = 0 ↔ AirExpr.value env e = 0) m.constraints a.constraints
  messages : ∀ env : AirEnv F,
    m.bus.map (SymBus.message (env.main 0 0)) = a.interactions.map (AirInteraction.message' env)
  derived : m.derived = []
  columns : ∀ r ∈ m.refs, r < a.width
end

section
variable {F : Type}

/-- All variables of the expression satisfy `ok`, given the entry and the index; the selectors are allowed or not. -/
def AirExpr.All (ok : AirEntry → ℕ → Prop) (selectors : Prop) : AirExpr F → Prop
  | .constant _ => True
  | .column entry index => ok entry index
  | .isFirstRow => selectors
  | .isLastRow => selectors
  | .isTransition => selectors
  | .add x y => x.All ok selectors ∧ y.All ok selectors
  | .sub x y => x.All ok selectors ∧ y.All ok selectors
  | .mul x y => x.All ok selectors ∧ y.All ok selectors
  | .neg x => x.All ok selectors

/-- Only columns of the first part of the main trace, on the current row. -/
def AirExpr.CurrentRow (width : ℕ) (e : AirExpr F) : Prop :=
  e.All (fun entry index => entry = .main 0 0 ∧ index < width) False

/-- Only columns of the first part of the main trace, on the current or the next row, and selectors. -/
def AirExpr.TwoRows (width : ℕ) (e : AirExpr F) : Prop :=
  e.All (fun entry index => (entry = .main 0 0 ∨ entry = .main 0 1) ∧ index < width) True

/-- The expressions of an AIR. -/
def VmAir.exprs (a : VmAir F) : List (AirExpr F) :=
  a.constraints ++ a.interactions.flatMap fun i => i.count :: i.message

/-- The names of the columns, if there are any, are as many as the columns. -/
def VmAir.NamesFit (a : VmAir F) : Prop := ∀ l, a.columnNames = some l → l.length = a.width

/-- An AIR that can be extracted. -/
def VmAir.Supported (a : VmAir F) : Prop := a.NamesFit ∧ ∀ e ∈ a.exprs, e.CurrentRow a.width

/-- The AIR that implements an opcode. -/
def VmInventory.AirOf (v : VmInventory F) (op : ℕ) (a : VmAir F) : Prop :=
  ∃ executor i, v.instructionLookup op = some executor ∧ v.insertionIndex[executor]? = some i ∧ v.extAirs[i]? = some a

/-- The AIR with this name that is the first to be extracted. -/
def VmInventory.FirstNamed (v : VmInventory F) (allowed : List ℕ) (name : String) (a : VmAir F) : Prop :=
  ∃ before op after, allowed = before ++ op :: after ∧ v.AirOf op a ∧ a.name = name ∧
    ∀ x ∈ before, ∀ b, v.AirOf x b → b.name ≠ name

end

end Verif
