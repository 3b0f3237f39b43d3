import Verif.Model.Saved
import Verif.Spec.Expression
import Verif.Spec.Eval

/-!
# Specification of saved expressions
-/

namespace Verif

/-- The value of a saved expression where the column with number `i` has the value `σ i`: a number below the
characteristic stands for itself, `"name@i"` for column `i`, `[a, "+", b]` for a sum, `[a, "-", b]` for a difference,
`[a, "*", b]` for a product and `["-", a]` for a negation. -/
inductive JsonDenotes {p : ℕ} (σ : ℕ → ZMod p) : Json → ZMod p → Prop
  | number (n : ℕ) (h : n < p) : JsonDenotes σ (.num n) n
  | reference (name : List Char) (i : ℕ) : JsonDenotes σ (.str (name ++ "@".toList ++ (toString i).toList)) (σ i)
  | add (a b : Json) (x y : ZMod p) (ha : JsonDenotes σ a x) (hb : JsonDenotes σ b y) :
    JsonDenotes σ (.arr [a, .str "+".toList, b]) (x + y)
  | sub (a b : Json) (x y : ZMod p) (ha : JsonDenotes σ a x) (hb : JsonDenotes σ b y) :
    JsonDenotes σ (.arr [a, .str "-".toList, b]) (x - y)
  | mul (a b : Json) (x y : ZMod p) (ha : JsonDenotes σ a x) (hb : JsonDenotes σ b y) :
    JsonDenotes σ (.arr [a, .str "*".toList, b]) (x * y)
  | neg (a : Json) (x : ZMod p) (ha : JsonDenotes σ a x) : JsonDenotes σ (.arr [.str "-".toList, a]) (-x)

/-- All references of the expression satisfy `P`. -/
def AlgExpr.AllRefs {T R : Type} (P : R → Prop) (e : AlgExpr T R) : Prop := ∀ r ∈ e.refs, P r

/-- All references of the method of a derived column satisfy `P`. -/
def SymMethod.AllRefs {T R : Type} (P : R → Prop) : SymMethod T R → Prop
  | .constant _ => True
  | .quotientOrZero e1 e2 => e1.AllRefs P ∧ e2.AllRefs P

/-- All references of the machine, also of its derived columns, satisfy `P`, and its bus numbers have 64 bits. -/
structure SymMachine.Storable {T R : Type} (P : R → Prop) (m : SymMachine T R) : Prop where
  constraints : ∀ e ∈ m.constraints, e.AllRefs P
  bus : ∀ b ∈ m.bus, b.id < 2 ^ 64 ∧ b.mult.AllRefs P ∧ ∀ e ∈ b.args, e.AllRefs P
  derived : ∀ d ∈ m.derived, P d.1 ∧ d.2.AllRefs P

/-- The method of a derived column of a machine and that of a constraint system compute the same value. -/
inductive MethodAgrees {p : ℕ} {V : Type} (σ : V → ZMod p) :
    SymMethod (ZMod p) V → ComputationMethod p (GExpr p V) → Prop
  | constant (c : ZMod p) : MethodAgrees σ (.constant c) (.constant c)
  | quotient (e1 e2 : AlgExpr (ZMod p) V) (g1 g2 : GExpr p V) (h1 : e1.value σ = g1.eval σ)
    (h2 : e2.value σ = g2.eval σ) : MethodAgrees σ (.quotientOrZero e1 e2) (.quotientOrZero g1 g2)

/-- A machine and a constraint system have the same constraints, bus interactions and derived columns, in the same
order, up to the form of the expressions. -/
structure MachineAgrees {p : ℕ} {V : Type} (σ : V → ZMod p) (m : SymMachine (ZMod p) V) (s : ConstraintSystem p V) :
    Prop where
  constraints : m.constraints.map (AlgExpr.value σ) = s.algebraic.map (GExpr.eval σ)
  ids : m.bus.map (fun b => (b.id : ZMod p)) = s.bus.map fun b => b.busId.eval σ
  mults : m.bus.map (fun b => b.mult.value σ) = s.bus.map fun b => b.multiplicity.eval σ
  args : m.bus.map (fun b => b.args.map (AlgExpr.value σ)) = s.bus.map fun b => b.payload.map (GExpr.eval σ)
  columns : m.derived.map Prod.fst = s.derived.map fun d => d.column
  derived : List.Forall₂ (fun d d' => MethodAgrees σ d.2 d'.method) m.derived s.derived

/-- All variables of the constraint system satisfy `P`, and the numbers of its buses are constants. -/
structure ConstraintSystem.Storable {p : ℕ} {V : Type} (P : V → Prop) (s : ConstraintSystem p V) : Prop where
  constraints : ∀ e ∈ s.algebraic, ∀ v, GExpr.Occurs v e → P v
  ids : ∀ b ∈ s.bus, ∃ c, b.busId = .mk [] [] c
  bus : ∀ b ∈ s.bus, ∀ e ∈ b.multiplicity :: b.payload, ∀ v, GExpr.Occurs v e → P v
  columns : ∀ d ∈ s.derived, P d.column
  derived : ∀ d ∈ s.derived, ∀ e1 e2, d.method = .quotientOrZero e1 e2 → ∀ v, GExpr.Occurs v e1 ∨ GExpr.Occurs v e2 → P v

end Verif
