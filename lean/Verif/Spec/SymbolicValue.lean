import Verif.Model.SymbolicValue

/-!
# What values known at run time stand for
-/

namespace Verif

variable {p : ℕ} {S : Type}

namespace SymExpr

/-- The value of an expression; there is none if something is divided by zero. -/
def value [Fact p.Prime] (env : S → ZMod p) : SymExpr p S → Option (ZMod p)
  | .concrete n => some n
  | .symbol s _ => some (env s)
  | .unaryNeg e _ => (e.value env).map fun x => -x
  | .binary l op r _ =>
    match l.value env, r.value env, op with
    | some x, some y, .add => some (x + y)
    | some x, some y, .sub => some (x - y)
    | some x, some y, .mul => some (x * y)
    | some x, some y, .div => if y = 0 then none else some (x / y)
    | _, _, _ => none

/-- The annotations are right: whenever a part has a value, its range constraint allows it. -/
def Annotated [Fact p.Prime] (env : S → ZMod p) : SymExpr p S → Prop
  | .concrete _ => True
  | .symbol s rc => rc.allowsValue (env s) = true
  | .unaryNeg e rc => e.Annotated env ∧ ∀ v, (SymExpr.unaryNeg e rc).value env = some v → rc.allowsValue v = true
  | .binary l op r rc => l.Annotated env ∧ r.Annotated env ∧ ∀ v, (SymExpr.binary l op r rc).value env = some v → rc.allowsValue v = true

/-- The symbol occurs. -/
def Mentions (s : S) : SymExpr p S → Prop
  | .concrete _ => False
  | .symbol s' _ => s' = s
  | .unaryNeg e _ => e.Mentions s
  | .binary l _ r _ => l.Mentions s ∨ r.Mentions s

/-- An expression has the value, and its annotations are right. -/
def Is [Fact p.Prime] (env : S → ZMod p) (e : SymExpr p S) (v : ZMod p) : Prop :=
  e.value env = some v ∧ e.Annotated env

end SymExpr

end Verif
