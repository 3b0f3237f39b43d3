import Verif.Spec.Reachability
import Verif.Spec.Eval

/-! # Specification of free variables -/

namespace Verif

open GExpr

variable {p : ℕ} {V : Type}

/-- The variable is one of the linear terms of the expression and does not occur elsewhere in it, or
the expression is a product with such a factor. -/
inductive SolvableFor (x : V) : GExpr p V → Prop
  | linear (q l c k) (h : (x, k) ∈ l) (hq : ∀ ab ∈ q, ¬ Occurs x ab.1 ∧ ¬ Occurs x ab.2) :
      SolvableFor x (mk q l c)
  | left (a b) (h : SolvableFor x a) : SolvableFor x (mk [(a, b)] [] 0)
  | right (a b) (h : SolvableFor x b) : SolvableFor x (mk [(a, b)] [] 0)

/-- The variable occurs in the constraint and in no other constraint of the system. -/
inductive OnlyIn (s : ConstraintSystem p V) (x : V) : ConstraintRef p V → Prop
  | alg (l e r) (h : s.algebraic = l ++ e :: r) (ho : Occurs x e) (hl : ∀ e' ∈ l, ¬ Occurs x e')
      (hr : ∀ e' ∈ r, ¬ Occurs x e') (hb : ∀ b ∈ s.bus, ∀ f ∈ b.fields, ¬ Occurs x f) :
      OnlyIn s x (.alg e)
  | bus (l b r) (h : s.bus = l ++ b :: r) (ho : ∃ f ∈ b.fields, Occurs x f)
      (hl : ∀ b' ∈ l, ∀ f ∈ b'.fields, ¬ Occurs x f) (hr : ∀ b' ∈ r, ∀ f ∈ b'.fields, ¬ Occurs x f)
      (ha : ∀ e ∈ s.algebraic, ¬ Occurs x e) : OnlyIn s x (.bus b)

/-- The constraint can be solved for the variable, or it is a stateless bus interaction with exactly
one field in the payload that is not a number, in which the variable has degree at most one. -/
def RemovableVia [DecidableEq V] (isStateful : ZMod p → Bool) (x : V) : ConstraintRef p V → Prop
  | .alg e => SolvableFor x e
  | .bus b => (∃ id, b.busId = const id ∧ isStateful id = false) ∧
      ∃ l f r, b.payload = l ++ f :: r ∧ (∀ g ∈ l ++ r, ∃ k, g = const k) ∧ (∀ k, f ≠ const k) ∧
        f.degreeOf x ≤ 1

end Verif
