import Verif.Spec.Eval

/-!
# What could still be inlined
-/

namespace Verif

namespace GExpr

variable {p : ℕ} {V : Type}

/-- The expression is `k * x + rest`, where `x` does not occur in the rest. -/
def LinearIn (x : V) (e : GExpr p V) : Prop :=
  (∃ k, (x, k) ∈ e.linear) ∧ ∀ ab ∈ e.quadratic, ¬ ab.1.Occurs x ∧ ¬ ab.2.Occurs x

/-- The expression without its linear term for `x`. -/
def without [DecidableEq V] (x : V) (e : GExpr p V) : GExpr p V :=
  mk e.quadratic (e.linear.filter fun t => t.1 ≠ x) e.constant

/-- The expression has a term of degree `n`, if `x` is replaced by an expression of degree `d` and
nothing is multiplied out or cancelled. -/
inductive TermDegree (x : V) (d : ℕ) : GExpr p V → ℕ → Prop
  | constant (e) : TermDegree x d e 0
  | replaced (q l c k) (h : (x, k) ∈ l) : TermDegree x d (mk q l c) d
  | other (q l c v k) (h : (v, k) ∈ l) (hv : v ≠ x) : TermDegree x d (mk q l c) 1
  | product (q l c a b m n) (h : (a, b) ∈ q) (ha : TermDegree x d a m) (hb : TermDegree x d b n) :
      TermDegree x d (mk q l c) (m + n)

end GExpr

/-- All substitutions in an expression, in the order in which they were made (the list has the
latest first). -/
def substituteAll {p : ℕ} {V : Type} [LinearOrder V] (subs : List (V × GExpr p V))
    (e : GExpr p V) : GExpr p V :=
  subs.foldr (fun y e => GExpr.subst y.1 y.2 e) e

end Verif
