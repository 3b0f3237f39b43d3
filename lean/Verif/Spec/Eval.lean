import Verif.Model.GroupedExpression

/-!
# Specification: the value of a grouped expression

`evalIn φ σ e` is the value of the sum of products `e` in a commutative ring, where
constants are read by `φ` and variables by `σ`. `eval` is the case of field elements.
-/

namespace Verif.GExpr

variable {p : ℕ} {V : Type}

section
variable {R : Type} [CommRing R] (φ : ZMod p →+* R) (σ : V → R)

mutual
/-- Sum of the quadratic terms, the linear terms and the constant. -/
def evalIn : GExpr p V → R
  | mk q l c => evalInQ q + (l.map fun e => φ e.2 * σ e.1).sum + φ c
/-- Sum of the quadratic terms. -/
def evalInQ : List (GExpr p V × GExpr p V) → R
  | [] => 0
  | (a, b) :: t => evalIn a * evalIn b + evalInQ t
end
end

/-- The value of an expression under an assignment of field elements to variables. -/
def eval (σ : V → ZMod p) (e : GExpr p V) : ZMod p := evalIn (RingHom.id _) σ e

/-- `x` occurs in the expression. -/
inductive Occurs (x : V) : GExpr p V → Prop
  | linear (q l c k) (h : (x, k) ∈ l) : Occurs x (mk q l c)
  | left (q l c a b) (h : (a, b) ∈ q) (h' : Occurs x a) : Occurs x (mk q l c)
  | right (q l c a b) (h : (a, b) ∈ q) (h' : Occurs x b) : Occurs x (mk q l c)

/-- The expression stores no linear term with coefficient zero, no variable twice among its
linear terms (which are sorted), and no quadratic term one of whose factors is a constant. -/
inductive WF [LinearOrder V] : GExpr p V → Prop
  | mk (q l c)
    (left : ∀ ab ∈ q, WF ab.1) (right : ∀ ab ∈ q, WF ab.2)
    (leftUnknown : ∀ ab ∈ q, ¬ ∃ k, ab.1 = mk [] [] k)
    (rightUnknown : ∀ ab ∈ q, ¬ ∃ k, ab.2 = mk [] [] k)
    (sorted : l.Pairwise fun e f => e.1 < f.1)
    (nonzero : ∀ e ∈ l, e.2 ≠ 0) : WF (mk q l c)

end Verif.GExpr
