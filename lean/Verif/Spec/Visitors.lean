import Verif.Model.Visitors

/-!
# Specification: the order of visits, and what is replaced
-/

namespace Verif
namespace AlgExpr

variable {T R : Type}

/-- An expression, then its parts from left to right. -/
def preorder : AlgExpr T R → List (AlgExpr T R)
  | reference r => [reference r]
  | number n => [number n]
  | binary l op r => binary l op r :: (preorder l ++ preorder r)
  | minus e => minus e :: preorder e

/-- The parts from left to right, then the expression. -/
def postorder : AlgExpr T R → List (AlgExpr T R)
  | reference r => [reference r]
  | number n => [number n]
  | binary l op r => postorder l ++ postorder r ++ [binary l op r]
  | minus e => postorder e ++ [minus e]

/-- The expressions in the given order. -/
def inOrder : VisitOrder → AlgExpr T R → List (AlgExpr T R)
  | .pre => preorder
  | .post => postorder

/-- The first expression is the second one or a part of it. -/
inductive PartOf : AlgExpr T R → AlgExpr T R → Prop
  | refl (e : AlgExpr T R) : PartOf e e
  | left {e l r : AlgExpr T R} {op : AlgOp} : PartOf e l → PartOf e (binary l op r)
  | right {e l r : AlgExpr T R} {op : AlgOp} : PartOf e r → PartOf e (binary l op r)
  | minus {e e' : AlgExpr T R} : PartOf e e' → PartOf e (minus e')

/-- The function is applied to the references; the rest stays. -/
def replaceRefs (g : R → AlgExpr T R) : AlgExpr T R → AlgExpr T R
  | reference r => g r
  | number n => number n
  | binary l op r => binary (replaceRefs g l) op (replaceRefs g r)
  | minus e => minus (replaceRefs g e)

/-- The function is applied to all expressions, after it was applied to their parts. -/
def fromBottom (g : AlgExpr T R → AlgExpr T R) : AlgExpr T R → AlgExpr T R
  | reference r => g (reference r)
  | number n => g (number n)
  | binary l op r => g (binary (fromBottom g l) op (fromBottom g r))
  | minus e => g (minus (fromBottom g e))

/-- The outermost expressions that have a replacement are replaced by it. -/
inductive Replaced (sub : AlgExpr T R → Option (AlgExpr T R)) : AlgExpr T R → AlgExpr T R → Prop
  | key {k v : AlgExpr T R} : sub k = some v → Replaced sub k v
  | reference {r : R} : sub (reference r) = none → Replaced sub (reference r) (reference r)
  | number {n : T} : sub (number n) = none → Replaced sub (number n) (number n)
  | binary {l l' r r' : AlgExpr T R} {op : AlgOp} : sub (binary l op r) = none → Replaced sub l l' →
      Replaced sub r r' → Replaced sub (binary l op r) (binary l' op r')
  | minus {e e' : AlgExpr T R} : sub (minus e) = none → Replaced sub e e' → Replaced sub (minus e) (minus e')

/-- The value of an expression in a ring. -/
def valueIn {F : Type} [CommRing F] (σ : R → F) (e : AlgExpr F R) : F :=
  e.toExpression (· + ·) (· - ·) (· * ·) (- ·) id σ

end AlgExpr

/-- The function is called on one expression after the other, until it breaks. -/
def callUntilBreak {α S B : Type} (f : α → S → S × Option B) : List α → S → S × Option B
  | [], s => (s, none)
  | e :: t, s =>
    match f e s with
    | (s', some b) => (s', some b)
    | (s', none) => callUntilBreak f t s'

namespace SymMachine

variable {T R : Type}

/-- The function is applied to all references of the constraints and bus interactions. -/
def onRefs (g : R → R) (m : SymMachine T R) : SymMachine T R where
  constraints := m.constraints.map (AlgExpr.mapRefs g)
  bus := m.bus.map fun b => ⟨b.id, b.mult.mapRefs g, b.args.map (AlgExpr.mapRefs g)⟩
  derived := m.derived

/-- The name of the last reference with this id, in the order of visits. -/
def lastName (m : SymMachine T SavedRef) (id : ℕ) : Option (List Char) :=
  (m.refs.reverse.find? fun r => r.id = id).map SavedRef.name

end SymMachine
end Verif
