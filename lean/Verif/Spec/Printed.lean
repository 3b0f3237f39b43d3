import Verif.Model.Printed
import Verif.Spec.Expression
import Verif.Spec.Eval
import Verif.Spec.SymbolicValue

/-!
# Specification of printed expressions

How a person reads a printed expression: the usual rules of arithmetic, as a grammar.
-/

namespace Verif

/-- The operators of printed expressions. -/
inductive TextOp where
  | add
  | sub
  | mul
  | div
deriving DecidableEq

/-- How an operator is written. -/
def TextOp.char : TextOp → Char
  | .add => '+'
  | .sub => '-'
  | .mul => '*'
  | .div => '/'

/-- What is read. -/
inductive TextTree where
  | num (n : ℕ)
  | name (s : List Char)
  | neg (t : TextTree)
  | bin (op : TextOp) (a b : TextTree)
deriving DecidableEq

/-- Characters that have a meaning in printed expressions and machines, and white space. -/
def IsSpecial (c : Char) : Prop := c ∈ "()+-*/,[]=".toList ∨ isWhiteSpace c = true

/-- A name: at least one character, none with a meaning, not all of them digits. -/
def IsName (s : List Char) : Prop := s ≠ [] ∧ (∀ c ∈ s, ¬ IsSpecial c) ∧ ∃ c ∈ s, c.isDigit = false

/-- The levels of the grammar. -/
inductive TextLevel where
  | atom
  | factor
  | product
  | sum

/-- The grammar. An atom is a decimal number, a name or a sum in parentheses; a factor is an atom with any number of
minus signs in front; a product consists of factors, a sum of products, and both are read from left to right. -/
inductive Reads : TextLevel → List Char → TextTree → Prop
  | num (n : ℕ) : Reads .atom (toString n).toList (.num n)
  | name (s : List Char) (h : IsName s) : Reads .atom s (.name s)
  | parentheses (s : List Char) (t : TextTree) (h : Reads .sum s t) : Reads .atom ('(' :: s ++ [')']) t
  | atom (s : List Char) (t : TextTree) (h : Reads .atom s t) : Reads .factor s t
  | neg (s : List Char) (t : TextTree) (h : Reads .factor s t) : Reads .factor ('-' :: s) (.neg t)
  | factor (s : List Char) (t : TextTree) (h : Reads .factor s t) : Reads .product s t
  | times (s s' : List Char) (op : TextOp) (t t' : TextTree) (ho : op = .mul ∨ op = .div) (h : Reads .product s t)
    (h' : Reads .factor s' t') : Reads .product (s ++ ' ' :: op.char :: ' ' :: s') (.bin op t t')
  | product (s : List Char) (t : TextTree) (h : Reads .product s t) : Reads .sum s t
  | plus (s s' : List Char) (op : TextOp) (t t' : TextTree) (ho : op = .add ∨ op = .sub) (h : Reads .sum s t)
    (h' : Reads .product s' t') : Reads .sum (s ++ ' ' :: op.char :: ' ' :: s') (.bin op t t')

/-- The value of what is read, where names have the given values. There is none if something is divided by zero. -/
def TextTree.value {p : ℕ} [Fact p.Prime] (env : List Char → ZMod p) : TextTree → Option (ZMod p)
  | .num n => some n
  | .name s => some (env s)
  | .neg t => (t.value env).map fun x => -x
  | .bin op a b =>
    match a.value env, b.value env, op with
    | some x, some y, .add => some (x + y)
    | some x, some y, .sub => some (x - y)
    | some x, some y, .mul => some (x * y)
    | some x, some y, .div => if y = 0 then none else some (x / y)
    | _, _, _ => none

/-- The operators of algebraic expressions. -/
def AlgOp.textOp : AlgOp → TextOp
  | .add => .add
  | .sub => .sub
  | .mul => .mul

/-- An algebraic expression as it should be read. -/
def AlgExpr.textTree {p : ℕ} {R : Type} (name : R → List Char) : AlgExpr (ZMod p) R → TextTree
  | .reference r => .name (name r)
  | .number n => .num n.val
  | .binary l op r => .bin op.textOp (l.textTree name) (r.textTree name)
  | .minus e => .neg (e.textTree name)

/-- The references of the machines have names, and different references different ones. -/
def GoodNames (l : List SavedRef) : Prop :=
  (∀ r ∈ l, IsName r.name) ∧ ∀ r ∈ l, ∀ r' ∈ l, r.name = r'.name → r = r'

end Verif
