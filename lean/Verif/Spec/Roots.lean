import Verif.Model.Solve

/-!
# Specification vocabulary: products of linear factors in one variable
-/

namespace Verif

open GExpr

variable {p : ℕ} {V : Type}

/-- The expression is a product of factors `k * x + c`, `k ≠ 0`, in any nesting; the list has the root of each
factor. -/
inductive ProductOf (x : V) : List (ZMod p) → GExpr p V → Prop where
  | factor {k c s : ZMod p} (hk : k ≠ 0) (hs : k * s + c = 0) : ProductOf x [s] (mk [] [(x, k)] c)
  | product {S T : List (ZMod p)} {a b : GExpr p V} (ha : ProductOf x S a) (hb : ProductOf x T b) :
      ProductOf x (S ++ T) (mk [(a, b)] [] 0)

end Verif
