import Mathlib.Algebra.MvPolynomial.Degrees
import Verif.Spec.Expression

/-!
# Specification of degrees: the polynomial of a symbolic expression
-/

namespace Verif

/-- The polynomial that a symbolic expression denotes. -/
noncomputable def AlgExpr.poly {p : ℕ} {R : Type} : AlgExpr (ZMod p) R → MvPolynomial R (ZMod p)
  | .reference r => MvPolynomial.X r
  | .number n => MvPolynomial.C n
  | .binary l .add r => l.poly + r.poly
  | .binary l .sub r => l.poly - r.poly
  | .binary l .mul r => l.poly * r.poly
  | .minus e => - e.poly

end Verif
