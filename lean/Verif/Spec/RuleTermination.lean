import Verif.Spec.RuleDriver

/-! # Specification: the rule driver ends -/

namespace Verif

variable {p : ℕ} {V : Type} [LinearOrder V]

/-- `n` rounds of the main loop (driver.rs:68-246), after each of which the loop goes on because the
round made progress. In each round the rules see the state at its beginning, request any new
variables with computation methods, any actions, which are applied in any order, and any
replacements, which are applied as a batch. The order of the identifiers of expressions is a strict
one. -/
inductive DriverGoesOn (rc : V → RangeConstraint p) (h : Handler p) (intBits : ℕ)
    (bound : Option DegreeBound) : ℕ → DriverState p V → DriverState p V → Prop
  | start (st) : DriverGoesOn rc h intBits bound 0 st st
  | round {n st st'} (run : DriverGoesOn rc h intBits bound n st st')
      (lt : GExpr p V → GExpr p V → Prop) (hlt : ∀ e, ¬ lt e e)
      (new : List (DerivedVariable p V)) (inp : RuleInput p V)
      (hinp : driverInput rc h lt (fun w m => ⟨w, m⟩ ∈ new) intBits st' = .ok inp)
      (actions : List (RuleAction p V)) (hactions : ∀ a ∈ actions, a.Requested inp)
      (rs : List (ReplacementAction p V)) (hrs : ∀ r ∈ rs, r.Requested inp)
      (hprogress : roundProgress st' actions new rs bound = true) :
      DriverGoesOn rc h intBits bound (n + 1) st (driverRound st' actions new rs bound)

end Verif
