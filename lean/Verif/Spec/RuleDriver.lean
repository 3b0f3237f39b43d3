import Verif.Model.RuleDriver
import Verif.Spec.Rules

/-! # Specification: what the rule driver must preserve -/

namespace Verif

open GExpr

variable {p : ℕ} {V : Type} [LinearOrder V]

/-- All constraints of the list hold. -/
def AllZero (σ : V → ZMod p) (es : List (GExpr p V)) : Prop := ∀ e ∈ es, eval σ e = 0

/-- All recorded assignments hold. -/
def AssignmentsHold (σ : V → ZMod p) (as : List (V × GExpr p V)) : Prop :=
  ∀ a ∈ as, σ a.1 = eval σ a.2

/-- The values are allowed by the range constraints on the variables. -/
def VarRangesHold (σ : V → ZMod p) (rs : List (V × RangeConstraint p)) : Prop :=
  ∀ x ∈ rs, x.2.allowsValue (σ x.1) = true

/-- Without a bound the degree of the replacement must not exceed that of what is replaced (a constant
has degree zero), with a bound it must respect that. -/
def ReplacementAction.Permitted (r : ReplacementAction p V) : Option DegreeBound → Prop
  | none => ∀ e ∈ r.replaceBy, degree e = 0 ∨ ∃ f ∈ r.replace, degree e ≤ degree f
  | some b => ∀ e ∈ r.replaceBy, degree e ≤ b.identities

/-- Any number of rounds of the main loop (driver.rs:68-246). The input of the rules is that of the
state at the beginning of the round. In each round the rules request new variables with computation
methods, actions, which are applied in any order, and replacements, which are applied as a batch.
`news` are the new variables of all rounds. Every batch meets `ok`, which relates the input of the
rules and the systems before and after the batch. -/
inductive DriverRun (rc : V → RangeConstraint p) (h : Handler p)
    (lt : GExpr p V → GExpr p V → Prop) (intBits : ℕ) (bound : Option DegreeBound)
    (ok : RuleInput p V → ConstraintSystem p V → ConstraintSystem p V → Prop) :
    DriverState p V → DriverState p V → List (DerivedVariable p V) → Prop
  | refl (st) : DriverRun rc h lt intBits bound ok st st []
  | round {st st' news} (run : DriverRun rc h lt intBits bound ok st st' news)
      (new : List (DerivedVariable p V)) (inp : RuleInput p V)
      (hinp : driverInput rc h lt (fun w m => ⟨w, m⟩ ∈ new) intBits st' = .ok inp)
      (hnew : ∀ d ∈ new, MethodRequested inp d.method)
      (actions : List (RuleAction p V)) (hactions : ∀ a ∈ actions, a.Requested inp)
      (rs : List (ReplacementAction p V)) (hrs : ∀ r ∈ rs, r.Requested inp)
      (hok : ok inp (beforeBatch st' actions new)
        (batchReplace (beforeBatch st' actions new) rs bound).2) :
      DriverRun rc h lt intBits bound ok st (driverRound st' actions new rs bound) (news ++ new)

/-- The results of all comparisons found by the rules are right under the assignment: the result is
one exactly if all limbs are zero. C29 shows this for assignments that respect the range check of the
difference. -/
def ComparisonsRight (σ : V → ZMod p)
    (ok : RuleInput p V → ConstraintSystem p V → ConstraintSystem p V → Prop) : Prop :=
  ∀ inp a b, ok inp a b → ∀ constrs result vs, Derives inp (.equalZeroCheck constrs result vs) →
    (σ result = 1 ↔ ∀ v ∈ vs, σ v = 0)

end Verif
