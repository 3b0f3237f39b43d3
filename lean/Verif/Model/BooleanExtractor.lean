import Verif.Model.Indexed

/-!
# Boolean extraction

Model of `constraint-solver/src/solver/boolean_extractor.rs`.
-/

namespace Verif

open GExpr

variable {p : ℕ} {V : Type}

/-- `try_to_abs_u64` (boolean_extractor.rs:151-155). -/
def tryToAbsU64 (x : ZMod p) : Option ℕ :=
  if p < 2 ^ 64 then some (min x.val (p - x.val)) else none

/-- Comparison of the keys in `min_by_key` (boolean_extractor.rs:119-122): `None` is smaller
than `Some`. -/
def absLe : Option ℕ → Option ℕ → Bool
  | none, _ => true
  | some _, none => false
  | some a, some b => a ≤ b

/-- `BooleanExtractor` (boolean_extractor.rs:14-25). The hash map is an association list, the
first entry counts. -/
abbrev BooleanSubs (p : ℕ) (V : Type) := List (GExpr p V × Option V)

/-- `BooleanExtractionValue` (boolean_extractor.rs:27-30). -/
structure BooleanExtraction (p : ℕ) (V : Type) where
  constraint : GExpr p V
  newVar : Option V

section
variable [LinearOrder V]

/-- The factor by which the left side is scaled (boolean_extractor.rs:71-81). A stored coefficient
is not zero (C09). -/
def extractionFactor (left right : GExpr p V) : ZMod p :=
  match left.linear, right.linear with
  | (lv, lc) :: _, (rv, rc) :: _ => if lv = rv then rc * lc⁻¹ else 1
  | _, _ => 1

/-- The expression with the smaller constant offset (boolean_extractor.rs:114-123). -/
def extractionExpr (right : GExpr p V) (offset : ZMod p) : GExpr p V :=
  let other := (-right) - const offset
  if absLe (tryToAbsU64 right.constant) (tryToAbsU64 other.constant) then right else other

/-- `substitutions.contains_key`. -/
def BooleanSubs.contains (subs : BooleanSubs p V) (e : GExpr p V) : Bool :=
  subs.any fun x => x.1 = e

/-- `try_extract_boolean` (boolean_extractor.rs:48-148). `z` is the variable that `var_dispenser`
returns if it is called, which is the case exactly if it is the `newVar` of the result. -/
def tryExtractBoolean (subs : BooleanSubs p V) (e : GExpr p V) (z : V) :
    Option (BooleanExtraction p V × BooleanSubs p V) :=
  match e.tryAsSingleProduct with
  | none => none
  | some (left, right) =>
    match (scale (extractionFactor left right) left - right).tryToKnown with
    | none => none
    | some offset =>
      if offset = 0 then
        if subs.contains right then none
        else some (⟨right, none⟩, (right, none) :: subs)
      else
        let expr := extractionExpr right offset
        let key := scale offset⁻¹ (-expr)
        if subs.contains key then none
        else if key.tryToSimpleUnknown.isSome then none
        else some (⟨expr + scale offset (var z), some z⟩, (key, some z) :: subs)

/-- `apply_assignments` (boolean_extractor.rs:159-166). The order in which the entries are drained
and inserted again is unspecified; the caller chooses the permutation, and an entry
inserted later wins. -/
def BooleanSubs.applyAssignments (perm : BooleanSubs p V → BooleanSubs p V) (subs : BooleanSubs p V)
    (assignments : List (V × GExpr p V)) : BooleanSubs p V :=
  if assignments.isEmpty then subs
  else (applySubstitutionsToExpressions ((perm subs).map (·.1)) assignments).zip
    ((perm subs).map (·.2))

end

end Verif
