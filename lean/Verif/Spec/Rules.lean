import Verif.Model.Rules
import Verif.Spec.ConstraintSystem

/-!
# Specification: what the facts of the rule system claim

The meaning is that of the comments next to the relations in rules.rs.
-/

namespace Verif

open GExpr

variable {p : ℕ} {V : Type}

/-- What a fact claims about a solution `σ`. Facts that only describe the shape of an expression or
where variables occur, and replacement requests, claim nothing about a single solution. -/
def RFact.Holds (σ : V → ZMod p) : RFact p V → Prop
  | .algebraicConstraint e => eval σ e = 0
  | .equalZero e => eval σ e = 0
  | .containsVariable e v => Occurs v e
  | .product e l r => eval σ e = eval σ l * eval σ r
  | .affineExpression e coeff v offset => eval σ e = coeff * σ v + offset
  | .linearExpression e v coeff => eval σ e = coeff * σ v
  | .constant e value => eval σ e = value
  | .sumHeadTail e head tail => eval σ e = eval σ head + eval σ tail
  | .differBySummand e1 e2 s => eval σ e1 = eval σ e2 + eval σ s
  | .affinelyRelated e1 f e2 c => eval σ e1 = f * eval σ e2 + c
  | .productConstraint _ l r => eval σ l * eval σ r = 0
  | .rangeConstraintOnExpression e rc => rc.allowsValue (eval σ e) = true
  | .rangeConstraintOnVar v rc => rc.allowsValue (σ v) = true
  | .updateRangeConstraintOnVar v rc => rc.allowsValue (σ v) = true
  | .booleanVar v => σ v = 0 ∨ σ v = 1
  | .booleanExpressionConstraint _ e => eval σ e = 0 ∨ eval σ e = 1
  | .booleanAndSubsetOfVars e1 e2 =>
    (∀ v, Occurs v e1 → Occurs v e2) ∧ ∀ v, Occurs v e2 → σ v = 0 ∨ σ v = 1
  | .affineAndAllVarsBoolean e => ∀ v, Occurs v e → σ v = 0 ∨ σ v = 1
  | .plusMinusResult e e1 v2 => eval σ e = eval σ e1 * (2 * σ v2 - 1)
  | .diffMarkerConstraint _ m e2 r d =>
    ∃ k, k ≠ 0 ∧ σ m * (eval σ e2 * (2 * σ r - 1) + k * σ d) = 0
  | .negatedDiffMarkerConstraint _ _ l v r _ => eval σ l * (σ v * (2 * σ r - 1)) = 0
  | .negatedDiffMarkerConstraintFinal _ _ l r _ => eval σ l * σ r = 0
  | .solvable e v value => eval σ e = 0 → σ v = value
  | .assignment v value => σ v = value
  | .entailsZeroHeadAndTail head tail => eval σ head = 0 ∧ eval σ tail = 0
  | .exactlyOneSet e =>
    ∃ v, Occurs v e ∧ σ v = 1 ∧ ∀ w, Occurs w e → w ≠ v → σ w = 0
  | .quadraticEquivalenceCandidate _ expr offset => eval σ expr * (eval σ expr + offset) = 0
  | .quadraticEquivalence v1 v2 => σ v1 = σ v2
  | .equivalence v1 v2 => σ v1 = σ v2
  | .substituteByVariable v1 v2 => σ v1 = σ v2
  | _ => True

/-- `σ` solves the constraints and respects the range constraints that are given to the rule
system. -/
structure RuleInput.SolvedBy (inp : RuleInput p V) (σ : V → ZMod p) : Prop where
  constraints : ∀ e ∈ inp.constraints, eval σ e = 0
  exprRanges : ∀ x ∈ inp.exprRanges, x.2.allowsValue (eval σ x.1) = true
  varRanges : ∀ x ∈ inp.varRanges, x.2.allowsValue (σ x.1) = true

/-- All expressions given to the rule system were built through the API (see C09). -/
def RuleInput.WF [LinearOrder V] (inp : RuleInput p V) : Prop :=
  (∀ e ∈ inp.constraints, GExpr.WF e) ∧ ∀ x ∈ inp.exprRanges, GExpr.WF x.1

/-- `σ` respects all range constraints that are given to the rule system. -/
def RuleInput.RangesHold (inp : RuleInput p V) (σ : V → ZMod p) : Prop :=
  (∀ x ∈ inp.exprRanges, x.2.allowsValue (eval σ x.1) = true) ∧
    ∀ x ∈ inp.varRanges, x.2.allowsValue (σ x.1) = true

/-! ### Fields (C27) -/

/-- A field type of the library: its modulus and the number of bits of its integer type. -/
structure ShippedField where
  name : String
  modulus : ℕ
  intBits : ℕ

/-- `BabyBearField` (number/src/baby_bear.rs:5; the integer is a `u32`, plonky3_macros.rs). -/
def babyBear : ShippedField := ⟨"BabyBear", 2 ^ 31 - 2 ^ 27 + 1, 32⟩
/-- `KoalaBearField` (number/src/koala_bear.rs:5; `u32`). -/
def koalaBear : ShippedField := ⟨"KoalaBear", 2 ^ 31 - 2 ^ 24 + 1, 32⟩
/-- `Mersenne31Field` (number/src/mersenne31.rs:5; `u32`). -/
def mersenne31 : ShippedField := ⟨"Mersenne31", 2 ^ 31 - 1, 32⟩
/-- `Bn254Field` (number/src/bn254.rs:5; `BigInteger256`). -/
def bn254 : ShippedField :=
  ⟨"Bn254", 21888242871839275222246405745257275088548364400416034343698204186575808495617, 256⟩
/-- `GoldilocksField` (number/src/goldilocks.rs; the integer is a `u64`). -/
def goldilocks : ShippedField := ⟨"Goldilocks", 2 ^ 64 - 2 ^ 32 + 1, 64⟩

/-! ### The comparison gadget (C29) -/

/-- The comparison `a < 1` of the number with the limbs `a₀, a₁, a₂, a₃` (least significant first):
`m₃, …, m₀` mark the most significant limb in which `a` differs from one, `r` is the result and `d`
is, up to the factors `k`, the difference of the limbs at the marker. -/
structure ComparesWithOne (σ : V → ZMod p) (a m : Fin 4 → V) (r d : V) (k : Fin 4 → ZMod p) :
    Prop where
  /-- All limbs above the marker are equal: limb 3, -/
  equal3 : (1 - σ (m 3)) * (σ (a 3) * (2 * σ r - 1)) = 0
  /-- limb 2, -/
  equal2 : (1 - σ (m 3) - σ (m 2)) * (σ (a 2) * (2 * σ r - 1)) = 0
  /-- limb 1 -/
  equal1 : (1 - σ (m 3) - σ (m 2) - σ (m 1)) * (σ (a 1) * (2 * σ r - 1)) = 0
  /-- and limb 0. -/
  equal0 : (1 - σ (m 3) - σ (m 2) - σ (m 1) - σ (m 0)) * ((1 - σ (a 0)) * (2 * σ r - 1)) = 0
  /-- Without a marker the numbers are equal and the result is zero. -/
  noMarker : (1 - σ (m 3) - σ (m 2) - σ (m 1) - σ (m 0)) * σ r = 0
  /-- The difference at the marked limb. -/
  diff0 : σ (m 0) * ((σ (a 0) - 1) * (2 * σ r - 1) + k 0 * σ d) = 0
  diff1 : σ (m 1) * (σ (a 1) * (2 * σ r - 1) + k 1 * σ d) = 0
  diff2 : σ (m 2) * (σ (a 2) * (2 * σ r - 1) + k 2 * σ d) = 0
  diff3 : σ (m 3) * (σ (a 3) * (2 * σ r - 1) + k 3 * σ d) = 0
  /-- There is at most one marker. -/
  markers : σ (m 0) + σ (m 1) + σ (m 2) + σ (m 3) = 0 ∨
    σ (m 0) + σ (m 1) + σ (m 2) + σ (m 3) = 1

/-- The range check that accompanies the comparison in the circuits: at the marked limb the
difference is at least one and small enough not to wrap around when added to the limb. -/
def DifferenceInRange (σ : V → ZMod p) (a m : Fin 4 → V) (d : V) (k : Fin 4 → ZMod p) : Prop :=
  ∀ i, σ (m i) = 1 →
    1 ≤ (k i * σ d).val ∧ (k i * σ d).val + (σ (a i)).val + 1 < p

/-- The chain of expressions `1 - m₃`, `1 - m₃ - m₂`, … for a result variable is unique: no two
comparisons share their result variable. -/
def RuleInput.OneComparisonPerResult [LinearOrder V] (inp : RuleInput p V) (result : V) : Prop :=
  ∀ e₁ e₂ m₁ m₂ l₁ l₂ v₁ v₂ n,
    Derives inp (.negatedDiffMarkerConstraint e₁ m₁ l₁ v₁ result n) →
    Derives inp (.negatedDiffMarkerConstraint e₂ m₂ l₂ v₂ result n) → l₁ = l₂

end Verif
