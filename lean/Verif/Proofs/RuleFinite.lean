import Verif.Proofs.RuleTermination
import Mathlib.Data.Set.Finite.Lattice
import Mathlib.Data.Set.Finite.Range
import Mathlib.Data.ZMod.Basic
import Mathlib.Data.Fintype.Basic

/-! Helper lemmas for the termination of one round of the rule driver: only finitely many facts can be
derived. -/

set_option linter.unusedSectionVars false

namespace Verif

open RangeConstraint GExpr

variable {p : ℕ} {V : Type}

/-- The components of a fact. -/
structure FactCode (p : ℕ) (V : Type) where
  tag : ℕ
  es : List (GExpr p V)
  es2 : List (GExpr p V)
  vs : List V
  ks : List (ZMod p)
  rs : List (RangeConstraint p)
  ns : List ℕ

/-- The components of a fact. -/
def RFact.code : RFact p V → FactCode p V
  | .algebraicConstraint x0 => ⟨0, [x0], [], [], [], [], []⟩
  | .expression x0 => ⟨1, [x0], [], [], [], [], []⟩
  | .equalZero x0 => ⟨2, [x0], [], [], [], [], []⟩
  | .containsVariable x0 x1 => ⟨3, [x0], [], [x1], [], [], []⟩
  | .product x0 x1 x2 => ⟨4, [x0, x1, x2], [], [], [], [], []⟩
  | .affineExpression x0 x1 x2 x3 => ⟨5, [x0], [], [x2], [x1, x3], [], []⟩
  | .linearExpression x0 x1 x2 => ⟨6, [x0], [], [x1], [x2], [], []⟩
  | .constant x0 x1 => ⟨7, [x0], [], [], [x1], [], []⟩
  | .sumHeadTail x0 x1 x2 => ⟨8, [x0, x1, x2], [], [], [], [], []⟩
  | .simpleSum x0 x1 x2 => ⟨9, [x0], [], [], [x1, x2], [], []⟩
  | .isAffine x0 => ⟨10, [x0], [], [], [], [], []⟩
  | .hasSummand x0 x1 => ⟨11, [x0, x1], [], [], [], [], []⟩
  | .differBySummand x0 x1 x2 => ⟨12, [x0, x1, x2], [], [], [], [], []⟩
  | .affinelyRelated x0 x1 x2 x3 => ⟨13, [x0, x2], [], [], [x1, x3], [], []⟩
  | .hasProductSummand x0 x1 x2 => ⟨14, [x0, x1, x2], [], [], [], [], []⟩
  | .productConstraint x0 x1 x2 => ⟨15, [x0, x1, x2], [], [], [], [], []⟩
  | .booleanAndSubsetOfVars x0 x1 => ⟨16, [x0, x1], [], [], [], [], []⟩
  | .affineAndAllVarsBoolean x0 => ⟨17, [x0], [], [], [], [], []⟩
  | .rangeConstraintOnExpression x0 x1 => ⟨18, [x0], [], [], [], [x1], []⟩
  | .rangeConstraintOnVar x0 x1 => ⟨19, [], [], [x0], [], [x1], []⟩
  | .updateRangeConstraintOnVar x0 x1 => ⟨20, [], [], [x0], [], [x1], []⟩
  | .booleanVar x0 => ⟨21, [], [], [x0], [], [], []⟩
  | .booleanExpressionConstraint x0 x1 => ⟨22, [x0, x1], [], [], [], [], []⟩
  | .singleOccurrenceVariable x0 => ⟨23, [], [], [x0], [], [], []⟩
  | .singleOccurrenceVariableInExpr x0 x1 => ⟨24, [x0], [], [x1], [], [], []⟩
  | .largestPair x0 x1 x2 => ⟨25, [x0], [], [x1, x2], [], [], []⟩
  | .freeVariableCandidate x0 x1 x2 x3 x4 x5 x6 => ⟨26, [x0, x3, x6], [], [x2, x5], [x1, x4], [], []⟩
  | .replaceBy x0 x1 => ⟨27, [x0], [x1], [], [], [], []⟩
  | .plusMinusResult x0 x1 x2 => ⟨28, [x0, x1], [], [x2], [], [], []⟩
  | .diffMarkerConstraint x0 x1 x2 x3 x4 => ⟨29, [x0, x2], [], [x1, x3, x4], [], [], []⟩
  | .negatedDiffMarkerConstraint x0 x1 x2 x3 x4 x5 => ⟨30, [x0, x2], [], [x1, x3, x4], [], [], [x5]⟩
  | .negatedDiffMarkerConstraintFinal x0 x1 x2 x3 x4 => ⟨31, [x0, x2], [], [x1, x3], [], [], [x4]⟩
  | .negatedDiffMarkerConstraintFinalNegated x0 x1 x2 x3 x4 => ⟨32, [x0], [], [x1, x2, x3], [], [], [x4]⟩
  | .equalZeroCheck x0 x1 x2 => ⟨33, x0, [], x1 :: x2, [], [], []⟩
  | .replaceManyBy x0 x1 => ⟨34, x0, x1, [], [], [], []⟩
  | .solvable x0 x1 x2 => ⟨35, [x0], [], [x1], [x2], [], []⟩
  | .assignment x0 x1 => ⟨36, [], [], [x0], [x1], [], []⟩
  | .entailsZeroHeadAndTail x0 x1 => ⟨37, [x0, x1], [], [], [], [], []⟩
  | .exactlyOneSet x0 => ⟨38, [x0], [], [], [], [], []⟩
  | .affineSumCountCoeffs x0 x1 x2 => ⟨39, [x0], [], x1.toList, [x2], [], []⟩
  | .equivalence x0 x1 => ⟨40, [], [], [x0, x1], [], [], []⟩
  | .quadraticEquivalenceCandidate x0 x1 x2 => ⟨41, [x0, x1], [], [], [x2], [], []⟩
  | .quadraticEquivalenceCandidatePair x0 x1 x2 x3 x4 => ⟨42, [x0, x1], [], [x3, x4], [x2], [], []⟩
  | .quadraticEquivalence x0 x1 => ⟨43, [], [], [x0, x1], [], [], []⟩
  | .substituteByVariable x0 x1 => ⟨44, [], [], [x0, x1], [], [], []⟩

/-- The fact with the given components. -/
def FactCode.decode (c : FactCode p V) : Option (RFact p V) :=
  match c.tag with
  | 0 => match c.es with
    | [x0] => some (.algebraicConstraint x0)
    | _ => none
  | 1 => match c.es with
    | [x0] => some (.expression x0)
    | _ => none
  | 2 => match c.es with
    | [x0] => some (.equalZero x0)
    | _ => none
  | 3 => match c.es, c.vs with
    | [x0], [x1] => some (.containsVariable x0 x1)
    | _, _ => none
  | 4 => match c.es with
    | [x0, x1, x2] => some (.product x0 x1 x2)
    | _ => none
  | 5 => match c.es, c.vs, c.ks with
    | [x0], [x2], [x1, x3] => some (.affineExpression x0 x1 x2 x3)
    | _, _, _ => none
  | 6 => match c.es, c.vs, c.ks with
    | [x0], [x1], [x2] => some (.linearExpression x0 x1 x2)
    | _, _, _ => none
  | 7 => match c.es, c.ks with
    | [x0], [x1] => some (.constant x0 x1)
    | _, _ => none
  | 8 => match c.es with
    | [x0, x1, x2] => some (.sumHeadTail x0 x1 x2)
    | _ => none
  | 9 => match c.es, c.ks with
    | [x0], [x1, x2] => some (.simpleSum x0 x1 x2)
    | _, _ => none
  | 10 => match c.es with
    | [x0] => some (.isAffine x0)
    | _ => none
  | 11 => match c.es with
    | [x0, x1] => some (.hasSummand x0 x1)
    | _ => none
  | 12 => match c.es with
    | [x0, x1, x2] => some (.differBySummand x0 x1 x2)
    | _ => none
  | 13 => match c.es, c.ks with
    | [x0, x2], [x1, x3] => some (.affinelyRelated x0 x1 x2 x3)
    | _, _ => none
  | 14 => match c.es with
    | [x0, x1, x2] => some (.hasProductSummand x0 x1 x2)
    | _ => none
  | 15 => match c.es with
    | [x0, x1, x2] => some (.productConstraint x0 x1 x2)
    | _ => none
  | 16 => match c.es with
    | [x0, x1] => some (.booleanAndSubsetOfVars x0 x1)
    | _ => none
  | 17 => match c.es with
    | [x0] => some (.affineAndAllVarsBoolean x0)
    | _ => none
  | 18 => match c.es, c.rs with
    | [x0], [x1] => some (.rangeConstraintOnExpression x0 x1)
    | _, _ => none
  | 19 => match c.vs, c.rs with
    | [x0], [x1] => some (.rangeConstraintOnVar x0 x1)
    | _, _ => none
  | 20 => match c.vs, c.rs with
    | [x0], [x1] => some (.updateRangeConstraintOnVar x0 x1)
    | _, _ => none
  | 21 => match c.vs with
    | [x0] => some (.booleanVar x0)
    | _ => none
  | 22 => match c.es with
    | [x0, x1] => some (.booleanExpressionConstraint x0 x1)
    | _ => none
  | 23 => match c.vs with
    | [x0] => some (.singleOccurrenceVariable x0)
    | _ => none
  | 24 => match c.es, c.vs with
    | [x0], [x1] => some (.singleOccurrenceVariableInExpr x0 x1)
    | _, _ => none
  | 25 => match c.es, c.vs with
    | [x0], [x1, x2] => some (.largestPair x0 x1 x2)
    | _, _ => none
  | 26 => match c.es, c.vs, c.ks with
    | [x0, x3, x6], [x2, x5], [x1, x4] => some (.freeVariableCandidate x0 x1 x2 x3 x4 x5 x6)
    | _, _, _ => none
  | 27 => match c.es, c.es2 with
    | [x0], [x1] => some (.replaceBy x0 x1)
    | _, _ => none
  | 28 => match c.es, c.vs with
    | [x0, x1], [x2] => some (.plusMinusResult x0 x1 x2)
    | _, _ => none
  | 29 => match c.es, c.vs with
    | [x0, x2], [x1, x3, x4] => some (.diffMarkerConstraint x0 x1 x2 x3 x4)
    | _, _ => none
  | 30 => match c.es, c.vs, c.ns with
    | [x0, x2], [x1, x3, x4], [x5] => some (.negatedDiffMarkerConstraint x0 x1 x2 x3 x4 x5)
    | _, _, _ => none
  | 31 => match c.es, c.vs, c.ns with
    | [x0, x2], [x1, x3], [x4] => some (.negatedDiffMarkerConstraintFinal x0 x1 x2 x3 x4)
    | _, _, _ => none
  | 32 => match c.es, c.vs, c.ns with
    | [x0], [x1, x2, x3], [x4] => some (.negatedDiffMarkerConstraintFinalNegated x0 x1 x2 x3 x4)
    | _, _, _ => none
  | 33 => match c.es, c.vs with
    | x0, x1 :: x2 => some (.equalZeroCheck x0 x1 x2)
    | _, _ => none
  | 34 => match c.es, c.es2 with
    | x0, x1 => some (.replaceManyBy x0 x1)
  | 35 => match c.es, c.vs, c.ks with
    | [x0], [x1], [x2] => some (.solvable x0 x1 x2)
    | _, _, _ => none
  | 36 => match c.vs, c.ks with
    | [x0], [x1] => some (.assignment x0 x1)
    | _, _ => none
  | 37 => match c.es with
    | [x0, x1] => some (.entailsZeroHeadAndTail x0 x1)
    | _ => none
  | 38 => match c.es with
    | [x0] => some (.exactlyOneSet x0)
    | _ => none
  | 39 => match c.es, c.vs, c.ks with
    | [x0], [], [x2] => some (.affineSumCountCoeffs x0 none x2)
    | [x0], [v], [x2] => some (.affineSumCountCoeffs x0 (some v) x2)
    | _, _, _ => none
  | 40 => match c.vs with
    | [x0, x1] => some (.equivalence x0 x1)
    | _ => none
  | 41 => match c.es, c.ks with
    | [x0, x1], [x2] => some (.quadraticEquivalenceCandidate x0 x1 x2)
    | _, _ => none
  | 42 => match c.es, c.vs, c.ks with
    | [x0, x1], [x3, x4], [x2] => some (.quadraticEquivalenceCandidatePair x0 x1 x2 x3 x4)
    | _, _, _ => none
  | 43 => match c.vs with
    | [x0, x1] => some (.quadraticEquivalence x0 x1)
    | _ => none
  | 44 => match c.vs with
    | [x0, x1] => some (.substituteByVariable x0 x1)
    | _ => none
  | _ => none

theorem decode_code (f : RFact p V) : f.code.decode = some f := by
  cases f with
  | affineSumCountCoeffs e o f => cases o <;> rfl
  | _ => rfl

theorem code_injective : Function.Injective (RFact.code (p := p) (V := V)) := by
  intro f g h
  have := congrArg FactCode.decode h
  rw [decode_code, decode_code] at this
  exact Option.some.inj this

/-- Sets the components of the facts are from. -/
structure FactSets (p : ℕ) (V : Type) where
  E : GExpr p V → Prop
  S : V → Prop
  R : RangeConstraint p → Prop
  M : ℕ
  L : List (GExpr p V) → Prop

/-- The components of the fact are from the sets. -/
def RFact.In (A : FactSets p V) : RFact p V → Prop
  | .algebraicConstraint x0 => A.E x0
  | .expression x0 => A.E x0
  | .equalZero x0 => A.E x0
  | .containsVariable x0 x1 => A.E x0 ∧ A.S x1
  | .product x0 x1 x2 => A.E x0 ∧ A.E x1 ∧ A.E x2
  | .affineExpression x0 _ x2 _ => A.E x0 ∧ A.S x2
  | .linearExpression x0 x1 _ => A.E x0 ∧ A.S x1
  | .constant x0 _ => A.E x0
  | .sumHeadTail x0 x1 x2 => A.E x0 ∧ A.E x1 ∧ A.E x2
  | .simpleSum x0 _ _ => A.E x0
  | .isAffine x0 => A.E x0
  | .hasSummand x0 x1 => A.E x0 ∧ A.E x1
  | .differBySummand x0 x1 x2 => A.E x0 ∧ A.E x1 ∧ A.E x2
  | .affinelyRelated x0 _ x2 _ => A.E x0 ∧ A.E x2
  | .hasProductSummand x0 x1 x2 => A.E x0 ∧ A.E x1 ∧ A.E x2
  | .productConstraint x0 x1 x2 => A.E x0 ∧ A.E x1 ∧ A.E x2
  | .booleanAndSubsetOfVars x0 x1 => A.E x0 ∧ A.E x1
  | .affineAndAllVarsBoolean x0 => A.E x0
  | .rangeConstraintOnExpression x0 x1 => A.E x0 ∧ A.R x1
  | .rangeConstraintOnVar x0 x1 => A.S x0 ∧ A.R x1
  | .updateRangeConstraintOnVar x0 x1 => A.S x0 ∧ A.R x1
  | .booleanVar x0 => A.S x0
  | .booleanExpressionConstraint x0 x1 => A.E x0 ∧ A.E x1
  | .singleOccurrenceVariable x0 => A.S x0
  | .singleOccurrenceVariableInExpr x0 x1 => A.E x0 ∧ A.S x1
  | .largestPair x0 x1 x2 => A.E x0 ∧ A.S x1 ∧ A.S x2
  | .freeVariableCandidate x0 _ x2 x3 _ x5 x6 => A.E x0 ∧ A.S x2 ∧ A.E x3 ∧ A.S x5 ∧ A.E x6
  | .replaceBy x0 x1 => A.E x0 ∧ A.L [x1]
  | .plusMinusResult x0 x1 x2 => A.E x0 ∧ A.E x1 ∧ A.S x2
  | .diffMarkerConstraint x0 x1 x2 x3 x4 => A.E x0 ∧ A.S x1 ∧ A.E x2 ∧ A.S x3 ∧ A.S x4
  | .negatedDiffMarkerConstraint x0 x1 x2 x3 x4 x5 => A.E x0 ∧ A.S x1 ∧ A.E x2 ∧ A.S x3 ∧ A.S x4 ∧ x5 ≤ A.M
  | .negatedDiffMarkerConstraintFinal x0 x1 x2 x3 x4 => A.E x0 ∧ A.S x1 ∧ A.E x2 ∧ A.S x3 ∧ x4 ≤ A.M
  | .negatedDiffMarkerConstraintFinalNegated x0 x1 x2 x3 x4 => A.E x0 ∧ A.S x1 ∧ A.S x2 ∧ A.S x3 ∧ x4 ≤ A.M
  | .equalZeroCheck x0 x1 x2 => x0.length = 10 ∧ (∀ e ∈ x0, A.E e) ∧ A.S x1 ∧ x2.length = 4 ∧ ∀ v ∈ x2, A.S v
  | .replaceManyBy x0 x1 => x0.length ≤ 10 ∧ (∀ e ∈ x0, A.E e) ∧ A.L x1
  | .solvable x0 x1 _ => A.E x0 ∧ A.S x1
  | .assignment x0 _ => A.S x0
  | .entailsZeroHeadAndTail x0 x1 => A.E x0 ∧ A.E x1
  | .exactlyOneSet x0 => A.E x0
  | .affineSumCountCoeffs x0 x1 _ => A.E x0 ∧ (∀ v ∈ x1, A.S v)
  | .equivalence x0 x1 => A.S x0 ∧ A.S x1
  | .quadraticEquivalenceCandidate x0 x1 _ => A.E x0 ∧ A.E x1
  | .quadraticEquivalenceCandidatePair x0 x1 _ x3 x4 => A.E x0 ∧ A.E x1 ∧ A.S x3 ∧ A.S x4
  | .quadraticEquivalence x0 x1 => A.S x0 ∧ A.S x1
  | .substituteByVariable x0 x1 => A.S x0 ∧ A.S x1

theorem finite_lists {α : Type} {S : α → Prop} (hS : {x | S x}.Finite) (n : ℕ) :
    {l : List α | l.length ≤ n ∧ ∀ x ∈ l, S x}.Finite := by
  induction n with
  | zero =>
    refine (Set.finite_singleton []).subset ?_
    rintro l ⟨h, -⟩
    exact List.length_eq_zero_iff.1 (by omega)
  | succ n ih =>
    refine ((Set.finite_singleton []).union (Set.Finite.image2 List.cons hS ih)).subset ?_
    rintro (_ | ⟨x, l⟩) ⟨h, h'⟩
    · exact Or.inl rfl
    · refine Or.inr ⟨x, h' x (by simp), l, ⟨by simpa using h, fun y hy => h' y (by simp [hy])⟩, rfl⟩

/-- Bounded components. -/
def FactCode.Ok (A : FactSets p V) (c : FactCode p V) : Prop :=
  c.tag ≤ 100 ∧ (c.es.length ≤ 10 ∧ ∀ e ∈ c.es, A.E e) ∧ (c.es2 = [] ∨ A.L c.es2) ∧
    (c.vs.length ≤ 5 ∧ ∀ v ∈ c.vs, A.S v) ∧ (c.ks.length ≤ 3 ∧ ∀ k ∈ c.ks, True) ∧
    (c.rs.length ≤ 1 ∧ ∀ r ∈ c.rs, A.R r) ∧ (c.ns.length ≤ 1 ∧ ∀ n ∈ c.ns, n ≤ A.M)

theorem code_ok {A : FactSets p V} {f : RFact p V} (h : f.In A) : f.code.Ok A := by
  cases f with
  | affineSumCountCoeffs e o f =>
    cases o <;> simp_all [RFact.In, RFact.code, FactCode.Ok]
  | equalZeroCheck es r vs =>
    obtain ⟨h1, h2, h3, h4, h5⟩ := h
    refine ⟨by simp [RFact.code], ⟨h1.le, h2⟩, Or.inl rfl, ⟨?_, ?_⟩, by simp [RFact.code],
      by simp [RFact.code], by simp [RFact.code]⟩
    · simp [RFact.code, h4]
    · simpa [RFact.code] using ⟨h3, h5⟩
  | replaceManyBy a b =>
    obtain ⟨h1, h2, h3⟩ := h
    exact ⟨by simp [RFact.code], ⟨h1, h2⟩, Or.inr h3, by simp [RFact.code], by simp [RFact.code],
      by simp [RFact.code], by simp [RFact.code]⟩
  | replaceBy a b =>
    obtain ⟨h1, h2⟩ := h
    exact ⟨by simp [RFact.code], by simp [RFact.code, h1], Or.inr h2, by simp [RFact.code],
      by simp [RFact.code], by simp [RFact.code], by simp [RFact.code]⟩
  | _ => simp_all [RFact.In, RFact.code, FactCode.Ok]

theorem codes_finite [Fact p.Prime] {A : FactSets p V} (hE : {e | A.E e}.Finite)
    (hS : {v | A.S v}.Finite) (hR : {r | A.R r}.Finite) (hL : {l | A.L l}.Finite) :
    {c : FactCode p V | c.Ok A}.Finite := by
  have hK : {k : ZMod p | True}.Finite := Set.toFinite _
  have h := (Set.finite_le_nat 100).prod ((finite_lists hE 10).prod
    (((Set.finite_singleton ([] : List (GExpr p V))).union hL).prod ((finite_lists hS 5).prod
    ((finite_lists hK 3).prod ((finite_lists hR 1).prod
    (finite_lists (Set.finite_le_nat A.M) 1))))))
  refine (h.image fun x => (⟨x.1, x.2.1, x.2.2.1, x.2.2.2.1, x.2.2.2.2.1, x.2.2.2.2.2.1,
    x.2.2.2.2.2.2⟩ : FactCode p V)).subset ?_
  rintro ⟨a, b, c, d, e, f, g⟩ ⟨h1, h2, h3, h4, h5, h6, h7⟩
  exact ⟨⟨a, b, c, d, e, f, g⟩, ⟨h1, h2, h3, h4, h5, h6, h7⟩, rfl⟩

theorem facts_finite [Fact p.Prime] {A : FactSets p V} (hE : {e | A.E e}.Finite)
    (hS : {v | A.S v}.Finite) (hR : {r | A.R r}.Finite) (hL : {l | A.L l}.Finite) :
    {f : RFact p V | f.In A}.Finite :=
  ((codes_finite hE hS hR hL).preimage (f := RFact.code) (fun _ _ _ _ h => code_injective h)).subset
    fun _ h => code_ok h

end Verif
