import Mathlib.Algebra.MvPolynomial.NoZeroDivisors
import Verif.Spec.PrecompileDegree
import Verif.Spec.BuildPanics
import Verif.Proofs.BuildPanics
import Verif.Proofs.Machine
import Verif.Props.GroupedExpression

/-!
# Proofs about the degree of guarded machines
-/

namespace Verif

open GExpr

set_option linter.unusedSectionVars false

variable {p : ℕ} [Fact p.Prime]

/-! ### The polynomial of an expression -/

section
variable {V : Type}

theorem totalDegree_poly (e : AlgExpr (ZMod p) V) : e.poly.totalDegree ≤ e.degree := by
  induction e with
  | reference r =>
    rcases subsingleton_or_nontrivial (ZMod p) with h | h
    · have : (AlgExpr.reference r : AlgExpr (ZMod p) V).poly = 0 := Subsingleton.elim _ _
      rw [this]; simp
    · simp [AlgExpr.poly, AlgExpr.degree]
  | number n => simp [AlgExpr.poly, AlgExpr.degree]
  | binary l op r ihl ihr =>
    cases op with
    | add => exact (MvPolynomial.totalDegree_add _ _).trans (max_le_max ihl ihr)
    | sub => exact (MvPolynomial.totalDegree_sub _ _).trans (max_le_max ihl ihr)
    | mul => exact (MvPolynomial.totalDegree_mul _ _).trans (Nat.add_le_add ihl ihr)
  | minus e ih =>
    rw [AlgExpr.poly, MvPolynomial.totalDegree_neg]
    exact ih

theorem poly_eq_value (e : AlgExpr (ZMod p) V) :
    e.poly = (e.convert (MvPolynomial.C (σ := V))).value MvPolynomial.X := by
  induction e with
  | reference r => rfl
  | number n => rfl
  | binary l op r ihl ihr =>
    cases op <;> simp [AlgExpr.poly, AlgExpr.convert, AlgExpr.value, ihl, ihr]
  | minus e ih => simp [AlgExpr.poly, AlgExpr.convert, AlgExpr.value, ih]

theorem aeval_poly {A : Type} [CommRing A] [Algebra (ZMod p) A] (σ : V → A) (e : AlgExpr (ZMod p) V) :
    MvPolynomial.aeval σ e.poly = (e.convert (algebraMap (ZMod p) A)).value σ := by
  induction e with
  | reference r => simp [AlgExpr.poly, AlgExpr.convert, AlgExpr.value]
  | number n => simp [AlgExpr.poly, AlgExpr.convert, AlgExpr.value]
  | binary l op r ihl ihr =>
    cases op <;> simp [AlgExpr.poly, AlgExpr.convert, AlgExpr.value, ihl, ihr]
  | minus e ih => simp [AlgExpr.poly, AlgExpr.convert, AlgExpr.value, ih]

theorem totalDegree_aeval_le {R S : Type} (σ : R → MvPolynomial S (ZMod p))
    (h : ∀ r, (σ r).totalDegree ≤ 1) (q : MvPolynomial R (ZMod p)) :
    (MvPolynomial.aeval σ q).totalDegree ≤ q.totalDegree := by
  rw [MvPolynomial.aeval_def, MvPolynomial.eval₂_eq]
  refine MvPolynomial.totalDegree_finsetSum_le fun d hd => ?_
  refine (MvPolynomial.totalDegree_mul _ _).trans ?_
  rw [MvPolynomial.algebraMap_eq, MvPolynomial.totalDegree_C, zero_add]
  refine (MvPolynomial.totalDegree_finsetProd _ _).trans ?_
  refine le_trans (Finset.sum_le_sum fun i _ => (MvPolynomial.totalDegree_pow _ _).trans
    (Nat.mul_le_mul_left _ (h i))) ?_
  simp only [mul_one]
  exact MvPolynomial.le_totalDegree hd

variable [LinearOrder V]

theorem toPoly_algebraicToGrouped (e : AlgExpr (ZMod p) V) : toPoly (algebraicToGrouped e) = e.poly := by
  unfold toPoly
  induction e with
  | reference r => exact evalIn_var _ _ r
  | number n => exact evalIn_const _ _ n
  | binary l op r ihl ihr =>
    unfold algebraicToGrouped at *
    cases op with
    | add => rw [AlgExpr.toExpression]; exact (evalIn_add _ _ _ _).trans (by rw [ihl, ihr]; rfl)
    | sub => rw [AlgExpr.toExpression]; exact (evalIn_sub _ _ _ _).trans (by rw [ihl, ihr]; rfl)
    | mul => rw [AlgExpr.toExpression]; exact (evalIn_mul _ _ _ _).trans (by rw [ihl, ihr]; rfl)
  | minus e ih =>
    unfold algebraicToGrouped at *
    rw [AlgExpr.toExpression]
    exact (evalIn_neg _ _ _).trans (by rw [ih]; rfl)

/-- The sign of an item, as a polynomial. -/
noncomputable def signPoly (b : Bool) : MvPolynomial V (ZMod p) := if b then -1 else 1

theorem poly_extractNegation (e : AlgExpr (ZMod p) V) :
    signPoly e.extractNegation.2 * e.extractNegation.1.poly = e.poly := by
  cases e <;> simp [AlgExpr.extractNegation, signPoly, AlgExpr.poly]

theorem poly_productItem (l r : AlgExpr (ZMod p) V) : (productItem l r).poly = l.poly * r.poly := by
  rw [← poly_extractNegation l, ← poly_extractNegation r]
  unfold productItem
  obtain ⟨l', ln⟩ := l.extractNegation
  obtain ⟨r', rn⟩ := r.extractNegation
  simp only
  cases ln <;> cases rn <;> simp [signPoly, AlgExpr.poly]

theorem poly_linearItem (v : V) (c : ZMod p) :
    (linearItem v c).poly = MvPolynomial.C c * MvPolynomial.X v := by
  unfold linearItem
  split_ifs with h1 h2 h3
  · simp [AlgExpr.poly, h1]
  · have : c = -1 := by rw [← h2, neg_neg]
    simp [AlgExpr.poly, this]
  · simp [AlgExpr.poly]
  · simp [AlgExpr.poly]

theorem poly_numberItem (c : ZMod p) :
    (numberItem c : AlgExpr (ZMod p) V).poly = MvPolynomial.C c := by
  unfold numberItem
  split_ifs <;> simp [AlgExpr.poly]

theorem poly_foldl_add : ∀ (l : List (AlgExpr (ZMod p) V)) (e : AlgExpr (ZMod p) V),
    (l.foldl (fun acc item => .binary acc .add item) e).poly =
      e.poly + (l.map AlgExpr.poly).sum
  | [], e => by simp
  | a :: t, e => by
    rw [List.foldl_cons, poly_foldl_add t, List.map_cons, List.sum_cons]
    simp only [AlgExpr.poly]
    ring

theorem poly_sumItems (l : List (AlgExpr (ZMod p) V)) :
    ((sumItems l).map AlgExpr.poly).getD 0 = (l.map AlgExpr.poly).sum := by
  cases l with
  | nil => rfl
  | cons a t =>
    simp only [sumItems, Option.map_some, Option.getD_some, poly_foldl_add, List.map_cons,
      List.sum_cons]

theorem poly_combineItems (l : List (AlgExpr (ZMod p) V)) :
    (combineItems l).poly = (l.map AlgExpr.poly).sum := by
  have key : (combineItems l).poly =
      ((sumItems (((l.map AlgExpr.extractNegation).filter fun x => !x.2).map Prod.fst)).map
        AlgExpr.poly).getD 0 -
      ((sumItems (((l.map AlgExpr.extractNegation).filter fun x => x.2).map Prod.fst)).map
        AlgExpr.poly).getD 0 := by
    unfold combineItems
    simp only
    split
    · rename_i h1 h2; rw [h1, h2]; simp [AlgExpr.poly]
    · rename_i h1 h2; rw [h1, h2]; simp
    · rename_i h1 h2; rw [h1, h2]; simp [AlgExpr.poly]
    · rename_i h1 h2; rw [h1, h2]; simp [AlgExpr.poly]
  rw [key, poly_sumItems, poly_sumItems]
  clear key
  induction l with
  | nil => simp
  | cons a t ih =>
    rw [List.map_cons, List.map_cons, List.sum_cons, ← ih, ← poly_extractNegation a,
      List.filter_cons, List.filter_cons]
    cases h : a.extractNegation.2
    · simp [signPoly, add_sub_assoc]
    · simp [signPoly]; ring

theorem poly_groupedToAlgebraic (e : GExpr p V) : (groupedToAlgebraic e).poly = toPoly e := by
  induction e using GExpr.ind with
  | h q l c ih =>
    unfold toPoly
    rw [groupedToAlgebraic, poly_combineItems, evalIn_mk]
    have hq : ∀ q : List (GExpr p V × GExpr p V), (∀ x ∈ q,
        (groupedToAlgebraic x.1).poly = toPoly x.1 ∧
        (groupedToAlgebraic x.2).poly = toPoly x.2) →
        ((quadraticItems q).map AlgExpr.poly).sum =
          evalInQ MvPolynomial.C MvPolynomial.X q := by
      intro q
      induction q with
      | nil => intro _; simp [quadraticItems, evalInQ_nil]
      | cons x t iht =>
        intro hx
        obtain ⟨a, b⟩ := x
        obtain ⟨h1, h2⟩ := hx (a, b) (by simp)
        simp only [quadraticItems, List.map_cons, List.sum_cons, poly_productItem, evalInQ_cons]
        rw [iht fun y hy => hx y (by simp [hy]), h1, h2]
        rfl
    rw [List.map_append, List.map_append, List.sum_append, List.sum_append, hq q ih, List.map_map]
    congr 1
    · congr 1
      simp only [Function.comp_def, poly_linearItem]
      clear ih
      induction l with
      | nil => rfl
      | cons x t iht => simp_all [evalL]
    · split_ifs with h
      · simp [h]
      · simp [poly_numberItem]

end

theorem poly_canonicalize (e : AlgExpr (ZMod p) ℕ) : (canonicalize e).poly = e.poly := by
  unfold canonicalize
  rw [poly_groupedToAlgebraic, toPoly_algebraicToGrouped]

theorem degree_canonicalize (e : AlgExpr (ZMod p) ℕ) : (canonicalize e).degree ≤ e.degree := by
  unfold canonicalize
  rw [degree_groupedToAlgebraic]
  exact degree_algebraicToGrouped e

theorem degree_toConstraint {T R : Type} (e : AlgExpr T R) : e.toConstraint.degree = e.degree := by
  cases e <;> rfl

theorem totalDegree_toConstraint {V : Type} (e : AlgExpr (ZMod p) V) :
    e.toConstraint.poly.totalDegree = e.poly.totalDegree := by
  cases e <;> simp [AlgExpr.toConstraint, AlgExpr.poly]

/-! ### Guards -/

/-- What `addGuardsConstraint` returns. -/
def guardExpr (iv : AlgExpr (ZMod p) ℕ) : AlgExpr (ZMod p) ℕ → AlgExpr (ZMod p) ℕ
  | .binary l op r =>
    if ((AlgExpr.binary l op r).value fun _ => 0) = 0 then .binary l op r
    else .binary (guardExpr iv l) op (if op = .mul then r else guardExpr iv r)
  | .minus e => if ((AlgExpr.minus e).value fun _ => 0) = 0 then .minus e else .minus (guardExpr iv e)
  | .number n => if n = 0 then .number n else .binary (.number n) .mul iv
  | .reference r => .reference r

theorem addGuardsConstraint_eq (iv e : AlgExpr (ZMod p) ℕ) :
    addGuardsConstraint iv e = .ok (guardExpr iv e) := by
  induction e with
  | reference r =>
    rw [addGuardsConstraint, satisfiesZeroWitness_eq, guardExpr]
    simp [AlgExpr.value]
  | number n =>
    rw [addGuardsConstraint, satisfiesZeroWitness_eq, guardExpr]
    by_cases h : n = 0 <;> simp [AlgExpr.value, h] <;> rfl
  | binary l op r ihl ihr =>
    rw [addGuardsConstraint, satisfiesZeroWitness_eq, guardExpr, ihl, ihr]
    by_cases h : ((AlgExpr.binary l op r).value fun _ => (0 : ZMod p)) = 0
    · simp only [h]; rfl
    · simp only [h]; cases op <;> rfl
  | minus e ih =>
    rw [addGuardsConstraint, satisfiesZeroWitness_eq, guardExpr, ih]
    by_cases h : ((AlgExpr.minus e).value fun _ => (0 : ZMod p)) = 0
    · simp only [h]; rfl
    · simp only [h]; rfl

/-- Where the guard is one, nothing changes. -/
theorem value_guardExpr {A : Type} [CommRing A] (φ : ZMod p →+* A) {iv : AlgExpr (ZMod p) ℕ} {σ : ℕ → A}
    (h : (iv.convert φ).value σ = 1) (e : AlgExpr (ZMod p) ℕ) :
    ((guardExpr iv e).convert φ).value σ = (e.convert φ).value σ := by
  induction e with
  | reference r => rfl
  | number n =>
    rw [guardExpr]
    split_ifs
    · rfl
    · simp [AlgExpr.convert, AlgExpr.value, h]
  | binary l op r ihl ihr =>
    rw [guardExpr]
    split_ifs with h1 h2
    · rfl
    · subst h2
      simp [AlgExpr.convert, AlgExpr.value, ihl]
    · cases op <;> simp_all [AlgExpr.convert, AlgExpr.value]
  | minus e ih =>
    rw [guardExpr]
    split_ifs with h1
    · rfl
    · simp [AlgExpr.convert, AlgExpr.value, ih]

/-- The degree of the polynomial does not fall. -/
theorem totalDegree_guardExpr {id : ℕ} {e : AlgExpr (ZMod p) ℕ} (h : id ∉ e.refs) :
    e.poly.totalDegree ≤ (guardExpr (.reference id) e).poly.totalDegree := by
  classical
  set σ : ℕ → MvPolynomial ℕ (ZMod p) := fun v => if v = id then 1 else MvPolynomial.X v with hσ
  have h1 : MvPolynomial.aeval σ (guardExpr (.reference id) e).poly = e.poly := by
    rw [aeval_poly, value_guardExpr, poly_eq_value]
    · refine value_congr _ fun v hv => ?_
      rw [refs_convert] at hv
      have : v ≠ id := fun hh => h (hh ▸ hv)
      simp [hσ, this]
    · simp [AlgExpr.convert, AlgExpr.value, hσ]
  rw [← h1]
  refine totalDegree_aeval_le σ (fun r => ?_) _
  simp only [hσ]
  split_ifs <;> simp

/-- In a product that is not zero for the all-zero row, the left factor is not a constant. -/
def Tame {R : Type} : AlgExpr (ZMod p) R → Prop
  | .binary l .mul r => Tame l ∧ (1 ≤ l.degree ∨ ((AlgExpr.binary l .mul r).value fun _ => 0) = 0)
  | .binary l _ r => Tame l ∧ Tame r
  | .minus e => Tame e
  | .number _ => True
  | .reference _ => True

theorem degree_guardExpr {id : ℕ} {e : AlgExpr (ZMod p) ℕ} (h : Tame e) :
    (guardExpr (.reference id) e).degree ≤ max e.degree 1 := by
  induction e with
  | reference r => exact Nat.le_max_left _ _
  | number n =>
    rw [guardExpr]
    split_ifs <;> simp [AlgExpr.degree]
  | binary l op r ihl ihr =>
    rw [guardExpr]
    split_ifs with h1 h2
    · exact Nat.le_max_left _ _
    · subst h2
      obtain ⟨hl, hd⟩ := h
      have := ihl hl
      rcases hd with hd | hd
      · simp only [AlgExpr.degree]
        omega
      · exact absurd hd h1
    · cases op with
      | mul => exact absurd rfl h2
      | add =>
        have h3 := ihl h.1
        have h4 := ihr h.2
        simp only [AlgExpr.degree]
        omega
      | sub =>
        have h3 := ihl h.1
        have h4 := ihr h.2
        simp only [AlgExpr.degree]
        omega
  | minus e ih =>
    rw [guardExpr]
    split_ifs with h1
    · exact Nat.le_max_left _ _
    · exact ih h

theorem degree_guardExpr_le {id : ℕ} (e : AlgExpr (ZMod p) ℕ) :
    (guardExpr (.reference id) e).degree ≤ e.degree + 1 := by
  induction e with
  | reference r => exact Nat.le_succ _
  | number n =>
    rw [guardExpr]
    split_ifs <;> simp [AlgExpr.degree]
  | binary l op r ihl ihr =>
    rw [guardExpr]
    split_ifs with h1 h2
    · exact Nat.le_succ _
    · subst h2
      simp only [AlgExpr.degree]
      omega
    · cases op with
      | mul => exact absurd rfl h2
      | add => simp only [AlgExpr.degree]; omega
      | sub => simp only [AlgExpr.degree]; omega
  | minus e ih =>
    rw [guardExpr]
    split_ifs with h1
    · exact Nat.le_succ _
    · exact ih

section
variable {V : Type}

theorem Tame.extract {e : AlgExpr (ZMod p) V} (h : Tame e) : Tame e.extractNegation.1 := by
  cases e <;> exact h

theorem Tame.constraint {e : AlgExpr (ZMod p) V} (h : Tame e) : Tame e.toConstraint := by
  cases e <;> exact h

theorem Tame.rename {R : Type} (f : V → R) {e : AlgExpr (ZMod p) V} (h : Tame e) : Tame (e.mapRefs f) := by
  induction e with
  | reference r => trivial
  | number n => trivial
  | binary l op r ihl ihr =>
    cases op with
    | add => exact ⟨ihl h.1, ihr h.2⟩
    | sub => exact ⟨ihl h.1, ihr h.2⟩
    | mul =>
      refine ⟨ihl h.1, ?_⟩
      have := value_mapRefs f (fun _ => (0 : ZMod p)) (AlgExpr.binary l .mul r)
      rw [AlgExpr.mapRefs] at this
      rw [AlgExpr.degree_mapRefs, this]
      exact h.2
  | minus e ih => exact ih h

variable [LinearOrder V]

theorem tame_productItem {l r : AlgExpr (ZMod p) V} (hl : Tame l) (h : 1 ≤ l.degree) :
    Tame (productItem l r) := by
  rw [← degree_extractNegation] at h
  unfold productItem
  simp only
  split_ifs <;> exact ⟨hl.extract, Or.inl h⟩

theorem tame_linearItem (v : V) (c : ZMod p) : Tame (linearItem v c) := by
  unfold linearItem
  split_ifs
  · trivial
  · trivial
  · exact ⟨trivial, Or.inr (by simp [AlgExpr.value])⟩
  · exact ⟨trivial, Or.inr (by simp [AlgExpr.value])⟩

theorem tame_numberItem (c : ZMod p) : Tame (numberItem c : AlgExpr (ZMod p) V) := by
  unfold numberItem
  split_ifs <;> trivial

theorem tame_foldl_add : ∀ (l : List (AlgExpr (ZMod p) V)) (e : AlgExpr (ZMod p) V), Tame e →
    (∀ x ∈ l, Tame x) → Tame (l.foldl (fun acc item => .binary acc .add item) e)
  | [], _, h, _ => h
  | a :: t, e, h, hl => by
    rw [List.foldl_cons]
    exact tame_foldl_add t _ ⟨h, hl a (by simp)⟩ fun x hx => hl x (by simp [hx])

theorem tame_sumItems {l : List (AlgExpr (ZMod p) V)} (h : ∀ x ∈ l, Tame x) :
    ∀ e ∈ sumItems l, Tame e := by
  cases l with
  | nil => simp [sumItems]
  | cons a t =>
    intro e he
    simp only [sumItems, Option.mem_def, Option.some.injEq] at he
    subst he
    exact tame_foldl_add t a (h a (by simp)) fun x hx => h x (by simp [hx])

theorem tame_combineItems {l : List (AlgExpr (ZMod p) V)} (h : ∀ x ∈ l, Tame x) :
    Tame (combineItems l) := by
  have h1 := tame_sumItems (l := ((l.map AlgExpr.extractNegation).filter fun x => !x.2).map Prod.fst)
    (by
      intro x hx
      simp only [List.mem_map, List.mem_filter] at hx
      obtain ⟨y, ⟨⟨z, hz, rfl⟩, -⟩, rfl⟩ := hx
      exact (h z hz).extract)
  have h2 := tame_sumItems (l := ((l.map AlgExpr.extractNegation).filter fun x => x.2).map Prod.fst)
    (by
      intro x hx
      simp only [List.mem_map, List.mem_filter] at hx
      obtain ⟨y, ⟨⟨z, hz, rfl⟩, -⟩, rfl⟩ := hx
      exact (h z hz).extract)
  unfold combineItems
  simp only
  split
  · rename_i h3 h4; exact ⟨h1 _ h3, h2 _ h4⟩
  · rename_i h3 _; exact h1 _ h3
  · rename_i _ h3; have := h2 _ h3; exact this
  · trivial

theorem tame_groupedToAlgebraic (e : GExpr p V) (hw : WF e) : Tame (groupedToAlgebraic e) := by
  induction e using GExpr.ind with
  | h q l c ih =>
    rw [groupedToAlgebraic]
    refine tame_combineItems fun x hx => ?_
    simp only [List.mem_append, List.mem_map] at hx
    rcases hx with (hx | ⟨x, hx, rfl⟩) | hx
    · obtain ⟨ab, hab, rfl⟩ := mem_quadraticItems.1 hx
      have w := (wf_inv hw).1 ab hab
      refine tame_productItem ((ih ab hab).1 w.1) ?_
      rw [degree_groupedToAlgebraic]
      by_contra hd
      obtain ⟨k, hk⟩ := (C11_degree_zero_one ab.1 w.1).1.1 (by omega)
      have := w.2.2.1
      rw [show ab.1.tryToKnown = some k from hk] at this
      cases this
    · exact tame_linearItem _ _
    · split_ifs at hx
      · cases hx
      · rw [List.mem_singleton.1 hx]
        exact tame_numberItem _

end

/-- What `guardBus` does to a bus interaction. -/
def guardedBus (id : ℕ) (b : SymBus (ZMod p) ℕ) : SymBus (ZMod p) ℕ :=
  if (b.mult.value fun _ => 0) = 0 then b
  else { b with mult := canonicalize (.binary (.reference id) .mul b.mult) }

/-- The constraint that `guardBus` adds. -/
def guardExtra (id : ℕ) (b : SymBus (ZMod p) ℕ) : List (AlgExpr (ZMod p) ℕ) :=
  if (b.mult.value fun _ => 0) = 0 then
    [(canonicalize (.binary (.binary (.number 1) .sub (.reference id)) .mul b.mult)).toConstraint]
  else []

theorem guardBus_eq (id : ℕ) (b : SymBus (ZMod p) ℕ) :
    guardBus (.reference id) b = .ok (guardedBus id b, guardExtra id b) := by
  unfold guardBus guardedBus guardExtra
  rw [satisfiesZeroWitness_eq]
  by_cases h : (b.mult.value fun _ => (0 : ZMod p)) = 0
  · simp only [h]; rfl
  · simp only [h]; rfl

/-- The machine before the last constraint is added. -/
def guardedMachine (id : ℕ) (m : SymMachine (ZMod p) ℕ) : SymMachine (ZMod p) ℕ where
  constraints := (m.constraints.map fun c => (canonicalize (guardExpr (.reference id) c)).toConstraint) ++
    m.bus.flatMap (guardExtra id)
  bus := m.bus.map (guardedBus id)
  derived := m.derived ++ [(id, .constant 1)]

theorem addGuards_eq (m : SymMachine (ZMod p) ℕ) (a : ColumnAllocator) :
    addGuards m a = if m.degree ≠ 0 ∧ m.bus ≠ [] ∧ m.degree ≠ (guardedMachine a.nextPolyId m).degree then
        .error .assertion
      else .ok ({ guardedMachine a.nextPolyId m with
        constraints := (guardedMachine a.nextPolyId m).constraints ++
          [(makeBool (.reference a.nextPolyId)).toConstraint] },
        { a with nextPolyId := a.nextPolyId + 1 }) := by
  have hc : (m.constraints.mapM fun c => do
      let e ← addGuardsConstraint (AlgExpr.reference a.nextPolyId) c
      pure (canonicalize e).toConstraint) =
      .ok (m.constraints.map fun c => (canonicalize (guardExpr (.reference a.nextPolyId) c)).toConstraint) :=
    mapM_of_forall _ fun c _ => by rw [addGuardsConstraint_eq]; rfl
  have hb : m.bus.mapM (guardBus (AlgExpr.reference a.nextPolyId)) =
      .ok (m.bus.map fun b => (guardedBus a.nextPolyId b, guardExtra a.nextPolyId b)) :=
    mapM_of_forall _ fun b _ => guardBus_eq _ b
  have hbus : (m.bus.map fun b => (guardedBus a.nextPolyId b, guardExtra a.nextPolyId b)).map Prod.fst =
      m.bus.map (guardedBus a.nextPolyId) := by rw [List.map_map]; rfl
  have hcs : (m.bus.map fun b => (guardedBus a.nextPolyId b, guardExtra a.nextPolyId b)).flatMap Prod.snd =
      m.bus.flatMap (guardExtra a.nextPolyId) := by rw [List.flatMap_map]
  have hn : m.bus.map (guardedBus a.nextPolyId) ≠ [] ↔ m.bus ≠ [] := by
    rw [ne_eq, List.map_eq_nil_iff]
  unfold addGuards
  simp only [ColumnAllocator.issueNextPolyId]
  rw [hc]
  simp only [bind, Except.bind]
  rw [hb]
  simp only [hbus, hcs, hn]
  rfl

theorem degree_le_machine {T R : Type} {m : SymMachine T R} {d : ℕ} :
    m.degree ≤ d ↔ ∀ e ∈ m.exprs, e.degree ≤ d := by
  unfold SymMachine.degree
  have : ∀ (l : List ℕ) (a : ℕ), l.foldl max a ≤ d ↔ a ≤ d ∧ ∀ x ∈ l, x ≤ d := by
    intro l
    induction l with
    | nil => simp
    | cons x t ih => intro a; rw [List.foldl_cons, ih]; simp [and_assoc]
  rw [this]
  simp

theorem degree_guardedBus (id : ℕ) (b : SymBus (ZMod p) ℕ) :
    (guardedBus id b).mult.degree ≤ b.mult.degree + 1 := by
  unfold guardedBus
  split_ifs
  · exact Nat.le_succ _
  · refine (degree_canonicalize _).trans ?_
    simp only [AlgExpr.degree]
    omega

theorem degree_guardExtra {id : ℕ} {b : SymBus (ZMod p) ℕ} {e : AlgExpr (ZMod p) ℕ}
    (h : e ∈ guardExtra id b) : e.degree ≤ b.mult.degree + 1 := by
  unfold guardExtra at h
  split_ifs at h
  · rw [List.mem_singleton.1 h, degree_toConstraint]
    refine (degree_canonicalize _).trans ?_
    simp only [AlgExpr.degree]
    omega
  · cases h

end Verif
