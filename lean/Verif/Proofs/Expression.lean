import Verif.Spec.Expression
import Verif.Proofs.GroupedExpressionSubst

/-!
# Proofs about the conversion of expressions
-/

namespace Verif

open GExpr

set_option linter.unusedSectionVars false

variable {p : ℕ} {V : Type} [LinearOrder V]

theorem eval_algebraicToGrouped (σ : V → ZMod p) (e : AlgExpr (ZMod p) V) :
    eval σ (algebraicToGrouped e) = e.value σ := by
  induction e with
  | reference r => exact eval_var σ r
  | number n => exact eval_const σ n
  | binary l op r ihl ihr =>
    unfold algebraicToGrouped at *
    cases op with
    | add => rw [AlgExpr.toExpression]; exact (eval_add σ _ _).trans (by rw [ihl, ihr]; rfl)
    | sub => rw [AlgExpr.toExpression]; exact (eval_sub σ _ _).trans (by rw [ihl, ihr]; rfl)
    | mul => rw [AlgExpr.toExpression]; exact (eval_mul σ _ _).trans (by rw [ihl, ihr]; rfl)
  | minus e ih =>
    unfold algebraicToGrouped at *
    rw [AlgExpr.toExpression]
    exact (eval_neg σ _).trans (by rw [ih]; rfl)

theorem wf_algebraicToGrouped [Fact p.Prime] (e : AlgExpr (ZMod p) V) : WF (algebraicToGrouped e) := by
  induction e with
  | reference r => exact wf_var r
  | number n => exact wf_const n
  | binary l op r ihl ihr =>
    unfold algebraicToGrouped at *
    cases op with
    | add => exact wf_add ihl ihr
    | sub => exact wf_sub ihl ihr
    | mul => exact wf_mul ihl ihr
  | minus e ih => exact wf_neg ih

/-- The sign of an item. -/
def signOf (b : Bool) : ZMod p := if b then -1 else 1

theorem value_extractNegation (σ : V → ZMod p) (e : AlgExpr (ZMod p) V) :
    signOf e.extractNegation.2 * e.extractNegation.1.value σ = e.value σ := by
  cases e <;> simp [AlgExpr.extractNegation, signOf, AlgExpr.value]

theorem value_productItem (σ : V → ZMod p) (l r : AlgExpr (ZMod p) V) :
    (productItem l r).value σ = l.value σ * r.value σ := by
  rw [← value_extractNegation σ l, ← value_extractNegation σ r]
  unfold productItem
  obtain ⟨l', ln⟩ := l.extractNegation
  obtain ⟨r', rn⟩ := r.extractNegation
  simp only
  cases ln <;> cases rn <;> simp [signOf, AlgExpr.value]

theorem value_linearItem (σ : V → ZMod p) (v : V) (c : ZMod p) :
    (linearItem v c).value σ = c * σ v := by
  unfold linearItem
  split_ifs with h1 h2 h3
  · simp [AlgExpr.value, h1]
  · have : c = -1 := by rw [← h2, neg_neg]
    simp [AlgExpr.value, this]
  · simp [AlgExpr.value]
  · simp [AlgExpr.value]

theorem value_numberItem (σ : V → ZMod p) (c : ZMod p) :
    (numberItem c : AlgExpr (ZMod p) V).value σ = c := by
  unfold numberItem
  split_ifs <;> simp [AlgExpr.value]

theorem value_foldl_add (σ : V → ZMod p) : ∀ (l : List (AlgExpr (ZMod p) V)) (e : AlgExpr (ZMod p) V),
    (l.foldl (fun acc item => .binary acc .add item) e).value σ =
      e.value σ + (l.map (AlgExpr.value σ)).sum
  | [], e => by simp
  | a :: t, e => by
    rw [List.foldl_cons, value_foldl_add σ t, List.map_cons, List.sum_cons]
    simp only [AlgExpr.value]
    ring

theorem value_sumItems (σ : V → ZMod p) (l : List (AlgExpr (ZMod p) V)) :
    ((sumItems l).map (AlgExpr.value σ)).getD 0 = (l.map (AlgExpr.value σ)).sum := by
  cases l with
  | nil => rfl
  | cons a t =>
    simp only [sumItems, Option.map_some, Option.getD_some, value_foldl_add, List.map_cons,
      List.sum_cons]

theorem value_combineItems (σ : V → ZMod p) (l : List (AlgExpr (ZMod p) V)) :
    (combineItems l).value σ = (l.map (AlgExpr.value σ)).sum := by
  have key : (combineItems l).value σ =
      ((sumItems (((l.map AlgExpr.extractNegation).filter fun x => !x.2).map Prod.fst)).map
        (AlgExpr.value σ)).getD 0 -
      ((sumItems (((l.map AlgExpr.extractNegation).filter fun x => x.2).map Prod.fst)).map
        (AlgExpr.value σ)).getD 0 := by
    unfold combineItems
    simp only
    split
    · rename_i h1 h2; rw [h1, h2]; simp [AlgExpr.value]
    · rename_i h1 h2; rw [h1, h2]; simp
    · rename_i h1 h2; rw [h1, h2]; simp [AlgExpr.value]
    · rename_i h1 h2; rw [h1, h2]; simp [AlgExpr.value]
  rw [key, value_sumItems, value_sumItems]
  clear key
  induction l with
  | nil => simp
  | cons a t ih =>
    rw [List.map_cons, List.map_cons, List.sum_cons, ← ih, ← value_extractNegation σ a,
      List.filter_cons, List.filter_cons]
    cases h : a.extractNegation.2
    · simp [signOf, add_sub_assoc]
    · simp [signOf]; ring

theorem value_groupedToAlgebraic (σ : V → ZMod p) (e : GExpr p V) :
    (groupedToAlgebraic e).value σ = eval σ e := by
  induction e using GExpr.ind with
  | h q l c ih =>
    rw [groupedToAlgebraic, value_combineItems]
    have hq : ∀ q : List (GExpr p V × GExpr p V), (∀ x ∈ q,
        (groupedToAlgebraic x.1).value σ = eval σ x.1 ∧
        (groupedToAlgebraic x.2).value σ = eval σ x.2) →
        ((quadraticItems q).map (AlgExpr.value σ)).sum =
          (q.map fun ab => eval σ ab.1 * eval σ ab.2).sum := by
      intro q
      induction q with
      | nil => intro _; simp [quadraticItems]
      | cons x t iht =>
        intro hx
        obtain ⟨a, b⟩ := x
        obtain ⟨h1, h2⟩ := hx (a, b) (by simp)
        simp only [quadraticItems, List.map_cons, List.sum_cons, value_productItem]
        rw [iht fun y hy => hx y (by simp [hy]), h1, h2]
    rw [List.map_append, List.map_append, List.sum_append, List.sum_append, hq q ih, eval_mk,
      List.map_map]
    congr 1
    · congr 1
      congr 1
      refine List.map_congr_left fun x _ => ?_
      exact value_linearItem σ x.1 x.2
    · split_ifs with h
      · simp [h]
      · simp [value_numberItem]

theorem value_toConstraint (σ : V → ZMod p) (e : AlgExpr (ZMod p) V) :
    e.toConstraint.value σ = 0 ↔ e.value σ = 0 := by
  cases e <;> simp [AlgExpr.toConstraint, AlgExpr.value]

/-! ### Variables -/

theorem refs_extractNegation (e : AlgExpr (ZMod p) V) :
    e.extractNegation.1.refs = e.refs := by
  cases e <;> rfl

theorem refs_productItem (l r : AlgExpr (ZMod p) V) :
    (productItem l r).refs = l.refs ++ r.refs := by
  rw [← refs_extractNegation l, ← refs_extractNegation r]
  unfold productItem
  simp only
  split_ifs <;> simp [AlgExpr.refs]

theorem refs_linearItem (v : V) (c : ZMod p) : (linearItem v c).refs = [v] := by
  unfold linearItem
  split_ifs <;> simp [AlgExpr.refs]

theorem refs_foldl_add : ∀ (l : List (AlgExpr (ZMod p) V)) (e : AlgExpr (ZMod p) V),
    (l.foldl (fun acc item => .binary acc .add item) e).refs = e.refs ++ l.flatMap AlgExpr.refs
  | [], e => by simp
  | a :: t, e => by
    rw [List.foldl_cons, refs_foldl_add t]
    simp [AlgExpr.refs]

theorem refs_sumItems (l : List (AlgExpr (ZMod p) V)) :
    ((sumItems l).map AlgExpr.refs).getD [] = l.flatMap AlgExpr.refs := by
  cases l with
  | nil => rfl
  | cons a t => simp [sumItems, refs_foldl_add]

theorem mem_refs_combineItems (v : V) (l : List (AlgExpr (ZMod p) V)) :
    v ∈ (combineItems l).refs ↔ ∃ e ∈ l, v ∈ e.refs := by
  have key : (combineItems l).refs =
      ((sumItems (((l.map AlgExpr.extractNegation).filter fun x => !x.2).map Prod.fst)).map
        AlgExpr.refs).getD [] ++
      ((sumItems (((l.map AlgExpr.extractNegation).filter fun x => x.2).map Prod.fst)).map
        AlgExpr.refs).getD [] := by
    unfold combineItems
    simp only
    split
    · rename_i h1 h2; rw [h1, h2]; simp [AlgExpr.refs]
    · rename_i h1 h2; rw [h1, h2]; simp
    · rename_i h1 h2; rw [h1, h2]; simp [AlgExpr.refs]
    · rename_i h1 h2; rw [h1, h2]; simp [AlgExpr.refs]
  rw [key, refs_sumItems, refs_sumItems, List.mem_append]
  simp only [List.mem_flatMap, List.mem_map, List.mem_filter]
  constructor
  · rintro (⟨e, ⟨x, ⟨⟨y, hy, rfl⟩, -⟩, rfl⟩, he⟩ | ⟨e, ⟨x, ⟨⟨y, hy, rfl⟩, -⟩, rfl⟩, he⟩) <;>
    exact ⟨y, hy, by rwa [refs_extractNegation] at he⟩
  · rintro ⟨y, hy, he⟩
    rw [← refs_extractNegation] at he
    cases h : y.extractNegation.2
    · exact Or.inl ⟨_, ⟨_, ⟨⟨y, hy, rfl⟩, by simp [h]⟩, rfl⟩, he⟩
    · exact Or.inr ⟨_, ⟨_, ⟨⟨y, hy, rfl⟩, h⟩, rfl⟩, he⟩

theorem mem_quadraticItems {e : AlgExpr (ZMod p) V} :
    ∀ {q : List (GExpr p V × GExpr p V)}, e ∈ quadraticItems q ↔
      ∃ x ∈ q, e = productItem (groupedToAlgebraic x.1) (groupedToAlgebraic x.2)
  | [] => by simp [quadraticItems]
  | (a, b) :: t => by
    rw [quadraticItems, List.mem_cons, mem_quadraticItems (q := t)]
    simp

theorem refs_numberItem (c : ZMod p) : (numberItem c : AlgExpr (ZMod p) V).refs = [] := by
  unfold numberItem
  split_ifs <;> rfl

theorem mem_refs_groupedToAlgebraic (v : V) (e : GExpr p V) :
    v ∈ (groupedToAlgebraic e).refs ↔ v ∈ e.vars := by
  induction e using GExpr.ind with
  | h q l c ih =>
    rw [groupedToAlgebraic, mem_refs_combineItems, mem_vars_mk]
    constructor
    · rintro ⟨e, he, hv⟩
      simp only [List.mem_append, List.mem_map] at he
      rcases he with (he | ⟨x, hx, rfl⟩) | he
      · obtain ⟨x, hx, rfl⟩ := mem_quadraticItems.1 he
        rw [refs_productItem, List.mem_append, (ih x hx).1, (ih x hx).2] at hv
        exact Or.inl ⟨x, hx, hv⟩
      · rw [refs_linearItem, List.mem_singleton] at hv
        subst hv
        exact Or.inr ⟨_, hx⟩
      · split_ifs at he with hc
        · cases he
        · rw [List.mem_singleton.1 he, refs_numberItem] at hv
          cases hv
    · rintro (⟨x, hx, hv⟩ | ⟨k, hk⟩)
      · refine ⟨_, List.mem_append_left _ (List.mem_append_left _ (mem_quadraticItems.2
          ⟨x, hx, rfl⟩)), ?_⟩
        rwa [refs_productItem, List.mem_append, (ih x hx).1, (ih x hx).2]
      · refine ⟨_, List.mem_append_left _ (List.mem_append_right _ (List.mem_map.2
          ⟨_, hk, rfl⟩)), ?_⟩
        rw [refs_linearItem]
        simp

/-! ### Degree -/

theorem degree_extractNegation (e : AlgExpr (ZMod p) V) :
    e.extractNegation.1.degree = e.degree := by
  cases e <;> rfl

theorem degree_productItem (l r : AlgExpr (ZMod p) V) :
    (productItem l r).degree = l.degree + r.degree := by
  rw [← degree_extractNegation l, ← degree_extractNegation r]
  unfold productItem
  simp only
  split_ifs <;> simp [AlgExpr.degree]

theorem degree_linearItem (v : V) (c : ZMod p) : (linearItem v c).degree = 1 := by
  unfold linearItem
  split_ifs <;> simp [AlgExpr.degree]

theorem degree_numberItem (c : ZMod p) : (numberItem c : AlgExpr (ZMod p) V).degree = 0 := by
  unfold numberItem
  split_ifs <;> rfl

theorem degree_foldl_add {d : ℕ} : ∀ (l : List (AlgExpr (ZMod p) V)) (e : AlgExpr (ZMod p) V),
    (l.foldl (fun acc item => .binary acc .add item) e).degree ≤ d ↔
      e.degree ≤ d ∧ ∀ x ∈ l, x.degree ≤ d
  | [], e => by simp
  | a :: t, e => by
    rw [List.foldl_cons, degree_foldl_add t]
    simp only [AlgExpr.degree, List.mem_cons, forall_eq_or_imp, max_le_iff]
    tauto

theorem degree_sumItems {d : ℕ} (l : List (AlgExpr (ZMod p) V)) :
    (∀ e ∈ sumItems l, e.degree ≤ d) ↔ ∀ x ∈ l, x.degree ≤ d := by
  cases l with
  | nil => simp [sumItems]
  | cons a t => simp [sumItems, degree_foldl_add]

theorem degree_combineItems {d : ℕ} (l : List (AlgExpr (ZMod p) V)) :
    (combineItems l).degree ≤ d ↔ ∀ x ∈ l, x.degree ≤ d := by
  have key : (combineItems l).degree ≤ d ↔
      (∀ e ∈ sumItems (((l.map AlgExpr.extractNegation).filter fun x => !x.2).map Prod.fst),
        e.degree ≤ d) ∧
      (∀ e ∈ sumItems (((l.map AlgExpr.extractNegation).filter fun x => x.2).map Prod.fst),
        e.degree ≤ d) := by
    unfold combineItems
    simp only
    split
    · rename_i h1 h2; rw [h1, h2]; simp [AlgExpr.degree]
    · rename_i h1 h2; rw [h1, h2]; simp
    · rename_i h1 h2; rw [h1, h2]; simp [AlgExpr.degree]
    · rename_i h1 h2; rw [h1, h2]; simp [AlgExpr.degree]
  rw [key, degree_sumItems, degree_sumItems]
  simp only [List.mem_map, List.mem_filter]
  constructor
  · rintro ⟨h1, h2⟩ y hy
    rw [← degree_extractNegation]
    cases h : y.extractNegation.2
    · exact h1 _ ⟨_, ⟨⟨y, hy, rfl⟩, by simp [h]⟩, rfl⟩
    · exact h2 _ ⟨_, ⟨⟨y, hy, rfl⟩, h⟩, rfl⟩
  · intro h
    constructor <;>
    · rintro e ⟨x, ⟨⟨y, hy, rfl⟩, -⟩, rfl⟩
      rw [degree_extractNegation]
      exact h y hy

theorem degree_groupedToAlgebraic (e : GExpr p V) : (groupedToAlgebraic e).degree = e.degree := by
  induction e using GExpr.ind with
  | h q l c ih =>
    refine eq_of_forall_ge_iff fun d => ?_
    rw [groupedToAlgebraic, degree_combineItems, degree_le_iff]
    constructor
    · intro h
      refine ⟨fun x hx => ?_, fun hl => ?_⟩
      · have := h _ (List.mem_append_left _ (List.mem_append_left _ (mem_quadraticItems.2
          ⟨x, hx, rfl⟩)))
        rwa [degree_productItem, (ih x hx).1, (ih x hx).2] at this
      · obtain ⟨x, hx⟩ := List.exists_mem_of_ne_nil l hl
        have := h _ (List.mem_append_left _ (List.mem_append_right _ (List.mem_map.2
          ⟨x, hx, rfl⟩)))
        rwa [degree_linearItem] at this
    · rintro ⟨h1, h2⟩ e he
      simp only [List.mem_append, List.mem_map] at he
      rcases he with (he | ⟨x, hx, rfl⟩) | he
      · obtain ⟨x, hx, rfl⟩ := mem_quadraticItems.1 he
        rw [degree_productItem, (ih x hx).1, (ih x hx).2]
        exact h1 x hx
      · rw [degree_linearItem]
        exact h2 (List.ne_nil_of_mem hx)
      · split_ifs at he with hc
        · cases he
        · rw [List.mem_singleton.1 he, degree_numberItem]
          exact Nat.zero_le d

theorem vars_algebraicToGrouped (e : AlgExpr (ZMod p) V) :
    ∀ v ∈ (algebraicToGrouped e).vars, v ∈ e.refs := by
  induction e with
  | reference r =>
    intro v hv
    have : v ∈ vars (var r : GExpr p V) := hv
    rwa [vars_var] at this
  | number n =>
    intro v hv
    have : v ∈ vars (const n : GExpr p V) := hv
    rwa [vars_const] at this
  | binary l op r ihl ihr =>
    intro v hv
    rw [AlgExpr.refs, List.mem_append]
    unfold algebraicToGrouped at *
    have : v ∈ vars (l.toExpression GExpr.add GExpr.sub GExpr.mul GExpr.neg GExpr.const GExpr.var :
        GExpr p V) ∨ v ∈ vars (r.toExpression GExpr.add GExpr.sub GExpr.mul GExpr.neg GExpr.const
          GExpr.var : GExpr p V) := by
      cases op with
      | add => exact vars_add_subset _ _ hv
      | sub =>
        rcases vars_add_subset _ _ hv with h | h
        · exact Or.inl h
        · rw [vars_neg] at h
          exact Or.inr h
      | mul => exact vars_mul_subset _ _ hv
    rcases this with h | h
    · exact Or.inl (ihl v h)
    · exact Or.inr (ihr v h)
  | minus e ih =>
    intro v hv
    unfold algebraicToGrouped at *
    rw [AlgExpr.toExpression, vars_neg] at hv
    exact ih v hv

theorem degree_algebraicToGrouped (e : AlgExpr (ZMod p) V) :
    (algebraicToGrouped e).degree ≤ e.degree := by
  induction e with
  | reference r => exact le_of_eq (by simp [algebraicToGrouped, AlgExpr.toExpression, var,
      GExpr.degree, degreeQ, AlgExpr.degree])
  | number n => exact le_of_eq (degree_const n)
  | binary l op r ihl ihr =>
    unfold algebraicToGrouped at *
    cases op with
    | add => exact (degree_add_le _ _).trans (max_le_max ihl ihr)
    | sub =>
      refine (degree_add_le _ _).trans ?_
      rw [degree_neg]
      exact max_le_max ihl ihr
    | mul => exact (degree_mul_le _ _).trans (Nat.add_le_add ihl ihr)
  | minus e ih =>
    unfold algebraicToGrouped at *
    rw [AlgExpr.toExpression, degree_neg]
    exact ih

/-! ### Machines -/

theorem symBusToBus_evalAt (σ : V → ZMod p) (b : SymBus (ZMod p) V) :
    (symBusToBus b).evalAt σ = ⟨(b.id : ZMod p), b.mult.value σ, b.args.map (AlgExpr.value σ)⟩ := by
  simp only [BusInteraction.evalAt, symBusToBus, eval_const, eval_algebraicToGrouped, List.map_map,
    Function.comp_def]

theorem machineToSystem_satisfied (bus : Bus p) (m : SymMachine (ZMod p) V) (σ : V → ZMod p) :
    (machineToSystem m).Satisfied bus σ ↔ m.Holds σ ∧ m.Accepted bus σ := by
  constructor
  · rintro ⟨h1, h2⟩
    refine ⟨fun e he => ?_, fun x hx => ?_⟩
    · have := h1 _ (List.mem_map.2 ⟨e, he, rfl⟩)
      rwa [eval_algebraicToGrouped] at this
    · obtain ⟨b, hb, rfl⟩ := List.mem_map.1 hx
      have := h2 _ (List.mem_map.2 ⟨b, hb, rfl⟩)
      rwa [symBusToBus_evalAt] at this
  · rintro ⟨h1, h2⟩
    refine ⟨fun e he => ?_, fun x hx => ?_⟩
    · obtain ⟨e', he', rfl⟩ := List.mem_map.1 he
      rw [eval_algebraicToGrouped]
      exact h1 e' he'
    · obtain ⟨b, hb, rfl⟩ := List.mem_map.1 hx
      rw [symBusToBus_evalAt]
      exact h2 _ (List.mem_map.2 ⟨b, hb, rfl⟩)

theorem mapM_ok {α β : Type} {f : α → Except Panic β} :
    ∀ {l : List α} {r : List β}, l.mapM f = .ok r → List.Forall₂ (fun a b => f a = .ok b) l r
  | [], r, h => by
    rw [List.mapM_nil] at h
    cases h
    exact .nil
  | a :: t, r, h => by
    rw [List.mapM_cons] at h
    cases ha : f a with
    | error x => rw [ha] at h; cases h
    | ok b =>
      rw [ha] at h
      cases ht : t.mapM f with
      | error x => rw [ht] at h; cases h
      | ok bs =>
        rw [ht] at h
        cases h
        exact .cons ha (mapM_ok ht)

theorem mapM_of_forall {α β : Type} {f : α → Except Panic β} (g : α → β) :
    ∀ {l : List α}, (∀ a ∈ l, f a = .ok (g a)) → l.mapM f = .ok (l.map g)
  | [], _ => rfl
  | a :: t, h => by
    rw [List.mapM_cons, h a (by simp), mapM_of_forall g fun b hb => h b (by simp [hb])]
    rfl

theorem busToSymBus_message [NeZero p] {b : BusInteraction (GExpr p V)} {b' : SymBus (ZMod p) V}
    (h : busToSymBus b = .ok b') (σ : V → ZMod p) :
    b'.message σ = ((b.evalAt σ).busId.val, (b.evalAt σ).multiplicity, (b.evalAt σ).payload) ∧
      b'.id < 2 ^ 64 := by
  unfold busToSymBus at h
  split at h
  · cases h
  · rename_i id hid
    split_ifs at h with h1
    cases h
    refine ⟨?_, h1⟩
    simp only [SymBus.message, BusInteraction.evalAt, value_groupedToAlgebraic, List.map_map,
      Function.comp_def, eval_known σ hid]

theorem systemToMachine_ok {s : ConstraintSystem p V} {m : SymMachine (ZMod p) V}
    (h : systemToMachine s = .ok m) :
    m.constraints = s.algebraic.map (fun e => (groupedToAlgebraic e).toConstraint) ∧
    List.Forall₂ (fun b b' => busToSymBus b = .ok b') s.bus m.bus ∧
    m.derived = s.derived.map fun d => (d.column, match d.method with
      | .constant c => .constant c
      | .quotientOrZero e1 e2 =>
        .quotientOrZero (groupedToAlgebraic e1) (groupedToAlgebraic e2)) := by
  unfold systemToMachine at h
  cases hb : s.bus.mapM busToSymBus with
  | error x => rw [hb] at h; cases h
  | ok bs =>
    rw [hb] at h
    cases h
    exact ⟨rfl, mapM_ok hb, rfl⟩

end Verif
