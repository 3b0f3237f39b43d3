import Verif.Spec.Indexed
import Verif.Proofs.ConstraintSystem

/-! Helper lemmas about indexed constraint systems. -/

namespace Verif

set_option linter.unusedSectionVars false

open GExpr

variable {p : ℕ} {V : Type}

/-! ### Sets of items -/

namespace Item

theorem lt_irrefl (x : Item) : lt x x = false := by cases x <;> simp [lt]

theorem lt_asymm {x y : Item} (h : lt x y = true) : lt y x = false := by
  cases x <;> cases y <;> simp_all [lt] <;> omega

theorem mem_insert (x y : Item) (s : List Item) : y ∈ insert x s ↔ y = x ∨ y ∈ s := by
  induction s with
  | nil => simp [insert]
  | cons z t ih =>
    unfold insert
    split
    · rename_i h; subst h; simp
    · split
      · simp
      · simp only [List.mem_cons, ih]; tauto

theorem mem_extend (s t : List Item) (y : Item) : y ∈ extend s t ↔ y ∈ s ∨ y ∈ t := by
  unfold extend
  induction t generalizing s with
  | nil => simp
  | cons x t ih =>
    rw [List.foldl_cons, ih, mem_insert]
    simp only [List.mem_cons]; tauto

theorem lt_trans {x y z : Item} (h : lt x y = true) (h' : lt y z = true) : lt x z = true := by
  cases x <;> cases y <;> cases z <;> simp_all [lt] <;> omega

theorem lt_total {x y : Item} (h : x ≠ y) (h' : ¬ lt x y = true) : lt y x = true := by
  cases x <;> cases y <;> simp_all [lt] <;> omega

abbrev Sorted (s : List Item) : Prop := s.Pairwise fun x y => lt x y = true

theorem sorted_insert (x : Item) {s : List Item} (h : Sorted s) : Sorted (insert x s) := by
  induction s with
  | nil => simp [insert, Sorted]
  | cons y t ih =>
    unfold Sorted at h
    rw [List.pairwise_cons] at h
    unfold insert
    split
    · exact List.pairwise_cons.2 h
    · rename_i hne
      split
      · rename_i hlt
        refine List.pairwise_cons.2 ⟨fun z hz => ?_, List.pairwise_cons.2 h⟩
        rw [List.mem_cons] at hz
        rcases hz with rfl | hz
        · exact hlt
        · exact lt_trans hlt (h.1 z hz)
      · rename_i hlt
        refine List.pairwise_cons.2 ⟨fun z hz => ?_, ih h.2⟩
        rw [mem_insert] at hz
        rcases hz with rfl | hz
        · exact lt_total hne hlt
        · exact h.1 z hz

theorem sorted_extend {s : List Item} (h : Sorted s) (t : List Item) : Sorted (extend s t) := by
  unfold extend
  induction t generalizing s with
  | nil => exact h
  | cons x t ih => exact ih (sorted_insert x h)

theorem Sorted.nodup {s : List Item} (h : Sorted s) : s.Nodup :=
  h.imp fun {a b} hab => by rintro rfl; rw [lt_irrefl] at hab; cases hab

end Item

/-! ### Positions -/

theorem mem_positions {α : Type} {f : α → Bool} {l : List α} {i : ℕ} :
    i ∈ positions f l ↔ ∃ x, l[i]? = some x ∧ f x = true := by
  unfold positions
  simp only [List.mem_map, List.mem_filter, Prod.exists, List.mem_zipIdx_iff_getElem?]
  constructor
  · rintro ⟨x, j, ⟨h, hf⟩, rfl⟩
    exact ⟨x, h, hf⟩
  · rintro ⟨x, h, hf⟩
    exact ⟨x, i, ⟨h, hf⟩, rfl⟩

theorem positions_sorted {α : Type} (f : α → Bool) (l : List α) :
    (positions f l).Pairwise (· < ·) := by
  unfold positions
  rw [List.pairwise_map]
  apply List.Pairwise.filter
  have : ∀ n, (l.zipIdx n).Pairwise fun a b => a.2 < b.2 := by
    induction l with
    | nil => simp
    | cons a t ih =>
      intro n
      rw [List.zipIdx_cons, List.pairwise_cons]
      refine ⟨?_, ih (n + 1)⟩
      intro b hb
      have := List.le_snd_of_mem_zipIdx hb
      simp; omega
  exact this 0

section
variable [LinearOrder V]

theorem mem_busVars {v : V} {b : BusInteraction (GExpr p V)} :
    v ∈ busVars b ↔ ∃ e ∈ b.fields, Occurs v e := by
  simp only [busVars, List.mem_flatMap, mem_vars_iff_occurs]

theorem mem_methodVars {v : V} {m : ComputationMethod p (GExpr p V)} :
    v ∈ m.vars ↔ match m with
      | .constant _ => False
      | .quotientOrZero e1 e2 => Occurs v e1 ∨ Occurs v e2 := by
  cases m with
  | constant c => simp [ComputationMethod.vars]
  | quotientOrZero a b =>
    simp only [ComputationMethod.vars, List.mem_append, mem_vars_iff_occurs]

theorem mem_variableOccurrences {s : ConstraintSystem p V} {v : V} {x : Item} :
    x ∈ variableOccurrences s v ↔ OccursIn s v x := by
  unfold variableOccurrences
  simp only [List.mem_append, List.mem_map, mem_positions]
  cases x with
  | alg i => simp [OccursIn, mem_vars_iff_occurs]
  | bus i => simp [OccursIn, mem_busVars]
  | derived i =>
    simp only [reduceCtorEq, and_false, exists_const, false_or, Item.derived.injEq,
      exists_eq_right, OccursIn, decide_eq_true_eq]
    constructor
    · rintro ⟨d, h1, h2⟩; exact ⟨d, h1, mem_methodVars.1 h2⟩
    · rintro ⟨d, h1, h2⟩; exact ⟨d, h1, mem_methodVars.2 h2⟩

theorem variableOccurrences_sorted (s : ConstraintSystem p V) (v : V) :
    Item.Sorted (variableOccurrences s v) := by
  unfold variableOccurrences Item.Sorted
  rw [List.pairwise_append, List.pairwise_append]
  simp only [List.pairwise_map, Item.lt, decide_eq_true_eq]
  refine ⟨⟨positions_sorted _ _, positions_sorted _ _, ?_⟩, positions_sorted _ _, ?_⟩
  · intro a ha b hb
    obtain ⟨i, -, rfl⟩ := List.mem_map.1 ha
    obtain ⟨j, -, rfl⟩ := List.mem_map.1 hb
    rfl
  · intro a ha b hb
    obtain ⟨j, -, rfl⟩ := List.mem_map.1 hb
    rcases List.mem_append.1 ha with h | h
    · obtain ⟨i, -, rfl⟩ := List.mem_map.1 h
      rfl
    · obtain ⟨i, -, rfl⟩ := List.mem_map.1 h
      rfl

theorem OccursIn.inBounds {s : ConstraintSystem p V} {v : V} {x : Item} (h : OccursIn s v x) :
    InBounds s x := by
  cases x with
  | alg i => obtain ⟨e, h, -⟩ := h; exact (List.getElem?_eq_some_iff.1 h).1
  | bus i => obtain ⟨e, h, -⟩ := h; exact (List.getElem?_eq_some_iff.1 h).1
  | derived i => obtain ⟨e, h, -⟩ := h; exact (List.getElem?_eq_some_iff.1 h).1

/-- The index is complete and valid. -/
structure Indexed.Inv (s : Indexed p V) : Prop where
  complete : ∀ v x, OccursIn s.sys v x → x ∈ s.occ v
  valid : ∀ v, ∀ x ∈ s.occ v, InBounds s.sys x
  sorted : ∀ v, Item.Sorted (s.occ v)

theorem Indexed.inv_ofSystem (s : ConstraintSystem p V) : (Indexed.ofSystem s).Inv where
  complete _ _ h := mem_variableOccurrences.2 h
  valid _ _ h := (mem_variableOccurrences.1 h).inBounds
  sorted v := variableOccurrences_sorted s v

/-! ### extend -/

theorem inBounds_extend_left {s t : ConstraintSystem p V} {x : Item} (h : InBounds s x) :
    InBounds (s.extend t) x := by
  cases x <;> simp only [InBounds, ConstraintSystem.extend, List.length_append] at * <;> omega

theorem inBounds_shift {s t : ConstraintSystem p V} {x : Item} (h : InBounds t x) :
    InBounds (s.extend t) (Indexed.shiftItem s x) := by
  cases x <;> simp only [InBounds, ConstraintSystem.extend, Indexed.shiftItem,
    List.length_append] at * <;> omega

theorem getElem?_append_cases {α : Type} {a b : List α} {i : ℕ} {x : α}
    (h : (a ++ b)[i]? = some x) : a[i]? = some x ∨ ∃ j, i = j + a.length ∧ b[j]? = some x := by
  rw [List.getElem?_append] at h
  split at h
  · exact Or.inl h
  · exact Or.inr ⟨i - a.length, by omega, h⟩

theorem occursIn_extend {s t : ConstraintSystem p V} {v : V} {x : Item}
    (h : OccursIn (s.extend t) v x) :
    OccursIn s v x ∨ ∃ y, x = Indexed.shiftItem s y ∧ OccursIn t v y := by
  cases x with
  | alg i =>
    obtain ⟨e, h1, h2⟩ := h
    rcases getElem?_append_cases h1 with h | ⟨j, rfl, h⟩
    · exact Or.inl ⟨e, h, h2⟩
    · exact Or.inr ⟨.alg j, rfl, e, h, h2⟩
  | bus i =>
    obtain ⟨e, h1, h2⟩ := h
    rcases getElem?_append_cases h1 with h | ⟨j, rfl, h⟩
    · exact Or.inl ⟨e, h, h2⟩
    · exact Or.inr ⟨.bus j, rfl, e, h, h2⟩
  | derived i =>
    obtain ⟨e, h1, h2⟩ := h
    rcases getElem?_append_cases h1 with h | ⟨j, rfl, h⟩
    · exact Or.inl ⟨e, h, h2⟩
    · exact Or.inr ⟨.derived j, rfl, e, h, h2⟩

theorem Indexed.inv_extend {s : Indexed p V} (h : s.Inv) (t : ConstraintSystem p V) :
    (s.extend t).Inv where
  complete v x hx := by
    refine (Item.mem_extend _ _ _).2 ?_
    rcases occursIn_extend hx with h' | ⟨y, rfl, hy⟩
    · exact Or.inl (h.complete v x h')
    · exact Or.inr (List.mem_map.2 ⟨y, mem_variableOccurrences.2 hy, rfl⟩)
  valid v x hx := by
    rcases (Item.mem_extend _ _ _).1 hx with h' | h'
    · exact inBounds_extend_left (h.valid v x h')
    · obtain ⟨y, hy, rfl⟩ := List.mem_map.1 h'
      exact inBounds_shift (mem_variableOccurrences.1 hy).inBounds
  sorted v := Item.sorted_extend (h.sorted v) _

/-! ### retain -/

theorem replacementFrom_some {α : Type} {f : ℕ → α → Bool} {n : ℕ} {l : List α} {i j : ℕ}
    (h : Indexed.replacementFrom f n l i = some j) :
    ∃ x, l[i]? = some x ∧ (Indexed.retainFrom f n l)[j]? = some x := by
  induction l generalizing n i j with
  | nil => simp [Indexed.replacementFrom] at h
  | cons x t ih =>
    cases i with
    | zero =>
      unfold Indexed.replacementFrom at h
      split at h
      · rename_i hf
        cases h
        refine ⟨x, rfl, ?_⟩
        unfold Indexed.retainFrom
        rw [if_pos hf]
        rfl
      · cases h
    | succ i =>
      unfold Indexed.replacementFrom at h
      rw [Option.map_eq_some_iff] at h
      obtain ⟨k, hk, rfl⟩ := h
      obtain ⟨y, h1, h2⟩ := ih hk
      refine ⟨y, by simpa using h1, ?_⟩
      unfold Indexed.retainFrom
      split
      · simpa using h2
      · simpa using h2

theorem exists_replacement {α : Type} {f : ℕ → α → Bool} {n : ℕ} {l : List α} {j : ℕ} {x : α}
    (h : (Indexed.retainFrom f n l)[j]? = some x) :
    ∃ i, Indexed.replacementFrom f n l i = some j ∧ l[i]? = some x ∧ f (n + i) x = true := by
  induction l generalizing n j with
  | nil => simp [Indexed.retainFrom] at h
  | cons y t ih =>
    unfold Indexed.retainFrom at h
    split at h
    · rename_i hf
      cases j with
      | zero =>
        simp only [List.getElem?_cons_zero, Option.some.injEq] at h
        subst h
        exact ⟨0, by simp [Indexed.replacementFrom, hf], rfl, hf⟩
      | succ j =>
        simp only [List.getElem?_cons_succ] at h
        obtain ⟨i, hi, hx, hfx⟩ := ih h
        exact ⟨i + 1, by simp [Indexed.replacementFrom, hi, hf], by simpa using hx,
          by rwa [show n + (i + 1) = n + 1 + i by omega]⟩
    · rename_i hf
      obtain ⟨i, hi, hx, hfx⟩ := ih h
      exact ⟨i + 1, by simp [Indexed.replacementFrom, hi, hf], by simpa using hx,
          by rwa [show n + (i + 1) = n + 1 + i by omega]⟩

theorem mem_retainFrom {α : Type} {f : ℕ → α → Bool} {n : ℕ} {l : List α} {x : α} :
    x ∈ Indexed.retainFrom f n l ↔ ∃ i, l[i]? = some x ∧ f (n + i) x = true := by
  induction l generalizing n with
  | nil => simp [Indexed.retainFrom]
  | cons y t ih =>
    have key : (∃ i, (y :: t)[i]? = some x ∧ f (n + i) x = true) ↔
        (y = x ∧ f n x = true) ∨ ∃ i, t[i]? = some x ∧ f (n + 1 + i) x = true := by
      constructor
      · rintro ⟨i, h1, h2⟩
        cases i with
        | zero => left; simpa using And.intro h1 h2
        | succ i =>
          right
          exact ⟨i, by simpa using h1, by rwa [show n + 1 + i = n + (i + 1) by omega]⟩
      · rintro (⟨rfl, h⟩ | ⟨i, h1, h2⟩)
        · exact ⟨0, rfl, h⟩
        · exact ⟨i + 1, by simpa using h1, by rwa [show n + (i + 1) = n + 1 + i by omega]⟩
    rw [key, ← ih, show Indexed.retainFrom f n (y :: t) = if f n y = true then
      y :: Indexed.retainFrom f (n + 1) t else Indexed.retainFrom f (n + 1) t from rfl]
    split
    · rename_i hf
      simp only [List.mem_cons]
      constructor
      · rintro (rfl | h)
        · exact Or.inl ⟨rfl, hf⟩
        · exact Or.inr h
      · rintro (⟨rfl, -⟩ | h)
        · exact Or.inl rfl
        · exact Or.inr h
    · rename_i hf
      constructor
      · exact Or.inr
      · rintro (⟨rfl, h⟩ | h)
        · exact absurd h hf
        · exact h

theorem Indexed.inv_retainAlgebraic {s : Indexed p V} (h : s.Inv) (f : ℕ → GExpr p V → Bool) :
    (s.retainAlgebraic f).Inv where
  complete v x hx := by
    refine (Item.mem_extend _ _ _).2 (Or.inr (List.mem_filterMap.2 ?_))
    cases x with
    | alg j =>
      obtain ⟨e, h1, h2⟩ := hx
      obtain ⟨i, hi, hx, -⟩ := exists_replacement h1
      exact ⟨.alg i, h.complete v _ ⟨e, hx, h2⟩, by simp [hi]⟩
    | bus j => exact ⟨.bus j, h.complete v _ hx, rfl⟩
    | derived j => exact ⟨.derived j, h.complete v _ hx, rfl⟩
  valid v x hx := by
    rcases (Item.mem_extend _ _ _).1 hx with h' | h'
    · cases h'
    · obtain ⟨y, hy, hm⟩ := List.mem_filterMap.1 h'
      cases y with
      | alg i =>
        simp only [Option.map_eq_some_iff] at hm
        obtain ⟨j, hj, rfl⟩ := hm
        obtain ⟨x, -, h2⟩ := replacementFrom_some hj
        exact (List.getElem?_eq_some_iff.1 h2).1
      | bus i => cases hm; exact h.valid v _ hy
      | derived i => cases hm; exact h.valid v _ hy
  sorted v := Item.sorted_extend List.Pairwise.nil _

theorem Indexed.inv_retainBus {s : Indexed p V} (h : s.Inv)
    (f : ℕ → BusInteraction (GExpr p V) → Bool) : (s.retainBus f).Inv where
  complete v x hx := by
    refine (Item.mem_extend _ _ _).2 (Or.inr (List.mem_filterMap.2 ?_))
    cases x with
    | bus j =>
      obtain ⟨e, h1, h2⟩ := hx
      obtain ⟨i, hi, hx, -⟩ := exists_replacement h1
      exact ⟨.bus i, h.complete v _ ⟨e, hx, h2⟩, by simp [hi]⟩
    | alg j => exact ⟨.alg j, h.complete v _ hx, rfl⟩
    | derived j => exact ⟨.derived j, h.complete v _ hx, rfl⟩
  valid v x hx := by
    rcases (Item.mem_extend _ _ _).1 hx with h' | h'
    · cases h'
    · obtain ⟨y, hy, hm⟩ := List.mem_filterMap.1 h'
      cases y with
      | bus i =>
        simp only [Option.map_eq_some_iff] at hm
        obtain ⟨j, hj, rfl⟩ := hm
        obtain ⟨x, -, h2⟩ := replacementFrom_some hj
        exact (List.getElem?_eq_some_iff.1 h2).1
      | alg i => cases hm; exact h.valid v _ hy
      | derived i => cases hm; exact h.valid v _ hy
  sorted v := Item.sorted_extend List.Pairwise.nil _

theorem Indexed.inv_retainDerived {s : Indexed p V} (h : s.Inv)
    (f : ℕ → DerivedVariable p V → Bool) : (s.retainDerived f).Inv where
  complete v x hx := by
    refine (Item.mem_extend _ _ _).2 (Or.inr (List.mem_filterMap.2 ?_))
    cases x with
    | derived j =>
      obtain ⟨e, h1, h2⟩ := hx
      obtain ⟨i, hi, hx, -⟩ := exists_replacement h1
      exact ⟨.derived i, h.complete v _ ⟨e, hx, h2⟩, by simp [hi]⟩
    | alg j => exact ⟨.alg j, h.complete v _ hx, rfl⟩
    | bus j => exact ⟨.bus j, h.complete v _ hx, rfl⟩
  valid v x hx := by
    rcases (Item.mem_extend _ _ _).1 hx with h' | h'
    · cases h'
    · obtain ⟨y, hy, hm⟩ := List.mem_filterMap.1 h'
      cases y with
      | derived i =>
        simp only [Option.map_eq_some_iff] at hm
        obtain ⟨j, hj, rfl⟩ := hm
        obtain ⟨x, -, h2⟩ := replacementFrom_some hj
        exact (List.getElem?_eq_some_iff.1 h2).1
      | alg i => cases hm; exact h.valid v _ hy
      | bus i => cases hm; exact h.valid v _ hy
  sorted v := Item.sorted_extend List.Pairwise.nil _

/-! ### substitution -/

/-- What a fold over distinct items does. -/
theorem mapItem_foldl (f : GExpr p V → GExpr p V) {items : List Item} (hn : items.Nodup)
    (s : ConstraintSystem p V) :
    (∀ i, (items.foldl (mapItem f) s).algebraic[i]? =
      if Item.alg i ∈ items then s.algebraic[i]?.map f else s.algebraic[i]?) ∧
    (∀ i, (items.foldl (mapItem f) s).bus[i]? =
      if Item.bus i ∈ items then s.bus[i]?.map (fun b => b.map f) else s.bus[i]?) ∧
    (∀ i, (items.foldl (mapItem f) s).derived[i]? =
      if Item.derived i ∈ items then
        s.derived[i]?.map (fun d => { d with method := d.method.mapExpr f })
      else s.derived[i]?) := by
  induction items generalizing s with
  | nil => simp
  | cons x t ih =>
    rw [List.nodup_cons] at hn
    obtain ⟨h1, h2, h3⟩ := ih hn.2 (mapItem f s x)
    rw [List.foldl_cons]
    refine ⟨fun i => ?_, fun i => ?_, fun i => ?_⟩
    · rw [h1]
      cases x with
      | alg j =>
        simp only [mapItem, modifyAt, List.getElem?_modify, List.mem_cons, Item.alg.injEq]
        by_cases hij : j = i
        · subst hij
          simp [hn.1]
        · have : ¬ i = j := fun h => hij h.symm
          simp [hij, this]
      | bus j => simp [mapItem]
      | derived j => simp [mapItem]
    · rw [h2]
      cases x with
      | bus j =>
        simp only [mapItem, modifyAt, List.getElem?_modify, List.mem_cons, Item.bus.injEq]
        by_cases hij : j = i
        · subst hij
          simp [hn.1]
        · have : ¬ i = j := fun h => hij h.symm
          simp [hij, this]
      | alg j => simp [mapItem]
      | derived j => simp [mapItem]
    · rw [h3]
      cases x with
      | derived j =>
        simp only [mapItem, modifyAt, List.getElem?_modify, List.mem_cons, Item.derived.injEq]
        by_cases hij : j = i
        · subst hij
          simp [hn.1]
        · have : ¬ i = j := fun h => hij h.symm
          simp [hij, this]
      | alg j => simp [mapItem]
      | bus j => simp [mapItem]

theorem lengths_foldl (f : GExpr p V → GExpr p V) (items : List Item) (s : ConstraintSystem p V) :
    (items.foldl (mapItem f) s).algebraic.length = s.algebraic.length ∧
    (items.foldl (mapItem f) s).bus.length = s.bus.length ∧
    (items.foldl (mapItem f) s).derived.length = s.derived.length := by
  induction items generalizing s with
  | nil => simp
  | cons x t ih =>
    rw [List.foldl_cons]
    obtain ⟨h1, h2, h3⟩ := ih (mapItem f s x)
    rw [h1, h2, h3]
    cases x <;> simp [mapItem, modifyAt]

theorem inBounds_foldl {f : GExpr p V → GExpr p V} {items : List Item}
    {s : ConstraintSystem p V} {x : Item} :
    InBounds (items.foldl (mapItem f) s) x ↔ InBounds s x := by
  obtain ⟨h1, h2, h3⟩ := lengths_foldl f items s
  cases x <;> simp only [InBounds, h1, h2, h3]

theorem subst_of_not_mem {x : V} {r e : GExpr p V} (h : x ∉ vars e) : GExpr.subst x r e = e := by
  rcases e with ⟨q, l, c⟩
  rw [GExpr.subst, if_pos h]

theorem busMap_of_forall {f : GExpr p V → GExpr p V} {b : BusInteraction (GExpr p V)}
    (h : ∀ e ∈ b.fields, f e = e) : b.map f = b := by
  rcases b with ⟨i, m, l⟩
  simp only [BusInteraction.fields, List.mem_cons, forall_eq_or_imp] at h
  simp only [BusInteraction.map, h.1, h.2.1, BusInteraction.mk.injEq, true_and]
  conv_rhs => rw [← List.map_id l]
  exact List.map_congr_left h.2.2

theorem methodMap_of_forall {f : GExpr p V → GExpr p V} {m : ComputationMethod p (GExpr p V)}
    (x : V) (hf : ∀ e, x ∉ vars e → f e = e) (h : x ∉ m.vars) : m.mapExpr f = m := by
  cases m with
  | constant c => rfl
  | quotientOrZero a b =>
    simp only [ComputationMethod.vars, List.mem_append, not_or] at h
    simp only [ComputationMethod.mapExpr, hf a h.1, hf b h.2]

/-- Substituting through the index is substituting everywhere. -/
theorem Indexed.subst_sys {s : Indexed p V} (h : s.Inv) (x : V) (r : GExpr p V) :
    (s.subst x r).sys = s.sys.mapExpr (GExpr.subst x r) := by
  obtain ⟨h1, h2, h3⟩ := mapItem_foldl (GExpr.subst x r) (h.sorted x).nodup s.sys
  have e1 : (s.subst x r).sys.algebraic = (s.sys.mapExpr (GExpr.subst x r)).algebraic := by
    apply List.ext_getElem?
    intro i
    refine (h1 i).trans ?_
    simp only [ConstraintSystem.mapExpr, List.getElem?_map]
    split
    · rfl
    · rename_i hn
      cases he : s.sys.algebraic[i]? with
      | none => rfl
      | some e =>
        rw [Option.map_some, subst_of_not_mem]
        intro hv
        exact hn (h.complete x (.alg i) ⟨e, he, mem_vars_iff_occurs.1 hv⟩)
  have e2 : (s.subst x r).sys.bus = (s.sys.mapExpr (GExpr.subst x r)).bus := by
    apply List.ext_getElem?
    intro i
    refine (h2 i).trans ?_
    simp only [ConstraintSystem.mapExpr, List.getElem?_map]
    split
    · rfl
    · rename_i hn
      cases he : s.sys.bus[i]? with
      | none => rfl
      | some b =>
        rw [Option.map_some, busMap_of_forall]
        intro e hb
        apply subst_of_not_mem
        intro hv
        exact hn (h.complete x (.bus i) ⟨b, he, e, hb, mem_vars_iff_occurs.1 hv⟩)
  have e3 : (s.subst x r).sys.derived = (s.sys.mapExpr (GExpr.subst x r)).derived := by
    apply List.ext_getElem?
    intro i
    refine (h3 i).trans ?_
    simp only [ConstraintSystem.mapExpr, List.getElem?_map]
    split
    · rfl
    · rename_i hn
      cases he : s.sys.derived[i]? with
      | none => rfl
      | some d =>
        rw [Option.map_some, methodMap_of_forall x (fun e he => subst_of_not_mem he)]
        intro hv
        exact hn (h.complete x (.derived i) ⟨d, he, mem_methodVars.1 hv⟩)
  generalize (s.subst x r).sys = a at *
  generalize s.sys.mapExpr (GExpr.subst x r) = b at *
  cases a; cases b
  simp_all

theorem occursIn_mapExpr {f : GExpr p V → GExpr p V} {s : ConstraintSystem p V} {v : V} {x : Item}
    (h : OccursIn (s.mapExpr f) v x) :
    match x with
    | .alg i => ∃ e, s.algebraic[i]? = some e ∧ v ∈ vars (f e)
    | .bus i => ∃ b, s.bus[i]? = some b ∧ ∃ e ∈ b.fields, v ∈ vars (f e)
    | .derived i => ∃ d, s.derived[i]? = some d ∧ match d.method with
      | .constant _ => False
      | .quotientOrZero e1 e2 => v ∈ vars (f e1) ∨ v ∈ vars (f e2) := by
  cases x with
  | alg i =>
    obtain ⟨e, h0, h2⟩ := h
    have h1 : (s.algebraic.map f)[i]? = some e := h0
    rw [List.getElem?_map, Option.map_eq_some_iff] at h1
    obtain ⟨e', h1, rfl⟩ := h1
    exact ⟨e', h1, mem_vars_iff_occurs.2 h2⟩
  | bus i =>
    obtain ⟨b, h0, e, he, h2⟩ := h
    have h1 : (s.bus.map fun b => b.map f)[i]? = some b := h0
    rw [List.getElem?_map, Option.map_eq_some_iff] at h1
    obtain ⟨b', h1, rfl⟩ := h1
    refine ⟨b', h1, ?_⟩
    rw [fields_map] at he
    obtain ⟨e', he', rfl⟩ := List.mem_map.1 he
    exact ⟨e', he', mem_vars_iff_occurs.2 h2⟩
  | derived i =>
    obtain ⟨d, h0, h2⟩ := h
    have h1 : (s.derived.map fun d => { d with method := d.method.mapExpr f })[i]? = some d := h0
    rw [List.getElem?_map, Option.map_eq_some_iff] at h1
    obtain ⟨d', h1, rfl⟩ := h1
    refine ⟨d', h1, ?_⟩
    rcases d' with ⟨col, m⟩
    cases m with
    | constant c => exact h2
    | quotientOrZero a b => exact h2.imp mem_vars_iff_occurs.2 mem_vars_iff_occurs.2

theorem occursIn_subst {x : V} {r : GExpr p V} {s : ConstraintSystem p V} {v : V} {y : Item}
    (h : OccursIn (s.mapExpr (GExpr.subst x r)) v y) :
    (OccursIn s v y) ∨ (v ∈ vars r ∧ OccursIn s x y) := by
  have key : ∀ e : GExpr p V, v ∈ vars (GExpr.subst x r e) →
      Occurs v e ∨ (v ∈ vars r ∧ Occurs x e) := fun e he => by
    rcases vars_subst x r he with h | h
    · exact Or.inl (mem_vars_iff_occurs.1 h.1)
    · exact Or.inr ⟨h.1, mem_vars_iff_occurs.1 h.2⟩
  have := occursIn_mapExpr h
  cases y with
  | alg i =>
    obtain ⟨e, h1, h2⟩ := this
    rcases key e h2 with h | h
    · exact Or.inl ⟨e, h1, h⟩
    · exact Or.inr ⟨h.1, e, h1, h.2⟩
  | bus i =>
    obtain ⟨b, h1, e, he, h2⟩ := this
    rcases key e h2 with h | h
    · exact Or.inl ⟨b, h1, e, he, h⟩
    · exact Or.inr ⟨h.1, b, h1, e, he, h.2⟩
  | derived i =>
    obtain ⟨d, h1, h2⟩ := this
    rcases d with ⟨col, m⟩
    cases m with
    | constant c => exact h2.elim
    | quotientOrZero a b =>
      rcases h2 with h2 | h2
      · rcases key a h2 with h | h
        · exact Or.inl ⟨_, h1, Or.inl h⟩
        · exact Or.inr ⟨h.1, _, h1, Or.inl h.2⟩
      · rcases key b h2 with h | h
        · exact Or.inl ⟨_, h1, Or.inr h⟩
        · exact Or.inr ⟨h.1, _, h1, Or.inr h.2⟩

theorem Indexed.inv_subst {s : Indexed p V} (h : s.Inv) (x : V) (r : GExpr p V) :
    (s.subst x r).Inv where
  complete v y hy := by
    rw [Indexed.subst_sys h] at hy
    change y ∈ if v ∈ vars r then Item.extend (s.occ v) (s.occ x) else s.occ v
    rcases occursIn_subst hy with h' | ⟨hv, h'⟩
    · split
      · exact (Item.mem_extend _ _ _).2 (Or.inl (h.complete v y h'))
      · exact h.complete v y h'
    · rw [if_pos hv]
      exact (Item.mem_extend _ _ _).2 (Or.inr (h.complete x y h'))
  valid v y hy := by
    change y ∈ (if v ∈ vars r then Item.extend (s.occ v) (s.occ x) else s.occ v) at hy
    refine inBounds_foldl.2 ?_
    split at hy
    · rcases (Item.mem_extend _ _ _).1 hy with h' | h'
      · exact h.valid v y h'
      · exact h.valid x y h'
    · exact h.valid v y hy
  sorted v := by
    change Item.Sorted (if v ∈ vars r then Item.extend (s.occ v) (s.occ x) else s.occ v)
    split
    · exact Item.sorted_extend (h.sorted v) _
    · exact h.sorted v

theorem occursIn_foldl_substKnown [Fact p.Prime] {x : V} {k : ZMod p} {items : List Item}
    (hn : items.Nodup) {s : ConstraintSystem p V} {v : V} {y : Item}
    (h : OccursIn (items.foldl (mapItem (GExpr.substKnown x k)) s) v y) : OccursIn s v y := by
  obtain ⟨h1, h2, h3⟩ := mapItem_foldl (GExpr.substKnown x k) hn s
  have key : ∀ e : GExpr p V, Occurs v (GExpr.substKnown x k e) → Occurs v e := fun e he =>
    mem_vars_iff_occurs.1 (vars_substKnown x k (mem_vars_iff_occurs.2 he)).1
  cases y with
  | alg i =>
    obtain ⟨e, he, ho⟩ := h
    rw [h1] at he
    split at he
    · rw [Option.map_eq_some_iff] at he
      obtain ⟨e', he', rfl⟩ := he
      exact ⟨e', he', key _ ho⟩
    · exact ⟨e, he, ho⟩
  | bus i =>
    obtain ⟨b, hb, e, he, ho⟩ := h
    rw [h2] at hb
    split at hb
    · rw [Option.map_eq_some_iff] at hb
      obtain ⟨b', hb', rfl⟩ := hb
      rw [fields_map] at he
      obtain ⟨e', he', rfl⟩ := List.mem_map.1 he
      exact ⟨b', hb', e', he', key _ ho⟩
    · exact ⟨b, hb, e, he, ho⟩
  | derived i =>
    obtain ⟨d, hd, ho⟩ := h
    rw [h3] at hd
    split at hd
    · rw [Option.map_eq_some_iff] at hd
      obtain ⟨d', hd', rfl⟩ := hd
      rcases d' with ⟨col, m⟩
      refine ⟨_, hd', ?_⟩
      cases m with
      | constant c => exact ho
      | quotientOrZero a b => exact ho.imp (key _) (key _)
    · exact ⟨d, hd, ho⟩

theorem Indexed.inv_substKnown [Fact p.Prime] {s : Indexed p V} (h : s.Inv) (x : V) (k : ZMod p) :
    (s.substKnown x k).Inv where
  complete v y hy := h.complete v y (occursIn_foldl_substKnown (h.sorted x).nodup hy)
  valid v y hy := inBounds_foldl.2 (h.valid v y hy)
  sorted v := h.sorted v

theorem Indexed.inv_run [Fact p.Prime] {s : Indexed p V} (h : s.Inv) (op : IndexedOp p V) :
    (op.run s).Inv := by
  cases op with
  | extend t => exact inv_extend h t
  | retainAlgebraic f => exact inv_retainAlgebraic h f
  | retainBus f => exact inv_retainBus h f
  | retainDerived f => exact inv_retainDerived h f
  | substKnown x k => exact inv_substKnown h x k
  | subst x r => exact inv_subst h x r

theorem Indexed.inv_history [Fact p.Prime] (s : ConstraintSystem p V)
    (ops : List (IndexedOp p V)) : (indexedHistory s ops).Inv := by
  unfold indexedHistory
  have : ∀ t : Indexed p V, t.Inv → (ops.foldl IndexedOp.run t).Inv := by
    induction ops with
    | nil => exact fun t h => h
    | cons op ops ih => exact fun t h => ih _ (inv_run h op)
  exact this _ (inv_ofSystem s)

/-! ### Looking up constraints -/

/-- The constraint is in the system at the position of the item. -/
def refAt (s : ConstraintSystem p V) : Item → Option (ConstraintRef p V)
  | .alg i => s.algebraic[i]?.map .alg
  | .bus i => s.bus[i]?.map .bus
  | .derived _ => none

theorem toRef_ok {s : ConstraintSystem p V} {x : Item} (h : InBounds s x) :
    x.toRef s = .ok (refAt s x) := by
  cases x with
  | alg i => simp only [InBounds] at h; simp [Item.toRef, refAt, h]
  | bus i => simp only [InBounds] at h; simp [Item.toRef, refAt, h]
  | derived i => rfl

theorem toRefs_ok {s : ConstraintSystem p V} {l : List Item} (h : ∀ x ∈ l, InBounds s x) :
    Indexed.toRefs s l = .ok (l.filterMap (refAt s)) := by
  induction l with
  | nil => rfl
  | cons x t ih =>
    unfold Indexed.toRefs
    rw [toRef_ok (h x (by simp)), ok_bind, ih fun y hy => h y (by simp [hy]), ok_bind]
    cases hx : refAt s x <;> simp [hx, pure, Except.pure]

theorem Indexed.mem_itemsReferencing {s : Indexed p V} {vs : List V} {x : Item} :
    x ∈ s.itemsReferencing vs ↔ ∃ v ∈ vs, x ∈ s.occ v := by
  unfold itemsReferencing
  rw [List.mem_eraseDups, List.mem_flatMap]

theorem Indexed.constraintsReferencing_ok {s : Indexed p V} (h : s.Inv) (vs : List V) :
    s.constraintsReferencing vs = .ok ((s.itemsReferencing vs).filterMap (refAt s.sys)) := by
  apply toRefs_ok
  intro x hx
  obtain ⟨v, -, hv⟩ := mem_itemsReferencing.1 hx
  exact h.valid v x hv

end

/-! ### Queue -/

/-- The queue has no duplicates, only existing items, and its bits say which items it contains. -/
structure QInv (s : ConstraintSystem p V) (q : Queue) : Prop where
  nodup : q.queue.Nodup
  valid : ∀ x ∈ q.queue, InBounds s x ∧ x.isDerived = false
  bits : ∀ x n, x.flatId = .ok n → (x ∈ q.queue ↔ q.inQueue[n]? = some true)

theorem flatId_ok {x : Item} (h : x.isDerived = false) : ∃ n, x.flatId = .ok n := by
  cases x <;> simp_all [Item.flatId, Item.isDerived]

theorem flatId_inj {x y : Item} {n : ℕ} (h : x.flatId = .ok n) (h' : y.flatId = .ok n) : x = y := by
  cases x <;> cases y <;> simp_all [Item.flatId] <;> omega

theorem flatId_not_derived {x : Item} {n : ℕ} (h : x.flatId = .ok n) : x.isDerived = false := by
  cases x <;> simp_all [Item.flatId, Item.isDerived]

theorem QInv.mono {s t : ConstraintSystem p V} {q : Queue} (h : QInv s q)
    (hb : ∀ x, InBounds s x → x.isDerived = false → InBounds t x) : QInv t q :=
  ⟨h.nodup, fun x hx => ⟨hb x (h.valid x hx).1 (h.valid x hx).2, (h.valid x hx).2⟩, h.bits⟩

theorem Queue.push_ok {s : ConstraintSystem p V} {q : Queue} (h : QInv s q) {x : Item}
    (hx : InBounds s x) (hd : x.isDerived = false) :
    ∃ q', q.push x = .ok q' ∧ QInv s q' ∧ ∀ y, y ∈ q'.queue ↔ y = x ∨ y ∈ q.queue := by
  obtain ⟨n, hn⟩ := flatId_ok hd
  unfold Queue.push
  rw [if_neg (by simp [hd]), hn, ok_bind]
  simp only
  -- the extended bits
  have hext : ∀ m : ℕ, (if q.inQueue.length ≤ n then
      q.inQueue ++ List.replicate (n + 1 - q.inQueue.length) false else q.inQueue)[m]? = some true ↔
      q.inQueue[m]? = some true := by
    intro m
    split
    · rw [List.getElem?_append]
      split
      · rfl
      · rename_i hm
        rw [List.getElem?_replicate]
        have : q.inQueue[m]? = none := by rw [List.getElem?_eq_none_iff]; omega
        rw [this]
        split <;> simp
    · rfl
  have hlen : n < (if q.inQueue.length ≤ n then
      q.inQueue ++ List.replicate (n + 1 - q.inQueue.length) false else q.inQueue).length := by
    split
    · simp; omega
    · omega
  generalize (if q.inQueue.length ≤ n then
      q.inQueue ++ List.replicate (n + 1 - q.inQueue.length) false else q.inQueue) = bits at *
  cases hb : bits[n]? with
  | none => rw [List.getElem?_eq_none_iff] at hb; omega
  | some b =>
    cases b with
    | true =>
      have hmem : x ∈ q.queue := (h.bits x n hn).2 ((hext n).1 hb)
      refine ⟨_, rfl, ⟨h.nodup, h.valid, fun y m hy => ?_⟩, fun y => ?_⟩
      · rw [h.bits y m hy]; exact (hext m).symm
      · constructor
        · exact Or.inr
        · rintro (rfl | h')
          · exact hmem
          · exact h'
    | false =>
      have hmem : x ∉ q.queue := fun h' => by
        have := (hext n).2 ((h.bits x n hn).1 h')
        rw [hb] at this
        cases this
      simp only [Queue.setBit, if_pos hlen, ok_bind]
      refine ⟨_, rfl, ⟨?_, ?_, fun y m hy => ?_⟩, fun y => ?_⟩
      · rw [List.nodup_append]
        exact ⟨h.nodup, by simp, fun a ha b hb => by
          rw [List.mem_singleton] at hb
          subst hb
          rintro rfl
          exact hmem ha⟩
      · intro y hy
        simp only [List.mem_append, List.mem_singleton] at hy
        rcases hy with hy | rfl
        · exact h.valid y hy
        · exact ⟨hx, hd⟩
      · simp only [List.mem_append, List.mem_singleton, List.getElem?_set]
        by_cases hm : n = m
        · subst hm
          have := flatId_inj hn hy
          subst this
          simp [hlen]
        · rw [if_neg hm, hext, h.bits y m hy]
          constructor
          · rintro (h' | rfl)
            · exact h'
            · rw [hn] at hy; cases hy; exact absurd rfl hm
          · exact Or.inl
      · simp only [List.mem_append, List.mem_singleton]; tauto

theorem Queue.pushAll_ok {s : ConstraintSystem p V} {q : Queue} (h : QInv s q) {l : List Item}
    (hl : ∀ x ∈ l, InBounds s x ∧ x.isDerived = false) :
    ∃ q', q.pushAll l = .ok q' ∧ QInv s q' ∧ ∀ y, y ∈ q'.queue ↔ y ∈ l ∨ y ∈ q.queue := by
  induction l generalizing q with
  | nil => exact ⟨q, rfl, h, by simp⟩
  | cons x t ih =>
    obtain ⟨q1, h1, h2, h3⟩ := Queue.push_ok h (hl x (by simp)).1 (hl x (by simp)).2
    obtain ⟨q2, g1, g2, g3⟩ := ih h2 fun y hy => hl y (by simp [hy])
    refine ⟨q2, ?_, g2, fun y => ?_⟩
    · unfold Queue.pushAll
      rw [h1, ok_bind, g1]
    · rw [g3, h3, List.mem_cons]; tauto

theorem Queue.setBits_ok {l : List Item} {bits : List Bool} (hd : ∀ x ∈ l, x.isDerived = false)
    (hb : ∀ x ∈ l, ∀ n, x.flatId = .ok n → n < bits.length) :
    ∃ bits', Queue.setBits l bits = .ok bits' ∧ bits'.length = bits.length ∧
      ∀ n, bits'[n]? = some true ↔ bits[n]? = some true ∨ ∃ x ∈ l, x.flatId = .ok n := by
  induction l generalizing bits with
  | nil => exact ⟨bits, rfl, rfl, by simp⟩
  | cons x t ih =>
    obtain ⟨n, hn⟩ := flatId_ok (hd x (by simp))
    have hlt := hb x (by simp) n hn
    obtain ⟨bits', h1, h2, h3⟩ := ih (bits := bits.set n true) (fun y hy => hd y (by simp [hy]))
      (fun y hy m hm => by rw [List.length_set]; exact hb y (by simp [hy]) m hm)
    refine ⟨bits', ?_, by rw [h2, List.length_set], fun m => ?_⟩
    · unfold Queue.setBits
      rw [hn, ok_bind, Queue.setBit, if_pos hlt, ok_bind, h1]
    · rw [h3, List.getElem?_set]
      simp only [List.mem_cons, exists_eq_or_imp]
      by_cases hm : n = m
      · subst hm
        simp [hlt, hn]
      · rw [if_neg hm]
        have : ¬ x.flatId = .ok m := by rw [hn]; simpa using hm
        simp [this]

theorem Queue.new_ok (s : ConstraintSystem p V) :
    ∃ q, Queue.new s = .ok q ∧ QInv s q ∧
      ∀ x, InBounds s x → x.isDerived = false → x ∈ q.queue := by
  have hmem : ∀ x, x ∈ (List.range s.algebraic.length).map Item.alg ++
      (List.range s.bus.length).map Item.bus ↔ InBounds s x ∧ x.isDerived = false := by
    intro x
    cases x <;> simp [InBounds, Item.isDerived]
  obtain ⟨bits, h1, h2, h3⟩ := Queue.setBits_ok
    (l := (List.range s.algebraic.length).map Item.alg ++ (List.range s.bus.length).map Item.bus)
    (bits := List.replicate (2 * max s.algebraic.length s.bus.length + 2) false)
    (fun x hx => ((hmem x).1 hx).2)
    (fun x hx n hn => by
      have hb := ((hmem x).1 hx).1
      rw [List.length_replicate]
      cases x with
      | alg i => simp only [Item.flatId, Except.ok.injEq] at hn; simp only [InBounds] at hb; omega
      | bus i => simp only [Item.flatId, Except.ok.injEq] at hn; simp only [InBounds] at hb; omega
      | derived i => cases hn)
  refine ⟨⟨(List.range s.algebraic.length).map Item.alg ++
      (List.range s.bus.length).map Item.bus, bits⟩, ?_, ?_, ?_⟩
  · unfold Queue.new
    simp only [h1, ok_bind]
    rfl
  · refine ⟨?_, fun x hx => (hmem x).1 hx, fun x n hn => ?_⟩
    · rw [List.nodup_append]
      refine ⟨List.Nodup.map (fun a b h => by injection h) List.nodup_range,
        List.Nodup.map (fun a b h => by injection h) List.nodup_range, ?_⟩
      intro a ha b hb
      obtain ⟨i, -, rfl⟩ := List.mem_map.1 ha
      obtain ⟨j, -, rfl⟩ := List.mem_map.1 hb
      simp
    · rw [h3]
      constructor
      · intro h; exact Or.inr ⟨x, h, hn⟩
      · rintro (h | ⟨y, hy, hyn⟩)
        · rw [List.getElem?_replicate] at h
          split at h <;> simp at h
        · rw [flatId_inj hn hyn]; exact hy
  · intro x hx hd
    exact (hmem x).2 ⟨hx, hd⟩

theorem Queue.pop_ok {s : ConstraintSystem p V} {q : Queue} (h : QInv s q) :
    (q.queue = [] ∧ q.popFront = .ok (none, q)) ∨
    ∃ x q', q.popFront = .ok (some x, q') ∧ q.queue = x :: q'.queue ∧ QInv s q' := by
  unfold Queue.popFront
  rcases q with ⟨l, bits⟩
  cases l with
  | nil => exact Or.inl ⟨rfl, rfl⟩
  | cons x t =>
    right
    have hv := h.valid x (by simp)
    obtain ⟨n, hn⟩ := flatId_ok hv.2
    have hbit := (h.bits x n hn).1 (by simp)
    have hlt : n < bits.length := (List.getElem?_eq_some_iff.1 hbit).1
    have hnd := List.nodup_cons.1 h.nodup
    refine ⟨x, ⟨t, bits.set n false⟩, ?_, rfl, ?_⟩
    · simp only [hn, ok_bind, Queue.setBit, if_pos hlt]
      rfl
    · refine ⟨hnd.2, fun y hy => h.valid y (by simp [hy]), fun y m hy => ?_⟩
      simp only [List.getElem?_set]
      by_cases hm : n = m
      · subst hm
        have := flatId_inj hn hy
        subst this
        simp [hlt, hnd.1]
      · rw [if_neg hm, ← h.bits y m hy]
        simp only [List.mem_cons]
        constructor
        · exact Or.inr
        · rintro (rfl | h')
          · rw [hn] at hy; cases hy; exact absurd rfl hm
          · exact h'

/-! ### System with queue -/

section
variable [LinearOrder V]

/-- Invariant of the system with queue. -/
structure Queued.Inv (s : Queued p V) : Prop where
  ix : s.ix.Inv
  queue : QInv s.ix.sys s.queue

theorem inBounds_eq_of_lengths {s t : ConstraintSystem p V}
    (h1 : t.algebraic.length = s.algebraic.length) (h2 : t.bus.length = s.bus.length)
    {x : Item} (hx : x.isDerived = false) : InBounds s x → InBounds t x := by
  cases x <;> simp_all [InBounds, Item.isDerived]

theorem Queued.inv_empty : (Queued.empty : Queued p V).Inv where
  ix := ⟨fun v x h => by have := h.inBounds; cases x <;> simp [InBounds, Queued.empty] at this,
    fun v x h => by simp [Queued.empty] at h, fun v => List.Pairwise.nil⟩
  queue := ⟨List.nodup_nil, by simp [Queued.empty], by simp [Queued.empty]⟩

theorem Queued.ofSystem_ok (t : ConstraintSystem p V) : ∃ s, Queued.ofSystem t = .ok s ∧ s.Inv ∧
    s.ix.sys = t ∧ ∀ x, InBounds t x → x.isDerived = false → x ∈ s.queue.queue := by
  obtain ⟨q, h1, h2, h3⟩ := Queue.new_ok t
  refine ⟨⟨Indexed.ofSystem t, q⟩, ?_, ⟨Indexed.inv_ofSystem t, h2⟩, rfl, h3⟩
  unfold Queued.ofSystem
  rw [h1, ok_bind]
  rfl

theorem Queued.popFront_ok {s : Queued p V} (h : s.Inv) :
    (s.queue.queue = [] ∧ s.popFront = .ok (none, s)) ∨
    ∃ x c s', s.popFront = .ok (some c, s') ∧ refAt s.ix.sys x = some c ∧
      s.queue.queue = x :: s'.queue.queue ∧ s'.ix = s.ix ∧ s'.Inv := by
  unfold Queued.popFront
  rcases Queue.pop_ok h.queue with ⟨h1, h2⟩ | ⟨x, q', h1, h2, h3⟩
  · left
    rw [h2, ok_bind]
    exact ⟨h1, rfl⟩
  · right
    have hv := h.queue.valid x (by rw [h2]; simp)
    have : ∃ c, refAt s.ix.sys x = some c := by
      cases x with
      | alg i => simp only [InBounds] at hv; simp [refAt, hv]
      | bus i => simp only [InBounds] at hv; simp [refAt, hv]
      | derived i => simp [Item.isDerived] at hv
    obtain ⟨c, hc⟩ := this
    refine ⟨x, c, { s with queue := q' }, ?_, hc, h2, rfl, ⟨h.ix, h3⟩⟩
    rw [h1, ok_bind]
    simp only
    rw [toRef_ok hv.1, ok_bind, hc]
    rfl

theorem Queued.variableUpdated_ok {s : Queued p V} (h : s.Inv) (v : V) :
    ∃ s', s.variableUpdated v = .ok s' ∧ s'.ix = s.ix ∧ s'.Inv ∧
      ∀ x, x ∈ s'.queue.queue ↔ (x ∈ s.ix.occ v ∧ x.isDerived = false) ∨ x ∈ s.queue.queue := by
  obtain ⟨q, h1, h2, h3⟩ := Queue.pushAll_ok h.queue
    (l := (s.ix.occ v).filter fun x => !x.isDerived) (fun x hx => by
      rw [List.mem_filter] at hx
      exact ⟨h.ix.valid v x hx.1, by simpa using hx.2⟩)
  refine ⟨{ s with queue := q }, ?_, rfl, ⟨h.ix, h2⟩, fun x => ?_⟩
  · unfold Queued.variableUpdated
    rw [h1, ok_bind]
    rfl
  · rw [h3, List.mem_filter]
    simp

theorem Queued.subst_ok {s : Queued p V} (h : s.Inv) (x : V) (r : GExpr p V) :
    ∃ s', s.subst x r = .ok s' ∧ s'.ix = s.ix.subst x r ∧ s'.Inv ∧
      ∀ y, (y ∈ s.ix.occ x ∧ y.isDerived = false) ∨ y ∈ s.queue.queue → y ∈ s'.queue.queue := by
  have hinv : ({ s with ix := s.ix.subst x r } : Queued p V).Inv :=
    ⟨Indexed.inv_subst h.ix x r, h.queue.mono fun y hy hd => inBounds_foldl.2 hy⟩
  obtain ⟨s', h1, h2, h3, h4⟩ := Queued.variableUpdated_ok hinv x
  refine ⟨s', h1, h2, h3, fun y hy => (h4 y).2 ?_⟩
  rcases hy with ⟨hy, hd⟩ | hy
  · left
    refine ⟨?_, hd⟩
    change y ∈ if x ∈ vars r then Item.extend (s.ix.occ x) (s.ix.occ x) else s.ix.occ x
    split
    · exact (Item.mem_extend _ _ _).2 (Or.inl hy)
    · exact hy
  · exact Or.inr hy

theorem Queued.addAlgebraic_ok {s : Queued p V} (h : s.Inv) (cs : List (GExpr p V)) :
    ∃ s', s.addAlgebraic cs = .ok s' ∧ s'.ix = s.ix.addAlgebraic cs ∧ s'.Inv ∧
      ∀ x, x ∈ s'.queue.queue ↔
        (∃ i < cs.length, x = .alg (s.ix.sys.algebraic.length + i)) ∨ x ∈ s.queue.queue := by
  have hb : QInv (s.ix.addAlgebraic cs).sys s.queue :=
    h.queue.mono fun y hy _ => inBounds_extend_left hy
  obtain ⟨q, h1, h2, h3⟩ := Queue.pushAll_ok hb
    (l := (List.range cs.length).map fun i => Item.alg (s.ix.sys.algebraic.length + i))
    (fun x hx => by
      obtain ⟨i, hi, rfl⟩ := List.mem_map.1 hx
      rw [List.mem_range] at hi
      refine ⟨?_, rfl⟩
      simp only [InBounds, Indexed.addAlgebraic, Indexed.extend, ConstraintSystem.extend,
        List.length_append]
      omega)
  refine ⟨⟨s.ix.addAlgebraic cs, q⟩, ?_, rfl, ⟨Indexed.inv_extend h.ix _, h2⟩, fun x => ?_⟩
  · unfold Queued.addAlgebraic
    rw [h1, ok_bind]
    rfl
  · rw [h3]
    simp only [List.mem_map, List.mem_range]
    constructor
    · rintro (⟨i, hi, rfl⟩ | h')
      · exact Or.inl ⟨i, hi, rfl⟩
      · exact Or.inr h'
    · rintro (⟨i, hi, rfl⟩ | h')
      · exact Or.inl ⟨i, hi, rfl⟩
      · exact Or.inr h'

theorem Queued.addBus_ok {s : Queued p V} (h : s.Inv) (bs : List (BusInteraction (GExpr p V))) :
    ∃ s', s.addBus bs = .ok s' ∧ s'.ix = s.ix.addBus bs ∧ s'.Inv ∧
      ∀ x, x ∈ s'.queue.queue ↔
        (∃ i < bs.length, x = .bus (s.ix.sys.bus.length + i)) ∨ x ∈ s.queue.queue := by
  have hb : QInv (s.ix.addBus bs).sys s.queue :=
    h.queue.mono fun y hy _ => inBounds_extend_left hy
  obtain ⟨q, h1, h2, h3⟩ := Queue.pushAll_ok hb
    (l := (List.range bs.length).map fun i => Item.bus (s.ix.sys.bus.length + i))
    (fun x hx => by
      obtain ⟨i, hi, rfl⟩ := List.mem_map.1 hx
      rw [List.mem_range] at hi
      refine ⟨?_, rfl⟩
      simp only [InBounds, Indexed.addBus, Indexed.extend, ConstraintSystem.extend,
        List.length_append]
      omega)
  refine ⟨⟨s.ix.addBus bs, q⟩, ?_, rfl, ⟨Indexed.inv_extend h.ix _, h2⟩, fun x => ?_⟩
  · unfold Queued.addBus
    rw [h1, ok_bind]
    rfl
  · rw [h3]
    simp only [List.mem_map, List.mem_range]
    constructor
    · rintro (⟨i, hi, rfl⟩ | h')
      · exact Or.inl ⟨i, hi, rfl⟩
      · exact Or.inr h'
    · rintro (⟨i, hi, rfl⟩ | h')
      · exact Or.inl ⟨i, hi, rfl⟩
      · exact Or.inr h'

theorem Queued.resetQueue_ok {s : Queued p V} (ix : Indexed p V) (hi : ix.Inv) (h : s.Inv) :
    ∃ s', resetQueue { s with ix := ix } = .ok s' ∧ s'.ix = ix ∧ s'.Inv ∧
      ((s.queue.queue = [] ∧ s'.queue = s.queue) ∨
        ∀ x, InBounds ix.sys x → x.isDerived = false → x ∈ s'.queue.queue) := by
  unfold resetQueue
  split
  · rename_i he
    have he : s.queue.queue = [] := by simpa using he
    refine ⟨_, rfl, rfl, ⟨hi, ⟨?_, ?_, h.queue.bits⟩⟩, Or.inl ⟨he, rfl⟩⟩
    · simp only [he]; exact List.nodup_nil
    · simp only [he]; simp
  · obtain ⟨q, h1, h2, h3⟩ := Queue.new_ok ix.sys
    refine ⟨⟨ix, q⟩, ?_, rfl, ⟨hi, h2⟩, Or.inr h3⟩
    simp only [h1, ok_bind]
    rfl

theorem Queued.retainAlgebraic_ok {s : Queued p V} (h : s.Inv) (f : ℕ → GExpr p V → Bool) :
    ∃ s', s.retainAlgebraic f = .ok s' ∧ s'.ix = s.ix.retainAlgebraic f ∧ s'.Inv ∧
      ((s.queue.queue = [] ∧ s'.queue = s.queue) ∨
        ∀ x, InBounds s'.ix.sys x → x.isDerived = false → x ∈ s'.queue.queue) := by
  obtain ⟨s', h1, h2, h3, h4⟩ := resetQueue_ok _ (Indexed.inv_retainAlgebraic h.ix f) h
  exact ⟨s', h1, h2, h3, by rw [h2]; exact h4⟩

theorem Queued.retainBus_ok {s : Queued p V} (h : s.Inv)
    (f : ℕ → BusInteraction (GExpr p V) → Bool) :
    ∃ s', s.retainBus f = .ok s' ∧ s'.ix = s.ix.retainBus f ∧ s'.Inv ∧
      ((s.queue.queue = [] ∧ s'.queue = s.queue) ∨
        ∀ x, InBounds s'.ix.sys x → x.isDerived = false → x ∈ s'.queue.queue) := by
  obtain ⟨s', h1, h2, h3, h4⟩ := resetQueue_ok _ (Indexed.inv_retainBus h.ix f) h
  exact ⟨s', h1, h2, h3, by rw [h2]; exact h4⟩

/-- Everything in the system is pending or was popped in its present form. -/
def Covered (l : List (ConstraintRef p V)) (s : Queued p V) : Prop :=
  ∀ x c, refAt s.ix.sys x = some c → x ∈ s.queue.queue ∨ c ∈ l

theorem refAt_inBounds {s : ConstraintSystem p V} {x : Item} {c : ConstraintRef p V}
    (h : refAt s x = some c) : InBounds s x ∧ x.isDerived = false := by
  cases x with
  | alg i =>
    simp only [refAt, Option.map_eq_some_iff] at h
    obtain ⟨e, he, -⟩ := h
    exact ⟨(List.getElem?_eq_some_iff.1 he).1, rfl⟩
  | bus i =>
    simp only [refAt, Option.map_eq_some_iff] at h
    obtain ⟨e, he, -⟩ := h
    exact ⟨(List.getElem?_eq_some_iff.1 he).1, rfl⟩
  | derived i => cases h

theorem refAt_extend {s t : ConstraintSystem p V} {x : Item} {c : ConstraintRef p V}
    (h : refAt (s.extend t) x = some c) :
    refAt s x = some c ∨ (∃ j < t.algebraic.length, x = .alg (s.algebraic.length + j)) ∨
      (∃ j < t.bus.length, x = .bus (s.bus.length + j)) := by
  cases x with
  | alg i =>
    simp only [refAt, Option.map_eq_some_iff] at h
    obtain ⟨e, he, rfl⟩ := h
    rcases getElem?_append_cases he with h | ⟨j, rfl, h⟩
    · left; simp [refAt, h]
    · right; left
      exact ⟨j, (List.getElem?_eq_some_iff.1 h).1, by rw [Nat.add_comm]⟩
  | bus i =>
    simp only [refAt, Option.map_eq_some_iff] at h
    obtain ⟨e, he, rfl⟩ := h
    rcases getElem?_append_cases he with h | ⟨j, rfl, h⟩
    · left; simp [refAt, h]
    · right; right
      exact ⟨j, (List.getElem?_eq_some_iff.1 h).1, by rw [Nat.add_comm]⟩
  | derived i => cases h

theorem refAt_retain {s t : ConstraintSystem p V} {f : ℕ → GExpr p V → Bool}
    (h1 : t.algebraic = Indexed.retainFrom f 0 s.algebraic) (h2 : t.bus = s.bus) {x : Item}
    {c : ConstraintRef p V} (h : refAt t x = some c) : ∃ y, refAt s y = some c := by
  cases x with
  | alg i =>
    simp only [refAt, Option.map_eq_some_iff, h1] at h
    obtain ⟨e, he, rfl⟩ := h
    obtain ⟨j, -, hj, -⟩ := exists_replacement he
    exact ⟨.alg j, by simp [refAt, hj]⟩
  | bus i => exact ⟨.bus i, by rw [← h]; simp [refAt, h2]⟩
  | derived i => cases h

theorem refAt_retainBus {s t : ConstraintSystem p V} {f : ℕ → BusInteraction (GExpr p V) → Bool}
    (h1 : t.bus = Indexed.retainFrom f 0 s.bus) (h2 : t.algebraic = s.algebraic) {x : Item}
    {c : ConstraintRef p V} (h : refAt t x = some c) : ∃ y, refAt s y = some c := by
  cases x with
  | bus i =>
    simp only [refAt, Option.map_eq_some_iff, h1] at h
    obtain ⟨e, he, rfl⟩ := h
    obtain ⟨j, -, hj, -⟩ := exists_replacement he
    exact ⟨.bus j, by simp [refAt, hj]⟩
  | alg i => exact ⟨.alg i, by rw [← h]; simp [refAt, h2]⟩
  | derived i => cases h

theorem refAt_subst {s : Indexed p V} (h : s.Inv) {x : V} {r : GExpr p V} {y : Item}
    (hy : y ∉ s.occ x) : refAt (s.subst x r).sys y = refAt s.sys y := by
  obtain ⟨h1, h2, -⟩ := mapItem_foldl (GExpr.subst x r) (h.sorted x).nodup s.sys
  cases y with
  | alg i =>
    have := h1 i
    rw [if_neg hy] at this
    simp only [refAt]
    exact congrArg _ this
  | bus i =>
    have := h2 i
    rw [if_neg hy] at this
    simp only [refAt]
    exact congrArg _ this
  | derived i => rfl

theorem queueRun_spec {l : List (ConstraintRef p V)} {s : Queued p V} (h : QueueRun l s) :
    s.Inv ∧ Covered l s := by
  induction h with
  | empty =>
    refine ⟨Queued.inv_empty, fun x c hx => ?_⟩
    have := (refAt_inBounds hx).1
    cases x <;> simp [InBounds, Queued.empty] at this
  | ofSystem t s' h =>
    obtain ⟨s, h1, h2, h3, h4⟩ := Queued.ofSystem_ok t
    rw [h] at h1
    cases h1
    refine ⟨h2, fun x c hx => Or.inl (h4 x ?_ (refAt_inBounds hx).2)⟩
    rw [← h3]
    exact (refAt_inBounds hx).1
  | pop l s s' c hr h ih =>
    obtain ⟨hi, hc⟩ := ih
    rcases Queued.popFront_ok hi with ⟨-, h1⟩ | ⟨x, c', s1, h1, h2, h3, h4, h5⟩
    · rw [h] at h1; cases h1
    · rw [h] at h1
      cases h1
      refine ⟨h5, fun y d hy => ?_⟩
      rw [h4] at hy
      rcases hc y d hy with h' | h'
      · rw [h3, List.mem_cons] at h'
        rcases h' with rfl | h'
        · rw [h2] at hy
          cases hy
          exact Or.inr (by simp)
        · exact Or.inl h'
      · exact Or.inr (by simp [h'])
  | variableUpdated l s s' v hr h ih =>
    obtain ⟨hi, hc⟩ := ih
    obtain ⟨s1, h1, h2, h3, h4⟩ := Queued.variableUpdated_ok hi v
    rw [h] at h1
    cases h1
    refine ⟨h3, fun y d hy => ?_⟩
    rw [h2] at hy
    exact (hc y d hy).imp_left fun h => (h4 y).2 (Or.inr h)
  | subst l s s' x r hr h ih =>
    obtain ⟨hi, hc⟩ := ih
    obtain ⟨s1, h1, h2, h3, h4⟩ := Queued.subst_ok hi x r
    rw [h] at h1
    cases h1
    refine ⟨h3, fun y d hy => ?_⟩
    rw [h2] at hy
    by_cases hm : y ∈ s.ix.occ x
    · exact Or.inl (h4 y (Or.inl ⟨hm, (refAt_inBounds hy).2⟩))
    · rw [refAt_subst hi.ix hm] at hy
      exact (hc y d hy).imp_left fun h => h4 y (Or.inr h)
  | addAlgebraic l s s' cs hr h ih =>
    obtain ⟨hi, hc⟩ := ih
    obtain ⟨s1, h1, h2, h3, h4⟩ := Queued.addAlgebraic_ok hi cs
    rw [h] at h1
    cases h1
    refine ⟨h3, fun y d hy => ?_⟩
    rw [h2] at hy
    rcases refAt_extend hy with h' | ⟨j, hj, rfl⟩ | ⟨j, hj, rfl⟩
    · exact (hc y d h').imp_left fun h => (h4 y).2 (Or.inr h)
    · exact Or.inl ((h4 _).2 (Or.inl ⟨j, hj, rfl⟩))
    · exact absurd hj (by simp)
  | addBus l s s' bs hr h ih =>
    obtain ⟨hi, hc⟩ := ih
    obtain ⟨s1, h1, h2, h3, h4⟩ := Queued.addBus_ok hi bs
    rw [h] at h1
    cases h1
    refine ⟨h3, fun y d hy => ?_⟩
    rw [h2] at hy
    rcases refAt_extend hy with h' | ⟨j, hj, rfl⟩ | ⟨j, hj, rfl⟩
    · exact (hc y d h').imp_left fun h => (h4 y).2 (Or.inr h)
    · exact absurd hj (by simp)
    · exact Or.inl ((h4 _).2 (Or.inl ⟨j, hj, rfl⟩))
  | retainAlgebraic l s s' f hr h ih =>
    obtain ⟨hi, hc⟩ := ih
    obtain ⟨s1, h1, h2, h3, h4⟩ := Queued.retainAlgebraic_ok hi f
    rw [h] at h1
    cases h1
    refine ⟨h3, fun y d hy => ?_⟩
    rcases h4 with ⟨h5, h6⟩ | h5
    · rw [h2] at hy
      obtain ⟨z, hz⟩ := refAt_retain (f := f) (by rfl) (by rfl) hy
      rcases hc z d hz with h' | h'
      · rw [h5] at h'; cases h'
      · exact Or.inr h'
    · exact Or.inl (h5 y (refAt_inBounds hy).1 (refAt_inBounds hy).2)
  | retainBus l s s' f hr h ih =>
    obtain ⟨hi, hc⟩ := ih
    obtain ⟨s1, h1, h2, h3, h4⟩ := Queued.retainBus_ok hi f
    rw [h] at h1
    cases h1
    refine ⟨h3, fun y d hy => ?_⟩
    rcases h4 with ⟨h5, h6⟩ | h5
    · rw [h2] at hy
      obtain ⟨z, hz⟩ := refAt_retainBus (f := f) (by rfl) (by rfl) hy
      rcases hc z d hz with h' | h'
      · rw [h5] at h'; cases h'
      · exact Or.inr h'
    · exact Or.inl (h5 y (refAt_inBounds hy).1 (refAt_inBounds hy).2)

end

end Verif
