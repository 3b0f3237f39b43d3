import Verif.Model.ItemDB
import Mathlib.Tactic.Linarith

namespace Verif

theorem mapGet_mapInsert {K W : Type} [DecidableEq K] (k k' : K) (w : W) (m : List (K × W)) :
    mapGet k' (mapInsert k w m) = if k' = k then some w else mapGet k' m := by
  induction m with
  | nil => simp [mapInsert, mapGet]
  | cons a t ih =>
    obtain ⟨ka, wa⟩ := a
    rw [mapInsert]
    by_cases h : k = ka
    · subst h; rw [if_pos rfl, mapGet, mapGet]
      by_cases h' : k' = k <;> simp [h']
    · rw [if_neg h, mapGet, mapGet, ih]
      by_cases h' : k' = ka
      · subst h'; rw [if_pos rfl, if_pos rfl, if_neg (fun e => h e.symm)]
      · rw [if_neg h', if_neg h']

namespace ItemDB

variable {Item : Type} [DecidableEq Item]

/-- The map and the items agree. -/
structure Inv (db : ItemDB Item) : Prop where
  get : ∀ x i, mapGet x db.reverse = some i → db.items[i]? = some x
  mem : ∀ x ∈ db.items, ∃ i, mapGet x db.reverse = some i

theorem inv_empty : Inv (empty : ItemDB Item) :=
  ⟨fun x i h => by simp [empty, mapGet] at h, fun x h => by simp [empty] at h⟩

theorem inv_insertNew {db : ItemDB Item} (h : Inv db) {x : Item} (hx : mapGet x db.reverse = none) :
    Inv (db.insertNew x).2 := by
  refine ⟨fun y i hy => ?_, fun y hy => ?_⟩
  · simp only [insertNew] at hy ⊢
    rw [mapGet_mapInsert] at hy
    split at hy
    next e => cases hy; subst e; simp
    next e =>
      have := h.get y i hy
      rw [List.getElem?_append_left]
      · exact this
      · exact (List.getElem?_eq_some_iff.1 this).1
  · simp only [insertNew] at hy ⊢
    rw [mapGet_mapInsert]
    split
    next => exact ⟨_, rfl⟩
    next e =>
      rcases List.mem_append.1 hy with hy | hy
      · exact h.mem y hy
      · simp at hy; exact absurd hy e

theorem inv_insert {db : ItemDB Item} (h : Inv db) (x : Item) : Inv (db.insert x).2 := by
  unfold insert
  cases hx : mapGet x db.reverse with
  | some i => exact h
  | none => exact inv_insertNew h hx

theorem id_insert {db : ItemDB Item} (x : Item) : (db.insert x).2.id x = some (db.insert x).1 := by
  unfold insert
  cases hx : mapGet x db.reverse with
  | some i => exact hx
  | none => simp [insertNew, ItemDB.id, mapGet_mapInsert]

theorem id_insert_mono {db : ItemDB Item} (x y : Item) (i : ℕ) (h : db.id y = some i) :
    (db.insert x).2.id y = some i := by
  unfold insert
  cases hx : mapGet x db.reverse with
  | some i => exact h
  | none =>
    simp only [insertNew, ItemDB.id, mapGet_mapInsert]
    rw [if_neg]; · exact h
    intro e; subst e; rw [ItemDB.id, hx] at h; cases h

theorem get_insert_mono {db : ItemDB Item} (x y : Item) (i : ℕ) (h : db.get i = some y) :
    (db.insert x).2.get i = some y := by
  unfold insert
  cases hx : mapGet x db.reverse with
  | some i => exact h
  | none =>
    simp only [insertNew, ItemDB.get] at h ⊢
    rw [List.getElem?_append_left (List.getElem?_eq_some_iff.1 h).1]; exact h

theorem collectReverse_get (l : List Item) : ∀ (i : ℕ) (m : List (Item × ℕ)) (x : Item) (j : ℕ),
    mapGet x (collectReverse l i m) = some j →
      (∃ k, l[k]? = some x ∧ j = i + k) ∨ mapGet x m = some j := by
  induction l with
  | nil => intro i m x j h; exact Or.inr h
  | cons a t ih =>
    intro i m x j h
    rw [collectReverse] at h
    rcases ih _ _ _ _ h with ⟨k, hk, e⟩ | h
    · exact Or.inl ⟨k + 1, by simpa using hk, by omega⟩
    · rw [mapGet_mapInsert] at h
      split at h
      next e => cases h; subst e; exact Or.inl ⟨0, by simp, by simp⟩
      next => exact Or.inr h

theorem collectReverse_mono (l : List Item) : ∀ (i : ℕ) (m : List (Item × ℕ)) (x : Item),
    (∃ j, mapGet x m = some j) → ∃ j, mapGet x (collectReverse l i m) = some j := by
  induction l with
  | nil => intro i m x h; exact h
  | cons a t ih =>
    intro i m x h
    rw [collectReverse]
    refine ih _ _ _ ?_
    rw [mapGet_mapInsert]
    split
    next => exact ⟨_, rfl⟩
    next => exact h

theorem collectReverse_mem (l : List Item) : ∀ (i : ℕ) (m : List (Item × ℕ)), ∀ x ∈ l,
    ∃ j, mapGet x (collectReverse l i m) = some j := by
  induction l with
  | nil => intro i m x h; cases h
  | cons a t ih =>
    intro i m x h
    rw [collectReverse]
    rcases List.mem_cons.1 h with h | h
    · subst h; exact collectReverse_mono _ _ _ _ ⟨i, by rw [mapGet_mapInsert, if_pos rfl]⟩
    · exact ih _ _ _ h

theorem inv_fromList (l : List Item) : Inv (fromList l) := by
  refine ⟨fun x i h => ?_, fun x h => collectReverse_mem l 0 [] x h⟩
  rcases collectReverse_get l 0 [] x i h with ⟨k, hk, e⟩ | h
  · simp only [Nat.zero_add] at e; subst e; exact hk
  · cases h

end ItemDB

end Verif
