import Verif.Proofs.ItemDB

/-!
# C56: identifiers of the item database are stable and invertible
-/

namespace Verif

namespace ItemDB

variable {Item : Type} [DecidableEq Item]

/-- A history: insert the items one after the other; the identifiers returned by the calls and the
final database. -/
def insertAll : ItemDB Item → List Item → List ℕ × ItemDB Item
  | db, [] => ([], db)
  | db, x :: t =>
    let r := db.insert x
    let s := insertAll r.2 t
    (r.1 :: s.1, s.2)

theorem insertAll_spec (xs : List Item) : ∀ (db : ItemDB Item), Inv db →
    Inv (db.insertAll xs).2 ∧ (db.insertAll xs).1.length = xs.length ∧
    (∀ y i, db.id y = some i → (db.insertAll xs).2.id y = some i) ∧
    ∀ (k : ℕ) (x : Item), xs[k]? = some x → ∃ i, (db.insertAll xs).1[k]? = some i ∧
      (db.insertAll xs).2.id x = some i := by
  induction xs with
  | nil => intro db h; exact ⟨h, rfl, fun _ _ h => h, fun k x hk => by simp at hk⟩
  | cons a t ih =>
    intro db h
    obtain ⟨h1, h2, h3, h4⟩ := ih (db.insert a).2 (inv_insert h a)
    refine ⟨h1, by simp [insertAll, h2], fun y i hy => h3 y i (id_insert_mono a y i hy), ?_⟩
    intro k x hk
    cases k with
    | zero =>
      simp only [List.getElem?_cons_zero, Option.some.injEq] at hk
      subst hk
      exact ⟨(db.insert a).1, by simp [insertAll], h3 _ _ (id_insert a)⟩
    | succ k => exact h4 k x (by simpa using hk)

end ItemDB

open ItemDB

variable {Item : Type} [DecidableEq Item]

/-- Start from a database collected from any list of items (possibly empty, possibly with
repetitions) and insert any further items in any order. Then at the end every identifier returned by
any of the calls (also the early ones) still stands for its item, in both directions; in particular
asking again returns the same identifier. -/
theorem C56_lookup (initial xs : List Item) (k : ℕ) (x : Item) (i : ℕ)
    (hx : xs[k]? = some x) (hi : ((fromList initial).insertAll xs).1[k]? = some i) :
    ((fromList initial).insertAll xs).2.get i = some x ∧
    ((fromList initial).insertAll xs).2.id x = some i ∧
    (((fromList initial).insertAll xs).2.insert x).1 = i := by
  obtain ⟨h1, _, _, h4⟩ := insertAll_spec xs _ (inv_fromList initial)
  obtain ⟨j, hj, hid⟩ := h4 k x hx
  rw [hj] at hi; cases hi
  refine ⟨h1.get x i hid, hid, ?_⟩
  unfold ItemDB.insert
  rw [ItemDB.id] at hid; rw [hid]

/-- Every call returns an identifier, and two calls return the same one exactly if they were made
with the same item. -/
theorem C56_injective (initial xs : List Item) :
    ((fromList initial).insertAll xs).1.length = xs.length ∧
    ∀ (k l : ℕ) (x y : Item) (i j : ℕ), xs[k]? = some x → xs[l]? = some y →
      ((fromList initial).insertAll xs).1[k]? = some i →
      ((fromList initial).insertAll xs).1[l]? = some j → (i = j ↔ x = y) := by
  refine ⟨(insertAll_spec xs _ (inv_fromList initial)).2.1, ?_⟩
  intro k l x y i j hx hy hi hj
  obtain ⟨h1, h2, _⟩ := C56_lookup initial xs k x i hx hi
  obtain ⟨h3, h4, _⟩ := C56_lookup initial xs l y j hy hj
  constructor
  · intro e; subst e; rw [h1] at h3; exact Option.some.inj h3
  · intro e; subst e; rw [h2] at h4; exact Option.some.inj h4

/-- The identifiers of the initial items also stay valid: every initial item has one, it stands for
the item, and later insertions do not change it. -/
theorem C56_initial (initial xs : List Item) (x : Item) (hx : x ∈ initial) :
    ∃ i, (fromList initial).id x = some i ∧ (fromList initial).get i = some x ∧
      ((fromList initial).insertAll xs).2.id x = some i ∧
      ((fromList initial).insertAll xs).2.get i = some x := by
  have h0 := inv_fromList initial
  obtain ⟨i, hi⟩ := h0.mem x hx
  obtain ⟨h1, _, h3, _⟩ := insertAll_spec xs _ h0
  exact ⟨i, hi, h0.get x i hi, h3 x i hi, h1.get x i (h3 x i hi)⟩

/-- The next free identifier is the one a new item will get, and nothing uses it before. -/
theorem C56_next_free (initial xs : List Item) (x : Item)
    (hx : ((fromList initial).insertAll xs).2.id x = none) :
    (((fromList initial).insertAll xs).2.insert x).1 =
      ((fromList initial).insertAll xs).2.nextFreeId ∧
    (∀ y, ((fromList initial).insertAll xs).2.id y ≠
      some ((fromList initial).insertAll xs).2.nextFreeId) ∧
    ((fromList initial).insertAll xs).2.get ((fromList initial).insertAll xs).2.nextFreeId = none := by
  obtain ⟨h1, _⟩ := insertAll_spec xs _ (inv_fromList initial)
  refine ⟨?_, ?_, ?_⟩
  · unfold ItemDB.insert
    rw [ItemDB.id] at hx; rw [hx]; rfl
  · intro y hy
    have := h1.get y _ hy
    simp [nextFreeId] at this
  · simp [nextFreeId, ItemDB.get]

omit [DecidableEq Item] in
/-- `iter` lists exactly the pairs of identifier and item. -/
theorem C56_iter (db : ItemDB Item) (i : ℕ) (x : Item) : (i, x) ∈ db.iter ↔ db.get i = some x := by
  simp only [ItemDB.iter, ItemDB.get, List.mem_map, Prod.mk.injEq, Prod.exists]
  constructor
  · rintro ⟨a, b, h, rfl, rfl⟩
    exact List.mem_zipIdx_iff_getElem?.1 h
  · intro h
    exact ⟨x, i, List.mem_zipIdx_iff_getElem?.2 h, rfl, rfl⟩

/-- A history with repetitions, starting from a list with repetitions (as in driver.rs:48-54). -/
example : (fromList ["a", "a", "b"]).insertAll ["a", "c", "b", "c"] =
    ([1, 3, 2, 3], ⟨["a", "a", "b", "c"], [("a", 1), ("b", 2), ("c", 3)]⟩) := by decide

example : ((fromList ["a", "a", "b"]).insertAll ["a", "c"]).2.id "x" = none := by decide

end Verif
