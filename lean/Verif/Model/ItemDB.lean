import Mathlib.Data.List.Basic

/-!
# Model of `ItemDB` (constraint-solver/src/rule_based_optimizer/item_db.rs)

Identifiers (`Ident`) are wrappers around `usize` (types.rs:8, 17) and are modelled by `ℕ`. The
`HashMap` from items to identifiers is a list of pairs with unique keys; only `get` and `insert` are
used on it.
-/

namespace Verif

/-- `HashMap::insert` (std): overwrites the value of an existing key. -/
def mapInsert {K W : Type} [DecidableEq K] (k : K) (w : W) : List (K × W) → List (K × W)
  | [] => [(k, w)]
  | (k', w') :: t => if k = k' then (k, w) :: t else (k', w') :: mapInsert k w t

/-- `HashMap::get` (std). -/
def mapGet {K W : Type} [DecidableEq K] (k : K) : List (K × W) → Option W
  | [] => none
  | (k', w') :: t => if k = k' then some w' else mapGet k t

/-- `ItemDB` (item_db.rs:12-18). -/
structure ItemDB (Item : Type) where
  /-- The items by identifier. -/
  items : List Item
  /-- The identifier of an item. -/
  reverse : List (Item × ℕ)
deriving DecidableEq

namespace ItemDB

variable {Item : Type} [DecidableEq Item]

/-- `Default` (item_db.rs:11-12). -/
def empty : ItemDB Item := ⟨[], []⟩

/-- Collecting an iterator of pairs into the `reverse` map, starting with index `i`: later pairs
overwrite earlier ones (item_db.rs:25-29). -/
def collectReverse : List Item → ℕ → List (Item × ℕ) → List (Item × ℕ)
  | [], _, m => m
  | x :: t, i, m => collectReverse t (i + 1) (mapInsert x i m)

/-- `from_iter` (item_db.rs:23-35). -/
def fromList (l : List Item) : ItemDB Item := ⟨l, collectReverse l 0 []⟩

/-- `index` (item_db.rs:43-45); `none` is the out-of-bounds panic. -/
def get (db : ItemDB Item) (i : ℕ) : Option Item := db.items[i]?

/-- `insert_owned_new` (item_db.rs:53-58). -/
def insertNew (db : ItemDB Item) (x : Item) : ℕ × ItemDB Item :=
  (db.items.length, ⟨db.items ++ [x], mapInsert x db.items.length db.reverse⟩)

/-- `insert` (item_db.rs:63-69) and `insert_owned` (73-79), which only differ in ownership. -/
def insert (db : ItemDB Item) (x : Item) : ℕ × ItemDB Item :=
  match mapGet x db.reverse with
  | some i => (i, db)
  | none => db.insertNew x

/-- `id` (item_db.rs:81-83); `none` is the panic of `unwrap`. -/
def id (db : ItemDB Item) (x : Item) : Option ℕ := mapGet x db.reverse

/-- `iter` (item_db.rs:85-90). -/
def iter (db : ItemDB Item) : List (ℕ × Item) := db.items.zipIdx.map fun e => (e.2, e.1)

/-- `next_free_id` (item_db.rs:93-95). -/
def nextFreeId (db : ItemDB Item) : ℕ := db.items.length

end ItemDB

end Verif
