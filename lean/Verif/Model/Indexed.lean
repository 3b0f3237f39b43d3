import Verif.Model.ConstraintSystem

/-!
# Indexed constraint systems

Model of `constraint-solver/src/indexed_constraint_system.rs`.
-/

namespace Verif

open GExpr

variable {p : ℕ} {V : Type}

/-- `ComputationMethod::referenced_unknown_variables` (constraint_system.rs:150-158). -/
def ComputationMethod.vars : ComputationMethod p (GExpr p V) → List V
  | .constant _ => []
  | .quotientOrZero e1 e2 => e1.vars ++ e2.vars

/-- Apply a function to the expressions of a computation method (the common part of
`substitute_by_known` and `substitute_by_unknown`, constraint_system.rs:166-188). -/
def ComputationMethod.mapExpr (f : GExpr p V → GExpr p V) :
    ComputationMethod p (GExpr p V) → ComputationMethod p (GExpr p V)
  | .constant c => .constant c
  | .quotientOrZero e1 e2 => .quotientOrZero (f e1) (f e2)

/-- `ConstraintSystemItem` (indexed_constraint_system.rs:82-91). -/
inductive Item where
  | alg (i : ℕ)
  | bus (i : ℕ)
  | derived (i : ℕ)
deriving DecidableEq

namespace Item

/-- `flat_constraint_id` (indexed_constraint_system.rs:96-102). It panics for derived variables;
it is only called on items in the queue, see `Queue.push`. -/
def flatId : Item → Except Panic ℕ
  | alg i => .ok (2 * i)
  | bus i => .ok (2 * i + 1)
  | derived _ => .error .assertion

/-- `is_derived_variable` (indexed_constraint_system.rs:115-117). -/
def isDerived : Item → Bool
  | derived _ => true
  | _ => false

/-- The derived `Ord` (indexed_constraint_system.rs:82): by variant, then by index. -/
def lt : Item → Item → Bool
  | alg i, alg j => i < j
  | alg _, _ => true
  | bus _, alg _ => false
  | bus i, bus j => i < j
  | bus _, derived _ => true
  | derived i, derived j => i < j
  | derived _, _ => false

/-- Inserting into a `BTreeSet` (std), represented as a sorted list. -/
def insert (x : Item) : List Item → List Item
  | [] => [x]
  | y :: t => if x = y then y :: t else if lt x y then x :: y :: t else y :: insert x t

/-- `BTreeSet::extend` (std). -/
def extend (s : List Item) (items : List Item) : List Item :=
  items.foldl (fun s x => insert x s) s

end Item

/-- `ConstraintRef` (constraint_system.rs:314-317). -/
inductive ConstraintRef (p : ℕ) (V : Type) where
  | alg (e : GExpr p V)
  | bus (b : BusInteraction (GExpr p V))

/-- `IndexedConstraintSystem` (indexed_constraint_system.rs:56-64). The hash map is a function; a
variable that is not a key is mapped to the empty set. -/
structure Indexed (p : ℕ) (V : Type) where
  sys : ConstraintSystem p V
  occ : V → List Item

/-- `try_to_constraint_ref` (indexed_constraint_system.rs:121-136). Indexing out of bounds is a
panic. -/
def Item.toRef (s : ConstraintSystem p V) : Item → Except Panic (Option (ConstraintRef p V))
  | .alg i => match s.algebraic[i]? with
    | some e => .ok (some (.alg e))
    | none => .error .assertion
  | .bus i => match s.bus[i]? with
    | some b => .ok (some (.bus b))
    | none => .error .assertion
  | .derived _ => .ok none

/-- Positions of the elements that satisfy the predicate. -/
def positions {α : Type} (f : α → Bool) (l : List α) : List ℕ :=
  (l.zipIdx.filter fun x => f x.1).map (·.2)

section
variable [LinearOrder V]

/-- `variable_occurrences` (indexed_constraint_system.rs:402-451), as a function. -/
def variableOccurrences (s : ConstraintSystem p V) (v : V) : List Item :=
  (positions (fun e : GExpr p V => v ∈ e.vars) s.algebraic).map .alg ++
  (positions (fun b : BusInteraction (GExpr p V) => v ∈ busVars b) s.bus).map .bus ++
  (positions (fun d : DerivedVariable p V => v ∈ d.method.vars) s.derived).map .derived

/-- `modify` the element at an index; an index out of bounds is a panic in the code and does
nothing here; it does not happen, see `Indexed.Inv`. -/
def modifyAt {α : Type} (l : List α) (i : ℕ) (f : α → α) : List α := l.modify i f

/-- The common part of `substitute_by_known_in_item` and `substitute_by_unknown_in_item`
(indexed_constraint_system.rs:453-497). -/
def mapItem (f : GExpr p V → GExpr p V) (s : ConstraintSystem p V) : Item → ConstraintSystem p V
  | .alg i => { s with algebraic := modifyAt s.algebraic i f }
  | .bus i => { s with bus := modifyAt s.bus i fun b => b.map f }
  | .derived i =>
    { s with derived := modifyAt s.derived i fun d => { d with method := d.method.mapExpr f } }

namespace Indexed

/-- `From<ConstraintSystem>` (indexed_constraint_system.rs:139-149). -/
def ofSystem (s : ConstraintSystem p V) : Indexed p V := ⟨s, variableOccurrences s⟩

/-- Shift of the indices in `extend` (indexed_constraint_system.rs:306-316). -/
def shiftItem (s : ConstraintSystem p V) : Item → Item
  | .alg i => .alg (i + s.algebraic.length)
  | .bus i => .bus (i + s.bus.length)
  | .derived i => .derived (i + s.derived.length)

/-- `extend` (indexed_constraint_system.rs:297-323). -/
def extend (s : Indexed p V) (t : ConstraintSystem p V) : Indexed p V :=
  ⟨s.sys.extend t, fun v => Item.extend (s.occ v) ((variableOccurrences t v).map (shiftItem s.sys))⟩

/-- `add_algebraic_constraints` (indexed_constraint_system.rs:273-282). -/
def addAlgebraic (s : Indexed p V) (cs : List (GExpr p V)) : Indexed p V := s.extend ⟨cs, [], []⟩

/-- `add_bus_interactions` (indexed_constraint_system.rs:285-294). -/
def addBus (s : Indexed p V) (bs : List (BusInteraction (GExpr p V))) : Indexed p V :=
  s.extend ⟨[], bs, []⟩

/-- `list.retain` with a closure that also may depend on the position `n` (std; the closure in
inliner.rs:59-63 counts its calls). -/
def retainFrom {α : Type} (f : ℕ → α → Bool) : ℕ → List α → List α
  | _, [] => []
  | n, x :: t => if f n x then x :: retainFrom f (n + 1) t else retainFrom f (n + 1) t

/-- `replacement_map[i]` (indexed_constraint_system.rs:236-248): the new index of the item, `none` if
it is removed (or if the index is out of bounds, which is a panic in the code and excluded
by `Indexed.Inv`). -/
def replacementFrom {α : Type} (f : ℕ → α → Bool) : ℕ → List α → ℕ → Option ℕ
  | _, [], _ => none
  | n, x :: _, 0 => if f n x then some 0 else none
  | n, x :: t, i + 1 => (replacementFrom f (n + 1) t i).map (· + if f n x then 1 else 0)

/-- `retain_algebraic_constraints` with `retain` (indexed_constraint_system.rs:187-197, 230-269). The
final `occurrences.retain` has no effect on the map as a function. -/
def retainAlgebraic (s : Indexed p V) (f : ℕ → GExpr p V → Bool) : Indexed p V :=
  ⟨{ s.sys with algebraic := retainFrom f 0 s.sys.algebraic },
    fun v => Item.extend [] <| (s.occ v).filterMap fun item => match item with
      | .alg i => (replacementFrom f 0 s.sys.algebraic i).map .alg
      | item => some item⟩

/-- `retain_bus_interactions` with `retain` (indexed_constraint_system.rs:200-210, 230-269). -/
def retainBus (s : Indexed p V) (f : ℕ → BusInteraction (GExpr p V) → Bool) : Indexed p V :=
  ⟨{ s.sys with bus := retainFrom f 0 s.sys.bus },
    fun v => Item.extend [] <| (s.occ v).filterMap fun item => match item with
      | .bus i => (replacementFrom f 0 s.sys.bus i).map .bus
      | item => some item⟩

/-- `retain_derived_variables` with `retain` (indexed_constraint_system.rs:213-223, 230-269). -/
def retainDerived (s : Indexed p V) (f : ℕ → DerivedVariable p V → Bool) : Indexed p V :=
  ⟨{ s.sys with derived := retainFrom f 0 s.sys.derived },
    fun v => Item.extend [] <| (s.occ v).filterMap fun item => match item with
      | .derived i => (replacementFrom f 0 s.sys.derived i).map .derived
      | item => some item⟩

/-- `constraints_referencing_variables` (indexed_constraint_system.rs:328-338): the items ... -/
def itemsReferencing (s : Indexed p V) (vs : List V) : List Item := (vs.flatMap s.occ).eraseDups

/-- The `flat_map` over items (indexed_constraint_system.rs:337). -/
def toRefs (s : ConstraintSystem p V) : List Item → Except Panic (List (ConstraintRef p V))
  | [] => .ok []
  | i :: is => do
    let r ← i.toRef s
    let rs ← toRefs s is
    pure (r.toList ++ rs)

/-- ... and the constraints (indexed_constraint_system.rs:328-338). -/
def constraintsReferencing (s : Indexed p V) (vs : List V) :
    Except Panic (List (ConstraintRef p V)) :=
  toRefs s.sys (s.itemsReferencing vs)

/-- `substitute_by_known` (indexed_constraint_system.rs:345-354). -/
def substKnown (s : Indexed p V) (x : V) (k : ZMod p) : Indexed p V :=
  ⟨(s.occ x).foldl (mapItem (GExpr.substKnown x k)) s.sys, s.occ⟩

/-- `substitute_by_unknown` (indexed_constraint_system.rs:363-386). -/
def subst (s : Indexed p V) (x : V) (r : GExpr p V) : Indexed p V :=
  ⟨(s.occ x).foldl (mapItem (GExpr.subst x r)) s.sys,
    fun v => if v ∈ r.vars then Item.extend (s.occ v) (s.occ x) else s.occ v⟩

/-- `apply_substitutions` (indexed_constraint_system.rs:389-397). -/
def applySubsts (s : Indexed p V) (l : List (V × GExpr p V)) : Indexed p V :=
  l.foldl (fun s x => s.subst x.1 x.2) s

end Indexed

/-- `apply_substitutions` on a constraint system (indexed_constraint_system.rs:21-28). -/
def applySubstitutions (s : ConstraintSystem p V) (l : List (V × GExpr p V)) :
    ConstraintSystem p V := ((Indexed.ofSystem s).applySubsts l).sys

/-- `apply_substitutions_to_expressions` (indexed_constraint_system.rs:31-53). -/
def applySubstitutionsToExpressions (es : List (GExpr p V)) (l : List (V × GExpr p V)) :
    List (GExpr p V) := (applySubstitutions ⟨es, [], []⟩ l).algebraic

end

/-- `ConstraintSystemQueue` (indexed_constraint_system.rs:635-639). The bit vector is a list of
booleans. -/
structure Queue where
  queue : List Item
  inQueue : List Bool

namespace Queue

/-- `BitVec::set` (crate `bitvec`) panics if the index is out of bounds. -/
def setBit (l : List Bool) (i : ℕ) (b : Bool) : Except Panic (List Bool) :=
  if i < l.length then .ok (l.set i b) else .error .assertion

/-- The loop that sets the bits (indexed_constraint_system.rs:652-655). -/
def setBits : List Item → List Bool → Except Panic (List Bool)
  | [], l => .ok l
  | x :: t, l => do
    let id ← x.flatId
    let l' ← setBit l id true
    setBits t l'

/-- `ConstraintSystemQueue::new` (indexed_constraint_system.rs:642-657). -/
def new (s : ConstraintSystem p V) : Except Panic Queue := do
  let queue := (List.range s.algebraic.length).map Item.alg ++
    (List.range s.bus.length).map Item.bus
  let inQueue ← setBits queue (List.replicate (2 * max s.algebraic.length s.bus.length + 2) false)
  pure ⟨queue, inQueue⟩

/-- `push` (indexed_constraint_system.rs:659-668). -/
def push (q : Queue) (x : Item) : Except Panic Queue :=
  if x.isDerived then .error .assertion
  else do
    let id ← x.flatId
    let bits := if q.inQueue.length ≤ id then
      q.inQueue ++ List.replicate (id + 1 - q.inQueue.length) false else q.inQueue
    match bits[id]? with
    | none => .error .assertion
    | some true => pure ⟨q.queue, bits⟩
    | some false => do
      let bits' ← setBit bits id true
      pure ⟨q.queue ++ [x], bits'⟩

/-- `pop_front` (indexed_constraint_system.rs:670-676). -/
def popFront (q : Queue) : Except Panic (Option Item × Queue) :=
  match q.queue with
  | [] => .ok (none, q)
  | x :: t => do
    let id ← x.flatId
    let bits ← setBit q.inQueue id false
    pure (some x, ⟨t, bits⟩)

/-- Pushing several items. -/
def pushAll (q : Queue) : List Item → Except Panic Queue
  | [] => .ok q
  | x :: t => do
    let q' ← q.push x
    pushAll q' t

end Queue

/-- `IndexedConstraintSystemWithQueue` (indexed_constraint_system.rs:74-79). -/
structure Queued (p : ℕ) (V : Type) where
  ix : Indexed p V
  queue : Queue

namespace Queued

/-- `Default` (indexed_constraint_system.rs:75). -/
def empty : Queued p V := ⟨⟨⟨[], [], []⟩, fun _ => []⟩, ⟨[], []⟩⟩

variable [LinearOrder V]

/-- `From` (indexed_constraint_system.rs:507-518). -/
def ofSystem (s : ConstraintSystem p V) : Except Panic (Queued p V) := do
  let q ← Queue.new s
  pure ⟨Indexed.ofSystem s, q⟩

/-- `pop_front` (indexed_constraint_system.rs:531-537). -/
def popFront (s : Queued p V) : Except Panic (Option (ConstraintRef p V) × Queued p V) := do
  let r ← s.queue.popFront
  match r.1 with
  | none => pure (none, { s with queue := r.2 })
  | some x =>
    match ← x.toRef s.ix.sys with
    | none => .error .assertion
    | some c => pure (some c, { s with queue := r.2 })

/-- `variable_updated` (indexed_constraint_system.rs:543-551). -/
def variableUpdated (s : Queued p V) (v : V) : Except Panic (Queued p V) := do
  let q ← s.queue.pushAll ((s.ix.occ v).filter fun x => !x.isDerived)
  pure { s with queue := q }

/-- `substitute_by_unknown` (indexed_constraint_system.rs:558-562). -/
def subst (s : Queued p V) (x : V) (r : GExpr p V) : Except Panic (Queued p V) :=
  variableUpdated { s with ix := s.ix.subst x r } x

/-- `add_algebraic_constraints` (indexed_constraint_system.rs:564-579). -/
def addAlgebraic (s : Queued p V) (cs : List (GExpr p V)) : Except Panic (Queued p V) := do
  let q ← s.queue.pushAll ((List.range cs.length).map fun i =>
    Item.alg (s.ix.sys.algebraic.length + i))
  pure ⟨s.ix.addAlgebraic cs, q⟩

/-- `add_bus_interactions` (indexed_constraint_system.rs:581-596). -/
def addBus (s : Queued p V) (bs : List (BusInteraction (GExpr p V))) :
    Except Panic (Queued p V) := do
  let q ← s.queue.pushAll ((List.range bs.length).map fun i =>
    Item.bus (s.ix.sys.bus.length + i))
  pure ⟨s.ix.addBus bs, q⟩

/-- Resetting the queue unless it is empty (indexed_constraint_system.rs:603-607, 615-619). -/
def resetQueue (s : Queued p V) : Except Panic (Queued p V) :=
  if s.queue.queue.isEmpty then .ok s
  else do
    let q ← Queue.new s.ix.sys
    pure { s with queue := q }

/-- `retain_algebraic_constraints` (indexed_constraint_system.rs:598-608). -/
def retainAlgebraic (s : Queued p V) (f : ℕ → GExpr p V → Bool) : Except Panic (Queued p V) :=
  resetQueue { s with ix := s.ix.retainAlgebraic f }

/-- `retain_bus_interactions` (indexed_constraint_system.rs:610-620). -/
def retainBus (s : Queued p V) (f : ℕ → BusInteraction (GExpr p V) → Bool) :
    Except Panic (Queued p V) :=
  resetQueue { s with ix := s.ix.retainBus f }

end Queued

end Verif
