import Verif.Model.Blocks
import Mathlib.Data.List.Dedup
import Mathlib.Data.Finset.Image

/-!
# Model of `autoprecompiles/src/equivalence_classes.rs`

A `HashMap` is a list of pairs with different keys. Where the code iterates over one, the order is any
permutation of the list, so that the operations are relations between inputs and possible results.
-/

namespace Verif

/-- `Partition` (equivalence_classes.rs:17-25). -/
structure Partition (α : Type) where
  classOf : List (α × ℕ)
  numClasses : ℕ

/-- `Partition::default` (equivalence_classes.rs:17-18). -/
def Partition.default {α : Type} : Partition α := ⟨[], 0⟩

section
variable {α : Type} [DecidableEq α]

/-- `insert` of a key that must be new (equivalence_classes.rs:55, 121-123, 135-137). -/
def insertNew (m : List (α × ℕ)) (x : α) (c : ℕ) : Except LoopStop (List (α × ℕ)) :=
  if x ∈ m.map Prod.fst then .error .panic else .ok (m ++ [(x, c)])

/-- Insertion of several keys. -/
def insertAll (m : List (α × ℕ)) : List (α × ℕ) → Except LoopStop (List (α × ℕ))
  | [] => .ok m
  | (x, c) :: t => do
    let m ← insertNew m x c
    insertAll m t

/-- The loop of `from_iter` (equivalence_classes.rs:50-59). -/
def fromIterLoop : List (List α) → List (α × ℕ) → ℕ → Except LoopStop (Partition α)
  | [], classOf, numClasses => .ok ⟨classOf, numClasses⟩
  | cls :: t, classOf, numClasses =>
    if cls.length > 1 then do
      let classOf ← insertAll classOf (cls.map fun x => (x, numClasses))
      fromIterLoop t classOf (numClasses + 1)
    else fromIterLoop t classOf numClasses

/-- `from_iter` (equivalence_classes.rs:42-66), also used by `deserialize` (34-40). -/
def Partition.fromIter (classes : List (List α)) : Except LoopStop (Partition α) :=
  fromIterLoop classes [] 0

end

section
variable {α : Type}

/-- The loop of `to_classes` (equivalence_classes.rs:75-77). -/
def toClassesLoop : List (α × ℕ) → List (List α) → Except LoopStop (List (List α))
  | [], classes => .ok classes
  | (x, c) :: t, classes =>
    match classes[c]? with
    | none => .error .panic
    | some cls => toClassesLoop t (classes.set c (cls ++ [x]))

/-- `to_classes` (equivalence_classes.rs:73-79), also used by `serialize` (27-32): the possible results. -/
def Partition.ToClasses (p : Partition α) (r : Except LoopStop (List (List α))) : Prop :=
  ∃ l, l.Perm p.classOf ∧ r = toClassesLoop l (List.replicate p.numClasses [])

/-- `into_group_map` (itertools). The order of the groups is arbitrary. -/
def groupMap {κ : Type} [DecidableEq κ] (l : List (κ × α)) : List (κ × List α) :=
  (l.map Prod.fst).dedup.map fun k => (k, (l.filter fun x => x.1 = k).map Prod.snd)

end

section
variable {α : Type} [DecidableEq α]

/-- `get` of a `HashMap`. -/
def Partition.get (p : Partition α) (x : α) : Option ℕ := p.classOf.lookup x

/-- `intersected_with` (equivalence_classes.rs:97-113): the possible results. -/
def Partition.IntersectedWith (p q : Partition α) (r : Except LoopStop (Partition α)) : Prop :=
  ∃ (l : List (α × ℕ)) (vs : List (List α)), l.Perm p.classOf ∧
    vs.Perm ((groupMap (l.filterMap fun x => (q.get x.1).map fun b => ((x.2, b), x.1))).map Prod.snd) ∧
    r = Partition.fromIter vs

/-- `reduce` (std) with `intersected_with`, after the first element. -/
inductive IntersectFold : Partition α → List (Partition α) → Except LoopStop (Partition α) → Prop
  | nil {p} : IntersectFold p [] (.ok p)
  | cons {p q t p' r} : p.IntersectedWith q (.ok p') → IntersectFold p' t r →
      IntersectFold p (q :: t) r
  | panic {p q t e} : p.IntersectedWith q (.error e) → IntersectFold p (q :: t) (.error e)

/-- `intersect_many` (equivalence_classes.rs:85-94): the possible results. -/
def IntersectMany : List (Partition α) → Except LoopStop (Partition α) → Prop
  | [], r => r = .error .panic
  | p :: t, r => IntersectFold p t r

/-- `chunks` of a parallel iterator (rayon). -/
def chunks {β : Type} (size : ℕ) : ℕ → List β → List (List β)
  | 0, _ => []
  | n + 1, l => if l.isEmpty then [] else l.take size :: chunks size n (l.drop size)

/-- `CHUNK_SIZE` (equivalence_classes.rs:147). -/
def chunkSize : ℕ := 64

/-- `parallel_intersect` (equivalence_classes.rs:154-171): the possible results. The chunks are
intersected independently. -/
inductive ParallelIntersect : List (Partition α) → Except LoopStop (Partition α) → Prop
  | base {ps r} : ps.length ≤ chunkSize → IntersectMany ps r → ParallelIntersect ps r
  | step {ps qs r} : chunkSize < ps.length →
      List.Forall₂ (fun c q => IntersectMany c (.ok q)) (chunks chunkSize ps.length ps) qs →
      ParallelIntersect qs r → ParallelIntersect ps r
  | panic {ps c e} : chunkSize < ps.length → c ∈ chunks chunkSize ps.length ps →
      IntersectMany c (.error e) → ParallelIntersect ps (.error e)

/-- `combine` (equivalence_classes.rs:117-127): the possible results. -/
def Partition.Combine (p q : Partition α) (r : Except LoopStop (Partition α)) : Prop :=
  ∃ l : List (α × ℕ), l.Perm q.classOf ∧ r = (do
    let m ← insertAll p.classOf (l.map fun x => (x.1, x.2 + p.numClasses))
    pure ⟨m, p.numClasses + q.numClasses⟩)

/-- `map_elements` (equivalence_classes.rs:131-143): the possible results. -/
def Partition.MapElements {β : Type} (p : Partition β) (f : β → α)
    (r : Except LoopStop (Partition α)) : Prop :=
  ∃ l : List (β × ℕ), l.Perm p.classOf ∧ r = (do
    let m ← insertAll [] (l.map fun x => (f x.1, x.2))
    pure ⟨m, p.numClasses⟩)

/-- `eq` (equivalence_classes.rs:175-192): the possible results (there is only one, see
`C40_equality`). -/
def Partition.Equal (p q : Partition α) (b : Bool) : Prop :=
  ∃ c d, p.ToClasses (.ok c) ∧ q.ToClasses (.ok d) ∧
    b = decide ((c.map List.toFinset).toFinset = (d.map List.toFinset).toFinset)

end

end Verif
