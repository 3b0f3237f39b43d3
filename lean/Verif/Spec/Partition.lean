import Verif.Model.Partition

/-! # Specification of partitions -/

namespace Verif

variable {α : Type}

/-- The elements are equivalent: equal, or in the same class. -/
def Partition.Same (p : Partition α) (x y : α) : Prop :=
  x = y ∨ ∃ c, (x, c) ∈ p.classOf ∧ (y, c) ∈ p.classOf

/-- The elements of the classes with at least two elements. -/
def Partition.elements (p : Partition α) : List α := p.classOf.map Prod.fst

/-- What every partition built by the API satisfies: each element has one class, and every class has at
least two elements. -/
structure Partition.WF (p : Partition α) : Prop where
  nodup : p.elements.Nodup
  valid : ∀ x ∈ p.classOf, x.2 < p.numClasses
  two : ∀ c < p.numClasses, ∃ x y, x ≠ y ∧ (x, c) ∈ p.classOf ∧ (y, c) ∈ p.classOf

/-- A list of disjoint classes with at least two elements each. -/
def IsClasses (classes : List (List α)) : Prop :=
  (∀ c ∈ classes, 1 < c.length) ∧ classes.flatten.Nodup

/-- The equivalence given by a list of classes. -/
def classesSame (classes : List (List α)) (x y : α) : Prop :=
  x = y ∨ ∃ c ∈ classes, x ∈ c ∧ y ∈ c

end Verif
