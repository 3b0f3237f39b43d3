import Verif.Spec.Memory

/-!
# What is left of the accesses to a register

An access to memory is a bus interaction on the memory bus: a *send* (multiplicity 1) writes a new
value, a *receive* (multiplicity -1) reads the previous one.  The payload starts with the address
space and the pointer.
-/

namespace Verif

open GExpr

variable {p : ℕ} {V : Type}

/-- The bus interaction is on another bus than `id`, or is a send or a receive in a known address
space.  In the address space `space` the pointer is known, too (as it is for registers). -/
def KnownAccess (id : ℕ) (space : ZMod p) (b : BusInteraction (GExpr p V)) : Prop :=
  ∃ bid, b.busId = const bid ∧ (bid = (id : ZMod p) →
    (b.multiplicity = const 1 ∨ b.multiplicity = const (-1)) ∧
    ∃ s pointer rest, b.payload = const s :: pointer :: rest ∧
      (s = space → ∃ x, pointer = const x))

/-- The accesses to the cell at `pointer` in the address space `space`, in their order. -/
def accessesTo [DecidableEq V] (id : ℕ) (space pointer : ZMod p)
    (bs : List (BusInteraction (GExpr p V))) : List (BusInteraction (GExpr p V)) :=
  bs.filter fun b => b.busId = const (id : ZMod p) ∧
    b.payload.take 2 = [const space, const pointer]

/-- Sends and receives alternate. -/
def Alternating (l : List (BusInteraction (GExpr p V))) : Prop :=
  l.IsChain fun b c => b.multiplicity ≠ c.multiplicity

/-- The first access, if it is a receive. -/
def firstReceive [DecidableEq V] (l : List (BusInteraction (GExpr p V))) :
    List (BusInteraction (GExpr p V)) :=
  l.head?.toList.filter fun b => b.multiplicity = const (-1)

/-- The last access, if it is a send. -/
def lastSend [DecidableEq V] (l : List (BusInteraction (GExpr p V))) :
    List (BusInteraction (GExpr p V)) :=
  l.getLast?.toList.filter fun b => b.multiplicity = const 1

end Verif
