import Verif.Model.Symbols

/-!
# What is expected of the names of addresses
-/

namespace Verif

/-- A name with the address appended some number of times. -/
def withAddress (name : SymName) (address : ℕ) : ℕ → SymName
  | 0 => name
  | k + 1 => withAddress name address k ++ '_' :: hex8 address

/-- Binary search in a list that is ordered by address: the result is an index with the address, or there is none, and the
result is the index where it would be. -/
def LocSearch.Correct (search : LocSearch) : Prop :=
  ∀ l addr, l.Pairwise (fun x y : SrcLoc => x.address ≤ y.address) →
    match search l addr with
    | .inl i => ∃ x, l[i]? = some x ∧ x.address = addr
    | .inr i => i ≤ l.length ∧ (∀ x ∈ l.take i, x.address < addr) ∧ ∀ x ∈ l.drop i, addr < x.address

/-- The segments are ordered by address and do not overlap, and all end below 2^32. -/
def SegmentsApart (segments : List (ℕ × ℕ)) : Prop :=
  segments.Pairwise (fun s t => s.1 + s.2 ≤ t.1) ∧ ∀ s ∈ segments, s.1 + s.2 < 2 ^ 32

/-- The instructions are ordered by address and do not overlap. -/
def InsApart {I : Type} (l : List (PlacedIns I)) : Prop :=
  l.Pairwise (fun i j => i.address + i.size ≤ j.address) ∧ ∀ i ∈ l, 0 < i.size

/-- The statements for an instruction: the labels of its address, the locations in it, the instruction. -/
def blockOf {I : Type} (t : SymTable) (labels : List ℕ) (locs : List SrcLoc) (i : PlacedIns I) : List (OutStatement I) :=
  (if i.address ∈ labels then (t.getAll i.address).map .label else []) ++
    ((locs.filter fun x => decide (i.address ≤ x.address ∧ x.address < i.address + i.size)).map fun x =>
      OutStatement.debugLoc x.file x.line x.col) ++ [.instruction i.ins]

end Verif
