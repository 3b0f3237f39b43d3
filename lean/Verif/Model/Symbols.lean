import Verif.Model.Solve
import Mathlib.Data.List.Lex
import Mathlib.Data.List.Sort
import Mathlib.Data.Char

/-!
# Names of addresses, and the statements of a program

Model of the parts of `riscv-elf/src/debug_info.rs` that do not read the DWARF format, and of the output of statements in
`riscv-elf/src/lib.rs`.

A name is a list of characters; the order of strings by their bytes in UTF-8 is the lexicographic order by code points.
Addresses (`u32`) are natural numbers; sums that can overflow are taken modulo 2^32.
-/

namespace Verif

/-- A name. -/
abbrev SymName := List Char

/-- A digit of `{:x}`. -/
def hexDigit (n : ℕ) : Char := ['0', '1', '2', '3', '4', '5', '6', '7', '8', '9', 'a', 'b', 'c', 'd', 'e', 'f'].getD n '0'

/-- `{address:08x}` (debug_info.rs:449, 554, 562), for a number with 32 bits. -/
def hex8 (a : ℕ) : SymName :=
  [hexDigit (a / 16 ^ 7 % 16), hexDigit (a / 16 ^ 6 % 16), hexDigit (a / 16 ^ 5 % 16), hexDigit (a / 16 ^ 4 % 16),
    hexDigit (a / 16 ^ 3 % 16), hexDigit (a / 16 ^ 2 % 16), hexDigit (a / 16 % 16), hexDigit (a % 16)]

/-- The name and the address in hexadecimal (debug_info.rs:550, 562). -/
def renameSymbol (x : SymName × ℕ) : SymName × ℕ := (x.1 ++ '_' :: hex8 x.2, x.2)

/-- An entry of the symbol table of the file: `st_name`, whether it is a function or a variable, `st_value`. -/
structure ElfSym where
  name : ℕ
  isFuncOrObject : Bool
  value : ℕ

/-- `read_symbol_table` (debug_info.rs:507-520). `strtab` panics for offsets that are not valid. -/
def readSymbolTable (strtab : ℕ → Except Panic SymName) (syms : List ElfSym) : Except Panic (List (SymName × ℕ)) :=
  (syms.filter fun s => decide (s.name ≠ 0) && s.isFuncOrObject).mapM fun s => do
    let name ← strtab s.name
    pure (name, s.value % 2 ^ 32)

/-- The order of pairs. -/
def symLe (x y : SymName × ℕ) : Bool := decide (x.1 < y.1 ∨ (x.1 = y.1 ∧ x.2 ≤ y.2))

/-- `Vec::dedup`: repeated neighbours are removed. -/
def dedupNeighbours {A : Type} [DecidableEq A] : List A → List A
  | [] => []
  | [x] => [x]
  | x :: y :: t => if x = y then dedupNeighbours (y :: t) else x :: dedupNeighbours (y :: t)

/-- The loop over the groups of equal names (debug_info.rs:537-566): the names, and whether some were changed. -/
def renameGroups : List (SymName × ℕ) → List (SymName × ℕ) × Bool
  | [] => ([], false)
  | x :: t =>
    let group := t.takeWhile fun y => y.1 = x.1
    let rest := renameGroups (t.dropWhile fun y => y.1 = x.1)
    if group.isEmpty then (x :: rest.1, rest.2)
    else (renameSymbol x :: group.map renameSymbol ++ rest.1, true)
termination_by l => l.length
decreasing_by
  simp only [List.length_cons]
  have := (List.dropWhile_suffix fun y : SymName × ℕ => decide (y.1 = x.1)).length_le (l₂ := t)
  omega

/-- `dedup_names_pass` (debug_info.rs:532-567). -/
def dedupPass (l : List (SymName × ℕ)) : List (SymName × ℕ) × Bool :=
  renameGroups (dedupNeighbours (l.mergeSort symLe))

/-- `dedup_names` (debug_info.rs:524-526), for at most the given number of passes. -/
def dedupNames : ℕ → List (SymName × ℕ) → Option (List (SymName × ℕ))
  | 0, _ => none
  | n + 1, l =>
    let r := dedupPass l
    if r.2 then dedupNames n r.1 else some r.1

/-- `SymbolTable` (debug_info.rs:430): the names of each address, ordered by address. -/
abbrev SymTable := List (ℕ × List SymName)

/-- The table of the symbols (debug_info.rs:94-101, 438-445). -/
def symTable (l : List (SymName × ℕ)) : SymTable :=
  (dedupNeighbours ((l.map Prod.snd).mergeSort fun a b => decide (a ≤ b))).map fun a =>
    (a, (l.filter fun x => x.2 = a).map Prod.fst)

/-- `SymbolTable::new` (debug_info.rs:433-446). -/
def symTableNew (fuel : ℕ) (strtab : ℕ → Except Panic SymName) (syms : List ElfSym) : Except Panic (Option SymTable) := do
  let l ← readSymbolTable strtab syms
  pure ((dedupNames fuel l).map symTable)

namespace SymTable

/-- The names of an address. -/
def get (t : SymTable) (addr : ℕ) : Option (List SymName) := (t.find? fun x => x.1 = addr).map Prod.snd

/-- `default_label` (debug_info.rs:448-450). -/
def defaultLabel (addr : ℕ) : SymName := '_' :: '_' :: '.' :: 'L' :: hex8 addr

/-- `try_get_one` (debug_info.rs:453-457). -/
def tryGetOne (t : SymTable) (addr : ℕ) : Option SymName := (t.get addr).bind List.head?

/-- `get_one` (debug_info.rs:460-465). -/
def getOne (t : SymTable) (addr : ℕ) : SymName := (t.tryGetOne addr).getD (defaultLabel addr)

/-- `get_all` (debug_info.rs:468-480). -/
def getAll (t : SymTable) (addr : ℕ) : List SymName :=
  let elems := (t.get addr).getD []
  if elems.isEmpty then [defaultLabel addr] else elems

/-- `try_get_one_or_preceding` (debug_info.rs:489-495). -/
def tryGetOneOrPreceding (t : SymTable) (addr : ℕ) : Except Panic (Option (SymName × ℕ)) :=
  if addr < 2 ^ 32 then
    .ok (((t.filter fun x => decide (x.1 ≤ addr)).getLast?).bind fun x => x.2.head?.map fun s => (s, addr - x.1))
  else .error .assertion

end SymTable

/-! ## Locations -/

/-- `SourceLocationInfo` (debug_info.rs:45-50). -/
structure SrcLoc where
  address : ℕ
  file : ℕ
  line : ℕ
  col : ℕ
deriving DecidableEq

/-- `binary_search_by_key` of the standard library: an index with the address, or where it could be inserted. -/
abbrev LocSearch := List SrcLoc → ℕ → ℕ ⊕ ℕ

/-- The loop in `find_first_idx` (debug_info.rs:419-421). -/
def firstIdxFrom (l : List SrcLoc) (addr : ℕ) : ℕ → ℕ
  | 0 => 0
  | idx + 1 => if (l[idx]?).any fun x => x.address = addr then firstIdxFrom l addr idx else idx + 1

/-- `find_first_idx` (debug_info.rs:416-426). -/
def findFirstIdx (search : LocSearch) (l : List SrcLoc) (addr : ℕ) : ℕ :=
  match search l addr with
  | .inl idx => firstIdxFrom l addr idx
  | .inr idx => idx

/-- One segment in `filter_locations_in_text` (debug_info.rs:405-413): the locations that are done, and those that are left.
The segment is given by its address and its size in memory. -/
def filterSegment (search : LocSearch) (x : List SrcLoc × List SrcLoc) (s : ℕ × ℕ) : List SrcLoc × List SrcLoc :=
  let rest := x.2.drop (findFirstIdx search x.2 s.1)
  let idx := findFirstIdx search rest ((s.1 + s.2) % 2 ^ 32)
  (x.1 ++ rest.take idx, rest.drop idx)

/-- `filter_locations_in_text` (debug_info.rs:401-414). `sorted` is the result of `sort_unstable_by_key`, the segments are in the
order of the address map. -/
def filterLocations (search : LocSearch) (segments : List (ℕ × ℕ)) (sorted : List SrcLoc) : List SrcLoc :=
  let r := segments.foldl (filterSegment search) ([], sorted)
  r.1 ++ r.2

/-! ## Statements -/

/-- `merge_join_by` of itertools with a function that says whether the left element comes first. -/
def mergeJoinBy {A B : Type} (cmp : A → B → Except Panic Bool) : List A → List B → Except Panic (List (A ⊕ B))
  | [], bs => .ok (bs.map .inr)
  | as, [] => .ok (as.map .inl)
  | a :: as, b :: bs => do
    if ← cmp a b then do
      let l ← mergeJoinBy cmp as (b :: bs)
      pure (.inl a :: l)
    else do
      let l ← mergeJoinBy cmp (a :: as) bs
      pure (.inr b :: l)
termination_by as bs => as.length + bs.length

/-- An instruction with its place (`Location` and `HighLevelInsn`, lib.rs:699-709): `I` is the rest. -/
structure PlacedIns (I : Type) where
  address : ℕ
  size : ℕ
  ins : I

/-- The comparison of a location and an instruction (lib.rs:338-350), without the cell. -/
def locFirst {I : Type} (loc : SrcLoc) (i : PlacedIns I) : Except Panic Bool :=
  if loc.address < i.address then .error .assertion else .ok (decide (loc.address < i.address + i.size))

/-- The locations and the instructions (lib.rs:333-355). The cell of a location is the address of the last instruction it was
compared with if it came first, so the one of the next instruction in the result, or 0 if there is none. -/
def cellOf {I : Type} : List (SrcLoc ⊕ PlacedIns I) → ℕ
  | [] => 0
  | .inl _ :: t => cellOf t
  | .inr i :: _ => i.address

/-- The result of the inner merge with the addresses (lib.rs:351-355). -/
def withCells {I : Type} : List (SrcLoc ⊕ PlacedIns I) → List (ℕ × (SrcLoc ⊕ PlacedIns I))
  | [] => []
  | x :: t => (cellOf (x :: t), x) :: withCells t

/-- The comparison of a label with the rest (lib.rs:362-366). -/
def labelFirst {X : Type} (label : ℕ) (x : ℕ × X) : Except Panic Bool :=
  if label < x.1 then .error .assertion else .ok (decide (label = x.1))

/-- `Statement`. -/
inductive OutStatement (I : Type) where
  | label (name : SymName)
  | debugLoc (file line col : ℕ)
  | instruction (i : I)
deriving DecidableEq

/-- The statements for an element of the outer merge (lib.rs:368-389). -/
def toStatements {I : Type} (t : SymTable) : ℕ ⊕ (ℕ × (SrcLoc ⊕ PlacedIns I)) → List (OutStatement I)
  | .inl label => (t.getAll label).map .label
  | .inr (_, .inl loc) => [.debugLoc loc.file loc.line loc.col]
  | .inr (_, .inr i) => [.instruction i.ins]

/-- `take_executable_statements` (lib.rs:327-391): labels, locations and instructions, each ordered by address. -/
def executableStatements {I : Type} (t : SymTable) (labels : List ℕ) (locs : List SrcLoc) (instructions : List (PlacedIns I)) :
    Except Panic (List (OutStatement I)) := do
  let inner ← mergeJoinBy locFirst locs instructions
  let outer ← mergeJoinBy labelFirst labels (withCells inner)
  pure (outer.flatMap (toStatements t))

end Verif
