import Verif.Proofs.Blocks
import Mathlib.Data.List.Sort

/-!
# C42: counting and removing a block from runs
-/

set_option linter.unusedSectionVars false

namespace Verif

section
variable {α : Type} [DecidableEq α]

/-- C42: the loop ends exactly if the sub-sequence is not empty. -/
theorem C42_terminates (haystack needle : List α) :
    (∃ n r, findLoop haystack needle n 0 [] = .ok r) ↔ needle ≠ [] := by
  constructor
  · rintro ⟨n, r, h⟩ rfl
    rw [findLoop_nil n 0 [] (Nat.zero_le _)] at h
    cases h
  · intro h
    obtain ⟨r, h1, -⟩ := findNonOverlapping_ok (hay := haystack) h
    exact ⟨_, r, h1⟩

/-- C42: the returned positions are occurrences that do not overlap, in increasing order, and every
occurrence starts inside a returned one. -/
theorem C42_find {haystack needle : List α} (hn : needle ≠ []) :
    ∃ is, findNonOverlapping haystack needle = .ok is ∧ DisjointOccurrences haystack needle is ∧
      ∀ j, OccursAt haystack needle j → ∃ i ∈ is, i ≤ j ∧ j < i + needle.length :=
  findNonOverlapping_ok hn

/-- C42: the result is determined by these conditions. -/
theorem C42_unique {haystack needle : List α} (hn : needle ≠ []) {is js : List ℕ}
    (hi : findNonOverlapping haystack needle = .ok is) (hj : DisjointOccurrences haystack needle js)
    (hc : ∀ j, OccursAt haystack needle j → ∃ i ∈ js, i ≤ j ∧ j < i + needle.length) : js = is := by
  obtain ⟨is', h1, h2, h3⟩ := findNonOverlapping_ok (hay := haystack) hn
  rw [hi] at h1
  cases h1
  have hl : 0 < needle.length := List.length_pos_iff.2 hn
  have hne : ∀ {ks : List ℕ}, DisjointOccurrences haystack needle ks → ∀ i ∈ ks, ∀ j ∈ ks, i < j →
      i + needle.length ≤ j := by
    intro ks hks i hi j hj hij
    obtain ⟨a, ha, rfl⟩ := List.mem_iff_getElem.1 hi
    obtain ⟨b, hb, rfl⟩ := List.mem_iff_getElem.1 hj
    rcases Nat.lt_trichotomy a b with h | h | h
    · exact List.pairwise_iff_getElem.1 hks.2 a b ha hb h
    · subst h
      omega
    · have := List.pairwise_iff_getElem.1 hks.2 b a hb ha h
      omega
  have hmem : ∀ i, i ∈ js ↔ i ∈ is := by
    intro i
    induction i using Nat.strong_induction_on with
    | _ i ih =>
      constructor
      · intro h
        obtain ⟨k, hk, hk1, hk2⟩ := h3 i (hj.1 i h)
        rcases Nat.lt_or_eq_of_le hk1 with hlt | rfl
        · have := hne hj k ((ih k hlt).2 hk) i h hlt
          omega
        · exact hk
      · intro h
        obtain ⟨k, hk, hk1, hk2⟩ := hc i (h2.1 i h)
        rcases Nat.lt_or_eq_of_le hk1 with hlt | rfl
        · have := hne h2 k ((ih k hlt).1 hk) i h hlt
          omega
        · exact hk
  exact List.Pairwise.eq_of_mem_iff (r := (· < ·)) (hj.2.imp fun h => by omega)
    (h2.2.imp fun h => by omega) hmem

/-- C42: the number of returned positions is the largest number of occurrences that do not overlap. -/
theorem C42_uses {haystack needle : List α} {is : List ℕ} (hn : needle ≠ [])
    (h : findNonOverlapping haystack needle = .ok is) : Uses haystack needle is.length := by
  obtain ⟨is', h1, h2, h3⟩ := findNonOverlapping_ok (hay := haystack) hn
  rw [h] at h1
  cases h1
  exact uses_of_covers hn h2 h3

/-- C42: counting and removing the block from a run: the run is the pieces with the block in between,
the count is the number of removed blocks, the non-empty pieces are returned, and no piece contains the
block. -/
theorem C42_update {sblock : List α} (hn : sblock ≠ []) (run : List α) :
    ∃ pieces count, countAndUpdateRun sblock run = .ok (count, pieces.filter fun l => l ≠ []) ∧
      pieces.length = count + 1 ∧ sblock.intercalate pieces = run ∧
      (∀ l ∈ pieces, ¬ sblock <:+: l) ∧ Uses run sblock count := by
  obtain ⟨is, -, h1, h2, h3, h4⟩ := countAndUpdateRun_ok (run := run) hn
  refine ⟨_, _, h4, by simp [gaps_length], (intercalate_gaps h1.1 h3).symm, ?_,
    uses_of_covers hn h1 h2⟩
  intro l hl hin
  obtain ⟨x, hx, rfl⟩ := List.mem_map.1 hl
  obtain ⟨b, a, hba⟩ := hin
  have ho := occursAt_piece (gaps_valid h3 x hx).2 ⟨b, a, hba.symm, rfl⟩
  obtain ⟨i, hi, h5, h6⟩ := h2 _ ho.1
  have hl' : 0 < sblock.length := List.length_pos_iff.2 hn
  rcases gaps_avoid h3 x hx i hi with h7 | h7 <;> omega

/-- C42: blocks are conserved: the pieces and the removed blocks together have the length of the run. -/
theorem C42_length {sblock run : List α} {count : ℕ} {subRuns : List (List α)} (hn : sblock ≠ [])
    (h : countAndUpdateRun sblock run = .ok (count, subRuns)) :
    count * sblock.length + (subRuns.map List.length).sum = run.length := by
  obtain ⟨ps, c, h1, h2, h3, -⟩ := C42_update hn run
  rw [h] at h1
  cases h1
  have := length_intercalate (needle := sblock) ps (by rintro rfl; simp at h2)
  rw [h3, h2, Nat.add_sub_cancel] at this
  rw [this, sum_filter_ne_nil]

/-- C42: the same over an execution with multiplicities: the total count is the number of uses, the
executed blocks are conserved. -/
theorem C42_execution {sblock : List α} (hn : sblock ≠ []) (execution : List (List α × ℕ)) :
    ∃ total rest, countAndUpdateExecution sblock execution = .ok (total, rest) ∧
      ExecutionUses sblock execution total ∧
      total * sblock.length + executedBlocks rest = executedBlocks execution ∧
      ∀ x ∈ rest, x.1 ≠ [] ∧ ¬ sblock <:+: x.1 := by
  induction execution with
  | nil => exact ⟨0, [], rfl, .nil, by simp [executedBlocks], by simp⟩
  | cons x t ih =>
    obtain ⟨run, c⟩ := x
    obtain ⟨total, rest, h1, h2, h3, h4⟩ := ih
    obtain ⟨ps, n, h5, h6, h7, h8, h9⟩ := C42_update hn run
    have h10 := C42_length hn h5
    refine ⟨_, _, by rw [countAndUpdateExecution, h5, h1]; rfl, .cons h9 h2, ?_, ?_⟩
    · rw [executedBlocks, executedBlocks, List.map_append, List.sum_append, List.map_cons,
        List.sum_cons]
      change _ + (_ + executedBlocks rest) = _ + executedBlocks t
      rw [← h3, ← h10]
      simp only [List.map_map]
      have e : ∀ l : List (List α), (l.map ((fun x : List α × ℕ => x.1.length * x.2) ∘
          fun r => (r, c))).sum = (l.map List.length).sum * c := by
        intro l
        induction l with
        | nil => simp
        | cons a l ih =>
          simp only [List.map_cons, List.sum_cons, ih, Function.comp]
          ring
      rw [e]
      ring
    · intro y hy
      rcases List.mem_append.1 hy with hy | hy
      · obtain ⟨r, hr, rfl⟩ := List.mem_map.1 hy
        obtain ⟨hr1, hr2⟩ := List.mem_filter.1 hr
        exact ⟨by simpa using hr2, h8 r hr1⟩
      · exact h4 y hy

/-- C42: removing a block does not increase the number of uses of any other block. -/
theorem C42_monotone {sblock needle : List α} (hs : sblock ≠ []) (hn : needle ≠ [])
    {execution rest : List (List α × ℕ)} {total m n : ℕ}
    (h : countAndUpdateExecution sblock execution = .ok (total, rest))
    (hm : ExecutionUses needle execution m) (hr : ExecutionUses needle rest n) : n ≤ m :=
  executionUses_update hs hn h hm hr

end

/-! Samples: the tests of the code, and one with overlapping occurrences. -/

example : findNonOverlapping [1, 2, 1, 2, 1, 2, 1] [1, 2, 1] = .ok [0, 4] := by decide +kernel

example : countAndUpdateRun [1, 2] [1, 2, 3, 1, 2, 4] = .ok (2, [[3], [4]]) := by decide +kernel

example : countAndUpdateExecution [1, 2] [([1, 2, 3, 1, 2, 4], 5), ([2, 1], 3)] =
    .ok (10, [([3], 5), ([4], 5), ([2, 1], 3)]) := by decide +kernel

end Verif
