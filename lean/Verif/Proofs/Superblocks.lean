import Verif.Proofs.Blocks
import Verif.Proofs.BasicBlocks
import Mathlib.Data.List.Sort
import Mathlib.Data.List.SplitOn
import Mathlib.Algebra.BigOperators.Group.Finset.Basic
import Mathlib.Algebra.Group.Nat.Defs
import Mathlib.Algebra.Module.NatInt

/-! # Proofs about superblock detection -/

set_option linter.unusedSectionVars false

namespace Verif

section
variable {K : Type} [LinearOrder K] [BEq K] [LawfulBEq K]

/-- The keys are sorted. -/
def SortedMap {W : Type} (m : List (K × W)) : Prop := m.Pairwise fun x y => x.1 < y.1

theorem lookup_none_of_lt {W : Type} {k : K} {m : List (K × W)} (h : ∀ x ∈ m, k < x.1) :
    m.lookup k = none := by
  induction m with
  | nil => rfl
  | cons x t ih =>
    have hx := h x (by simp)
    rw [List.lookup_cons, beq_false_of_ne hx.ne]
    exact ih fun y hy => h y (by simp [hy])

theorem lookup_cons_eq {W : Type} (q k : K) (w : W) (m : List (K × W)) :
    List.lookup q ((k, w) :: m) = if q = k then some w else m.lookup q := by
  rw [List.lookup_cons]
  by_cases h : q = k
  · simp [h]
  · rw [beq_false_of_ne h, if_neg h]

theorem SortedMap.lookup_iff {W : Type} {m : List (K × W)} (h : SortedMap m) (q : K) (w : W) :
    m.lookup q = some w ↔ (q, w) ∈ m := by
  induction m with
  | nil => simp
  | cons x t ih =>
    obtain ⟨k, w'⟩ := x
    have h' := List.pairwise_cons.1 h
    rw [lookup_cons_eq, List.mem_cons]
    split_ifs with hq
    · subst hq
      constructor
      · rintro ⟨⟩
        exact .inl rfl
      · rintro (h1 | h1)
        · cases h1
          rfl
        · exact absurd (h'.1 _ h1) (lt_irrefl _)
    · rw [ih h'.2]
      simp [hq]

theorem SortedMap.ext {W : Type} {m m' : List (K × W)} (h : SortedMap m) (h' : SortedMap m')
    (he : ∀ q, m.lookup q = m'.lookup q) : m = m' := by
  have hm : ∀ x, x ∈ m ↔ x ∈ m' := by
    rintro ⟨q, w⟩
    rw [← h.lookup_iff, ← h'.lookup_iff, he]
  have hi : Std.Irrefl (fun x y : K × W => x.1 < y.1) := ⟨fun x => lt_irrefl _⟩
  have ha : Std.Antisymm (fun x y : K × W => x.1 < y.1) :=
    ⟨fun x y h1 h2 => absurd (h1.trans h2) (lt_irrefl _)⟩
  exact List.Pairwise.eq_of_mem_iff (r := fun x y : K × W => x.1 < y.1) h h' hm

theorem btreeAdd_keys {k : K} {n : ℕ} : ∀ {m : List (K × ℕ)} {x : K × ℕ}, x ∈ btreeAdd k n m →
    x.1 = k ∨ ∃ y ∈ m, x.1 = y.1
  | [], x, h => by
    rw [btreeAdd, List.mem_singleton] at h
    exact .inl (by rw [h])
  | (k', n') :: t, x, h => by
    rw [btreeAdd] at h
    split_ifs at h with h1 h2
    · rcases List.mem_cons.1 h with rfl | h
      · exact .inl rfl
      · exact .inr ⟨x, h, rfl⟩
    · rcases List.mem_cons.1 h with rfl | h
      · exact .inl h2.symm
      · exact .inr ⟨x, by simp [h], rfl⟩
    · rcases List.mem_cons.1 h with rfl | h
      · exact .inr ⟨_, by simp, rfl⟩
      · rcases btreeAdd_keys h with h | ⟨y, hy, h⟩
        · exact .inl h
        · exact .inr ⟨y, by simp [hy], h⟩

theorem btreeAdd_sorted {k : K} {n : ℕ} : ∀ {m : List (K × ℕ)}, SortedMap m →
    SortedMap (btreeAdd k n m) ∧
    ∀ q, (btreeAdd k n m).lookup q =
      if q = k then some ((m.lookup k).getD 0 + n) else m.lookup q
  | [], _ => ⟨by simp [btreeAdd, SortedMap], fun q => by simp [btreeAdd, lookup_cons_eq]⟩
  | (k', n') :: t, h => by
    have h' := List.pairwise_cons.1 h
    rw [btreeAdd]
    split_ifs with h1 h2
    · have hk : ∀ x ∈ (k', n') :: t, k < x.1 := by
        intro x hx
        rcases List.mem_cons.1 hx with rfl | hx
        · exact h1
        · exact h1.trans (h'.1 x hx)
      refine ⟨List.pairwise_cons.2 ⟨hk, h⟩, fun q => ?_⟩
      rw [lookup_cons_eq, lookup_none_of_lt hk]
      simp
    · subst h2
      refine ⟨List.pairwise_cons.2 h', fun q => ?_⟩
      rw [lookup_cons_eq, lookup_cons_eq, lookup_cons_eq]
      by_cases hq : q = k <;> simp [hq]
    · obtain ⟨h3, h4⟩ := btreeAdd_sorted (k := k) (n := n) h'.2
      have h5 : k' < k := lt_of_le_of_ne (not_lt.1 h1) (Ne.symm h2)
      refine ⟨List.pairwise_cons.2 ⟨?_, h3⟩, fun q => ?_⟩
      · intro x hx
        rcases btreeAdd_keys hx with hx | ⟨y, hy, hx⟩
        · rw [hx]
          exact h5
        · rw [hx]
          exact h'.1 y hy
      · rw [lookup_cons_eq, lookup_cons_eq, lookup_cons_eq, h4, if_neg h2]
        by_cases hq : q = k'
        · subst hq
          rw [if_pos rfl, if_pos rfl, if_neg (Ne.symm h2)]
        · rw [if_neg hq, if_neg hq]

theorem btreeInsertZero_keys {k : K} : ∀ {m : List (K × ℕ)} {x : K × ℕ}, x ∈ btreeInsertZero k m →
    x.1 = k ∨ ∃ y ∈ m, x.1 = y.1
  | [], x, h => by
    rw [btreeInsertZero, List.mem_singleton] at h
    exact .inl (by rw [h])
  | (k', n') :: t, x, h => by
    rw [btreeInsertZero] at h
    split_ifs at h with h1 h2
    · rcases List.mem_cons.1 h with rfl | h
      · exact .inl rfl
      · exact .inr ⟨x, h, rfl⟩
    · rcases List.mem_cons.1 h with rfl | h
      · exact .inl h2.symm
      · exact .inr ⟨x, by simp [h], rfl⟩
    · rcases List.mem_cons.1 h with rfl | h
      · exact .inr ⟨_, by simp, rfl⟩
      · rcases btreeInsertZero_keys h with h | ⟨y, hy, h⟩
        · exact .inl h
        · exact .inr ⟨y, by simp [hy], h⟩

theorem btreeInsertZero_sorted {k : K} : ∀ {m : List (K × ℕ)}, SortedMap m →
    SortedMap (btreeInsertZero k m) ∧
    ∀ q, ((btreeInsertZero k m).map Prod.fst).contains q = (q == k || (m.map Prod.fst).contains q)
  | [], _ => ⟨by simp [btreeInsertZero, SortedMap], fun q => by simp only [btreeInsertZero, List.map_cons, List.map_nil, List.contains_cons, List.contains_nil]⟩
  | (k', n') :: t, h => by
    have h' := List.pairwise_cons.1 h
    rw [btreeInsertZero]
    split_ifs with h1 h2
    · have hk : ∀ x ∈ (k', n') :: t, k < x.1 := by
        intro x hx
        rcases List.mem_cons.1 hx with rfl | hx
        · exact h1
        · exact h1.trans (h'.1 x hx)
      exact ⟨List.pairwise_cons.2 ⟨hk, h⟩, fun q => by simp⟩
    · subst h2
      refine ⟨List.pairwise_cons.2 h', fun q => ?_⟩
      simp only [List.map_cons, List.contains_cons]
      cases (q == k) <;> simp
    · obtain ⟨h3, h4⟩ := btreeInsertZero_sorted (k := k) h'.2
      have h5 : k' < k := lt_of_le_of_ne (not_lt.1 h1) (Ne.symm h2)
      refine ⟨List.pairwise_cons.2 ⟨?_, h3⟩, fun q => ?_⟩
      · intro x hx
        rcases btreeInsertZero_keys hx with hx | ⟨y, hy, hx⟩
        · rw [hx]
          exact h5
        · rw [hx]
          exact h'.1 y hy
      · simp only [List.map_cons, List.contains_cons, h4]
        cases (q == k') <;> cases (q == k) <;> simp

/-- The sum of two optional counters. -/
def optAdd : Option ℕ → Option ℕ → Option ℕ
  | none, b => b
  | some a, none => some a
  | some a, some b => some (a + b)

theorem optAdd_none (a : Option ℕ) : optAdd a none = a := by cases a <;> rfl

theorem optAdd_assoc (a b c : Option ℕ) : optAdd (optAdd a b) c = optAdd a (optAdd b c) := by
  cases a <;> cases b <;> cases c <;> simp [optAdd, Nat.add_assoc]

theorem btreeMerge_sorted : ∀ {b a : List (K × ℕ)}, SortedMap a → SortedMap b →
    SortedMap (btreeMerge a b) ∧
    ∀ q, (btreeMerge a b).lookup q = optAdd (a.lookup q) (b.lookup q)
  | [], a, ha, _ => ⟨ha, fun q => by simp [btreeMerge, optAdd_none]⟩
  | (k, n) :: t, a, ha, hb => by
    have hb' := List.pairwise_cons.1 hb
    obtain ⟨h1, h2⟩ := btreeAdd_sorted (k := k) (n := n) ha
    obtain ⟨h3, h4⟩ := btreeMerge_sorted h1 hb'.2
    refine ⟨h3, fun q => ?_⟩
    change (btreeMerge (btreeAdd k n a) t).lookup q = _
    rw [h4, h2, lookup_cons_eq]
    by_cases hq : q = k
    · subst hq
      rw [if_pos rfl, if_pos rfl, lookup_none_of_lt fun x hx => hb'.1 x hx, optAdd_none]
      cases a.lookup q <;> simp [optAdd]
    · rw [if_neg hq, if_neg hq]

/-- The result of the parallel reduction. -/
theorem parReduce_merge {l : List (List (K × ℕ))} {r : List (K × ℕ)}
    (h : ParReduce [] btreeMerge l r) (hs : ∀ m ∈ l, SortedMap m) :
    SortedMap r ∧ ∀ q, r.lookup q = (l.map fun m => m.lookup q).foldr optAdd none := by
  induction h with
  | identity => exact ⟨by simp [SortedMap], fun q => rfl⟩
  | item a => exact ⟨hs a (by simp), fun q => by simp [optAdd_none]⟩
  | op h1 h2 ih1 ih2 =>
    obtain ⟨a1, a2⟩ := ih1 fun m hm => hs m (by simp [hm])
    obtain ⟨b1, b2⟩ := ih2 fun m hm => hs m (by simp [hm])
    obtain ⟨c1, c2⟩ := btreeMerge_sorted a1 b1
    refine ⟨c1, fun q => ?_⟩
    rw [c2, a2, b2, List.map_append]
    generalize List.map _ _ = x
    generalize List.map _ _ = y
    induction x with
    | nil => rfl
    | cons z x ih =>
      rw [List.foldr_cons, List.cons_append, List.foldr_cons, ← ih, optAdd_assoc]

end

/-! ## Runs -/

section
variable {I : Type} {blocks : List (BasicBlock I)}

theorem detectRunsLoop_ok : ∀ (bs : List (BasicBlock I)) (done : List ℕ) (step n : ℕ)
    (runs : List (List ℕ × ℕ)) (current : List ℕ),
    (∀ b ∈ bs, blockAt blocks b.startPc = some b ∧ b.instructions ≠ []) → bs.length < n →
    detectRunsLoop blocks (done ++ bs.flatMap (BasicBlock.pcs step)) n done.length runs current =
      .ok ((((bs.splitOnP fun b => b.instructions.length = 1).map fun s =>
        s.map (·.startPc)).modifyHead (current ++ ·)).foldl endRun runs)
  | _, _, _, 0, _, _, _, hn => by omega
  | [], done, step, n + 1, runs, current, _, _ => by
    rw [detectRunsLoop]
    simp
  | b :: t, done, step, n + 1, runs, current, hb, hn => by
    obtain ⟨h1, h2⟩ := hb b (by simp)
    have hpos : 0 < b.instructions.length := List.length_pos_iff.2 h2
    have e1 : (done ++ (b :: t).flatMap (BasicBlock.pcs step))[done.length]? = some b.startPc := by
      have : b.pcs step ≠ [] := by
        simp [BasicBlock.pcs, h2]
      obtain ⟨k, hk⟩ := Nat.exists_eq_succ_of_ne_zero hpos.ne'
      rw [List.getElem?_append_right (le_refl _), Nat.sub_self, List.flatMap_cons, BasicBlock.pcs, hk,
        List.range_succ_eq_map]
      simp
    have e2 : done ++ (b :: t).flatMap (BasicBlock.pcs step) =
        (done ++ b.pcs step) ++ t.flatMap (BasicBlock.pcs step) := by
      simp
    have e3 : done.length + b.instructions.length = (done ++ b.pcs step).length := by
      simp [BasicBlock.pcs]
    have hne : b.instructions.isEmpty = false := by simpa using h2
    rw [detectRunsLoop, e1]
    simp only [h1, hne, Bool.false_eq_true, if_false]
    have ht : ∀ x ∈ t, blockAt blocks x.startPc = some x ∧ x.instructions ≠ [] :=
      fun x hx => hb x (by simp [hx])
    have hn' : t.length < n := by simpa using hn
    split_ifs with h3
    · rw [e3, e2, detectRunsLoop_ok t _ step n _ _ ht hn', List.splitOnP_cons_eq_if_modifyHead]
      simp only [h3, decide_true, if_true, List.map_cons, List.map_nil, List.modifyHead_cons,
        List.append_nil, List.foldl_cons]
      congr 2
      cases List.map _ (List.splitOnP _ t) <;> simp
    · rw [e3, e2, detectRunsLoop_ok t _ step n _ _ ht hn', List.splitOnP_cons_eq_if_modifyHead]
      simp only [h3, decide_false, Bool.false_eq_true, if_false]
      congr 2
      cases List.splitOnP (fun b : BasicBlock I => decide (b.instructions.length = 1)) t <;> simp

theorem foldl_endRun : ∀ (l : List (List ℕ)) {runs : List (List ℕ × ℕ)}, SortedMap runs →
    SortedMap (l.foldl endRun runs) ∧ ∀ q, (l.foldl endRun runs).lookup q =
      optAdd (runs.lookup q) (if ((l.filter fun s => s ≠ []).count q) = 0 then none else
        some ((l.filter fun s => s ≠ []).count q))
  | [], runs, h => ⟨h, fun q => by simp [optAdd_none]⟩
  | s :: t, runs, h => by
    rw [List.foldl_cons]
    by_cases hs : s = []
    · have : endRun runs s = runs := by simp [endRun, hs]
      rw [this]
      obtain ⟨h1, h2⟩ := foldl_endRun t h
      refine ⟨h1, fun q => ?_⟩
      rw [h2]
      simp [hs]
    · have : endRun runs s = btreeAdd s 1 runs := by simp [endRun, hs]
      rw [this]
      obtain ⟨h1, h2⟩ := btreeAdd_sorted (k := s) (n := 1) h
      obtain ⟨h3, h4⟩ := foldl_endRun t h1
      refine ⟨h3, fun q => ?_⟩
      rw [h4, h2, List.filter_cons_of_pos (by simpa using hs), List.count_cons]
      generalize hc : (t.filter fun s => s ≠ []).count q = c
      by_cases hq : q = s
      · subst hq
        cases runs.lookup q <;> by_cases h0 : c = 0 <;> simp [optAdd, h0, Nat.add_comm, Nat.add_left_comm]
      · have hq' : (s == q) = false := by simpa using Ne.symm hq
        rw [if_neg hq, hq']
        simp

end

/-! ## Counting in a run -/

theorem mem_windows {α : Type} {len : ℕ} {l w : List α} :
    w ∈ windows len l ↔ w.length = len ∧ w <:+: l := by
  rw [windows, List.mem_map]
  constructor
  · rintro ⟨i, hi, rfl⟩
    rw [List.mem_range] at hi
    refine ⟨by rw [List.length_take, List.length_drop]; omega, ?_⟩
    exact (List.take_prefix _ _).isInfix.trans (List.drop_suffix _ _).isInfix
  · rintro ⟨rfl, a, b, rfl⟩
    refine ⟨a.length, by simp; omega, ?_⟩
    rw [List.append_assoc, List.drop_left, List.take_left]

section
variable {K : Type} [LinearOrder K] [BEq K] [LawfulBEq K]

theorem foldl_insertZero : ∀ (ws : List K) {m : List (K × ℕ)}, SortedMap m →
    SortedMap (ws.foldl (fun m w => btreeInsertZero w m) m) ∧
    ∀ q, q ∈ (ws.foldl (fun m w => btreeInsertZero w m) m).map Prod.fst ↔
      q ∈ ws ∨ q ∈ m.map Prod.fst
  | [], m, h => ⟨h, fun q => by simp⟩
  | w :: ws, m, h => by
    obtain ⟨h1, h2⟩ := btreeInsertZero_sorted (k := w) h
    obtain ⟨h3, h4⟩ := foldl_insertZero ws h1
    refine ⟨h3, fun q => ?_⟩
    rw [List.foldl_cons, h4]
    have := h2 q
    rw [Bool.eq_iff_iff, Bool.or_eq_true, List.contains_iff_mem, List.contains_iff_mem,
      beq_iff_eq] at this
    rw [this, List.mem_cons]
    tauto

end

theorem superblockKeys (run : List ℕ) (n : ℕ) :
    SortedMap ((List.range n).foldl (fun m len =>
      (windows (len + 1) run).foldl (fun m w => btreeInsertZero w m) m) []) ∧
    ∀ q, q ∈ ((List.range n).foldl (fun m len =>
      (windows (len + 1) run).foldl (fun m w => btreeInsertZero w m) m) []).map Prod.fst ↔
      q ≠ [] ∧ q.length ≤ n ∧ q <:+: run := by
  induction n with
  | zero =>
    refine ⟨by simp [SortedMap], fun q => ?_⟩
    cases q <;> simp
  | succ n ih =>
    rw [List.range_succ, List.foldl_append, List.foldl_cons, List.foldl_nil]
    obtain ⟨h1, h2⟩ := foldl_insertZero (windows (n + 1) run) ih.1
    refine ⟨h1, fun q => ?_⟩
    rw [h2, ih.2, mem_windows]
    constructor
    · rintro (⟨h3, h4⟩ | ⟨h3, h4, h5⟩)
      · exact ⟨by rintro rfl; simp at h3, h3.le, h4⟩
      · exact ⟨h3, by omega, h5⟩
    · rintro ⟨h3, h4, h5⟩
      rcases Nat.lt_or_eq_of_le h4 with h6 | h6
      · exact .inr ⟨h3, by omega, h5⟩
      · exact .inl ⟨h6, h5⟩

theorem countKeys_ok {run : List ℕ} : ∀ {m : List (List ℕ × ℕ)}, SortedMap m →
    (∀ x ∈ m, x.1 ≠ []) →
    ∃ r, countKeys run m = .ok r ∧ r.map Prod.fst = m.map Prod.fst ∧ SortedMap r ∧
      ∀ x ∈ r, Uses run x.1 x.2
  | [], _, _ => ⟨[], rfl, rfl, by simp [SortedMap], by simp⟩
  | (k, n) :: t, h, hne => by
    have h' := List.pairwise_cons.1 h
    obtain ⟨r, h1, h2, h3, h4⟩ := countKeys_ok (run := run) h'.2 fun x hx => hne x (by simp [hx])
    obtain ⟨is, h5, h6, h7⟩ := findNonOverlapping_ok (hay := run) (hne (k, n) (by simp))
    refine ⟨(k, is.length) :: r, by rw [countKeys, h5, h1]; rfl, by simp [h2],
      List.pairwise_cons.2 ⟨?_, h3⟩, ?_⟩
    · intro x hx
      have : x.1 ∈ t.map Prod.fst := by
        rw [← h2]
        exact List.mem_map_of_mem hx
      obtain ⟨y, hy, he⟩ := List.mem_map.1 this
      rw [← he]
      exact h'.1 y hy
    · intro x hx
      rcases List.mem_cons.1 hx with rfl | hx
      · exact uses_of_covers (hne (k, n) (by simp)) h6 h7
      · exact h4 x hx

theorem countSuperblocksInRun_ok (run : List ℕ) (maxLen : ℕ) :
    ∃ r, countSuperblocksInRun run maxLen = .ok r ∧ SortedMap r ∧
      ∀ q n, r.lookup q = some n ↔ q ≠ [] ∧ q.length ≤ maxLen ∧ q <:+: run ∧ Uses run q n := by
  obtain ⟨h1, h2⟩ := superblockKeys run (min maxLen run.length)
  obtain ⟨r, h3, h4, h5, h6⟩ := countKeys_ok (run := run) h1 (by
    intro x hx
    exact ((h2 x.1).1 (List.mem_map_of_mem hx)).1)
  refine ⟨r, h3, h5, fun q n => ?_⟩
  rw [h5.lookup_iff]
  have hk : q ∈ r.map Prod.fst ↔ q ≠ [] ∧ q.length ≤ maxLen ∧ q <:+: run := by
    rw [h4, h2]
    constructor
    · rintro ⟨a, b, c⟩
      exact ⟨a, by omega, c⟩
    · rintro ⟨a, b, c⟩
      exact ⟨a, by have := c.length_le; omega, c⟩
  constructor
  · intro h
    obtain ⟨a, b, c⟩ := hk.1 (List.mem_map.2 ⟨_, h, rfl⟩)
    exact ⟨a, b, c, h6 _ h⟩
  · rintro ⟨a, b, c, d⟩
    obtain ⟨⟨q', n'⟩, hx, rfl⟩ := List.mem_map.1 (hk.2 ⟨a, b, c⟩)
    have e : n' = n := (h6 _ hx).unique d
    rw [e] at hx
    exact hx

theorem sortedMap_map {K : Type} [LinearOrder K] {m : List (K × ℕ)} (h : SortedMap m)
    (f : ℕ → ℕ) : SortedMap (m.map fun y => (y.1, f y.2)) := by
  rw [SortedMap, List.pairwise_map]
  exact h

theorem lookup_map {K : Type} [BEq K] [LawfulBEq K] (m : List (K × ℕ)) (f : ℕ → ℕ) (q : K) :
    (m.map fun y => (y.1, f y.2)).lookup q = (m.lookup q).map f := by
  induction m with
  | nil => rfl
  | cons x t ih =>
    rw [List.map_cons, List.lookup_cons, List.lookup_cons, ih]
    cases q == x.1 <;> rfl

theorem countInRunTimes_ok (maxLen : ℕ) (x : List ℕ × ℕ) :
    ∃ r, countInRunTimes maxLen x = .ok r ∧ SortedMap r ∧
      ∀ q n, r.lookup q = some n ↔ q ≠ [] ∧ q.length ≤ maxLen ∧ q <:+: x.1 ∧
        ∃ k, Uses x.1 q k ∧ n = k * x.2 := by
  obtain ⟨r, h1, h2, h3⟩ := countSuperblocksInRun_ok x.1 maxLen
  refine ⟨r.map fun y => (y.1, y.2 * x.2), by rw [countInRunTimes, h1]; rfl, ?_, fun q n => ?_⟩
  · exact sortedMap_map h2 (· * x.2)
  · rw [lookup_map r (· * x.2), Option.map_eq_some_iff]
    constructor
    · rintro ⟨k, hk, rfl⟩
      obtain ⟨a, b, c, d⟩ := (h3 q k).1 hk
      exact ⟨a, b, c, k, d, rfl⟩
    · rintro ⟨a, b, c, k, d, rfl⟩
      exact ⟨k, (h3 q k).2 ⟨a, b, c, d⟩, rfl⟩

theorem uses_zero {α : Type} {hay needle : List α} (h : ¬ needle <:+: hay) : Uses hay needle 0 := by
  constructor
  · exact ⟨[], ⟨by simp, by simp⟩, rfl⟩
  · rintro k ⟨is, ⟨h1, -⟩, rfl⟩
    cases is with
    | nil => simp
    | cons i is =>
      obtain ⟨a, b, hab, -⟩ := h1 i (by simp)
      exact absurd ⟨a, b, hab.symm⟩ h

theorem mapM_countInRunTimes (maxLen : ℕ) : ∀ (runs : List (List ℕ × ℕ)),
    ∃ maps, runs.mapM (countInRunTimes maxLen) = .ok maps ∧ (∀ m ∈ maps, SortedMap m) ∧
      ∀ q, (∀ n, (maps.map fun m => m.lookup q).foldr optAdd none = some n ↔
        q ≠ [] ∧ q.length ≤ maxLen ∧ (∃ x ∈ runs, q <:+: x.1) ∧ ExecutionUses q runs n)
  | [] => ⟨[], rfl, by simp, fun q n => by simp⟩
  | x :: t => by
    obtain ⟨maps, h1, h2, h3⟩ := mapM_countInRunTimes maxLen t
    obtain ⟨r, h4, h5, h6⟩ := countInRunTimes_ok maxLen x
    refine ⟨r :: maps, by rw [List.mapM_cons, h4, h1]; rfl, ?_, fun q n => ?_⟩
    · intro m hm
      rcases List.mem_cons.1 hm with rfl | hm
      · exact h5
      · exact h2 m hm
    · rw [List.map_cons, List.foldr_cons]
      specialize h3 q
      specialize h6 q
      generalize (maps.map fun m => m.lookup q).foldr optAdd none = o at h3
      generalize r.lookup q = o' at h6
      obtain ⟨run, c⟩ := x
      by_cases hq : q ≠ [] ∧ q.length ≤ maxLen
      swap
      · have e1 : o = none := by
          cases o with
          | none => rfl
          | some v => exact absurd ((h3 v).1 rfl) fun h => hq ⟨h.1, h.2.1⟩
        have e2 : o' = none := by
          cases o' with
          | none => rfl
          | some v => exact absurd ((h6 v).1 rfl) fun h => hq ⟨h.1, h.2.1⟩
        subst e1 e2
        simp only [optAdd, reduceCtorEq, false_iff]
        exact fun h => hq ⟨h.1, h.2.1⟩
      obtain ⟨k, hk⟩ := uses_exists (hay := run) hq.1
      obtain ⟨total, ht⟩ := executionUses_exists hq.1 t
      have ho : o = if ∃ x ∈ t, q <:+: x.1 then some total else none := by
        split_ifs with hx
        · exact (h3 total).2 ⟨hq.1, hq.2, hx, ht⟩
        · cases o with
          | none => rfl
          | some v => exact absurd ((h3 v).1 rfl).2.2.1 hx
      have ho' : o' = if q <:+: run then some (k * c) else none := by
        split_ifs with hx
        · exact (h6 _).2 ⟨hq.1, hq.2, hx, k, hk, rfl⟩
        · cases o' with
          | none => rfl
          | some v => exact absurd ((h6 v).1 rfl).2.2.1 hx
      have hzero : (¬ ∃ x ∈ t, q <:+: x.1) → total = 0 := by
        intro hx
        have : ∀ t : List (List ℕ × ℕ), (¬ ∃ x ∈ t, q <:+: x.1) → ExecutionUses q t 0 := by
          intro t
          induction t with
          | nil => intro _; exact .nil
          | cons y t ih =>
            intro hx
            have := ExecutionUses.cons (c := y.2) (uses_zero fun h => hx ⟨y, by simp, h⟩)
              (ih fun ⟨z, hz, h⟩ => hx ⟨z, by simp [hz], h⟩)
            rwa [Nat.zero_mul] at this
        exact ht.unique (this t hx)
      have hex : ∀ n, ExecutionUses q ((run, c) :: t) n ↔ n = k * c + total := by
        intro n
        constructor
        · intro h
          exact h.unique (.cons hk ht)
        · rintro rfl
          exact .cons hk ht
      rw [hex, ho, ho']
      have hmem : (∃ x ∈ (run, c) :: t, q <:+: x.1) ↔ q <:+: run ∨ ∃ x ∈ t, q <:+: x.1 := by
        simp
      rw [hmem]
      by_cases hr : q <:+: run
      · by_cases hx : ∃ x ∈ t, q <:+: x.1
        · simp only [hr, hx, if_true, optAdd, Option.some.injEq, true_or, true_and]
          constructor
          · rintro rfl
            exact ⟨hq.1, hq.2, rfl⟩
          · exact fun h => h.2.2.symm
        · simp only [hr, hx, if_true, if_false, optAdd, Option.some.injEq, true_or, true_and, hzero hx,
            Nat.add_zero]
          constructor
          · rintro rfl
            exact ⟨hq.1, hq.2, rfl⟩
          · exact fun h => h.2.2.symm
      · have hk0 : k = 0 := hk.unique (uses_zero hr)
        by_cases hx : ∃ x ∈ t, q <:+: x.1
        · simp only [hr, hx, if_true, if_false, optAdd, Option.some.injEq, or_true, true_and, hk0,
            Nat.zero_mul, Nat.zero_add]
          constructor
          · rintro rfl
            exact ⟨hq.1, hq.2, rfl⟩
          · exact fun h => h.2.2.symm
        · simp [hr, hx, optAdd]

theorem parReduce_exists {α : Type} (identity : α) (op : α → α → α) : ∀ l : List α,
    ∃ r, ParReduce identity op l r
  | [] => ⟨_, .identity⟩
  | a :: l => by
    obtain ⟨r, h⟩ := parReduce_exists identity op l
    exact ⟨_, .op (.item a) h⟩


/-! ## The result -/

section
variable {I : Type} {cfg : SuperblockConfig} {blocks : List (BasicBlock I)}

theorem blockAt_eq {pc : ℕ} (hd : (blocks.map (·.startPc)).Nodup) {b : BasicBlock I} :
    blockAt blocks pc = some b ↔ b ∈ blocks ∧ b.startPc = pc := by
  rw [blockAt]
  constructor
  · intro h
    have h1 := List.mem_of_find?_eq_some h
    have h2 := List.find?_some h
    exact ⟨by simpa using h1, by simpa using h2⟩
  · rintro ⟨h1, rfl⟩
    cases h : blocks.reverse.find? fun x => x.startPc = b.startPc with
    | none =>
      have := List.find?_eq_none.1 h b (by simpa using h1)
      simp at this
    | some x =>
      have h2 := List.mem_of_find?_eq_some h
      have h3 := List.find?_some h
      have h4 : x = b := List.inj_on_of_nodup_map hd (by simpa using h2) h1 (by simpa using h3)
      rw [h4]

theorem mapM_blockAt (hd : (blocks.map (·.startPc)).Nodup) : ∀ {pcs : List ℕ} {sb : List (BasicBlock I)},
    pcs.mapM (blockAt blocks) = some sb ↔ (∀ b ∈ sb, b ∈ blocks) ∧ sb.map (·.startPc) = pcs
  | [], sb => by
    rw [List.mapM_nil]
    constructor
    · intro h
      cases h
      simp
    · rintro ⟨-, h⟩
      rw [List.map_eq_nil_iff.1 h]
      rfl
  | pc :: t, sb => by
    rw [List.mapM_cons]
    constructor
    · intro h
      cases h1 : blockAt blocks pc with
      | none => rw [h1] at h; cases h
      | some b =>
        cases h2 : t.mapM (blockAt blocks) with
        | none => rw [h1, h2] at h; cases h
        | some bs =>
          rw [h1, h2] at h
          cases h
          obtain ⟨h3, h4⟩ := (mapM_blockAt hd).1 h2
          obtain ⟨h5, h6⟩ := (blockAt_eq hd).1 h1
          refine ⟨?_, by simp [h6, h4]⟩
          intro x hx
          rcases List.mem_cons.1 hx with rfl | hx
          · exact h5
          · exact h3 x hx
    · rintro ⟨h1, h2⟩
      cases sb with
      | nil => cases h2
      | cons b bs =>
        rw [List.map_cons, List.cons.injEq] at h2
        rw [(blockAt_eq hd).2 ⟨h1 b (by simp), h2.1⟩,
          (mapM_blockAt hd).2 ⟨fun x hx => h1 x (by simp [hx]), h2.2⟩]
        rfl

theorem buildSuperblocks_ok (hd : (blocks.map (·.startPc)).Nodup) :
    ∀ {found : List (List ℕ × ℕ)},
    (∀ x ∈ found, x.1 ≠ [] ∧ ∀ pc ∈ x.1, pc ∈ blocks.map (·.startPc)) →
    ∃ r, buildSuperblocks cfg blocks found = .ok r ∧ ∀ sb n, (sb, n) ∈ r ↔
      (sb.map (·.startPc), n) ∈ found ∧ (∀ b ∈ sb, b ∈ blocks) ∧ cfg.apcExecCountCutoff ≤ n ∧
      (sb.flatMap (·.instructions)).length ≤ cfg.apcMaxInstructions
  | [], _ => ⟨[], rfl, by simp⟩
  | (pcs, count) :: t, h => by
    obtain ⟨r, h1, h2⟩ := buildSuperblocks_ok (found := t) hd fun x hx => h x (by simp [hx])
    obtain ⟨h3, h4⟩ := h (pcs, count) (by simp)
    obtain ⟨block, h5⟩ : ∃ block, pcs.mapM (blockAt blocks) = some block := by
      clear h h3 h1 h2
      induction pcs with
      | nil => exact ⟨[], rfl⟩
      | cons pc ps ih =>
        obtain ⟨bs, hbs⟩ := ih fun x hx => h4 x (by simp [hx])
        obtain ⟨b, hb, he⟩ := List.mem_map.1 (h4 pc (by simp))
        exact ⟨b :: bs, by rw [List.mapM_cons, (blockAt_eq hd).2 ⟨hb, he⟩, hbs]; rfl⟩
    obtain ⟨h6, h7⟩ := (mapM_blockAt hd).1 h5
    have hne : block.isEmpty = false := by
      cases block with
      | nil => exact absurd h7.symm h3
      | cons => rfl
    have key : ∀ sb, sb.map (·.startPc) = pcs → (∀ b ∈ sb, b ∈ blocks) → sb = block := by
      intro sb hs hb
      have := (mapM_blockAt hd).2 ⟨hb, hs⟩
      rw [h5] at this
      cases this
      rfl
    have e : buildSuperblocks cfg blocks ((pcs, count) :: t) =
        if count < cfg.apcExecCountCutoff then .ok r
        else if (block.flatMap (·.instructions)).length > cfg.apcMaxInstructions then .ok r
        else .ok ((block, count) :: r) := by
      rw [buildSuperblocks, h5]
      simp only [hne, Bool.false_eq_true, if_false, h1]
      rfl
    rw [e]
    by_cases c1 : count < cfg.apcExecCountCutoff
    · refine ⟨r, if_pos c1, fun sb n => ?_⟩
      rw [h2, List.mem_cons, Prod.mk.injEq]
      constructor
      · rintro ⟨a, b, c, d⟩
        exact ⟨.inr a, b, c, d⟩
      · rintro ⟨⟨-, rfl⟩ | a, b, c, d⟩
        · omega
        · exact ⟨a, b, c, d⟩
    · rw [if_neg c1]
      by_cases c2 : (block.flatMap (·.instructions)).length > cfg.apcMaxInstructions
      · refine ⟨r, if_pos c2, fun sb n => ?_⟩
        rw [h2, List.mem_cons, Prod.mk.injEq]
        constructor
        · rintro ⟨a, b, c, d⟩
          exact ⟨.inr a, b, c, d⟩
        · rintro ⟨⟨hs, rfl⟩ | a, b, c, d⟩
          · rw [key sb hs b] at d
            omega
          · exact ⟨a, b, c, d⟩
      · refine ⟨(block, count) :: r, if_neg c2, fun sb n => ?_⟩
        rw [List.mem_cons, Prod.mk.injEq, h2, List.mem_cons, Prod.mk.injEq]
        constructor
        · rintro (⟨rfl, rfl⟩ | ⟨a, b, c, d⟩)
          · exact ⟨.inl ⟨h7, rfl⟩, h6, by omega, by omega⟩
          · exact ⟨.inr a, b, c, d⟩
        · rintro ⟨⟨hs, rfl⟩ | a, b, c, d⟩
          · exact .inl ⟨key sb hs b, rfl⟩
          · exact .inr ⟨a, b, c, d⟩

end

/-! ## Multiplicities -/

theorem executionUses_sum {α : Type} [DecidableEq α] {needle : List α} {u : List α → ℕ}
    (hu : ∀ run, Uses run needle (u run)) : ∀ {l : List (List α × ℕ)} {n : ℕ},
    ExecutionUses needle l n ↔ n = (l.map fun x => u x.1 * x.2).sum
  | [], n => by
    constructor
    · rintro ⟨⟩
      rfl
    · rintro rfl
      exact .nil
  | (run, c) :: t, n => by
    rw [List.map_cons, List.sum_cons]
    constructor
    · rintro (_ | ⟨h1, h2⟩)
      rw [h1.unique (hu run), (executionUses_sum hu).1 h2]
    · rintro rfl
      exact .cons (hu run) ((executionUses_sum hu).2 rfl)

theorem executionUses_counts {α : Type} [DecidableEq α] {needle : List α} (hn : needle ≠ [])
    {l : List (List α)} {m : List (List α × ℕ)} (hm : (m.map Prod.fst).Nodup)
    (h : ∀ r n, (r, n) ∈ m ↔ n = l.count r ∧ n ≠ 0) (n : ℕ) :
    ExecutionUses needle m n ↔ ExecutionUses needle (l.map fun r => (r, 1)) n := by
  obtain ⟨u, hu⟩ : ∃ u : List α → ℕ, ∀ run, Uses run needle (u run) :=
    ⟨fun run => (uses_exists (hay := run) hn).choose, fun run => (uses_exists hn).choose_spec⟩
  rw [executionUses_sum hu, executionUses_sum hu]
  have e1 : m.map (fun x => u x.1 * x.2) = (m.map Prod.fst).map fun r => u r * l.count r := by
    rw [List.map_map]
    refine List.map_congr_left ?_
    rintro ⟨r, k⟩ hx
    rw [Function.comp, ((h r k).1 hx).1]
  have e2 : (m.map Prod.fst).toFinset = l.toFinset := by
    ext r
    rw [List.mem_toFinset, List.mem_toFinset, List.mem_map]
    constructor
    · rintro ⟨⟨r', k⟩, hx, rfl⟩
      obtain ⟨h1, h2⟩ := (h r' k).1 hx
      rw [h1] at h2
      exact List.count_pos_iff.1 (by simpa using Nat.pos_of_ne_zero h2)
    · intro hr
      have := List.count_pos_iff.2 hr
      exact ⟨(r, l.count r), (h r _).2 ⟨rfl, by omega⟩, rfl⟩
  have e3 : (m.map fun x => u x.1 * x.2).sum = ((l.map fun r => (r, 1)).map fun x => u x.1 * x.2).sum := by
    rw [e1, ← List.sum_toFinset _ hm, e2, List.map_map]
    simp only [Function.comp_def, Nat.mul_one]
    rw [Finset.sum_list_map_count]
    refine Finset.sum_congr rfl fun r _ => ?_
    rw [smul_eq_mul, Nat.mul_comm]
    congr 1
    unfold List.count
    refine List.countP_congr fun x _ => ?_
    rw [beq_iff_eq]
    exact decide_eq_true_iff.symm
  rw [e3]

/-! ## Executions of a program -/

section
variable {I : Type} {c : DetectionConfig I} {program : List I}

/-- A block starts at `i`. -/
def BlockStart (c : DetectionConfig I) (program : List I) (i : ℕ) : Prop :=
  ∀ x ∈ (c.located program)[i - 1]?, ∀ y ∈ (c.located program)[i]?, 0 < i → c.sameBlock x y = false

theorem located_getElem? {i : ℕ} {x : I} (h : program[i]? = some x) :
    (c.located program)[i]? = some (c.pc i, x) := by
  simp [DetectionConfig.located, DetectionConfig.pc, h]

theorem block_facts {i : ℕ} (hi : i < program.length) (hs : BlockStart c program i) :
    ∃ b ∈ collectBasicBlocks c program, ∃ k, b.pcs c.pcStep = (List.range' i k).map c.pc ∧ 0 < k ∧
      i + k ≤ program.length ∧ BlockStart c program (i + k) ∧
      ∀ t, t + 1 < k → ∃ x y, (c.located program)[i + t]? = some x ∧
        (c.located program)[i + t + 1]? = some y ∧ c.sameBlock x y = true := by
  have hseg := collectBasicBlocks_segments (c := c) program
  obtain ⟨bs₁, b, bs₂, h1, h2, h3, h4⟩ := block_at (c := c) hi (by
    intro x hx h0
    refine hs x hx _ ?_ h0
    exact located_getElem? (List.getElem?_eq_getElem hi))
  have hl : c.located program = (c.located program).take i ++ (b.pcInstructions c.pcStep ++
      bs₂.flatMap (BasicBlock.pcInstructions c.pcStep)) := by
    rw [← h2]
    conv_lhs => rw [← hseg.flatten, h1]
    simp [List.flatMap_def]
  have hlen : ((c.located program).take i).length = i := by
    rw [List.length_take, located_length]
    omega
  have hbl : (b.pcInstructions c.pcStep).length = b.instructions.length := by
    simp [BasicBlock.pcInstructions]
  have hpos : 0 < b.instructions.length := by
    cases hb : b.instructions with
    | nil => rw [hb] at h4; cases h4
    | cons => simp
  have hget : ∀ t, t < b.instructions.length →
      (c.located program)[i + t]? = (b.pcInstructions c.pcStep)[t]? := by
    intro t ht
    rw [hl, List.getElem?_append_right (by rw [hlen]; omega), hlen, Nat.add_sub_cancel_left,
      List.getElem?_append_left (by rw [hbl]; exact ht)]
  have hle : i + b.instructions.length ≤ program.length := by
    have := congrArg List.length hl
    rw [located_length, List.length_append, hlen, List.length_append, hbl] at this
    omega
  refine ⟨b, by simp [h1], b.instructions.length, ?_, hpos, hle, ?_, ?_⟩
  · rw [BasicBlock.pcs, List.range'_eq_map_range, List.map_map]
    refine List.map_congr_left fun t _ => ?_
    rw [h3]
    simp only [Function.comp, DetectionConfig.pc, Nat.one_mul, Nat.add_mul, Nat.add_assoc]
  · intro x hx y hy h0
    have hb := hseg.between
    rw [h1, List.map_append, List.isChain_append] at hb
    have hb' := hb.2.1
    rw [List.map_cons, List.isChain_cons] at hb'
    have hx' : x ∈ (b.pcInstructions c.pcStep).getLast? := by
      rw [show i + b.instructions.length - 1 = i + (b.instructions.length - 1) by omega,
        hget _ (by omega)] at hx
      rw [List.getLast?_eq_getElem?, hbl]
      exact hx
    rw [hl, Option.mem_def, List.getElem?_append_right (by rw [hlen]; omega), hlen,
      Nat.add_sub_cancel_left, List.getElem?_append_right (by rw [hbl]), hbl, Nat.sub_self] at hy
    cases bs₂ with
    | nil => simp at hy
    | cons b' bs₂ =>
      have hne : b'.pcInstructions c.pcStep ≠ [] := by
        intro h
        exact hseg.nonempty (List.mem_map.2 ⟨b', by rw [h1]; simp, h⟩)
      refine hb'.1 (b'.pcInstructions c.pcStep) (by simp) x hx' y ?_
      rw [List.flatMap_cons, List.getElem?_append_left (List.length_pos_iff.2 hne)] at hy
      rw [List.head?_eq_getElem?]
      exact hy
  · intro t ht
    have hin := hseg.inside (b.pcInstructions c.pcStep) (by simp [h1])
    have := List.isChain_iff_getElem.1 hin t (by rw [hbl]; exact ht)
    refine ⟨_, _, ?_, ?_, this⟩
    · rw [hget t (by omega)]
      exact List.getElem?_eq_getElem _
    · rw [Nat.add_assoc, hget (t + 1) ht]
      exact List.getElem?_eq_getElem _

theorem follows_blocks : ∀ (n : ℕ) {is : List ℕ}, is.length ≤ n →
    (∀ i ∈ is.head?, BlockStart c program i) → (∀ i ∈ is, i < program.length) →
    (is.IsChain fun i j => j = i + 1 ∨ (∃ x ∈ program[i]?, c.isBranching x = true) ∧
      c.jumpDest (c.pc j) = true) →
    (∀ i ∈ is.getLast?, BlockStart c program (i + 1)) →
    ∃ bs : List (BasicBlock I), (∀ b ∈ bs, b ∈ collectBasicBlocks c program) ∧
      is.map c.pc = bs.flatMap (BasicBlock.pcs c.pcStep)
  | n, [], _, _, _, _, _ => ⟨[], by simp⟩
  | 0, i :: t, h, _, _, _, _ => by simp at h
  | n + 1, i :: is, hn, hs, hv, hc, hl => by
    obtain ⟨b, hb, k, h1, h2, h3, h4, h5⟩ := block_facts (hv i (by simp)) (hs i (by simp))
    have hget : ∀ t, t < k → (i :: is)[t]? = some (i + t) := by
      intro t
      induction t with
      | zero => intro _; simp
      | succ t ih =>
        intro ht
        have hi := ih (by omega)
        obtain ⟨x, y, hx, hy, hxy⟩ := h5 t ht
        have hlt : t < (i :: is).length := (List.getElem?_eq_some_iff.1 hi).1
        by_cases hlast : t + 1 < (i :: is).length
        · have := List.isChain_iff_getElem.1 hc t hlast
          rw [(List.getElem?_eq_some_iff.1 hi).2] at this
          rcases this with h | ⟨⟨z, hz, hbr⟩, -⟩
          · rw [List.getElem?_eq_getElem hlast, h]
            rfl
          · rw [located_getElem? (Option.mem_def.1 hz)] at hx
            cases hx
            simp [DetectionConfig.sameBlock, hbr] at hxy
        · have hlast' : (i :: is).getLast? = some (i + t) := by
            rw [List.getLast?_eq_getElem?, show (i :: is).length - 1 = t by omega, hi]
          have := hl _ hlast' x (by simpa using hx) y hy (by omega)
          rw [this] at hxy
          cases hxy
    have hkl : k ≤ (i :: is).length := by
      have := hget (k - 1) (by omega)
      have := (List.getElem?_eq_some_iff.1 this).1
      omega
    have htake : (i :: is).take k = List.range' i k := by
      refine List.ext_getElem? fun t => ?_
      by_cases ht : t < k
      · rw [List.getElem?_take_of_lt ht, hget t ht, List.getElem?_range' ht, Nat.one_mul]
      · rw [List.getElem?_eq_none (by rw [List.length_take]; omega),
          List.getElem?_eq_none (by rw [List.length_range']; omega)]
    have hrest : ∃ bs : List (BasicBlock I), (∀ b ∈ bs, b ∈ collectBasicBlocks c program) ∧
        ((i :: is).drop k).map c.pc = bs.flatMap (BasicBlock.pcs c.pcStep) := by
      have hcat : (i :: is).take k ++ (i :: is).drop k = i :: is := List.take_append_drop ..
      have htl : ((i :: is).take k).getLast? = some (i + (k - 1)) := by
        rw [List.getLast?_eq_getElem?, List.length_take, Nat.min_eq_left hkl,
          List.getElem?_take_of_lt (by omega), hget _ (by omega)]
      refine follows_blocks n ?_ ?_ ?_ ?_ ?_
      · rw [List.length_drop]
        simp only [List.length_cons] at hn ⊢
        omega
      · intro j hj
        rw [← hcat, List.isChain_append] at hc
        rcases hc.2.2 _ htl j hj with rfl | ⟨-, hjd⟩
        · rw [show i + (k - 1) + 1 = i + k by omega]
          exact h4
        · intro x _ y hy _
          have : y.1 = c.pc j := by
            simp only [DetectionConfig.located, List.getElem?_map, Option.mem_def,
              Option.map_eq_some_iff, List.getElem?_zipIdx] at hy
            obtain ⟨z, ⟨w, hw, rfl⟩, rfl⟩ := hy
            simp [DetectionConfig.pc]
          simp [DetectionConfig.sameBlock, this, hjd]
      · intro j hj
        exact hv j (List.mem_of_mem_drop hj)
      · rw [← hcat, List.isChain_append] at hc
        exact hc.2.1
      · intro j hj
        refine hl j ?_
        rw [← hcat, Option.mem_def, List.getLast?_append, Option.mem_def.1 hj]
        rfl
    obtain ⟨bs, hb1, hb2⟩ := hrest
    refine ⟨b :: bs, ?_, ?_⟩
    · intro x hx
      rcases List.mem_cons.1 hx with rfl | hx
      · exact hb
      · exact hb1 x hx
    · rw [List.flatMap_cons, ← hb2, h1, ← htake, ← List.map_append, List.take_append_drop]

end

end Verif
