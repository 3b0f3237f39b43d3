import Verif.Spec.Blocks
import Mathlib.Tactic.Ring
import Mathlib.Tactic.Linarith
import Mathlib.Data.List.Infix
import Mathlib.Data.List.Perm.Subperm

/-! # Proofs about occurrences of blocks in runs -/

set_option linter.unusedSectionVars false

namespace Verif

section
variable {α : Type}

theorem occursAt_iff {hay needle : List α} {i : ℕ} :
    OccursAt hay needle i ↔ i + needle.length ≤ hay.length ∧
      (hay.drop i).take needle.length = needle := by
  constructor
  · rintro ⟨b, a, rfl, rfl⟩
    simp [List.append_assoc]
  · rintro ⟨h1, h2⟩
    refine ⟨hay.take i, (hay.drop i).drop needle.length, ?_, by simp; omega⟩
    conv_lhs => rw [← List.take_append_drop i hay]
    rw [List.append_assoc]
    congr 1
    conv_lhs => rw [← List.take_append_drop needle.length (hay.drop i)]
    rw [h2]

variable [DecidableEq α]

/-- What the loop maintains. -/
structure FindInv (hay needle : List α) (pos : ℕ) (is : List ℕ) : Prop where
  occurs : ∀ i ∈ is, OccursAt hay needle i ∧ i + needle.length ≤ pos
  disjoint : is.Pairwise fun i j => i + needle.length ≤ j
  covers : ∀ j < pos, OccursAt hay needle j → ∃ i ∈ is, i ≤ j ∧ j < i + needle.length

theorem findLoop_ok {hay needle : List α} (hn : needle ≠ []) : ∀ (n pos : ℕ) (is : List ℕ),
    FindInv hay needle pos is → pos ≤ hay.length → hay.length + 1 ≤ n + pos →
    ∃ r, findLoop hay needle n pos is = .ok r ∧ ∃ pos', FindInv hay needle pos' r ∧
      hay.length < pos' + needle.length
  | 0, pos, is, _, h1, h2 => by omega
  | n + 1, pos, is, hi, h1, h2 => by
    have hl : 0 < needle.length := List.length_pos_iff.2 hn
    rw [findLoop]
    split_ifs with h3 h4
    · have ho : OccursAt hay needle pos := occursAt_iff.2 ⟨h3, h4⟩
      refine findLoop_ok hn n _ _ ⟨?_, ?_, ?_⟩ h3 (by omega)
      · intro i hi'
        rcases List.mem_append.1 hi' with hi' | hi'
        · exact ⟨(hi.occurs i hi').1, by have := (hi.occurs i hi').2; omega⟩
        · rw [List.mem_singleton.1 hi']
          exact ⟨ho, le_refl _⟩
      · rw [List.pairwise_append]
        refine ⟨hi.disjoint, by simp, ?_⟩
        intro i hi' j hj
        rw [List.mem_singleton.1 hj]
        exact (hi.occurs i hi').2
      · intro j hj hjo
        by_cases hjp : j < pos
        · obtain ⟨i, hi', h⟩ := hi.covers j hjp hjo
          exact ⟨i, List.mem_append_left _ hi', h⟩
        · exact ⟨pos, by simp, by omega, hj⟩
    · refine findLoop_ok hn n _ _ ⟨?_, hi.disjoint, ?_⟩ (by omega) (by omega)
      · intro i hi'
        exact ⟨(hi.occurs i hi').1, by have := (hi.occurs i hi').2; omega⟩
      · intro j hj hjo
        by_cases hjp : j < pos
        · exact hi.covers j hjp hjo
        · obtain rfl : j = pos := by omega
          exact absurd (occursAt_iff.1 hjo).2 h4
    · exact ⟨is, rfl, pos, hi, by omega⟩

theorem findNonOverlapping_ok {hay needle : List α} (hn : needle ≠ []) :
    ∃ is, findNonOverlapping hay needle = .ok is ∧ DisjointOccurrences hay needle is ∧
      ∀ j, OccursAt hay needle j → ∃ i ∈ is, i ≤ j ∧ j < i + needle.length := by
  obtain ⟨r, h1, pos, h2, h3⟩ := findLoop_ok (hay := hay) hn (hay.length + 1) 0 []
    ⟨by simp, by simp, by simp⟩ (by omega) (by omega)
  refine ⟨r, h1, ⟨fun i hi => (h2.occurs i hi).1, h2.disjoint⟩, fun j hj => ?_⟩
  refine h2.covers j ?_ hj
  have := (occursAt_iff.1 hj).1
  omega

/-- More steps do not change the result. -/
theorem findLoop_mono {hay needle : List α} : ∀ {n pos : ℕ} {is r : List ℕ},
    findLoop hay needle n pos is = .ok r → ∀ m, n ≤ m → findLoop hay needle m pos is = .ok r
  | 0, pos, is, r, h, m, hm => by cases h
  | n + 1, pos, is, r, h, 0, hm => by omega
  | n + 1, pos, is, r, h, m + 1, hm => by
    rw [findLoop] at h ⊢
    split_ifs at h ⊢
    · exact findLoop_mono h m (by omega)
    · exact findLoop_mono h m (by omega)
    · exact h

theorem findLoop_nil {hay : List α} : ∀ (n pos : ℕ) (is : List ℕ), pos ≤ hay.length →
    findLoop hay [] n pos is = .error .fuel
  | 0, _, _, _ => rfl
  | n + 1, pos, is, h => by
    rw [findLoop]
    simpa using if_pos h ▸ findLoop_nil n pos (is ++ [pos]) h

/-- Disjoint occurrences are at most as many as the intervals that cover all occurrences. -/
theorem disjoint_length_le {hay needle : List α} (hn : needle ≠ []) {is js : List ℕ}
    (hc : ∀ j, OccursAt hay needle j → ∃ i ∈ is, i ≤ j ∧ j < i + needle.length)
    (hj : DisjointOccurrences hay needle js) : js.length ≤ is.length := by
  have hl : 0 < needle.length := List.length_pos_iff.2 hn
  choose! f hf using hc
  have hnd : (js.map f).Nodup := by
    rw [List.Nodup, List.pairwise_map]
    refine List.Pairwise.imp_of_mem ?_ hj.2
    intro a b ha hb hab heq
    have h1 := hf a (hj.1 a ha)
    have h2 := hf b (hj.1 b hb)
    rw [heq] at h1
    omega
  have hsub : js.map f ⊆ is := by
    intro x hx
    obtain ⟨j, hj', rfl⟩ := List.mem_map.1 hx
    exact (hf j (hj.1 j hj')).1
  have := (hnd.subperm hsub).length_le
  simpa using this

/-! ## The remaining pieces -/

/-- The gaps between the occurrences. -/
def gaps (len n : ℕ) : ℕ → List ℕ → List (ℕ × ℕ)
  | a, [] => [(a, n)]
  | a, i :: t => (a, i) :: gaps len n (i + len) t

theorem tuples_gaps (len n : ℕ) : ∀ (is : List ℕ) (a : ℕ),
    tuples ([a] ++ is.flatMap (fun i => [i, i + len]) ++ [n]) = gaps len n a is
  | [], a => rfl
  | i :: t, a => by
    have := tuples_gaps len n t (i + len)
    simp only [List.cons_append, List.nil_append] at this
    simp [tuples, gaps, this]

/-- The piece of a gap. -/
def piece (run : List α) (x : ℕ × ℕ) : List α := (run.take x.2).drop x.1

/-- The positions are ordered. -/
def Ordered (len n : ℕ) : ℕ → List ℕ → Prop
  | a, [] => a ≤ n
  | a, i :: t => a ≤ i ∧ Ordered len n (i + len) t

theorem ordered_of {hay needle : List α} : ∀ {is : List ℕ} {a : ℕ}, a ≤ hay.length →
    DisjointOccurrences hay needle is → (∀ i ∈ is, a ≤ i) →
    Ordered needle.length hay.length a is
  | [], a, h, _, _ => h
  | i :: t, a, h, hd, ha => by
    refine ⟨ha i (by simp), ordered_of (occursAt_iff.1 (hd.1 i (by simp))).1 ?_ ?_⟩
    · exact ⟨fun j hj => hd.1 j (by simp [hj]), (List.pairwise_cons.1 hd.2).2⟩
    · exact (List.pairwise_cons.1 hd.2).1

theorem Ordered.le {len n : ℕ} : ∀ {is : List ℕ} {a : ℕ}, Ordered len n a is → a ≤ n
  | [], _, h => h
  | _ :: _, _, h => by have := h.2.le; have := h.1; omega

theorem gaps_valid {len n : ℕ} : ∀ {is : List ℕ} {a : ℕ}, Ordered len n a is →
    ∀ x ∈ gaps len n a is, a ≤ x.1 ∧ x.1 ≤ x.2 ∧ x.2 ≤ n
  | [], a, h, x, hx => by
    rw [List.mem_singleton.1 hx]
    exact ⟨le_refl _, h, le_refl _⟩
  | i :: t, a, h, x, hx => by
    have := h.2.le
    have := h.1
    rcases List.mem_cons.1 hx with rfl | hx
    · exact ⟨le_refl _, h.1, by dsimp only; omega⟩
    · obtain ⟨h1, h2, h3⟩ := gaps_valid h.2 x hx
      exact ⟨by omega, h2, h3⟩

theorem gaps_avoid {len n : ℕ} : ∀ {is : List ℕ} {a : ℕ}, Ordered len n a is →
    ∀ x ∈ gaps len n a is, ∀ i ∈ is, i + len ≤ x.1 ∨ x.2 ≤ i
  | [], a, h, x, hx => by simp
  | j :: t, a, h, x, hx => by
    have ht : ∀ i ∈ t, j + len ≤ i := by
      have : ∀ {t : List ℕ} {b : ℕ}, Ordered len n b t → ∀ i ∈ t, b ≤ i := by
        intro t
        induction t with
        | nil => simp
        | cons k t ih =>
          intro b hb i hi
          rcases List.mem_cons.1 hi with rfl | hi
          · exact hb.1
          · have := ih hb.2 i hi
            have := hb.1
            omega
      exact this h.2
    intro i hi
    rcases List.mem_cons.1 hx with rfl | hx
    · right
      rcases List.mem_cons.1 hi with rfl | hi
      · exact le_refl _
      · have := ht i hi
        dsimp only
        omega
    · rcases List.mem_cons.1 hi with rfl | hi
      · left
        exact (gaps_valid h.2 x hx).1
      · exact gaps_avoid h.2 x hx i hi

theorem gaps_ne_nil {len n a : ℕ} {is : List ℕ} : gaps len n a is ≠ [] := by
  cases is <;> simp [gaps]

theorem gaps_length {len n : ℕ} : ∀ {a : ℕ} {is : List ℕ}, (gaps len n a is).length = is.length + 1
  | a, [] => rfl
  | a, i :: t => by simp [gaps, gaps_length]

/-- The pieces with the occurrences in between make up the run. -/
theorem intercalate_gaps {run needle : List α} : ∀ {is : List ℕ} {a : ℕ},
    (∀ i ∈ is, OccursAt run needle i) → Ordered needle.length run.length a is →
    run.drop a = needle.intercalate ((gaps needle.length run.length a is).map (piece run))
  | [], a, _, _ => by simp [gaps, piece]
  | i :: t, a, ho, h => by
    have ih := intercalate_gaps (fun j hj => ho j (by simp [hj])) h.2
    have h1 := (occursAt_iff.1 (ho i (by simp)))
    have e1 : run.drop a = piece run (a, i) ++ run.drop i := by
      have : run.drop a = (run.take i).drop a ++ (run.drop i).drop (a - i) := by
        conv_lhs => rw [← List.take_append_drop i run, List.drop_append]
        rw [List.length_take, min_eq_left (by omega)]
      rw [this, Nat.sub_eq_zero_of_le h.1]
      simp [piece]
    have e2 : run.drop i = needle ++ run.drop (i + needle.length) := by
      conv_lhs => rw [← List.take_append_drop needle.length (run.drop i), h1.2, List.drop_drop]
    rw [e1, e2, ih, gaps, List.map_cons]
    obtain ⟨g, gs, hg⟩ := List.exists_cons_of_ne_nil
      (gaps_ne_nil (len := needle.length) (n := run.length) (a := i + needle.length) (is := t))
    rw [hg, List.map_cons, List.intercalate_cons_cons, List.append_assoc]

theorem mapM_sliceRun {run : List α} : ∀ {l : List (ℕ × ℕ)},
    (∀ x ∈ l, x.1 ≤ x.2 ∧ x.2 ≤ run.length) → l.mapM (sliceRun run) = .ok (l.map (piece run))
  | [], _ => rfl
  | x :: t, h => by
    rw [List.mapM_cons, sliceRun, if_pos (h x (by simp)),
      mapM_sliceRun fun y hy => h y (List.mem_cons_of_mem _ hy)]
    rfl

theorem piece_nil {run : List α} {x : ℕ × ℕ} (h : x.1 ≤ x.2 ∧ x.2 ≤ run.length) :
    piece run x = [] ↔ x.1 = x.2 := by
  rw [← List.length_eq_zero_iff, piece, List.length_drop, List.length_take]
  omega

/-- The result of removing a block from a run: `ps` are the pieces, including empty ones. -/
theorem countAndUpdateRun_ok {sblock run : List α} (hn : sblock ≠ []) :
    ∃ is, findNonOverlapping run sblock = .ok is ∧
      DisjointOccurrences run sblock is ∧
      (∀ j, OccursAt run sblock j → ∃ i ∈ is, i ≤ j ∧ j < i + sblock.length) ∧
      Ordered sblock.length run.length 0 is ∧
      countAndUpdateRun sblock run = .ok (is.length,
        ((gaps sblock.length run.length 0 is).map (piece run)).filter fun l => l ≠ []) := by
  obtain ⟨is, h1, h2, h3⟩ := findNonOverlapping_ok (hay := run) hn
  have ho := ordered_of (Nat.zero_le _) h2 (by simp)
  refine ⟨is, h1, h2, h3, ho, ?_⟩
  have hv := gaps_valid ho
  rw [countAndUpdateRun, h1]
  simp only [bind, Except.bind]
  rw [tuples_gaps, mapM_sliceRun]
  · simp only [pure, Except.pure]
    congr 2
    rw [List.filter_map]
    congr 1
    refine List.filter_congr fun x hx => ?_
    have := piece_nil (run := run) (hv x hx).2
    simp [this]
  · intro x hx
    exact (hv x (List.mem_filter.1 hx).1).2

/-- The counts are sums over the runs. -/
theorem countAndUpdateExecution_ok {sblock : List α} (hn : sblock ≠ []) :
    ∀ (execution : List (List α × ℕ)), ∃ total rest,
      countAndUpdateExecution sblock execution = .ok (total, rest)
  | [] => ⟨0, [], rfl⟩
  | (run, c) :: t => by
    obtain ⟨total, rest, h⟩ := countAndUpdateExecution_ok hn t
    obtain ⟨is, -, -, -, -, h1⟩ := countAndUpdateRun_ok (run := run) hn
    rw [countAndUpdateExecution, h1, h]
    exact ⟨_, _, rfl⟩

theorem length_intercalate {needle : List α} : ∀ (ps : List (List α)), ps ≠ [] →
    (needle.intercalate ps).length = (ps.length - 1) * needle.length + (ps.map List.length).sum
  | [], h => absurd rfl h
  | [p], _ => by simp
  | p :: q :: t, _ => by
    have := length_intercalate (needle := needle) (q :: t) (by simp)
    simp only [List.intercalate_cons_cons, List.length_append, this, List.length_cons,
      List.map_cons, List.sum_cons, Nat.add_sub_cancel]
    ring

theorem sum_filter_ne_nil (ps : List (List α)) :
    ((ps.filter fun l => l ≠ []).map List.length).sum = (ps.map List.length).sum := by
  induction ps with
  | nil => rfl
  | cons p t ih =>
    rw [List.filter_cons]
    split_ifs with h
    · simp only [List.map_cons, List.sum_cons, ih]
    · simp only [decide_eq_true_eq, not_not] at h
      rw [ih, h]
      simp

/-! ## Occurrences in the pieces -/

theorem occursAt_piece {run needle : List α} {x : ℕ × ℕ} (hx : x.1 ≤ x.2 ∧ x.2 ≤ run.length) {i : ℕ}
    (h : OccursAt (piece run x) needle i) :
    OccursAt run needle (i + x.1) ∧ i + x.1 + needle.length ≤ x.2 := by
  obtain ⟨b, a, h1, rfl⟩ := h
  have hl := congrArg List.length h1
  simp only [piece, List.length_drop, List.length_take, List.length_append] at hl
  refine ⟨⟨run.take x.1 ++ b, a ++ run.drop x.2, ?_, by simp; omega⟩, by omega⟩
  have e1 : run = run.take x.1 ++ (piece run x ++ run.drop x.2) := by
    have e2 : run.take x.1 = (run.take x.2).take x.1 := by rw [List.take_take, min_eq_left hx.1]
    rw [← List.append_assoc, piece, e2, List.take_append_drop, List.take_append_drop]
  conv_lhs => rw [e1, h1]
  simp

theorem gaps_pairwise {len n : ℕ} : ∀ {is : List ℕ} {a : ℕ}, Ordered len n a is →
    (gaps len n a is).Pairwise fun x y => x.2 ≤ y.1
  | [], a, h => by simp [gaps]
  | i :: t, a, h => by
    rw [gaps, List.pairwise_cons]
    refine ⟨fun y hy => ?_, gaps_pairwise h.2⟩
    have := (gaps_valid h.2 y hy).1
    dsimp only
    omega

/-- Occurrences in the pieces are occurrences in the run. -/
theorem disjoint_pieces {run needle : List α} {g : List (ℕ × ℕ)} {f : ℕ × ℕ → List ℕ}
    (hv : ∀ x ∈ g, x.1 ≤ x.2 ∧ x.2 ≤ run.length) (hp : g.Pairwise fun x y => x.2 ≤ y.1)
    (hf : ∀ x ∈ g, DisjointOccurrences (piece run x) needle (f x)) :
    DisjointOccurrences run needle (g.flatMap fun x => (f x).map (· + x.1)) := by
  constructor
  · intro i hi
    obtain ⟨x, hx, hi⟩ := List.mem_flatMap.1 hi
    obtain ⟨j, hj, rfl⟩ := List.mem_map.1 hi
    exact (occursAt_piece (hv x hx) ((hf x hx).1 j hj)).1
  · rw [List.pairwise_flatMap]
    constructor
    · intro x hx
      rw [List.pairwise_map]
      exact (hf x hx).2.imp fun h => by omega
    · refine List.Pairwise.imp_of_mem ?_ hp
      intro x y hx hy hxy i hi j hj
      obtain ⟨i, hi', rfl⟩ := List.mem_map.1 hi
      obtain ⟨j, hj', rfl⟩ := List.mem_map.1 hj
      have := (occursAt_piece (hv x hx) ((hf x hx).1 i hi')).2
      omega

theorem uses_of_covers {hay needle : List α} (hn : needle ≠ []) {is : List ℕ}
    (h : DisjointOccurrences hay needle is)
    (hc : ∀ j, OccursAt hay needle j → ∃ i ∈ is, i ≤ j ∧ j < i + needle.length) :
    Uses hay needle is.length := by
  refine ⟨⟨is, h, rfl⟩, ?_⟩
  rintro k ⟨js, hj, rfl⟩
  exact disjoint_length_le hn hc hj

theorem Uses.unique {hay needle : List α} {m n : ℕ} (h1 : Uses hay needle m)
    (h2 : Uses hay needle n) : m = n :=
  le_antisymm (h2.2 h1.1) (h1.2 h2.1)

theorem uses_exists {hay needle : List α} (hn : needle ≠ []) : ∃ n, Uses hay needle n := by
  obtain ⟨is, -, h1, h2⟩ := findNonOverlapping_ok (hay := hay) hn
  exact ⟨_, uses_of_covers hn h1 h2⟩

theorem ExecutionUses.unique {needle : List α} : ∀ {execution : List (List α × ℕ)} {m n : ℕ},
    ExecutionUses needle execution m → ExecutionUses needle execution n → m = n
  | [], _, _, .nil, .nil => rfl
  | _ :: _, _, _, .cons h1 h2, .cons h3 h4 => by rw [h1.unique h3, h2.unique h4]

theorem ExecutionUses.append {needle : List α} : ∀ {e1 e2 : List (List α × ℕ)} {m n : ℕ},
    ExecutionUses needle e1 m → ExecutionUses needle e2 n → ExecutionUses needle (e1 ++ e2) (m + n)
  | [], _, _, _, .nil, h => by simpa using h
  | _ :: _, _, _, _, .cons h1 h2, h => by
    rw [List.cons_append, Nat.add_assoc]
    exact .cons h1 (h2.append h)

theorem executionUses_exists {needle : List α} (hn : needle ≠ []) :
    ∀ execution : List (List α × ℕ), ∃ n, ExecutionUses needle execution n
  | [] => ⟨0, .nil⟩
  | (run, c) :: t => by
    obtain ⟨n, h⟩ := uses_exists (hay := run) hn
    obtain ⟨m, h'⟩ := executionUses_exists hn t
    exact ⟨_, .cons h h'⟩

/-- The pieces of one run, weighted. -/
theorem executionUses_pieces {needle run : List α} (hn : needle ≠ []) (c : ℕ) :
    ∀ {g : List (ℕ × ℕ)}, ∃ (f : ℕ × ℕ → List ℕ),
    (∀ x ∈ g, DisjointOccurrences (piece run x) needle (f x)) ∧
    ExecutionUses needle (((g.map (piece run)).filter fun l => l ≠ []).map fun r => (r, c))
      ((g.map fun x => (f x).length).sum * c) := by
  intro g
  have hf : ∀ x : ℕ × ℕ, ∃ is, DisjointOccurrences (piece run x) needle is ∧
      Uses (piece run x) needle is.length := by
    intro x
    obtain ⟨is, -, h1, h2⟩ := findNonOverlapping_ok (hay := piece run x) hn
    exact ⟨is, h1, uses_of_covers hn h1 h2⟩
  choose f hf using hf
  refine ⟨f, fun x _ => (hf x).1, ?_⟩
  induction g with
  | nil => simpa using ExecutionUses.nil
  | cons x g ih =>
    rw [List.map_cons, List.filter_cons]
    split_ifs with h
    · rw [List.map_cons, List.map_cons, List.sum_cons, Nat.add_mul]
      exact .cons (hf x).2 ih
    · simp only [decide_eq_true_eq, not_not] at h
      have h0 : (f x).length = 0 := by
        rw [List.length_eq_zero_iff]
        rcases hfx : f x with _ | ⟨i, t⟩
        · rfl
        · have := (occursAt_iff.1 ((hf x).1.1 i (by simp [hfx]))).1
          rw [h, List.length_nil] at this
          have := List.length_pos_iff.2 hn
          omega
      rw [List.map_cons, List.sum_cons, h0, Nat.zero_add]
      exact ih

/-- Removing a block from an execution does not increase the number of uses of any block. -/
theorem executionUses_update {sblock needle : List α} (hs : sblock ≠ []) (hn : needle ≠ []) :
    ∀ {execution rest : List (List α × ℕ)} {total m n : ℕ},
    countAndUpdateExecution sblock execution = .ok (total, rest) →
    ExecutionUses needle execution m → ExecutionUses needle rest n → n ≤ m
  | [], rest, total, m, n, h, hm, hr => by
    cases h
    cases hr
    exact Nat.zero_le _
  | (run, c) :: t, rest, total, m, n, h, hm, hr => by
    obtain ⟨total', rest', h'⟩ := countAndUpdateExecution_ok hs t
    obtain ⟨is, -, h1, h2, h3, h4⟩ := countAndUpdateRun_ok (run := run) hs
    rw [countAndUpdateExecution, h4, h'] at h
    cases h
    cases hm with
    | cons hu ht =>
      obtain ⟨f, hf1, hf2⟩ := executionUses_pieces (run := run) hn c
        (g := gaps sblock.length run.length 0 is)
      obtain ⟨k, hk⟩ := executionUses_exists hn rest'
      have hle := executionUses_update hs hn h' ht hk
      have hd := disjoint_pieces (fun x hx => (gaps_valid h3 x hx).2) (gaps_pairwise h3) hf1
      have hlen := hu.2 ⟨_, hd, rfl⟩
      have e := (hf2.append hk).unique hr
      rw [List.length_flatMap] at hlen
      simp only [List.length_map] at hlen
      rw [← e]
      exact Nat.add_le_add (Nat.mul_le_mul_right _ hlen) hle

end

end Verif
