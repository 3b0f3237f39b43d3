import Verif.Proofs.Evaluator

/-! # Lemmas on the tracker of candidates -/

set_option linter.unusedSectionVars false

namespace Verif

/-! ## The choice among overlapping candidates -/

theorem mem_tuplePairs {α : Type} {p : α × α} : ∀ {l : List α}, p ∈ tuplePairs l ↔
    ∃ i j : ℕ, i < j ∧ l[i]? = some p.1 ∧ l[j]? = some p.2
  | [] => by simp [tuplePairs]
  | a :: t => by
    rw [tuplePairs, List.mem_append, List.mem_map, mem_tuplePairs (l := t)]
    constructor
    · rintro (⟨b, hb, rfl⟩ | ⟨i, j, h1, h2, h3⟩)
      · obtain ⟨k, hk⟩ := List.mem_iff_getElem?.1 hb
        exact ⟨0, k + 1, by omega, rfl, by simpa using hk⟩
      · exact ⟨i + 1, j + 1, by omega, by simpa using h2, by simpa using h3⟩
    · rintro ⟨i, j, h1, h2, h3⟩
      obtain ⟨j, rfl⟩ : ∃ k, j = k + 1 := ⟨j - 1, by omega⟩
      rw [List.getElem?_cons_succ] at h3
      cases i with
      | zero =>
        rw [List.getElem?_cons_zero] at h2
        cases h2
        exact .inl ⟨p.2, List.mem_iff_getElem?.2 ⟨j, h3⟩, rfl⟩
      | succ i =>
        rw [List.getElem?_cons_succ] at h2
        exact .inr ⟨i, j, by omega, h2, h3⟩

theorem rank_cmp_eq {a b : CandidateRank} (h : a.cmp b = .eq) : a.candidateId = b.candidateId := by
  unfold CandidateRank.cmp at h
  rw [Ordering.then_eq_eq] at h
  exact (Nat.compare_eq_eq.1 h.2).symm

theorem rank_cmp_gt {a b : CandidateRank} (h : a.cmp b = .gt) :
    b.priority < a.priority ∨ b.priority = a.priority ∧ (b.len < a.len ∨ b.len = a.len ∧
      a.candidateId < b.candidateId) := by
  unfold CandidateRank.cmp at h
  rw [Ordering.then_eq_gt, Ordering.then_eq_gt, Ordering.then_eq_eq] at h
  simp only [Nat.compare_eq_gt, Nat.compare_eq_eq] at h
  omega

theorem rank_cmp_lt {a b : CandidateRank} (h : a.cmp b = .lt) :
    a.priority < b.priority ∨ a.priority = b.priority ∧ (a.len < b.len ∨ a.len = b.len ∧
      b.candidateId < a.candidateId) := by
  unfold CandidateRank.cmp at h
  rw [Ordering.then_eq_lt, Ordering.then_eq_lt, Ordering.then_eq_eq] at h
  simp only [Nat.compare_eq_lt, Nat.compare_eq_eq] at h
  omega

/-- The fold over the pairs. -/
theorem discardFold_ok {n : ℕ} : ∀ (L : List ((CandidateRank × (ℕ × ℕ)) × (CandidateRank × (ℕ × ℕ))))
    (d : List Bool), d.length = n → (∀ p ∈ L, p.1.1.candidateId < n ∧ p.2.1.candidateId < n ∧
      p.1.1.candidateId ≠ p.2.1.candidateId) →
    ∃ d', L.foldlM discardStep d = .ok d' ∧ d'.length = n ∧
      (∀ i : ℕ, d[i]? = some true → d'[i]? = some true) ∧
      (∀ p ∈ L, rangesOverlap p.1.2 p.2.2 → d'[p.1.1.candidateId]? = some true ∨
        d'[p.2.1.candidateId]? = some true) ∧
      ∀ i : ℕ, d'[i]? = some true → d[i]? = some true ∨ ∃ p ∈ L, rangesOverlap p.1.2 p.2.2 ∧
        (p.1.1.candidateId = i ∧ p.1.1.cmp p.2.1 = .lt ∨ p.2.1.candidateId = i ∧ p.1.1.cmp p.2.1 = .gt)
  | [], d, hn, _ => ⟨d, rfl, hn, fun _ h => h, by simp, fun _ h => .inl h⟩
  | p :: t, d, hn, hL => by
    obtain ⟨h1, h2, h3⟩ := hL p (by simp)
    have ht : ∀ q ∈ t, q.1.1.candidateId < n ∧ q.2.1.candidateId < n ∧
        q.1.1.candidateId ≠ q.2.1.candidateId := fun q hq => hL q (by simp [hq])
    have hstep : ∃ d1, discardStep d p = .ok d1 ∧ d1.length = n ∧
        (∀ i : ℕ, d[i]? = some true → d1[i]? = some true) ∧
        (rangesOverlap p.1.2 p.2.2 → d1[p.1.1.candidateId]? = some true ∨
          d1[p.2.1.candidateId]? = some true) ∧
        ∀ i : ℕ, d1[i]? = some true → d[i]? = some true ∨ rangesOverlap p.1.2 p.2.2 ∧
          (p.1.1.candidateId = i ∧ p.1.1.cmp p.2.1 = .lt ∨
            p.2.1.candidateId = i ∧ p.1.1.cmp p.2.1 = .gt) := by
      have hset : ∀ k i : ℕ, k < n → d[i]? = some true → (d.set k true)[i]? = some true := by
        intro k i hk hi
        rw [List.getElem?_set]
        split
        · rw [if_pos (by omega)]
        · exact hi
      have hset' : ∀ k i : ℕ, (d.set k true)[i]? = some true → d[i]? = some true ∨ k = i := by
        intro k i hi
        rw [List.getElem?_set] at hi
        split at hi
        · rename_i e
          exact .inr e
        · exact .inl hi
      have hself : ∀ k : ℕ, k < n → (d.set k true)[k]? = some true := by
        intro k hk
        rw [List.getElem?_set, if_pos rfl, if_pos (by omega)]
      obtain ⟨a, ha⟩ : ∃ a, d[p.1.1.candidateId]? = some a := ⟨_, List.getElem?_eq_getElem (by omega)⟩
      obtain ⟨b, hb⟩ : ∃ b, d[p.2.1.candidateId]? = some b := ⟨_, List.getElem?_eq_getElem (by omega)⟩
      rw [discardStep, ha, hb]
      simp only
      by_cases hc : (a || b || !rangesOverlap p.1.2 p.2.2) = true
      · rw [if_pos hc]
        refine ⟨d, rfl, hn, fun _ h => h, fun ho => ?_, fun _ h => .inl h⟩
        rw [ho] at hc
        simp only [Bool.not_true, Bool.or_false, Bool.or_eq_true] at hc
        rcases hc with hc | hc
        · exact .inl (by rw [ha, hc])
        · exact .inr (by rw [hb, hc])
      · rw [if_neg hc]
        have ho : rangesOverlap p.1.2 p.2.2 = true := by
          cases h : rangesOverlap p.1.2 p.2.2 with
          | true => rfl
          | false =>
            rw [h] at hc
            simp at hc
        cases hcmp : p.1.1.cmp p.2.1 with
        | eq => exact absurd (rank_cmp_eq hcmp) h3
        | lt =>
          refine ⟨_, rfl, by simpa using hn, fun i => hset _ i h1, fun _ => .inl (hself _ h1), fun i hi => ?_⟩
          rcases hset' _ i hi with h | h
          · exact .inl h
          · exact .inr ⟨ho, .inl ⟨h, rfl⟩⟩
        | gt =>
          refine ⟨_, rfl, by simpa using hn, fun i => hset _ i h2, fun _ => .inr (hself _ h2), fun i hi => ?_⟩
          rcases hset' _ i hi with h | h
          · exact .inl h
          · exact .inr ⟨ho, .inr ⟨h, rfl⟩⟩
    obtain ⟨d1, e1, n1, m1, o1, r1⟩ := hstep
    obtain ⟨d2, e2, n2, m2, o2, r2⟩ := discardFold_ok t d1 n1 ht
    refine ⟨d2, ?_, n2, fun i hi => m2 i (m1 i hi), ?_, ?_⟩
    · rw [List.foldlM_cons, e1]
      exact e2
    · intro q hq ho
      rcases List.mem_cons.1 hq with rfl | hq
      · exact (o1 ho).imp (m2 _) (m2 _)
      · exact o2 q hq ho
    · intro i hi
      rcases r2 i hi with h | ⟨q, hq, h⟩
      · rcases r1 i h with h | h
        · exact .inl h
        · exact .inr ⟨p, by simp, h⟩
      · exact .inr ⟨q, by simp [hq], h⟩

section
variable {A V S : Type} [DecidableEq A] [DecidableEq V]

theorem candidateMeta_ok (apcs : List (ExecApc A V)) : ∀ (cs : List (ExecCandidate A V S)) (k : ℕ),
    (∀ c ∈ cs, ∃ hi b apc, c.status = .done hi b ∧ apcs[c.apcId]? = some apc ∧ c.fromClk < hi) →
    ∃ ms, candidateMeta apcs k cs = .ok ms ∧ ms.length = cs.length ∧
      ∀ (i : ℕ) (c : ExecCandidate A V S), cs[i]? = some c → ∃ hi b apc, c.status = .done hi b ∧ apcs[c.apcId]? = some apc ∧
        ms[i]? = some (⟨apc.priority, hi - c.fromClk, k + i⟩, (c.fromClk, hi))
  | [], k, _ => ⟨[], rfl, rfl, by simp⟩
  | c :: t, k, h => by
    obtain ⟨hi, b, apc, h1, h2, h3⟩ := h c (by simp)
    obtain ⟨ms, e1, e2, e3⟩ := candidateMeta_ok apcs t (k + 1) fun c' hc' => h c' (by simp [hc'])
    refine ⟨(⟨apc.priority, hi - c.fromClk, k⟩, (c.fromClk, hi)) :: ms, ?_, by simp [e2], ?_⟩
    · rw [candidateMeta, ExecCandidate.range, h1]
      change (match apcs[c.apcId]? with
        | none => Except.error LoopStop.panic
        | some apc => if (c.fromClk, hi).1 ≤ (c.fromClk, hi).2 then do
            let rest ← candidateMeta apcs (k + 1) t
            pure (((⟨apc.priority, (c.fromClk, hi).2 - (c.fromClk, hi).1, k⟩ : CandidateRank), (c.fromClk, hi)) :: rest)
          else Except.error LoopStop.panic) = _
      rw [h2]
      simp only [h3.le, if_true, e1]
      rfl
    · intro i c' hc'
      cases i with
      | zero =>
        cases hc'
        exact ⟨hi, b, apc, h1, h2, rfl⟩
      | succ i =>
        obtain ⟨hi', b', apc', q1, q2, q3⟩ := e3 i c' (by simpa using hc')
        refine ⟨hi', b', apc', q1, q2, ?_⟩
        rw [List.getElem?_cons_succ, q3, show k + 1 + i = k + (i + 1) by omega]

/-- The positions that are not marked. -/
def unmarked : List Bool → List ℕ
  | [] => []
  | d :: ds => (if d then [] else [0]) ++ (unmarked ds).map (· + 1)

theorem mem_unmarked : ∀ {ds : List Bool} {i : ℕ}, i ∈ unmarked ds ↔ ds[i]? = some false
  | [], i => by simp [unmarked]
  | d :: ds, i => by
    rw [unmarked, List.mem_append, List.mem_map]
    cases i with
    | zero => cases d <;> simp
    | succ i =>
      rw [List.getElem?_cons_succ, ← mem_unmarked (ds := ds)]
      cases d <;> simp

theorem unmarked_sorted : ∀ ds : List Bool, (unmarked ds).Pairwise (· < ·)
  | [] => .nil
  | d :: ds => by
    rw [unmarked, List.pairwise_append]
    refine ⟨by cases d <;> simp, ?_, ?_⟩
    · rw [List.pairwise_map]
      exact (unmarked_sorted ds).imp fun h => by omega
    · intro a ha b hb
      obtain ⟨c, -, rfl⟩ := List.mem_map.1 hb
      cases d <;> simp at ha
      omega

theorem keptCalls_ok : ∀ (cs : List (ExecCandidate A V S)) (ds : List Bool), cs.length = ds.length →
    (∀ c ∈ cs, ∃ hi b, c.status = .done hi b) →
    ∃ calls, keptCalls cs ds = .ok calls ∧
      List.Forall₂ (fun i (call : ApcCall S) => ∃ total lo hi,
        cs[i]? = some ⟨total, call.apcId, lo, call.fromSnap, .done hi call.toSnap⟩) (unmarked ds) calls
  | [], [], _, _ => ⟨[], rfl, .nil⟩
  | c :: t, d :: ds, hl, h => by
    obtain ⟨calls, e1, e2⟩ := keptCalls_ok t ds (by simpa using hl) fun c' hc' => h c' (by simp [hc'])
    obtain ⟨hi, b, hs⟩ := h c (by simp)
    have e3 : List.Forall₂ (fun i (call : ApcCall S) => ∃ total lo hi,
        (c :: t)[i]? = some ⟨total, call.apcId, lo, call.fromSnap, .done hi call.toSnap⟩)
        ((unmarked ds).map (· + 1)) calls := by
      rw [List.forall₂_map_left_iff]
      refine e2.imp ?_
      rintro i call ⟨total, lo, hi, h⟩
      exact ⟨total, lo, hi, by simpa using h⟩
    cases d with
    | true =>
      refine ⟨calls, ?_, by simpa [unmarked] using e3⟩
      rw [keptCalls, e1]
      rfl
    | false =>
      refine ⟨⟨c.apcId, c.fromSnap, b⟩ :: calls, ?_, ?_⟩
      · rw [keptCalls, e1]
        have : (match c.status with
            | .done _ snap => (pure ((⟨c.apcId, c.fromSnap, snap⟩ : ApcCall S) :: calls) :
              Except LoopStop (List (ApcCall S)))
            | .inProgress _ => .error .panic) = .ok (⟨c.apcId, c.fromSnap, b⟩ :: calls) := by
          rw [hs]
          rfl
        exact this
      · rw [unmarked]
        refine .cons ⟨c.totalCheckCount, c.fromClk, hi, ?_⟩ e3
        rw [← hs]
        rfl

theorem not_inProgress {c : ExecCandidate A V S} {hi : ℕ} {b : S} (h : c.status = .done hi b) :
    c.isInProgress = false := by
  rw [ExecCandidate.isInProgress, h]

/-- The extraction when all candidates are finished. -/
theorem extractCalls_ok {x : ExecCandidates A V S} (h : x.AllFinished) :
    ∃ calls keep, x.extractCalls = .ok (⟨x.apcs, []⟩, calls) ∧ x.CallsOf keep calls ∧
      keep.Pairwise (· < ·) ∧ (∀ i ∈ keep, ∀ j ∈ keep, i ≠ j → ¬ x.Overlap i j) ∧
      ∀ i < x.candidates.length, i ∉ keep → ∃ j, x.Overlap j i ∧ x.Preferred j i := by
  obtain ⟨ms, e1, e2, e3⟩ := candidateMeta_ok x.apcs x.candidates 0 h
  have hms : ∀ (i : ℕ) m, ms[i]? = some m → ∃ c, x.candidates[i]? = some c ∧ ∃ hi b apc,
      c.status = .done hi b ∧ x.apcs[c.apcId]? = some apc ∧
        m = (⟨apc.priority, hi - c.fromClk, i⟩, (c.fromClk, hi)) := by
    intro i m hm
    have hlt : i < x.candidates.length := by
      rw [← e2]
      exact (List.getElem?_eq_some_iff.1 hm).1
    refine ⟨_, List.getElem?_eq_getElem hlt, ?_⟩
    obtain ⟨hi, b, apc, q1, q2, q3⟩ := e3 i _ (List.getElem?_eq_getElem hlt)
    rw [hm, Nat.zero_add] at q3
    exact ⟨hi, b, apc, q1, q2, Option.some.inj q3⟩
  obtain ⟨d, f1, f2, -, f4, f5⟩ := discardFold_ok (n := x.candidates.length) (tuplePairs ms)
    (List.replicate x.candidates.length false) (by simp) (by
      intro p hp
      obtain ⟨i, j, hij, hi, hj⟩ := mem_tuplePairs.1 hp
      obtain ⟨c, hc, hi', b, apc, -, -, rfl'⟩ := hms i _ hi
      obtain ⟨c', hc', hi'', b', apc', -, -, rfl''⟩ := hms j _ hj
      rw [rfl', rfl'']
      refine ⟨(List.getElem?_eq_some_iff.1 hc).1, (List.getElem?_eq_some_iff.1 hc').1, ?_⟩
      simp only
      omega)
  obtain ⟨calls, g1, g2⟩ := keptCalls_ok x.candidates d f2.symm fun c hc => by
    obtain ⟨hi, b, apc, q, -, -⟩ := h c hc
    exact ⟨hi, b, q⟩
  refine ⟨calls, unmarked d, ?_, ?_, unmarked_sorted d, ?_, ?_⟩
  · rw [ExecCandidates.extractCalls, if_neg]
    · rw [e1]
      change (do
        let discard ← (tuplePairs ms).foldlM discardStep (List.replicate x.candidates.length false)
        let calls ← keptCalls x.candidates discard
        pure (⟨x.apcs, []⟩, calls) : Except LoopStop (ExecCandidates A V S × List (ApcCall S))) = _
      rw [f1]
      change (do
        let calls ← keptCalls x.candidates d
        pure (⟨x.apcs, []⟩, calls) : Except LoopStop (ExecCandidates A V S × List (ApcCall S))) = _
      rw [g1]
      rfl
    · rw [Bool.not_eq_true, List.any_eq_false]
      intro c hc
      obtain ⟨hi, b, apc, q, -, -⟩ := h c hc
      rw [not_inProgress q]
      simp
  · refine g2.imp ?_
    rintro i call ⟨total, lo, hi, hc⟩
    exact ⟨lo, hi, total, hc⟩
  · -- no overlap
    have key : ∀ i j, i < j → i ∈ unmarked d → j ∈ unmarked d → ¬ x.Overlap i j := by
      rintro i j hij hi hj ⟨id, lo, hi1, a, b, id', lo', hi1', a', b', ⟨t1, c1⟩, ⟨t2, c2⟩, t, q1, q2, q3, q4⟩
      rw [mem_unmarked] at hi hj
      obtain ⟨_, _, apc, r1, r2, r3⟩ := e3 i _ c1
      obtain ⟨_, _, apc', s1, s2, s3⟩ := e3 j _ c2
      cases r1
      cases s1
      rw [Nat.zero_add] at r3 s3
      rcases f4 (_, _) (mem_tuplePairs.2 ⟨i, j, hij, r3, s3⟩) (by
        simp only [rangesOverlap, Bool.and_eq_true, decide_eq_true_eq]
        omega) with h | h
      · rw [hi] at h
        cases h
      · rw [hj] at h
        cases h
    intro i hi j hj hij ho
    rcases Nat.lt_or_gt_of_ne hij with h | h
    · exact key i j h hi hj ho
    · refine key j i h hj hi ?_
      obtain ⟨id, lo, hi1, a, b, id', lo', hi1', a', b', h1, h2, t, q1, q2, q3, q4⟩ := ho
      exact ⟨id', lo', hi1', a', b', id, lo, hi1, a, b, h2, h1, t, q3, q4, q1, q2⟩
  · intro i hi hk
    rw [mem_unmarked] at hk
    have hdi : d[i]? = some true := by
      have hlt : i < d.length := by omega
      rw [List.getElem?_eq_getElem hlt] at hk ⊢
      cases hv : d[i] with
      | true => rfl
      | false =>
        rw [hv] at hk
        exact absurd rfl hk
    rcases f5 i hdi with h0 | ⟨p, hp, ho, hc⟩
    · rw [List.getElem?_replicate, if_pos hi] at h0
      cases h0
    · obtain ⟨k, l, hkl, hk', hl'⟩ := mem_tuplePairs.1 hp
      obtain ⟨c, hcc, h1, b, apc, s1, s2, s3⟩ := hms k _ hk'
      obtain ⟨c', hcc', h1', b', apc', s1', s2', s3'⟩ := hms l _ hl'
      have fin1 : x.Finished k c.apcId c.fromClk h1 c.fromSnap b := ⟨c.totalCheckCount, by rw [hcc, ← s1]⟩
      have fin2 : x.Finished l c'.apcId c'.fromClk h1' c'.fromSnap b' :=
        ⟨c'.totalCheckCount, by rw [hcc', ← s1']⟩
      rw [s3, s3'] at ho hc
      simp only [rangesOverlap, Bool.and_eq_true, decide_eq_true_eq] at ho
      have hle1 := h c (List.mem_iff_getElem?.2 ⟨k, hcc⟩)
      have hle2 := h c' (List.mem_iff_getElem?.2 ⟨l, hcc'⟩)
      obtain ⟨_, _, _, z1, -, hle1⟩ := hle1
      obtain ⟨_, _, _, z2, -, hle2⟩ := hle2
      rw [s1] at z1
      rw [s1'] at z2
      cases z1
      cases z2
      rcases hc with ⟨rfl, hc⟩ | ⟨rfl, hc⟩
      · have := rank_cmp_lt hc
        exact ⟨l, ⟨_, _, _, _, _, _, _, _, _, _, fin2, fin1, max c.fromClk c'.fromClk, by omega, by omega,
          by omega, by omega⟩, ⟨_, _, _, _, _, _, _, _, _, _, fin2, fin1, apc', apc, s2', s2, this⟩⟩
      · have := rank_cmp_gt hc
        exact ⟨k, ⟨_, _, _, _, _, _, _, _, _, _, fin1, fin2, max c.fromClk c'.fromClk, by omega, by omega,
          by omega, by omega⟩, ⟨_, _, _, _, _, _, _, _, _, _, fin1, fin2, apc, apc', s2, s2', this⟩⟩

/-! ## The history -/

variable {limb : V → ℕ → V} {apcs : List (ExecApc A V)} {constraints : ℕ → List (OptConstraint A V)}

/-- What is known about a candidate that started at a position of the tr. -/
def StatusInv (limb : V → ℕ → V) (cs : List (OptConstraint A V)) (tr : List (ExecState A V × S))
    (start cycle : ℕ) : CandidateStatus A V S → Prop
  | .inProgress ev => EvalInv limb cs ((tr.map Prod.fst).drop start) ev ∧
      (cycle = 0 ∨ tr.length ≤ start + cycle)
  | .done clk snap => 0 < cycle ∧ (∃ st : ExecState A V, tr[start + cycle]? = some (st, snap) ∧ st.clk = clk) ∧
      AllHold limb cs (((tr.map Prod.fst).drop start).take (cycle + 1))

/-- What is known about a candidate. -/
def CandInv (limb : V → ℕ → V) (apcs : List (ExecApc A V)) (constraints : ℕ → List (OptConstraint A V))
    (b : ℕ) (tr : List (ExecState A V × S)) (c : ExecCandidate A V S) : Prop :=
  ∃ (apc : ExecApc A V) (start : ℕ) (st0 : ExecState A V), apcs[c.apcId]? = some apc ∧
    c.totalCheckCount = apc.cycleCount + 1 ∧
    b ≤ start ∧ tr[start]? = some (st0, c.fromSnap) ∧ st0.clk = c.fromClk ∧
    StatusInv limb (constraints c.apcId) tr start apc.cycleCount c.status

theorem checkCandidate_ok (hcs : BuiltFrom apcs constraints) {b : ℕ}
    {tr : List (ExecState A V × S)} {c : ExecCandidate A V S}
    (h : CandInv limb apcs constraints b tr c) (st : ExecState A V) (snap : S) :
    ∃ r, checkCandidate limb apcs st snap c = .ok r ∧
      ∀ c' ∈ r, CandInv limb apcs constraints b (tr ++ [(st, snap)]) c' := by
  obtain ⟨apc, start, st0, h1, h2, h3, h4, h5, h6⟩ := h
  have hlt : start < tr.length := (List.getElem?_eq_some_iff.1 h4).1
  have h4' : (tr ++ [(st, snap)])[start]? = some (st0, c.fromSnap) := by
    rw [List.getElem?_append_left hlt, h4]
  cases hst : c.status with
  | done clk s1 =>
    refine ⟨some c, by rw [checkCandidate, hst], ?_⟩
    rintro c' ⟨⟩
    refine ⟨apc, start, st0, h1, h2, h3, h4', h5, ?_⟩
    rw [hst] at h6 ⊢
    obtain ⟨g1, ⟨st1, g2, g3⟩, g4⟩ := h6
    have hlt' := (List.getElem?_eq_some_iff.1 g2).1
    refine ⟨g1, ⟨st1, by rw [List.getElem?_append_left hlt', g2], g3⟩, ?_⟩
    rw [List.map_append, List.drop_append_of_le_length (by simpa using hlt.le),
      List.take_append_of_le_length (by simp; omega)]
    exact g4
  | inProgress ev =>
    rw [hst] at h6
    obtain ⟨g1, g2⟩ := h6
    have hdrop : ((tr ++ [(st, snap)]).map Prod.fst).drop start = (tr.map Prod.fst).drop start ++ [st] := by
      rw [List.map_append, List.drop_append_of_le_length (by simpa using hlt.le)]
      rfl
    rcases tryNext_ok g1 st with ⟨k1, ev', k2, k3⟩ | ⟨k1, k2⟩
    · have hidx : ev'.instructionIndex = tr.length - start + 1 := by
        rw [k3.index]
        simp
      have e : checkCandidate limb apcs st snap c = if c.totalCheckCount = ev'.instructionIndex then
          .ok (some { c with status := .done st.clk snap })
          else .ok (some { c with status := .inProgress ev' }) := by
        rw [checkCandidate, hst]
        simp only
        rw [h1]
        simp only
        rw [hcs _ _ h1, k2]
        rfl
      rw [e]
      by_cases ht : c.totalCheckCount = ev'.instructionIndex
      · rw [if_pos ht]
        refine ⟨_, rfl, ?_⟩
        rintro c' ⟨⟩
        refine ⟨apc, start, st0, h1, h2, h3, h4', h5, by omega, ⟨st, ?_, rfl⟩, ?_⟩
        · rw [List.getElem?_append_right (by omega), show start + apc.cycleCount - tr.length = 0 by omega]
          rfl
        · rw [hdrop, List.take_of_length_le]
          · exact k1
          · simp
            omega
      · rw [if_neg ht]
        refine ⟨_, rfl, ?_⟩
        rintro c' ⟨⟩
        refine ⟨apc, start, st0, h1, h2, h3, h4', h5, ?_, ?_⟩
        · rw [hdrop]
          exact k3
        · rw [List.length_append, List.length_singleton]
          omega
    · refine ⟨none, ?_, by simp⟩
      rw [checkCandidate, hst]
      simp only
      rw [h1]
      simp only
      rw [hcs _ _ h1, k2]
      rfl

theorem checkAll_ok (hcs : BuiltFrom apcs constraints) {b : ℕ}
    {tr : List (ExecState A V × S)} (st : ExecState A V) (snap : S) :
    ∀ {l : List (ExecCandidate A V S)}, (∀ c ∈ l, CandInv limb apcs constraints b tr c) →
    ∃ r, checkAllCandidates limb apcs st snap l = .ok r ∧
      ∀ c' ∈ r, CandInv limb apcs constraints b (tr ++ [(st, snap)]) c'
  | [], _ => ⟨[], rfl, by simp⟩
  | c :: t, h => by
    obtain ⟨r, h1, h2⟩ := checkCandidate_ok hcs (h c (by simp)) st snap
    obtain ⟨r', h3, h4⟩ := checkAll_ok hcs st snap (l := t) fun c' hc' => h c' (by simp [hc'])
    refine ⟨r.toList ++ r', ?_, ?_⟩
    · rw [checkAllCandidates, h1, h3]
      rfl
    · intro c' hc'
      rw [List.mem_append, Option.mem_toList] at hc'
      exact hc'.elim (h2 c') (h4 c')

/-- What is known after a history. -/
structure HistInv (limb : V → ℕ → V) (apcs : List (ExecApc A V)) (constraints : ℕ → List (OptConstraint A V))
    (tr : List (ExecState A V × S)) (x : ExecCandidates A V S) (calls : List (ApcCall S)) : Prop where
  apcs_eq : x.apcs = apcs
  clocks : tr.Pairwise fun a b => a.1.clk < b.1.clk
  rest : ∃ (b : ℕ) (ivs : List (ℕ × ℕ)), b < tr.length ∧
    List.Forall₂ (IsRun limb apcs constraints tr) calls ivs ∧
    ivs.Pairwise (fun a b => a.2 ≤ b.1 ∨ b.2 ≤ a.1) ∧ (∀ iv ∈ ivs, iv.2 ≤ b) ∧
    ∀ c ∈ x.candidates, CandInv limb apcs constraints b tr c

theorem isRun_append {tr : List (ExecState A V × S)} {call : ApcCall S} {iv : ℕ × ℕ}
    (more : List (ExecState A V × S)) (h : IsRun limb apcs constraints tr call iv) :
    IsRun limb apcs constraints (tr ++ more) call iv := by
  obtain ⟨⟨apc, h1, h2, h3⟩, h4, h5, h6⟩ := h
  obtain ⟨a, ha, ha'⟩ := Option.map_eq_some_iff.1 h4
  obtain ⟨c, hc, hc'⟩ := Option.map_eq_some_iff.1 h5
  have l1 := (List.getElem?_eq_some_iff.1 ha).1
  have l2 := (List.getElem?_eq_some_iff.1 hc).1
  refine ⟨⟨apc, h1, h2, h3⟩, ?_, ?_, ?_⟩
  · rw [List.getElem?_append_left l1, h4]
  · rw [List.getElem?_append_left l2, h5]
  · rw [List.map_append, List.drop_append_of_le_length (by simpa using l1.le),
      List.take_append_of_le_length (by simp; omega)]
    exact h6

theorem histInv_step (hcs : BuiltFrom apcs constraints)
    {tr : List (ExecState A V × S)} {x : ExecCandidates A V S} {calls : List (ApcCall S)}
    (h : HistInv limb apcs constraints tr x calls) {cur : ExecState A V × S}
    (hcur : tr.getLast? = some cur) {st : ExecState A V} (hclk : cur.1.clk < st.clk) (snap : S) :
    ∃ x', x.checkConditions limb st snap = .ok x' ∧
      HistInv limb apcs constraints (tr ++ [(st, snap)]) x' calls := by
  obtain ⟨b, ivs, h1, h2, h3, h4, h5⟩ := h.rest
  obtain ⟨r, k1, k2⟩ := checkAll_ok hcs st snap h5
  refine ⟨⟨x.apcs, r⟩, ?_, h.apcs_eq, ?_, b, ivs, ?_, ?_, h3, h4, k2⟩
  · rw [ExecCandidates.checkConditions, h.apcs_eq, k1]
    rfl
  · rw [List.pairwise_append]
    refine ⟨h.clocks, by simp, ?_⟩
    intro a ha y hy
    rw [List.mem_singleton] at hy
    subst hy
    obtain ⟨l, rfl⟩ : ∃ l, tr = l ++ [cur] := by
      obtain ⟨l, hl⟩ := List.getLast?_eq_some_iff.1 hcur
      exact ⟨l, hl⟩
    have hp := h.clocks
    rw [List.pairwise_append] at hp
    rcases List.mem_append.1 ha with ha | ha
    · exact lt_trans (hp.2.2 a ha cur (by simp)) hclk
    · rw [List.mem_singleton] at ha
      subst ha
      exact hclk
  · simp
    omega
  · exact h2.imp fun _ _ => isRun_append _

theorem histInv_insert (hcs : BuiltFrom apcs constraints)
    {tr : List (ExecState A V × S)} {x : ExecCandidates A V S} {calls : List (ApcCall S)}
    (h : HistInv limb apcs constraints tr x calls) {cur : ExecState A V × S}
    (hcur : tr.getLast? = some cur) {id : ℕ} (hid : id < apcs.length) :
    (AllHold limb (constraints id) [cur.1] ∧ ∃ x', x.tryInsert limb cur.1 id cur.2 = .ok (some x') ∧
      HistInv limb apcs constraints tr x' calls) ∨
    (¬ AllHold limb (constraints id) [cur.1] ∧ x.tryInsert limb cur.1 id cur.2 = .ok none) := by
  obtain ⟨b, ivs, h1, h2, h3, h4, h5⟩ := h.rest
  have hap : x.apcs[id]? = some apcs[id] := by
    rw [h.apcs_eq]
    exact List.getElem?_eq_getElem hid
  have hap' := hap
  rw [h.apcs_eq] at hap'
  obtain ⟨l, hl⟩ := List.getLast?_eq_some_iff.1 hcur
  rcases tryNext_ok (evalInv_new limb (constraints id)) cur.1 with ⟨k1, ev', k2, k3⟩ | ⟨k1, k2⟩
  · refine .inl ⟨k1, ⟨x.apcs, x.candidates ++ [⟨apcs[id].cycleCount + 1, id, cur.1.clk, cur.2,
      .inProgress ev'⟩]⟩, ?_, h.apcs_eq, h.clocks, b, ivs, h1, h2, h3, h4, ?_⟩
    · rw [ExecCandidates.tryInsert, hap]
      simp only
      rw [hcs _ _ hap', k2]
      rfl
    · intro c hc
      rcases List.mem_append.1 hc with hc | hc
      · exact h5 c hc
      · rw [List.mem_singleton] at hc
        subst hc
        have hlen : tr.length = l.length + 1 := by rw [hl]; simp
        refine ⟨apcs[id], l.length, cur.1, hap', rfl, by omega, by rw [hl]; simp, rfl, ?_, ?_⟩
        · have : (tr.map Prod.fst).drop l.length = [cur.1] := by
            rw [hl, List.map_append, List.drop_append_of_le_length (by simp), List.drop_of_length_le (by simp)]
            rfl
          rw [this]
          exact k3
        · omega
  · refine .inr ⟨k1, ?_⟩
    rw [ExecCandidates.tryInsert, hap]
    simp only
    rw [hcs _ _ hap', k2]
    rfl

theorem histInv_extract {tr : List (ExecState A V × S)} {x : ExecCandidates A V S}
    {calls : List (ApcCall S)} (h : HistInv limb apcs constraints tr x calls) :
    ∃ x' new, x.extractCalls = .ok (x', new) ∧ HistInv limb apcs constraints tr x' (calls ++ new) ∧
      ((x.candidates.any fun c => c.isInProgress) = false → x.AllFinished) := by
  obtain ⟨b, ivs, h1, h2, h3, h4, h5⟩ := h.rest
  by_cases hp : (x.candidates.any fun c => c.isInProgress) = true
  · refine ⟨x, [], by rw [ExecCandidates.extractCalls, if_pos hp], by simpa using h, ?_⟩
    intro h'
    rw [h'] at hp
    cases hp
  · have hmono : ∀ (i j : ℕ) (a c : ExecState A V × S), tr[i]? = some a → tr[j]? = some c → i < j →
        a.1.clk < c.1.clk := by
      intro i j a c hi hj hij
      obtain ⟨l1, e1⟩ := List.getElem?_eq_some_iff.1 hi
      obtain ⟨l2, e2⟩ := List.getElem?_eq_some_iff.1 hj
      have := List.pairwise_iff_getElem.1 h.clocks i j l1 l2 hij
      rwa [e1, e2] at this
    have hdone : ∀ c ∈ x.candidates, ∃ hi s, c.status = .done hi s := by
      intro c hc
      rw [Bool.not_eq_true, List.any_eq_false] at hp
      have := hp c hc
      rw [ExecCandidate.isInProgress] at this
      cases hs : c.status with
      | done hi s => exact ⟨hi, s, rfl⟩
      | inProgress ev =>
        rw [hs] at this
        exact absurd rfl this
    -- the interval of a candidate
    have hiv : ∀ c ∈ x.candidates, ∃ (iv : ℕ × ℕ) (hi : ℕ) (s : S) (p q : ExecState A V) (apc : ExecApc A V),
        c.status = .done hi s ∧
        apcs[c.apcId]? = some apc ∧ 0 < apc.cycleCount ∧ iv.2 = iv.1 + apc.cycleCount ∧ b ≤ iv.1 ∧
        tr[iv.1]? = some (p, c.fromSnap) ∧ p.clk = c.fromClk ∧ tr[iv.2]? = some (q, s) ∧ q.clk = hi ∧
        AllHold limb (constraints c.apcId) (((tr.map Prod.fst).drop iv.1).take (iv.2 - iv.1 + 1)) := by
      intro c hc
      obtain ⟨hi, s, hs⟩ := hdone c hc
      obtain ⟨apc, start, st0, g1, -, g3, g4, g5, g6⟩ := h5 c hc
      rw [hs] at g6
      obtain ⟨g6, ⟨st1, g7, g8⟩, g9⟩ := g6
      refine ⟨(start, start + apc.cycleCount), hi, s, st0, st1, apc, hs, g1, g6, rfl, g3, g4, g5, g7, g8, ?_⟩
      simp only [Nat.add_sub_cancel_left]
      exact g9
    have hfin : x.AllFinished := by
      intro c hc
      obtain ⟨iv, hi, s, p, q, apc, k1, k2, k3, k4, k5, k6, k7, k8, k9, -⟩ := hiv c hc
      refine ⟨hi, s, apc, k1, by rw [h.apcs_eq]; exact k2, ?_⟩
      rw [← k7, ← k9]
      exact hmono iv.1 iv.2 _ _ k6 k8 (by omega)
    obtain ⟨new, keep, e1, e2, e3, e4, -⟩ := extractCalls_ok hfin
    refine ⟨⟨x.apcs, []⟩, new, e1, ?_, fun _ => hfin⟩
    have hiv' : ∀ i : ℕ, ∃ iv : ℕ × ℕ, ∀ c, x.candidates[i]? = some c →
        ∃ (hi : ℕ) (s : S) (p q : ExecState A V) (apc : ExecApc A V), c.status = .done hi s ∧
        apcs[c.apcId]? = some apc ∧ 0 < apc.cycleCount ∧ iv.2 = iv.1 + apc.cycleCount ∧ b ≤ iv.1 ∧
        tr[iv.1]? = some (p, c.fromSnap) ∧ p.clk = c.fromClk ∧ tr[iv.2]? = some (q, s) ∧ q.clk = hi ∧
        AllHold limb (constraints c.apcId) (((tr.map Prod.fst).drop iv.1).take (iv.2 - iv.1 + 1)) := by
      intro i
      cases hi : x.candidates[i]? with
      | none => exact ⟨(0, 0), fun c hc => by cases hc⟩
      | some c =>
        obtain ⟨iv, hiv⟩ := hiv c (List.mem_iff_getElem?.2 ⟨i, hi⟩)
        exact ⟨iv, fun c' hc' => by cases hc'; exact hiv⟩
    choose ivOf hivOf using hiv'
    have hlenE : keep.length = new.length := e2.length_eq
    have hmem : ∀ i ∈ keep, ∃ c, x.candidates[i]? = some c := by
      intro i hi
      obtain ⟨k, hk, rfl⟩ := List.mem_iff_getElem.1 hi
      obtain ⟨lo, hi', total, hc⟩ := (List.forall₂_iff_get.1 e2).2 k hk (by omega)
      exact ⟨_, hc⟩
    refine ⟨h.apcs_eq, h.clocks, tr.length - 1, ivs ++ keep.map ivOf, by omega, ?_, ?_, ?_, by simp⟩
    · refine List.rel_append h2 ?_
      rw [List.forall₂_map_right_iff]
      refine List.Forall₂.flip (e2.imp ?_)
      rintro i call ⟨lo, hi, total, hc⟩
      obtain ⟨hi', s, p, q, apc, k1, k2, k3, k4, k5, k6, k7, k8, k9, k10⟩ := hivOf i _ hc
      cases k1
      refine ⟨⟨apc, k2, k3, k4⟩, ?_, ?_, k10⟩
      · rw [k6]
        rfl
      · rw [k8]
        rfl
    · rw [List.pairwise_append]
      refine ⟨h3, ?_, ?_⟩
      · rw [List.pairwise_map]
        refine e3.imp_of_mem ?_
        intro i j hi hj hij
        obtain ⟨ci, hci⟩ := hmem i hi
        obtain ⟨cj, hcj⟩ := hmem j hj
        obtain ⟨hi1, s1, p1, q1, apc1, k1, k2, k3, k4, k5, k6, k7, k8, k9, -⟩ := hivOf i _ hci
        obtain ⟨hi2, s2, p2, q2, apc2, l1, l2, l3, l4, l5, l6, l7, l8, l9, -⟩ := hivOf j _ hcj
        by_contra hn
        push Not at hn
        refine e4 i hi j hj (by omega) ⟨ci.apcId, ci.fromClk, hi1, ci.fromSnap, s1, cj.apcId, cj.fromClk, hi2,
          cj.fromSnap, s2, ⟨ci.totalCheckCount, by rw [hci, ← k1]⟩, ⟨cj.totalCheckCount, by rw [hcj, ← l1]⟩,
          max ci.fromClk cj.fromClk, ?_⟩
        have a1 := hmono _ _ _ _ k6 l8 hn.2
        have a2 := hmono _ _ _ _ l6 k8 hn.1
        have a3 := hmono _ _ _ _ k6 k8 (by omega)
        have a4 := hmono _ _ _ _ l6 l8 (by omega)
        simp only [k7, k9, l7, l9] at a1 a2 a3 a4
        omega
      · intro iv hiv1 iv' hiv2
        obtain ⟨i, hi, rfl⟩ := List.mem_map.1 hiv2
        obtain ⟨c, hc⟩ := hmem i hi
        obtain ⟨_, _, _, _, _, _, _, _, _, k5, _⟩ := hivOf i _ hc
        have := h4 iv hiv1
        left
        omega
    · intro iv hiv1
      rcases List.mem_append.1 hiv1 with h' | h'
      · have := h4 iv h'
        omega
      · obtain ⟨i, hi, rfl⟩ := List.mem_map.1 h'
        obtain ⟨c, hc⟩ := hmem i hi
        obtain ⟨_, _, _, _, _, _, _, _, _, _, _, _, k8, _⟩ := hivOf i _ hc
        have := (List.getElem?_eq_some_iff.1 k8).1
        omega

/-- The invariant holds after every history. -/
theorem histInv (hcs : BuiltFrom apcs constraints)
    {tr : List (ExecState A V × S)} {x : ExecCandidates A V S} {calls : List (ApcCall S)}
    (h : CandidateHistory limb apcs tr x calls) : HistInv limb apcs constraints tr x calls := by
  induction h with
  | start y =>
    exact ⟨rfl, by simp, 0, [], by simp, .nil, .nil, by simp, by intro c hc; cases hc⟩
  | step st snap _ hcur hclk hx ih =>
    obtain ⟨x', h1, h2⟩ := histInv_step hcs ih hcur hclk snap
    rw [hx] at h1
    cases h1
    exact h2
  | insert id _ hcur hx ih =>
    have hid : id < apcs.length := by
      by_contra hn
      rw [ExecCandidates.tryInsert, ih.apcs_eq, List.getElem?_eq_none (by omega)] at hx
      cases hx
    rcases histInv_insert hcs ih hcur hid with ⟨-, x', h1, h2⟩ | ⟨-, h1⟩
    · rw [hx] at h1
      cases h1
      exact h2
    · rw [hx] at h1
      cases h1
  | reject id _ _ _ ih => exact ih
  | abort _ ih =>
    obtain ⟨b, ivs, h1, h2, h3, h4, h5⟩ := ih.rest
    exact ⟨ih.apcs_eq, ih.clocks, b, ivs, h1, h2, h3, h4, fun c hc => h5 c (List.mem_filter.1 hc).1⟩
  | extract _ hx ih =>
    obtain ⟨x', new, h1, h2, -⟩ := histInv_extract ih
    rw [hx] at h1
    cases h1
    exact h2

/-! ## Confirmation -/

theorem checkAll_append (st : ExecState A V) (snap : S) : ∀ {l m l' m' : List (ExecCandidate A V S)},
    checkAllCandidates limb apcs st snap l = .ok l' → checkAllCandidates limb apcs st snap m = .ok m' →
    checkAllCandidates limb apcs st snap (l ++ m) = .ok (l' ++ m')
  | [], m, l', m', h1, h2 => by
    cases h1
    exact h2
  | c :: t, m, l', m', h1, h2 => by
    rw [checkAllCandidates] at h1
    cases hc : checkCandidate limb apcs st snap c with
    | error e =>
      rw [hc] at h1
      cases h1
    | ok r =>
      rw [hc] at h1
      cases ht : checkAllCandidates limb apcs st snap t with
      | error e =>
        rw [ht] at h1
        cases h1
      | ok t' =>
        rw [ht] at h1
        cases h1
        rw [List.cons_append, checkAllCandidates, hc, checkAll_append st snap ht h2]
        simp only [List.append_assoc]
        rfl

theorem runChecks_append : ∀ (sts : List (ExecState A V × S)) {l m : List (ExecCandidate A V S)}
    {y z : ExecCandidates A V S}, runChecks limb sts ⟨apcs, l⟩ = .ok y → runChecks limb sts ⟨apcs, m⟩ = .ok z →
    runChecks limb sts ⟨apcs, l ++ m⟩ = .ok ⟨apcs, y.candidates ++ z.candidates⟩
  | [], l, m, y, z, h1, h2 => by
    cases h1
    cases h2
    rfl
  | (st, snap) :: t, l, m, y, z, h1, h2 => by
    rw [runChecks, ExecCandidates.checkConditions] at h1 h2 ⊢
    simp only at h1 h2 ⊢
    cases hl : checkAllCandidates limb apcs st snap l with
    | error e =>
      rw [hl] at h1
      cases h1
    | ok l' =>
      cases hm : checkAllCandidates limb apcs st snap m with
      | error e =>
        rw [hm] at h2
        cases h2
      | ok m' =>
        rw [hl] at h1
        rw [hm] at h2
        rw [checkAll_append st snap hl hm]
        exact runChecks_append t h1 h2

theorem runChecks_apcs : ∀ (sts : List (ExecState A V × S)) {x y : ExecCandidates A V S},
    runChecks limb sts x = .ok y → y.apcs = x.apcs
  | [], x, y, h => by
    cases h
    rfl
  | (st, snap) :: t, x, y, h => by
    rw [runChecks, ExecCandidates.checkConditions] at h
    cases hc : checkAllCandidates limb x.apcs st snap x.candidates with
    | error e =>
      rw [hc] at h
      cases h
    | ok r =>
      rw [hc] at h
      exact runChecks_apcs t (x := ⟨x.apcs, r⟩) h

theorem runChecks_nil : ∀ (sts : List (ExecState A V × S)),
    runChecks limb sts ⟨apcs, []⟩ = .ok ⟨apcs, []⟩
  | [] => rfl
  | (st, snap) :: t => by
    rw [runChecks, ExecCandidates.checkConditions, checkAllCandidates]
    exact runChecks_nil t

/-- The fate of one candidate in progress. -/
theorem runChecks_single {cs : List (OptConstraint A V)} {id : ℕ} {apc : ExecApc A V}
    (hap : apcs[id]? = some apc) (hcs : apc.optimisticConstraints = .fromConstraints cs) {clk : ℕ} {s0 : S}
    (stL : ExecState A V) (snapL : S) :
    ∀ (sts : List (ExecState A V × S)) (states : List (ExecState A V)) (ev : OptEvaluator A V),
      EvalInv limb cs states ev → states.length + sts.length = apc.cycleCount →
      (AllHold limb cs (states ++ sts.map Prod.fst ++ [stL]) ∧
        runChecks limb (sts ++ [(stL, snapL)]) ⟨apcs, [⟨apc.cycleCount + 1, id, clk, s0, .inProgress ev⟩]⟩ =
          .ok ⟨apcs, [⟨apc.cycleCount + 1, id, clk, s0, .done stL.clk snapL⟩]⟩) ∨
      (¬ AllHold limb cs (states ++ sts.map Prod.fst ++ [stL]) ∧
        runChecks limb (sts ++ [(stL, snapL)]) ⟨apcs, [⟨apc.cycleCount + 1, id, clk, s0, .inProgress ev⟩]⟩ =
          .ok ⟨apcs, []⟩)
  | [], states, ev, hi, hl => by
    simp only [List.map_nil, List.append_nil, List.nil_append]
    rcases tryNext_ok hi stL with ⟨k1, ev', k2, k3⟩ | ⟨k1, k2⟩
    · refine .inl ⟨k1, ?_⟩
      have hidx := k3.index
      simp only [List.length_append, List.length_singleton, List.length_nil, Nat.add_zero] at hidx hl
      rw [runChecks, ExecCandidates.checkConditions]
      simp only [checkAllCandidates, checkCandidate]
      rw [hap]
      simp only
      rw [hcs, k2]
      simp only [bind, Except.bind]
      rw [if_pos (by omega)]
      rfl
    · refine .inr ⟨k1, ?_⟩
      rw [runChecks, ExecCandidates.checkConditions]
      simp only [checkAllCandidates, checkCandidate]
      rw [hap]
      simp only
      rw [hcs, k2]
      rfl
  | (st, snap) :: t, states, ev, hi, hl => by
    rcases tryNext_ok hi st with ⟨k1, ev', k2, k3⟩ | ⟨k1, k2⟩
    · have hidx := k3.index
      simp only [List.length_append, List.length_cons, List.length_nil] at hidx hl
      have ih := runChecks_single hap hcs (clk := clk) (s0 := s0) stL snapL t (states ++ [st]) ev' k3
        (by simp; omega)
      have e : runChecks limb ((st, snap) :: t ++ [(stL, snapL)])
          ⟨apcs, [⟨apc.cycleCount + 1, id, clk, s0, .inProgress ev⟩]⟩ =
          runChecks limb (t ++ [(stL, snapL)])
            ⟨apcs, [⟨apc.cycleCount + 1, id, clk, s0, .inProgress ev'⟩]⟩ := by
        rw [List.cons_append, runChecks, ExecCandidates.checkConditions]
        simp only [checkAllCandidates, checkCandidate]
        rw [hap]
        simp only
        rw [hcs, k2]
        simp only [bind, Except.bind]
        rw [if_neg (by omega)]
        rfl
      rw [e]
      simpa [List.append_assoc] using ih
    · refine .inr ⟨fun h => k1 (allHold_prefix (more := t.map Prod.fst ++ [stL]) ?_), ?_⟩
      · simpa [List.append_assoc] using h
      · rw [List.cons_append, runChecks, ExecCandidates.checkConditions]
        simp only [checkAllCandidates, checkCandidate]
        rw [hap]
        simp only
        rw [hcs, k2]
        exact runChecks_nil _

end

end Verif
