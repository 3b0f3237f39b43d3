import Verif.Proofs.Selection

/-!
# C41: greedy selection of blocks

Every candidate has at least one basic block.
-/

namespace Verif

variable {cs : List BlockCandidate} {budget maxSel : ℕ} {E : List (List ℕ × ℕ)}

theorem selectReaches_inv (hs : ∀ c ∈ cs, c.startPcs ≠ []) {r : Except LoopStop SelectState}
    (h : SelectReaches cs budget maxSel E r) :
    ∃ st, r = .ok st ∧ SelectInv cs budget maxSel E st := by
  induction h with
  | init =>
    obtain ⟨st, h1, h2, -⟩ := selectInit_inv (E := E) (budget := budget) (maxSel := maxSel) hs
    exact ⟨st, h1, h2⟩
  | step _ hstep ih =>
    obtain ⟨st, h1, h2⟩ := ih
    cases h1
    exact selectStep_inv hs h2 hstep

theorem selectReaches_greedy (hs : ∀ c ∈ cs, c.startPcs ≠ []) (hpos : ∀ c ∈ cs, 0 < c.costAfter)
    (hcount : ∀ c ∈ cs, ∀ n, ExecutionUses c.startPcs E n → n ≤ c.executionCount)
    {r : Except LoopStop SelectState} (h : SelectReaches cs budget maxSel E r) :
    ∃ st, r = .ok st ∧ GreedyInv cs budget E st := by
  induction h with
  | init =>
    obtain ⟨st, h1, h2, h3, h4, h5, -⟩ :=
      selectInit_inv (E := E) (budget := budget) (maxSel := maxSel) hs
    refine ⟨st, h1, ?_, by simp [h5]⟩
    rw [h3, h4]
    exact fun i c hc n hn => hcount c (List.mem_of_getElem? hc) n hn
  | @step st r hr hstep ih =>
    obtain ⟨st', h1, h2⟩ := ih
    cases h1
    obtain ⟨st2, e2, h3⟩ := selectReaches_inv hs hr
    cases e2
    obtain ⟨st3, e3, -⟩ := selectStep_inv hs h3 hstep
    subst e3
    exact ⟨st3, rfl, selectStep_greedy hs hpos h3 h2 hstep⟩

/-- C41: the selection does not panic. -/
theorem C41_no_panic (hs : ∀ c ∈ cs, c.startPcs ≠ []) {r : Except LoopStop SelectState}
    (h : SelectReaches cs budget maxSel E r) : ∃ st, r = .ok st := by
  obtain ⟨st, h1, -⟩ := selectReaches_inv hs h
  exact ⟨st, h1⟩

/-- C41: the loop ends, whatever the priority queue returns. -/
theorem C41_terminates (hs : ∀ c ∈ cs, c.startPcs ≠ []) :
    ¬ ∃ f : ℕ → SelectState, SelectReaches cs budget maxSel E (.ok (f 0)) ∧
      ∀ n, SelectStep budget maxSel (f n) (.ok (f (n + 1))) := by
  rintro ⟨f, h0, hf⟩
  have hr : ∀ n, SelectReaches cs budget maxSel E (.ok (f n)) := by
    intro n
    induction n with
    | zero => exact h0
    | succ n ih => exact .step ih (hf n)
  have hm : ∀ n, selectMeasure (f n) + n ≤ selectMeasure (f 0) := by
    intro n
    induction n with
    | zero => simp
    | succ n ih =>
      obtain ⟨st, e, hi⟩ := selectReaches_inv hs (hr n)
      cases e
      have := selectStep_measure hs hi (hf n)
      omega
  have := hm (selectMeasure (f 0) + 1)
  omega

theorem Density.lt_trans {a b c : Density} (hb : 0 < b.cost)
    (h1 : a.lt b = true) (h2 : b.lt c = true) (ha : 0 < a.cost) (hc : 0 < c.cost) :
    a.lt c = true := by
  simp only [Density.lt, Bool.or_eq_true, Bool.and_eq_true, decide_eq_true_eq] at *
  have e1 : a.value * b.cost * c.cost = a.value * c.cost * b.cost := by ring
  have e2 : b.value * a.cost * c.cost = b.value * c.cost * a.cost := by ring
  have e3 : c.value * b.cost * a.cost = c.value * a.cost * b.cost := by ring
  rcases h1 with h1 | ⟨h1, t1⟩ <;> rcases h2 with h2 | ⟨h2, t2⟩
  · left
    have f1 := Nat.mul_lt_mul_of_pos_right h1 hc
    have f2 := Nat.mul_lt_mul_of_pos_right h2 ha
    rw [e1, e2] at f1
    rw [e3] at f2
    exact Nat.lt_of_mul_lt_mul_right (f1.trans f2)
  · left
    have f1 := Nat.mul_lt_mul_of_pos_right h1 hc
    have f2 := congrArg (· * a.cost) h2
    rw [e1, e2] at f1
    rw [e3] at f2
    rw [f2] at f1
    exact Nat.lt_of_mul_lt_mul_right f1
  · left
    have f1 := congrArg (· * c.cost) h1
    have f2 := Nat.mul_lt_mul_of_pos_right h2 ha
    rw [e1, e2] at f1
    rw [e3, ← f1] at f2
    exact Nat.lt_of_mul_lt_mul_right f2
  · right
    have f1 := congrArg (· * c.cost) h1
    have f2 := congrArg (· * a.cost) h2
    rw [e1, e2] at f1
    rw [e3, ← f1] at f2
    exact ⟨Nat.eq_of_mul_eq_mul_right hb f2, t1.trans t2⟩

theorem exists_maximal : ∀ (q : List (ℕ × Density)), q ≠ [] → (∀ x ∈ q, 0 < x.2.cost) →
    ∃ e ∈ q, ∀ x ∈ q, e.2.lt x.2 = false
  | [], h, _ => absurd rfl h
  | [a], _, _ => ⟨a, by simp, by simp [Density.lt]⟩
  | a :: b :: t, _, hp => by
    obtain ⟨m, hm, hmax⟩ := exists_maximal (b :: t) (by simp) fun x hx => hp x (by simp [hx])
    cases hma : m.2.lt a.2 with
    | false =>
      refine ⟨m, by simp [hm], fun x hx => ?_⟩
      rcases List.mem_cons.1 hx with rfl | hx
      · exact hma
      · exact hmax x hx
    | true =>
      refine ⟨a, by simp, fun x hx => ?_⟩
      rcases List.mem_cons.1 hx with rfl | hx
      · simp [Density.lt]
      · cases hax : a.2.lt x.2 with
        | false => rfl
        | true =>
          have := Density.lt_trans (hp a (by simp)) hma hax (hp m (by simp [hm]))
            (hp x (by simp [hx]))
          rw [hmax x hx] at this
          exact this.symm

theorem pop_exists {q : List (ℕ × Density)} (hq : q ≠ []) : ∃ e rest, Pop q e rest := by
  by_cases hp : ∀ x ∈ q, 0 < x.2.cost
  · obtain ⟨e, he, hmax⟩ := exists_maximal q hq hp
    obtain ⟨l, r, rfl⟩ := List.append_of_mem he
    exact ⟨e, l ++ r, ⟨l, r, rfl, .refl _⟩, fun _ => hmax⟩
  · obtain ⟨e, t, rfl⟩ := List.exists_cons_of_ne_nil hq
    exact ⟨e, t, ⟨[], t, rfl, .refl _⟩, fun h => absurd h hp⟩

/-- C41: the selection returns something. -/
theorem C41_returns (hs : ∀ c ∈ cs, c.startPcs ≠ []) (budget maxSel : ℕ) (E : List (List ℕ × ℕ)) :
    ∃ r, SelectBlocksGreedy cs budget maxSel E r := by
  obtain ⟨st, h1, -⟩ := selectInit_inv (E := E) (budget := budget) (maxSel := maxSel) hs
  have key : ∀ n (st : SelectState), selectMeasure st ≤ n →
      SelectReaches cs budget maxSel E (.ok st) → ∃ r, SelectBlocksGreedy cs budget maxSel E r := by
    intro n
    induction n with
    | zero =>
      intro st hm hr
      by_cases hq : st.queue = []
      · exact ⟨_, st, hr, .inr hq, rfl⟩
      · obtain ⟨x, t, hx⟩ := List.exists_cons_of_ne_nil hq
        rw [selectMeasure, hx, List.map_cons, List.sum_cons] at hm
        omega
    | succ n ih =>
      intro st hm hr
      by_cases hq : st.queue = []
      · exact ⟨_, st, hr, .inr hq, rfl⟩
      · cases hf : st.finished with
        | true => exact ⟨_, st, hr, .inl hf, rfl⟩
        | false =>
          obtain ⟨e, rest, hp⟩ := pop_exists hq
          have hstep : SelectStep budget maxSel st (selectBody budget maxSel st e.1 rest) :=
            ⟨hf, e, rest, hp, rfl⟩
          obtain ⟨st0, e0, hi⟩ := selectReaches_inv hs hr
          cases e0
          obtain ⟨st', h2, -⟩ := selectStep_inv hs hi hstep
          rw [h2] at hstep
          have := selectStep_measure hs hi hstep
          exact ih st' (by omega) (.step hr hstep)
  exact key _ st le_rfl (h1 ▸ .init)

/-- C41: the limits. The selected candidates are different, their total cost is within the budget, and
there are at most `maxSel` of them (one, if `maxSel` is zero). -/
theorem C41_limits (hs : ∀ c ∈ cs, c.startPcs ≠ []) {r : List ℕ}
    (h : SelectBlocksGreedy cs budget maxSel E r) :
    r.Nodup ∧ (∀ i ∈ r, i < cs.length) ∧ totalCost cs r ≤ budget ∧ r.length ≤ max 1 maxSel := by
  obtain ⟨st, hr, -, rfl⟩ := h
  obtain ⟨st0, e0, hi⟩ := selectReaches_inv hs hr
  cases e0
  refine ⟨hi.nodup, hi.valid, hi.cost ▸ hi.le, ?_⟩
  cases hf : st.finished with
  | true => exact (hi.finished hf).2
  | false =>
    rcases hi.running hf with h | h
    · rw [h]
      simp
    · omega

/-- C41: every choice is greedy, if costs are positive and the initial counts are not too small. -/
theorem C41_greedy (hs : ∀ c ∈ cs, c.startPcs ≠ []) (hpos : ∀ c ∈ cs, 0 < c.costAfter)
    (hcount : ∀ c ∈ cs, ∀ n, ExecutionUses c.startPcs E n → n ≤ c.executionCount) {r : List ℕ}
    (h : SelectBlocksGreedy cs budget maxSel E r) {before after : List ℕ} {i : ℕ}
    (hi : r = before ++ i :: after) : GreedyChoice cs budget E before i := by
  obtain ⟨st, hr, -, rfl⟩ := h
  obtain ⟨st0, e0, hg⟩ := selectReaches_greedy hs hpos hcount hr
  cases e0
  exact hg.greedy before i after hi

/-- C41: if fewer than `maxSel` candidates are selected, then no other one could be added: it does not fit
the budget, or it is not used in the execution that remains. -/
theorem C41_maximal (hs : ∀ c ∈ cs, c.startPcs ≠ []) {r : List ℕ}
    (h : SelectBlocksGreedy cs budget maxSel E r) (hlt : r.length < maxSel) :
    ∃ rest, Removed (blocksOf cs r) E rest ∧ ∀ (j : ℕ) (c : BlockCandidate), j ∉ r →
      cs[j]? = some c → budget < totalCost cs r + c.costAfter ∨ ExecutionUses c.startPcs rest 0 := by
  obtain ⟨st, hr, hend, rfl⟩ := h
  obtain ⟨st0, e0, hi⟩ := selectReaches_inv hs hr
  cases e0
  refine ⟨st.execution, hi.removed, fun j c hj hc => ?_⟩
  rcases hend with hf | hq
  · have := (hi.finished hf).1
    omega
  · have := hi.dropped j c hc hj (by simp [hq])
    rw [hi.cost] at this
    exact this

/-- C41: the caller returns at most `autoprecompiles` different candidates within the budget: the greedy
selection without its first `skip` elements. -/
theorem C41_caller (hs : ∀ c ∈ cs, c.startPcs ≠ []) {n skip : ℕ} {r : List ℕ}
    (h : CellPgoIndices n skip budget cs E r) :
    r.Nodup ∧ (∀ i ∈ r, i < cs.length) ∧ totalCost cs r ≤ budget ∧ r.length ≤ n := by
  rw [CellPgoIndices] at h
  split_ifs at h with h0
  · subst h
    exact ⟨by simp, by simp, by simp [totalCost], by simp⟩
  · obtain ⟨sel, h1, rfl⟩ := h
    obtain ⟨a, b, c, d⟩ := C41_limits hs h1
    refine ⟨a.sublist (List.drop_sublist _ _), fun i hi => b i (List.mem_of_mem_drop hi), ?_, ?_⟩
    · refine le_trans ?_ c
      conv_rhs => rw [← List.take_append_drop (min skip sel.length) sel]
      rw [totalCost, totalCost, List.map_append, List.sum_append]
      exact Nat.le_add_left _ _
    · rw [List.length_drop]
      omega

/-! Sample: three candidates, one run that is executed 10 times. Candidate 0 has the best density, after
its selection candidate 1 is not used any more. -/

/-- The candidates. -/
def sampleCandidates : List BlockCandidate :=
  [⟨[1, 2], 5, 10, 10⟩, ⟨[2], 5, 9, 10⟩, ⟨[3], 5, 1, 10⟩]

/-- The priority queue returns the first entry of the largest priority. -/
def samplePop (q : List (ℕ × Density)) : Option ((ℕ × Density) × List (ℕ × Density)) :=
  match q.find? fun e => q.all fun x => !e.2.lt x.2 with
  | none => none
  | some e => some (e, q.erase e)

/-- The selection with this queue. -/
def sampleSelect (budget maxSel : ℕ) : ℕ → SelectState → Except LoopStop (List ℕ)
  | 0, _ => .error .fuel
  | n + 1, st =>
    if st.finished then .ok st.selected
    else match samplePop st.queue with
      | none => .ok st.selected
      | some (e, rest) =>
        match selectBody budget maxSel st e.1 rest with
        | .error e => .error e
        | .ok st' => sampleSelect budget maxSel n st'

example : (selectInit sampleCandidates [([1, 2, 3], 10)]).bind (sampleSelect 12 2 10) = .ok [0, 2] := by
  decide +kernel

/-- With a limit of zero, one candidate is selected. -/
example : (selectInit sampleCandidates [([1, 2, 3], 10)]).bind (sampleSelect 12 0 10) = .ok [0] := by
  decide +kernel

example : ∀ c ∈ sampleCandidates, c.startPcs ≠ [] ∧ 0 < c.costAfter := by decide

end Verif
