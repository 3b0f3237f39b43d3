import Verif.Spec.Selection
import Verif.Proofs.Blocks
import Mathlib.Tactic.Linarith
import Mathlib.Tactic.Ring
import Mathlib.Algebra.BigOperators.Group.List.Basic

/-! # Proofs about the greedy selection of blocks -/

set_option linter.unusedSectionVars false

namespace Verif

variable {cs : List BlockCandidate} {budget maxSel : ℕ} {E : List (List ℕ × ℕ)}

theorem density_ok {c : BlockCandidate} (h : c.startPcs ≠ []) :
    ∃ tie, c.density = .ok ⟨c.executionCount * c.valuePerUse, c.costAfter, tie⟩ := by
  obtain ⟨x, t, hx⟩ := List.exists_cons_of_ne_nil h
  exact ⟨x, by simp [BlockCandidate.density, hx, BlockCandidate.value, BlockCandidate.cost]⟩

theorem countAndUpdateExecution_uses {s : List ℕ} (hs : s ≠ []) (e : List (List ℕ × ℕ)) :
    ∃ n e', countAndUpdateExecution s e = .ok (n, e') ∧ ExecutionUses s e n := by
  induction e with
  | nil => exact ⟨0, [], rfl, .nil⟩
  | cons x t ih =>
    obtain ⟨run, c⟩ := x
    obtain ⟨n, e', h1, h2⟩ := ih
    obtain ⟨is, -, h3, h4, h5, h6⟩ := countAndUpdateRun_ok (run := run) hs
    exact ⟨_, _, by rw [countAndUpdateExecution, h6, h1]; rfl, .cons (uses_of_covers hs h3 h4) h2⟩

/-- The possible results of a round. -/
inductive BodyCase (budget maxSel : ℕ) (st : SelectState) (idx : ℕ) (rest : List (ℕ × Density))
    (c : BlockCandidate) : SelectState → Prop
  | costly : st.cost + c.costAfter > budget → BodyCase budget maxSel st idx rest c
      { st with queue := rest }
  | unused : ExecutionUses c.startPcs st.execution 0 → BodyCase budget maxSel st idx rest c
      { st with queue := rest }
  | again {n tie} : ExecutionUses c.startPcs st.execution n → n < c.executionCount →
      BodyCase budget maxSel st idx rest c { st with
        candidates := st.candidates.set idx { c with executionCount := n }
        queue := rest ++ [(idx, ⟨n * c.valuePerUse, c.costAfter, tie⟩)] }
  | select {n e'} : st.cost + c.costAfter ≤ budget → ExecutionUses c.startPcs st.execution n →
      0 < n → c.executionCount ≤ n → countAndUpdateExecution c.startPcs st.execution = .ok (n, e') →
      BodyCase budget maxSel st idx rest c { st with
        queue := rest
        selected := st.selected ++ [idx]
        cost := st.cost + c.costAfter
        execution := e'
        finished := st.selected.length + 1 ≥ maxSel }

theorem selectBody_case {st : SelectState} {idx : ℕ} {rest : List (ℕ × Density)} {c : BlockCandidate}
    (hc : st.candidates[idx]? = some c) (hs : c.startPcs ≠ []) :
    ∃ st', selectBody budget maxSel st idx rest = .ok st' ∧
      BodyCase budget maxSel st idx rest c st' ∧
      (st.cost + c.costAfter ≤ budget → ∀ n, ExecutionUses c.startPcs st.execution n → 0 < n →
        c.executionCount ≤ n → st'.selected = st.selected ++ [idx]) := by
  obtain ⟨n, e', h1, h2⟩ := countAndUpdateExecution_uses hs st.execution
  obtain ⟨tie, h3⟩ := density_ok (c := { c with executionCount := n }) hs
  simp only [selectBody, hc, BlockCandidate.cost, h1]
  by_cases c1 : st.cost + c.costAfter > budget
  · rw [if_pos c1]
    exact ⟨_, rfl, .costly c1, fun h => by omega⟩
  · rw [if_neg c1]
    by_cases c2 : n = 0
    · subst c2
      rw [if_pos rfl]
      refine ⟨_, rfl, .unused h2, fun _ m hm h0 => ?_⟩
      rw [hm.unique h2] at h0
      omega
    · rw [if_neg c2]
      by_cases c3 : n < c.executionCount
      · rw [if_pos c3]
        simp only [h3]
        refine ⟨_, rfl, .again h2 c3, fun _ m hm _ h => ?_⟩
        rw [hm.unique h2] at h
        omega
      · rw [if_neg c3]
        exact ⟨_, rfl, .select (by omega) h2 (by omega) (by omega) h1, fun _ _ _ _ _ => rfl⟩

theorem Removed.append {a b : List (List ℕ)} {e e' e'' : List (List ℕ × ℕ)} (h : Removed a e e')
    (h' : Removed b e' e'') : Removed (a ++ b) e e'' := by
  induction h with
  | nil => exact h'
  | cons h1 _ ih => exact .cons h1 (ih h')

/-- The invariant of the loop. -/
structure SelectInv (cs : List BlockCandidate) (budget maxSel : ℕ) (E : List (List ℕ × ℕ))
    (st : SelectState) : Prop where
  len : st.candidates.length = cs.length
  cands : ∀ (i : ℕ) (c : BlockCandidate), cs[i]? = some c → ∃ c', st.candidates[i]? = some c' ∧
    c'.startPcs = c.startPcs ∧ c'.costAfter = c.costAfter ∧ c'.valuePerUse = c.valuePerUse ∧
    c'.executionCount ≤ c.executionCount
  queueIdx : (st.queue.map Prod.fst).Nodup
  queueDens : ∀ x ∈ st.queue, ∃ (c : BlockCandidate) (tie : ℕ), st.candidates[x.1]? = some c ∧
    x.2 = ⟨c.executionCount * c.valuePerUse, c.costAfter, tie⟩
  nodup : st.selected.Nodup
  valid : ∀ i ∈ st.selected, i < cs.length
  disj : ∀ i ∈ st.selected, i ∉ st.queue.map Prod.fst
  cost : st.cost = totalCost cs st.selected
  le : st.cost ≤ budget
  removed : Removed (blocksOf cs st.selected) E st.execution
  dropped : ∀ (i : ℕ) (c : BlockCandidate), cs[i]? = some c → i ∉ st.selected →
    i ∉ st.queue.map Prod.fst →
    st.cost + c.costAfter > budget ∨ ExecutionUses c.startPcs st.execution 0
  running : st.finished = false → st.selected = [] ∨ st.selected.length < maxSel
  finished : st.finished = true → maxSel ≤ st.selected.length ∧ st.selected.length ≤ max 1 maxSel

theorem SelectInv.back {st : SelectState} (h : SelectInv cs budget maxSel E st) {i : ℕ}
    {c' : BlockCandidate} (hc : st.candidates[i]? = some c') :
    ∃ c, cs[i]? = some c ∧ c'.startPcs = c.startPcs ∧ c'.costAfter = c.costAfter ∧
      c'.valuePerUse = c.valuePerUse ∧ c'.executionCount ≤ c.executionCount := by
  have hi : i < cs.length := by
    rw [← h.len]
    exact (List.getElem?_eq_some_iff.1 hc).1
  obtain ⟨c'', h1, h2⟩ := h.cands i _ (List.getElem?_eq_getElem hi)
  rw [hc] at h1
  cases h1
  exact ⟨_, List.getElem?_eq_getElem hi, h2⟩

theorem totalCost_append (is : List ℕ) {i : ℕ} {c : BlockCandidate} (h : cs[i]? = some c) :
    totalCost cs (is ++ [i]) = totalCost cs is + c.costAfter := by
  simp [totalCost, h]

theorem blocksOf_append (is : List ℕ) {i : ℕ} {c : BlockCandidate} (h : cs[i]? = some c) :
    blocksOf cs (is ++ [i]) = blocksOf cs is ++ [c.startPcs] := by
  simp [blocksOf, h]

theorem selectInit_inv (hs : ∀ c ∈ cs, c.startPcs ≠ []) :
    ∃ st, selectInit cs E = .ok st ∧ SelectInv cs budget maxSel E st ∧ st.candidates = cs ∧
      st.execution = E ∧ st.selected = [] ∧ st.finished = false := by
  have hm : ∀ l : List BlockCandidate, (∀ c ∈ l, c.startPcs ≠ []) →
      ∃ ds, l.mapM BlockCandidate.density = .ok ds ∧ ds.length = l.length ∧
        ∀ (i : ℕ) (c : BlockCandidate), l[i]? = some c → ∃ tie, ds[i]? =
          some ⟨c.executionCount * c.valuePerUse, c.costAfter, tie⟩ := by
    intro l
    induction l with
    | nil => intro _; exact ⟨[], rfl, rfl, by simp⟩
    | cons c l ih =>
      intro h
      obtain ⟨ds, h1, h2, h3⟩ := ih fun x hx => h x (by simp [hx])
      obtain ⟨tie, h4⟩ := density_ok (h c (by simp))
      refine ⟨_ :: ds, by rw [List.mapM_cons, h4, h1]; rfl, by simp [h2], ?_⟩
      intro i x hx
      cases i with
      | zero =>
        simp only [List.getElem?_cons_zero, Option.some.injEq] at hx
        subst hx
        exact ⟨tie, rfl⟩
      | succ i => exact h3 i x (by simpa using hx)
  obtain ⟨ds, h1, h2, h3⟩ := hm cs hs
  have hq : (ds.zipIdx.map fun x => (x.2, x.1)).map Prod.fst = List.range cs.length := by
    rw [List.map_map]
    change ds.zipIdx.map Prod.snd = _
    rw [List.zipIdx_map_snd, h2, List.range_eq_range']
  refine ⟨_, by rw [selectInit, h1]; rfl, ?_, rfl, rfl, rfl, rfl⟩
  refine ⟨rfl, fun i c hc => ⟨c, hc, rfl, rfl, rfl, le_rfl⟩, ?_, ?_, by simp, by simp, by simp, rfl,
    Nat.zero_le _, .nil, ?_, by simp, by simp⟩
  · simp only [hq]
    exact List.nodup_range
  · intro x hx
    obtain ⟨y, hy, rfl⟩ := List.mem_map.1 hx
    obtain ⟨d, i⟩ := y
    have hd := List.mem_zipIdx_iff_getElem?.1 hy
    have hi : i < cs.length := by
      rw [← h2]
      exact (List.getElem?_eq_some_iff.1 hd).1
    obtain ⟨tie, h4⟩ := h3 i _ (List.getElem?_eq_getElem hi)
    rw [hd] at h4
    exact ⟨_, tie, List.getElem?_eq_getElem hi, Option.some.inj h4⟩
  · intro i c hc _ hi
    rw [hq, List.mem_range] at hi
    exact absurd (List.getElem?_eq_some_iff.1 hc).1 hi

theorem pop_facts {q rest : List (ℕ × Density)} {e : ℕ × Density} (h : Pop q e rest) :
    e ∈ q ∧ q.Perm (e :: rest) := by
  obtain ⟨⟨l, r, rfl, hp⟩, -⟩ := h
  exact ⟨by simp, List.perm_middle.trans (hp.symm.cons e)⟩

/-- One round keeps the invariant. -/
theorem selectStep_inv (hs : ∀ c ∈ cs, c.startPcs ≠ []) {st : SelectState}
    (h : SelectInv cs budget maxSel E st) {r : Except LoopStop SelectState}
    (hstep : SelectStep budget maxSel st r) :
    ∃ st', r = .ok st' ∧ SelectInv cs budget maxSel E st' := by
  obtain ⟨hfin, e, rest, hpop, rfl⟩ := hstep
  obtain ⟨he, hperm⟩ := pop_facts hpop
  obtain ⟨c', tie, hc', hd⟩ := h.queueDens e he
  obtain ⟨c, hc, e1, e2, e3, e4⟩ := h.back hc'
  have hcs : c.startPcs ≠ [] := hs c (List.mem_of_getElem? hc)
  obtain ⟨st', h1, h2, -⟩ := selectBody_case (budget := budget) (maxSel := maxSel) (rest := rest)
    hc' (by rw [e1]; exact hcs)
  have hpm : (st.queue.map Prod.fst).Perm (e.1 :: rest.map Prod.fst) := hperm.map _
  have hnd : (e.1 :: rest.map Prod.fst).Nodup := hpm.nodup_iff.1 h.queueIdx
  have hnd' := List.nodup_cons.1 hnd
  have hmem : ∀ i, i ∈ st.queue.map Prod.fst ↔ i = e.1 ∨ i ∈ rest.map Prod.fst := by
    intro i
    rw [hpm.mem_iff, List.mem_cons]
  have hrest : ∀ x ∈ rest, x ∈ st.queue := fun x hx => hperm.mem_iff.2 (List.mem_cons_of_mem _ hx)
  have hesel : e.1 ∉ st.selected := fun hi => h.disj _ hi ((hmem _).2 (.inl rfl))
  refine ⟨st', h1, ?_⟩
  have hdrop : (st.cost + c.costAfter > budget ∨ ExecutionUses c.startPcs st.execution 0) →
      SelectInv cs budget maxSel E { st with queue := rest } := by
    intro hcase
    refine ⟨h.len, h.cands, hnd'.2, fun x hx => h.queueDens x (hrest x hx), h.nodup, h.valid,
      fun i hi hi' => h.disj i hi ((hmem i).2 (.inr hi')), h.cost, h.le, h.removed, ?_, h.running,
      h.finished⟩
    intro i d hd hi hi'
    by_cases hie : i = e.1
    · subst hie
      rw [hc] at hd
      cases hd
      exact hcase
    · exact h.dropped i d hd hi fun hq => ((hmem i).1 hq).elim hie hi'
  cases h2 with
  | costly hb => exact hdrop (.inl (by rw [← e2]; exact hb))
  | unused hu => exact hdrop (.inr (by rw [← e1]; exact hu))
  | @again n tie' hu hlt =>
    have hset : ∀ i, i ≠ e.1 → (st.candidates.set e.1 { c' with executionCount := n })[i]? =
        st.candidates[i]? := fun i hi => List.getElem?_set_ne (Ne.symm hi)
    have hsete : (st.candidates.set e.1 { c' with executionCount := n })[e.1]? =
        some { c' with executionCount := n } := by
      rw [List.getElem?_set_self (List.getElem?_eq_some_iff.1 hc').1]
    have hq : ((rest ++ [(e.1, (⟨n * c'.valuePerUse, c'.costAfter, tie'⟩ : Density))]).map
        Prod.fst).Perm (st.queue.map Prod.fst) := by
      rw [List.map_append]
      exact (List.perm_append_singleton _ _).trans hpm.symm
    refine ⟨by simp [h.len], ?_, hq.nodup_iff.2 h.queueIdx, ?_, h.nodup, h.valid, ?_, h.cost, h.le,
      h.removed, ?_, h.running, h.finished⟩
    · intro i d hd
      by_cases hie : i = e.1
      · subst hie
        rw [hc] at hd
        cases hd
        exact ⟨_, hsete, e1, e2, e3, by simp only; omega⟩
      · obtain ⟨d', h5, h6⟩ := h.cands i d hd
        exact ⟨d', by rw [hset i hie]; exact h5, h6⟩
    · intro x hx
      rcases List.mem_append.1 hx with hx | hx
      · have hne : x.1 ≠ e.1 := fun hxe => hnd'.1 (hxe ▸ List.mem_map_of_mem hx)
        simp only [hset _ hne]
        exact h.queueDens x (hrest x hx)
      · rw [List.mem_singleton.1 hx]
        exact ⟨_, tie', hsete, rfl⟩
    · intro i hi hi'
      exact h.disj i hi (hq.mem_iff.1 hi')
    · intro i d hd hi hi'
      exact h.dropped i d hd hi fun hiq => hi' (hq.mem_iff.2 hiq)
  | @select n e' hb hu hpos hle hupd =>
    rw [e1] at hupd hu
    have hi : e.1 < cs.length := (List.getElem?_eq_some_iff.1 hc).1
    refine ⟨h.len, h.cands, hnd'.2, fun x hx => h.queueDens x (hrest x hx), ?_, ?_, ?_, ?_, hb, ?_, ?_,
      ?_, ?_⟩
    · exact List.nodup_append.2 ⟨h.nodup, by simp, by
        intro a ha b hb hab
        rw [List.mem_singleton.1 hb] at hab
        exact hesel (hab ▸ ha)⟩
    · intro i hi'
      rcases List.mem_append.1 hi' with hi' | hi'
      · exact h.valid i hi'
      · rw [List.mem_singleton.1 hi']
        exact hi
    · intro i hi' hq
      rcases List.mem_append.1 hi' with hi' | hi'
      · exact h.disj i hi' ((hmem i).2 (.inr hq))
      · rw [List.mem_singleton.1 hi'] at hq
        exact hnd'.1 hq
    · simp only
      rw [totalCost_append _ hc, ← h.cost, e2]
    · simp only
      rw [blocksOf_append _ hc]
      exact h.removed.append (.cons hupd .nil)
    · intro i d hd hi' hq
      simp only [List.mem_append, List.mem_singleton, not_or] at hi'
      have := h.dropped i d hd hi'.1 fun hiq => ((hmem i).1 hiq).elim hi'.2 hq
      rcases this with hx | hx
      · left
        simp only
        omega
      · right
        have hds := hs d (List.mem_of_getElem? hd)
        obtain ⟨m, hm⟩ := executionUses_exists hds e'
        have := executionUses_update hcs hds hupd hx hm
        simp only
        rwa [Nat.le_zero.1 this] at hm
    · simp only [decide_eq_false_iff_not, List.length_append, List.length_singleton]
      intro h
      right
      omega
    · simp only [decide_eq_true_eq, List.length_append, List.length_singleton]
      intro h7
      refine ⟨h7, ?_⟩
      rcases h.running hfin with h8 | h8
      · rw [h8]
        simp
      · omega

/-- The second part of the invariant, about priorities. -/
structure GreedyInv (cs : List BlockCandidate) (budget : ℕ) (E : List (List ℕ × ℕ))
    (st : SelectState) : Prop where
  uses : ∀ (i : ℕ) (c' : BlockCandidate), st.candidates[i]? = some c' →
    ∀ n, ExecutionUses c'.startPcs st.execution n → n ≤ c'.executionCount
  greedy : ∀ before i after, st.selected = before ++ i :: after → GreedyChoice cs budget E before i

theorem selectStep_greedy (hs : ∀ c ∈ cs, c.startPcs ≠ []) (hpos : ∀ c ∈ cs, 0 < c.costAfter)
    {st st' : SelectState} (h : SelectInv cs budget maxSel E st) (hg : GreedyInv cs budget E st)
    (hstep : SelectStep budget maxSel st (.ok st')) : GreedyInv cs budget E st' := by
  obtain ⟨hfin, e, rest, hpop, heq⟩ := hstep
  obtain ⟨he, hperm⟩ := pop_facts hpop
  obtain ⟨c', tie, hc', hd⟩ := h.queueDens e he
  obtain ⟨c, hc, e1, e2, e3, e4⟩ := h.back hc'
  have hcs : c.startPcs ≠ [] := hs c (List.mem_of_getElem? hc)
  obtain ⟨st'', h1, h2, -⟩ := selectBody_case (budget := budget) (maxSel := maxSel) (rest := rest)
    hc' (by rw [e1]; exact hcs)
  rw [h1] at heq
  cases heq
  cases h2 with
  | costly hb => exact ⟨hg.uses, hg.greedy⟩
  | unused hu => exact ⟨hg.uses, hg.greedy⟩
  | @again n tie' hu hlt =>
    refine ⟨?_, hg.greedy⟩
    intro i d hd' m hm
    by_cases hie : i = e.1
    · subst hie
      simp only at hd'
      rw [List.getElem?_set_self (List.getElem?_eq_some_iff.1 hc').1] at hd'
      cases hd'
      exact (hm.unique hu).le
    · simp only at hd'
      rw [List.getElem?_set_ne (Ne.symm hie)] at hd'
      exact hg.uses i d hd' m hm
  | @select n e' hb hu hn hle hupd =>
    constructor
    · intro i d hd' m hm
      simp only at hd' hm
      obtain ⟨d0, hd0, f1, -⟩ := h.back hd'
      have hds : d.startPcs ≠ [] := by
        rw [f1]
        exact hs d0 (List.mem_of_getElem? hd0)
      obtain ⟨k, hk⟩ := executionUses_exists hds st.execution
      exact (executionUses_update (by rw [e1]; exact hcs) hds hupd hk hm).trans (hg.uses i d hd' k hk)
    · intro before i after hsel
      simp only at hsel
      rcases List.eq_nil_or_concat after with rfl | ⟨after', last, rfl⟩
      · obtain ⟨rfl, hi⟩ := List.append_inj' hsel rfl
        cases hi
        have hexact : n = c'.executionCount := le_antisymm (hg.uses _ _ hc' n hu) hle
        refine ⟨c, st.execution, n, hc, by rw [← h.cost, ← e2]; exact hb, h.removed,
          by rw [← e1]; exact hu, hn, ?_⟩
        intro j d m hj hdj hfit hm
        rcases Nat.eq_zero_or_pos m with rfl | hmpos
        · simp
        · have hjq : j ∈ st.queue.map Prod.fst := by
            by_contra hjq
            rcases h.dropped j d hdj hj hjq with hx | hx
            · rw [h.cost] at hx
              omega
            · have := hm.unique hx
              omega
          obtain ⟨x, hx, rfl⟩ := List.mem_map.1 hjq
          obtain ⟨d', tie', hd', hxd⟩ := h.queueDens x hx
          obtain ⟨d0, hd0, f1, f2, f3, f4⟩ := h.back hd'
          rw [hdj] at hd0
          cases hd0
          have hlt := hpop.2 (by
            intro y hy
            obtain ⟨y', ty, hy', hyd⟩ := h.queueDens y hy
            obtain ⟨y0, hy0, -, g2, -⟩ := h.back hy'
            rw [hyd]
            simp only
            rw [g2]
            exact hpos y0 (List.mem_of_getElem? hy0)) x hx
          rw [hd, hxd] at hlt
          simp only [Density.lt, Bool.or_eq_false_iff, decide_eq_false_iff_not, Nat.not_lt] at hlt
          have hle1 := hlt.1
          rw [← hexact, e2, e3, f2, f3] at hle1
          have hm' := hg.uses _ _ hd' m (by rw [f1]; exact hm)
          refine le_trans ?_ hle1
          exact Nat.mul_le_mul_right _ (Nat.mul_le_mul_right _ hm')
      · rw [List.concat_eq_append, ← List.cons_append, ← List.append_assoc] at hsel
        obtain ⟨h3, -⟩ := List.append_inj' hsel rfl
        exact hg.greedy before i after' h3

/-- What decreases in each round. -/
def selectMeasure (st : SelectState) : ℕ :=
  (st.queue.map fun x => (st.candidates[x.1]?.map (·.executionCount)).getD 0 + 1).sum

theorem selectStep_measure (hs : ∀ c ∈ cs, c.startPcs ≠ []) {st st' : SelectState}
    (h : SelectInv cs budget maxSel E st) (hstep : SelectStep budget maxSel st (.ok st')) :
    selectMeasure st' < selectMeasure st := by
  obtain ⟨hfin, e, rest, hpop, heq⟩ := hstep
  obtain ⟨he, hperm⟩ := pop_facts hpop
  obtain ⟨c', tie, hc', hd⟩ := h.queueDens e he
  obtain ⟨c, hc, e1, e2, e3, e4⟩ := h.back hc'
  have hcs : c.startPcs ≠ [] := hs c (List.mem_of_getElem? hc)
  obtain ⟨st'', h1, h2, -⟩ := selectBody_case (budget := budget) (maxSel := maxSel) (rest := rest)
    hc' (by rw [e1]; exact hcs)
  rw [h1] at heq
  cases heq
  have hm : selectMeasure st = (c'.executionCount + 1) + (rest.map fun x =>
      (st.candidates[x.1]?.map (·.executionCount)).getD 0 + 1).sum := by
    rw [selectMeasure, (hperm.map _).sum_eq, List.map_cons, List.sum_cons, hc']
    rfl
  rw [hm]
  cases h2 with
  | costly hb => simp only [selectMeasure]; omega
  | unused hu => simp only [selectMeasure]; omega
  | select => simp only [selectMeasure]; omega
  | @again n tie' hu hlt =>
    rw [selectMeasure]
    simp only [List.map_append, List.sum_append, List.map_cons, List.map_nil, List.sum_cons,
      List.sum_nil, List.getElem?_set_self (List.getElem?_eq_some_iff.1 hc').1, Option.map_some,
      Option.getD_some]
    have : ∀ l : List (ℕ × Density), (l.map fun x => (((st.candidates.set e.1
        { c' with executionCount := n })[x.1]?).map (·.executionCount)).getD 0 + 1).sum ≤
        (l.map fun x => (st.candidates[x.1]?.map (·.executionCount)).getD 0 + 1).sum := by
      intro l
      induction l with
      | nil => simp
      | cons x l ih =>
        rw [List.map_cons, List.map_cons, List.sum_cons, List.sum_cons]
        refine Nat.add_le_add ?_ ih
        by_cases hx : x.1 = e.1
        · rw [hx, List.getElem?_set_self (List.getElem?_eq_some_iff.1 hc').1, hc']
          simp only [Option.map_some, Option.getD_some]
          omega
        · rw [List.getElem?_set_ne (Ne.symm hx)]
    have := this rest
    omega

end Verif
