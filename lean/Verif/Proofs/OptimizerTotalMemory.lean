import Verif.Proofs.OptimizerTotal

/-! The memory optimizer, the low-degree optimizer and the range constraint optimizer do not fail on
systems with a solution. -/

set_option linter.unusedSectionVars false

namespace Verif

open RangeConstraint GExpr

variable {p : ℕ} {V : Type} [LinearOrder V] [Fact p.Prime]

variable {bus : Bus p} {h : Handler p} {σ : V → ZMod p}

/-! ### Memory -/

theorem addressesDiffer_total (hs : h.Sound bus) (hn : NoPanic h) {a b : ZMod p × GExpr p V}
    (ha : WF a.2) (hb : WF b.2) {s : Solver p V} (hr : SolverReady bus h σ s) :
    ∃ d s', addressesDiffer h a b s = .ok (d, s') ∧ SolverReady bus h σ s' := by
  obtain ⟨o1, s1, h1, r1, -⟩ := hr.other hs hn (op := .knownDifferent (const a.1) (const b.1))
    ⟨wf_const _, wf_const _⟩ trivial (by simp) (by simp)
  obtain ⟨o2, s2, h2, r2, -⟩ := r1.other hs hn (op := .knownDifferent a.2 b.2) ⟨ha, hb⟩ trivial
    (by simp) (by simp)
  unfold addressesDiffer
  rw [h1, Solver.stop_bind]
  split
  · rename_i heq
    cases heq
    exact ⟨true, _, rfl, r1⟩
  · rename_i heq
    cases heq
    rw [h2, Solver.stop_bind]
    split
    · rename_i heq
      cases heq
      exact ⟨_, _, rfl, r2⟩
    · rename_i heq
      cases heq
      exact ⟨_, _, rfl, r2⟩

theorem retainDifferent_total (hs : h.Sound bus) (hn : NoPanic h) {a : ZMod p × GExpr p V}
    (ha : WF a.2) : ∀ {l : List ((ZMod p × GExpr p V) × MemContent p V)} {s : Solver p V},
    (∀ x ∈ l, WF x.1.2) → SolverReady bus h σ s →
    ∃ l' s', retainDifferent h a l s = .ok (l', s') ∧ SolverReady bus h σ s' := by
  intro l
  induction l with
  | nil => exact fun _ hr => ⟨[], _, rfl, hr⟩
  | cons x t ih =>
    intro s hw hr
    obtain ⟨b, c⟩ := x
    obtain ⟨d, s1, h1, r1⟩ := addressesDiffer_total hs hn ha (hw _ List.mem_cons_self) hr
    obtain ⟨l', s2, h2, r2⟩ := ih (fun x h => hw x (List.mem_cons_of_mem _ h)) r1
    refine ⟨if d then (b, c) :: l' else l', s2, ?_, r2⟩
    rw [retainDifferent, h1, Solver.stop_bind]
    simp only
    rw [h2, Solver.stop_bind]
    rfl

theorem memConversion_regular {id : ℕ} {size : ZMod p → ℕ} {b : BusInteraction (GExpr p V)}
    (hb : RegularBus (some id) size b) : (∃ r, memConversion id b = .ok r) ∧
      ∀ m, memConversion id b = .ok (.memory m) → m.data.length = size m.space := by
  obtain ⟨i, hi, hm⟩ := hb
  have hn : b.busId.tryToNumber = some i := by rw [hi]; rfl
  constructor
  · unfold memConversion
    rw [hn]
    simp only
    split
    · rename_i hid
      obtain ⟨space, pointer, data, ts, hp, -⟩ := hm id rfl hid
      split
      · exact ⟨_, rfl⟩
      · rw [hp]
        simp only [List.getLast?_append, List.getLast?_singleton, Option.some_or]
        exact ⟨_, rfl⟩
    · exact ⟨_, rfl⟩
  · intro m hc
    obtain ⟨h1, -, h3⟩ := memConversion_memory hc
    rw [hi] at h1
    obtain ⟨space, pointer, data, ts, hp, hl⟩ := hm id rfl (by simpa [const] using h1)
    rw [hp] at h3
    simp only [List.cons.injEq] at h3
    obtain ⟨e1, -, e3⟩ := h3
    have e1 : space = m.space := by simpa [const] using e1
    have e3 : data = m.data := (List.append_inj' e3 rfl).1
    rw [← e1, ← e3, hl]

theorem memoryStep_total (hs : h.Sound bus) (hn : NoPanic h) {id : ℕ} {size : ZMod p → ℕ}
    {bs : List (BusInteraction (GExpr p V))} (hw : ∀ b ∈ bs, b.WF)
    (hreg : ∀ b ∈ bs, RegularBus (some id) size b) {idx : ℕ} {st : MemState p V}
    (hi : LoopInv bus h (fun τ => τ = σ) id bs idx st) (hr : st.solver.toReturn = [])
    {b : BusInteraction (GExpr p V)} (hb : bs[idx]? = some b) :
    ∃ st', memoryStep h id idx b st = .ok st' ∧ st'.solver.toReturn = [] := by
  have hbm := List.mem_of_getElem? hb
  obtain ⟨⟨c, hc⟩, hl⟩ := memConversion_regular (hreg b hbm)
  unfold memoryStep
  rw [hc]
  simp only [liftPanic, Solver.stop_bind]
  cases c with
  | notMemory => exact ⟨_, rfl, hr⟩
  | unclear => exact ⟨_, rfl, hr⟩
  | memory m =>
    have hp := (memConversion_memory hc).2.2
    simp only
    cases hop : m.op with
    | getPrevious =>
      simp only
      cases hg : mapGet (m.space, m.pointer) st.contents with
      | none => exact ⟨_, rfl, hr⟩
      | some ex =>
        simp only
        obtain ⟨b', mi, h1, h2, -, h4, h5, -⟩ := (hi.entries _ (mapGet_mem hg)).int
        have h6 := (memConversion_regular (hreg b' (List.mem_of_getElem? h1))).2 mi h2
        simp only [Prod.mk.injEq] at h4
        rw [equalityConstraints, if_neg]
        · exact ⟨_, rfl, hr⟩
        · rw [not_not]
          simp only at h5
          rw [h5, h6, h4.1, hl m hc]
    | setNew =>
      simp only
      obtain ⟨l', s', h1, r1⟩ := retainDifferent_total hs hn (a := (m.space, m.pointer))
        (by
          refine hw b hbm _ ?_
          unfold BusInteraction.fields
          rw [hp]; simp)
        (l := st.contents) (s := st.solver)
        (fun x hx => by
          obtain ⟨b', mi, h1, h2, -, h4, -, -⟩ := (hi.entries x hx).int
          rw [← h4]
          refine hw b' (List.mem_of_getElem? h1) _ ?_
          unfold BusInteraction.fields
          rw [(memConversion_memory h2).2.2]; simp) ⟨hi.solver, hr⟩
      rw [h1, Solver.stop_bind]
      exact ⟨_, rfl, r1.ret⟩

theorem memoryLoop_total (hs : h.Sound bus) (hn : NoPanic h) {id : ℕ} {size : ZMod p → ℕ}
    {bs : List (BusInteraction (GExpr p V))} (hw : ∀ b ∈ bs, b.WF)
    (hreg : ∀ b ∈ bs, RegularBus (some id) size b) :
    ∀ {suf : List (BusInteraction (GExpr p V))} {idx : ℕ} {st : MemState p V},
    (∀ k, suf[k]? = bs[idx + k]?) → LoopInv bus h (fun τ => τ = σ) id bs idx st →
    st.solver.toReturn = [] →
    ∃ st', memoryLoop h id idx suf st = .ok st' ∧ st'.solver.toReturn = [] := by
  intro suf
  induction suf with
  | nil => exact fun _ _ hr => ⟨_, rfl, hr⟩
  | cons b t ih =>
    intro idx st hsuf hi hr
    have hb : bs[idx]? = some b := by have := hsuf 0; simpa using this.symm
    obtain ⟨st1, h1, r1⟩ := memoryStep_total hs hn hw hreg hi hr hb
    rw [memoryLoop, h1, Solver.stop_bind]
    exact ih (fun k => by
      have := hsuf (k + 1)
      rw [List.getElem?_cons_succ] at this
      rw [this]; congr 1; omega) (memoryStep_inv hs hw hi hb h1) r1

theorem optimizeMemory_total (hs : h.Sound bus) (hn : NoPanic h) {mid : Option ℕ}
    {size : ZMod p → ℕ} {s : ConstraintSystem p V} (hw : s.WF)
    (hreg : ∀ b ∈ s.bus, RegularBus mid size b) {m m' : Memory p}
    (hmem : ∀ id, mid = some id → s.UsesMemory id σ m m') {solver : Solver p V}
    (hr : SolverReady bus h σ solver) :
    ∃ s' solver', optimizeMemory h mid s solver = .ok (s', solver') ∧ solver'.toReturn = [] := by
  cases mid with
  | none => exact ⟨_, _, rfl, hr.ret⟩
  | some id =>
    have hi0 : LoopInv bus h (fun τ => τ = σ) id s.bus 0 ⟨[], [], [], solver⟩ :=
      ⟨hr.made, List.nodup_nil, by simp, ⟨[], rfl, rfl, by simp⟩, List.nodup_nil, by simp⟩
    obtain ⟨st, h1, r1⟩ := memoryLoop_total hs hn hw.2 hreg (suf := s.bus)
      (fun k => by rw [Nat.zero_add]) hi0 hr.ret
    have hi := memoryLoop_inv hs hw.2 (suf := s.bus) (fun k => by rw [Nat.zero_add]) hi0 h1
    obtain ⟨P, p1, p2, p3⟩ := hi.pairs
    have hr1 : SolverReady bus h σ st.solver := ⟨hi.solver, r1⟩
    obtain ⟨o, s2, h2, r2, -⟩ := hr1.other hs hn (op := .addAlgebraic st.newConstraints)
      (by rw [p2]; exact pairs_wf hw p3)
      (by rw [p2]; exact (run_without_pairs (A := fun τ => τ = σ) rfl p3 (hmem id rfl)).1)
      (by simp) (by simp)
    simp only [optimizeMemory, redundantMemoryInteractions]
    rw [h1, Solver.stop_bind, h2, Solver.stop_bind]
    exact ⟨_, _, rfl, r2.ret⟩

/-! ### Low-degree functions -/

theorem handleChecked_total (hs : h.Sound bus) (ht : h.Total) (r : BusInteraction (RangeConstraint p)) :
    ∃ o, handleChecked h r = .ok o ∧ ∀ r', o = .ok r' → r'.fields.length = r.fields.length := by
  obtain ⟨r', h1⟩ := ht r
  have hl := (hs r r' h1).1
  obtain ⟨o, ho⟩ : ∃ o, handleChecked h r = .ok o := by
    unfold handleChecked
    rw [h1]
    simp only [bind, Except.bind]
    rw [zipEq, if_pos (by simp [BusInteraction.fields, hl])]
    simp only
    split
    · exact ⟨_, rfl⟩
    · exact ⟨_, rfl⟩
  refine ⟨o, ho, ?_⟩
  rintro r' rfl
  exact (handleChecked_spec hs ho).1

theorem concreteOutput_total (hs : h.Sound bus) (ht : h.Total) {r : BusInteraction (RangeConstraint p)}
    {out : ℕ} (hout : out < r.payload.length) (a : List (ℕ × ZMod p)) :
    ∃ o, concreteOutput h r out a = .ok o := by
  obtain ⟨o, h1, h2⟩ := handleChecked_total hs ht { r with payload := setInputs r.payload a }
  unfold concreteOutput
  rw [h1]
  simp only [bind, Except.bind]
  cases o with
  | error _ => exact ⟨_, rfl⟩
  | ok r' =>
    have := h2 r' rfl
    simp only [BusInteraction.fields, List.length_cons, setInputs_length] at this
    simp only
    rw [List.getElem?_eq_getElem (by omega)]
    exact ⟨_, rfl⟩

theorem add_consts (a b : ZMod p) : add (const a) (const b) = (const (a + b) : GExpr p V) := by
  simp [add, const, GExpr.quadratic, GExpr.linear, GExpr.constant, combineRemovingZeros, combineLoop]

theorem sub_consts (a b : ZMod p) : sub (const a) (const b) = (const (a - b) : GExpr p V) := by
  have : GExpr.neg (const b) = (const (-b) : GExpr p V) := by simp [const, GExpr.neg, negQ]
  rw [sub, this, add_consts, sub_eq_add_neg]

theorem mul_consts (a b : ZMod p) : mul (const a) (const b) = (const (a * b) : GExpr p V) := by
  by_cases hb : b = 0
  · simp [mul, const, tryToKnown, scale, hb, zero]
  · simp [mul, const, tryToKnown, scale, scaleQ, hb, mul_comm]

theorem inputAt_consts (l : List (ℕ × ZMod p)) (i : ℕ) :
    ∃ k, inputAt (l.map fun x => (const x.2 : GExpr p V)) i = const k := by
  unfold inputAt
  by_cases hi : i < l.length
  · rw [List.getD_eq_getElem _ _ (by rwa [List.length_map]), List.getElem_map]
    exact ⟨_, rfl⟩
  · rw [List.getD_eq_default _ _ (by rw [List.length_map]; omega)]
    exact ⟨0, rfl⟩

theorem hypotheses_const {n : ℕ} {hyps : List (LowDegreeFunction p V)}
    (h : lowDegreeHypotheses n = .ok hyps) {g : LowDegreeFunction p V} (hg : g ∈ hyps)
    (l : List (ℕ × ZMod p)) : ∃ k, g (l.map fun x => const x.2) = const k := by
  obtain ⟨k0, h0⟩ := inputAt_consts (V := V) l 0
  obtain ⟨k1, h1⟩ := inputAt_consts (V := V) l 1
  unfold lowDegreeHypotheses at h
  split at h
  · cases h
    simp only [List.mem_cons, List.not_mem_nil, or_false] at hg
    rcases hg with rfl | rfl | rfl | rfl <;>
      exact ⟨_, by simp only [h0, sub_consts]; rfl⟩
  · cases h
    simp only [List.mem_cons, List.not_mem_nil, or_false] at hg
    rcases hg with rfl | rfl | rfl | rfl | rfl <;>
      exact ⟨_, by simp only [h0, h1, sub_consts, add_consts, mul_consts]; rfl⟩
  · cases h

theorem retainMatching_total {l : List (ℕ × ZMod p)} {y : ZMod p} :
    ∀ {hyps : List (LowDegreeFunction p V)},
    (∀ g ∈ hyps, ∃ k, g (l.map fun x => const x.2) = const k) →
    ∃ hyps', retainMatching (l.map fun x => const x.2) y hyps = .ok hyps' ∧ ∀ g ∈ hyps', g ∈ hyps := by
  intro hyps
  induction hyps with
  | nil => exact fun _ => ⟨[], rfl, by simp⟩
  | cons f t ih =>
    intro hg
    obtain ⟨k, hk⟩ := hg f List.mem_cons_self
    obtain ⟨t', h1, h2⟩ := ih fun g h => hg g (List.mem_cons_of_mem _ h)
    have hn : (f (l.map fun x => const x.2)).tryToNumber = some k := by rw [hk]; rfl
    rw [retainMatching, hn]
    simp only
    rw [h1]
    refine ⟨_, rfl, fun g hg => ?_⟩
    split at hg
    · rcases List.mem_cons.1 hg with rfl | hg
      · exact List.mem_cons_self
      · exact List.mem_cons_of_mem _ (h2 g hg)
    · exact List.mem_cons_of_mem _ (h2 g hg)

theorem testHypotheses_total (hs : h.Sound bus) (ht : h.Total) {r : BusInteraction (RangeConstraint p)}
    {out : ℕ} (hout : out < r.payload.length) :
    ∀ (as : List (List (ℕ × ZMod p))) {hyps : List (LowDegreeFunction p V)}, hyps ≠ [] →
    (∀ g ∈ hyps, ∀ l : List (ℕ × ZMod p), ∃ k, g (l.map fun x => const x.2) = const k) →
    ∃ o, testHypotheses h r out as hyps = .ok o ∧ o ≠ some [] := by
  intro as
  induction as with
  | nil => exact fun {hyps} hne _ => ⟨some hyps, rfl, by simpa using hne⟩
  | cons a t ih =>
    intro hyps hne hg
    obtain ⟨o, h1⟩ := concreteOutput_total hs ht hout a
    rw [testHypotheses, h1]
    simp only [bind, Except.bind]
    cases o with
    | none => exact ⟨_, rfl, by simp⟩
    | some y =>
      obtain ⟨hyps', h2, h3⟩ := retainMatching_total (l := a) (y := y) fun g h => hg g h a
      simp only
      rw [h2]
      simp only
      split
      · exact ⟨_, rfl, by simp⟩
      · rename_i he
        exact ih (by simpa using he) fun g h => hg g (h3 g h)

theorem inputValues_total : ∀ {xs : List (SymbolicField p V)}, (∀ x ∈ xs, x.range.width < 2 ^ 16) →
    ∃ l, inputValues xs = .ok l := by
  intro xs
  induction xs with
  | nil => exact fun _ => ⟨[], rfl⟩
  | cons x t ih =>
    intro hx
    obtain ⟨l, h1⟩ := allowedValues_isSome (r := x.range)
      (lt_of_lt_of_le (hx x List.mem_cons_self) (by norm_num))
    obtain ⟨r, h2⟩ := ih fun y h => hx y (List.mem_cons_of_mem _ h)
    rw [inputValues, h1]
    simp only
    rw [h2]
    exact ⟨_, rfl⟩

theorem hypotheses_total {solver : Solver p V} {b : BusInteraction (GExpr p V)}
    {f : SymbolicFunction p V} (hf : f ∈ functionCandidates solver b) :
    ∃ hyps, lowDegreeHypotheses (p := p) (V := V) f.inputs.length = .ok hyps ∧ hyps ≠ [] := by
  have := (List.mem_filter.1 hf).1
  unfold symbolicFunctions at this
  split at this
  · simp only [List.mem_cons, List.not_mem_nil, or_false] at this
    rcases this with rfl | rfl <;> exact ⟨_, rfl, by simp⟩
  · simp only [List.mem_cons, List.not_mem_nil, or_false] at this
    rcases this with rfl | rfl | rfl | rfl | rfl | rfl <;> exact ⟨_, rfl, by simp⟩
  · cases this

theorem findLowDegreeFunction_total (hs : h.Sound bus) (ht : h.Total) {solver : Solver p V}
    {b : BusInteraction (GExpr p V)} (ha : ¬ AmbiguousFunction h solver b)
    {f : SymbolicFunction p V} (hf : f ∈ functionCandidates solver b) :
    ∃ o, findLowDegreeFunction h solver b f = .ok o := by
  have hff := functionCandidates_for hf
  obtain ⟨hyps, h1, hne⟩ := hypotheses_total hf
  obtain ⟨values, h2⟩ := inputValues_total hff.small
  have hout : f.output.index < (toRangeConstraints solver.get b).payload.length := by
    have := (List.getElem?_eq_some_iff.1 hff.out).1
    simpa [toRangeConstraints, BusInteraction.map] using this
  obtain ⟨o, h3, h4⟩ := testHypotheses_total (V := V) hs ht hout (cartesian values) hne
    fun g hg l => hypotheses_const h1 hg l
  unfold findLowDegreeFunction
  rw [h1, h2]
  simp only [bind, Except.bind]
  rw [h3]
  simp only
  cases o with
  | none => exact ⟨_, rfl⟩
  | some l =>
    match l with
    | [] => exact absurd rfl h4
    | [g] => exact ⟨_, rfl⟩
    | g :: g' :: t => exact absurd ⟨f, hf, hyps, values, _, h1, h2, h3, by simp⟩ ha

theorem firstReplacement_total (hs : h.Sound bus) (ht : h.Total) {solver : Solver p V}
    {bound : DegreeBound} {b : BusInteraction (GExpr p V)} (ha : ¬ AmbiguousFunction h solver b) :
    ∀ {fs : List (SymbolicFunction p V)}, (∀ f ∈ fs, f ∈ functionCandidates solver b) →
    ∃ o, firstReplacement h bound solver b fs = .ok o := by
  intro fs
  induction fs with
  | nil => exact fun _ => ⟨none, rfl⟩
  | cons f t ih =>
    intro hf
    obtain ⟨o, h1⟩ := findLowDegreeFunction_total hs ht ha (hf f List.mem_cons_self)
    obtain ⟨o', h2⟩ := ih fun g h => hf g (List.mem_cons_of_mem _ h)
    obtain ⟨r, h3⟩ : ∃ r, tryFunction h bound solver b f = .ok r := by
      unfold tryFunction
      rw [h1]
      simp only [bind, Except.bind]
      cases o with
      | none => exact ⟨_, rfl⟩
      | some g =>
        simp only
        split
        · exact ⟨_, rfl⟩
        · exact ⟨_, rfl⟩
    rw [firstReplacement, h3]
    simp only [bind, Except.bind]
    cases r with
    | some r => exact ⟨_, rfl⟩
    | none => exact ⟨o', h2⟩

theorem lowDegreeLoop_total (hs : h.Sound bus) (ht : h.Total) {rh : RangeHandler p V}
    (hmake : ∀ rcs, ∃ r, rh.make rcs = .ok r) {f : ZMod p → Bool} {bound : DegreeBound}
    {solver : Solver p V} : ∀ {bs : List (BusInteraction (GExpr p V))},
    (∀ b ∈ bs, ∀ id, b.busId = const id → f id = false → ¬ AmbiguousFunction h solver b) →
    ∃ o, lowDegreeLoop h rh f bound solver bs = .ok o := by
  intro bs
  induction bs with
  | nil => exact fun _ => ⟨_, rfl⟩
  | cons b t ih =>
    intro ha
    obtain ⟨o, h1⟩ := ih fun b h => ha b (List.mem_cons_of_mem _ h)
    obtain ⟨r, h2⟩ : ∃ r, tryReplaceBus h f bound solver b = .ok r := by
      unfold tryReplaceBus
      split
      · exact ⟨_, rfl⟩
      · rename_i id hid
        split
        · exact ⟨_, rfl⟩
        · rename_i hf
          exact firstReplacement_total hs ht (ha b List.mem_cons_self id (tryToNumber_eq hid)
            (by simpa using hf)) fun _ h => h
    rw [lowDegreeLoop, h2]
    simp only [bind, Except.bind]
    cases r with
    | none =>
      simp only
      rw [h1]
      exact ⟨_, rfl⟩
    | some r =>
      obtain ⟨made, h3⟩ := hmake r.ranges
      simp only
      rw [h3, h1]
      exact ⟨_, rfl⟩

theorem lowDegreeOptimize_total (hs : h.Sound bus) (hn : NoPanic h) {rh : RangeHandler p V}
    {f : ZMod p → Bool} (hrh : rh.MakesExactly bus f)
    (hmake : ∀ rcs, ∃ r, rh.make rcs = .ok r) {bound : DegreeBound} {solver : Solver p V}
    (hr : SolverReady bus h σ solver) {s : ConstraintSystem p V} (hw : s.WF)
    (hσ : s.Satisfied bus σ)
    (ha : ∀ b ∈ s.bus, ∀ id, b.busId = const id → f id = false → ¬ AmbiguousFunction h solver b) :
    ∃ r, lowDegreeOptimize h rh f bound s solver = .ok r := by
  obtain ⟨o, h1⟩ := lowDegreeLoop_total hs hn.total hmake (f := f) (bound := bound) ha
  obtain ⟨out, s', h2, -⟩ := hr.other hs hn (op := .addAlgebraic o.2)
    (lowDegreeLoop_wf hrh h1 hw.2).2
    (lowDegreeLoop_complete hs hrh hr.made rfl h1 hw.2 hσ.bus).2 (by simp) (by simp)
  unfold lowDegreeOptimize
  rw [h1]
  simp only [liftPanic, Solver.stop_bind]
  rw [h2]
  exact ⟨_, rfl⟩

theorem lowDegreeOptimize_ready (hs : h.Sound bus) {rh : RangeHandler p V}
    {f : ZMod p → Bool} (hrh : rh.MakesExactly bus f) {bound : DegreeBound} {solver solver' : Solver p V}
    (hr : SolverReady bus h σ solver) {s s' : ConstraintSystem p V} (hw : s.WF)
    (hσ : s.Satisfied bus σ) (ho : lowDegreeOptimize h rh f bound s solver = .ok (s', solver')) :
    SolverReady bus h σ solver' := by
  obtain ⟨r, out, h1, h2, -⟩ := lowDegreeOptimize_ok ho
  exact (hr.after hs (op := .addAlgebraic r.2) (lowDegreeLoop_wf hrh h1 hw.2).2
    (lowDegreeLoop_complete hs hrh hr.made rfl h1 hw.2 hσ.bus).2 (by simp) h2).1

/-! ### Range constraints -/

theorem collectPure_total {rh : RangeHandler p V} (hp : ∀ b, ∃ r, rh.pure b = .ok r) :
    ∀ bs : List (BusInteraction (GExpr p V)), ∃ r, collectPure rh bs = .ok r := by
  intro bs
  induction bs with
  | nil => exact ⟨_, rfl⟩
  | cons b t ih =>
    obtain ⟨r, h1⟩ := ih
    obtain ⟨o, h2⟩ := hp b
    rw [collectPure, h1, h2]
    simp only [bind, Except.bind]
    split
    · exact ⟨_, rfl⟩
    · cases o with
      | none => exact ⟨_, rfl⟩
      | some _ => exact ⟨_, rfl⟩

theorem optimizeRangeConstraints_total (hs : h.Sound bus) (hn : NoPanic h) {rh : RangeHandler p V}
    (hp : ∀ b, ∃ r, rh.pure b = .ok r) (hmake : ∀ rcs, ∃ r, rh.make rcs = .ok r)
    (hone : ∀ rcs made, rh.make rcs = .ok (some made) → ∀ b ∈ made, b.multiplicity = const 1)
    {bound : DegreeBound} {s : ConstraintSystem p V} (hw : s.WF) (hσ : s.Satisfied bus σ)
    (hno : ¬ ∃ kept rcs wanted, collectPure rh s.bus = .ok (kept, rcs) ∧
      (∀ x ∈ wanted, x ∈ mergeRanges rcs) ∧ rh.make wanted = .ok none) :
    ∃ N, ∀ ch : Choices p V, N ≤ ch.fuel → ∃ r, optimizeRangeConstraints h rh ch bound s = .ok r := by
  obtain ⟨⟨kept, rcs⟩, h1⟩ := collectPure_total hp s.bus
  have hsub := (collectPure_spec h1).1
  obtain ⟨solver, h2, r2⟩ := newSolver_ready (σ := σ) hs hn (s := { s with bus := kept })
    ⟨hw.1, fun b hb => hw.2 b (hsub b hb)⟩ ⟨hσ.algebraic, fun b hb => hσ.bus b (hsub b hb)⟩
  obtain ⟨N, hN⟩ := r2.solve hs hn
  refine ⟨N, fun ch hch => ?_⟩
  obtain ⟨l, s', h3, -⟩ := hN ch hch
  unfold optimizeRangeConstraints
  rw [h1]
  simp only [liftPanic, Solver.stop_bind]
  have h4 : solvedSolver h ch { s with bus := kept } = .ok s' := by
    unfold solvedSolver
    rw [h2, Solver.stop_bind, h3]
    rfl
  rw [h4]
  simp only [Solver.stop_bind]
  obtain ⟨o, h5⟩ := hmake
    (((mergeRanges rcs).filter (rangeNeeded s')).filter fun x => !asBit bound x)
  rw [h5]
  simp only [Solver.stop_bind]
  cases o with
  | none =>
    exact absurd ⟨kept, rcs, _, h1,
      fun x hx => (List.mem_filter.1 (List.mem_filter.1 hx).1).1, h5⟩ hno
  | some made =>
    simp only
    rw [if_pos]
    · exact ⟨_, rfl⟩
    · rw [List.all_eq_true]
      intro b hb
      rw [hone _ _ h5 b hb]
      simp only [decide_eq_true_eq]
      rfl

end Verif
