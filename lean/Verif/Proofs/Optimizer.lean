import Verif.Spec.Optimizer
import Verif.Proofs.RuleDriverMessages
import Verif.Props.LowDegree
import Verif.Props.Memory
import Verif.Props.OpenVm
import Verif.Props.ConstraintOptimizer
import Verif.Props.Inliner
import Verif.Props.RuleDriver

/-! Proofs about the optimizer as a whole. -/

set_option linter.unusedSectionVars false

namespace Verif

open GExpr

variable {p : ℕ} {V : Type} [LinearOrder V] [Fact p.Prime]

/-! ### Messages, memory and balance -/

theorem messages_and (f g : ZMod p → Bool) (s : ConstraintSystem p V) (σ : V → ZMod p) :
    s.messages (fun id => f id && g id) σ = (s.messages f σ).filter fun b => g b.busId := by
  unfold ConstraintSystem.messages
  rw [List.filter_filter]
  apply List.filter_congr
  intro b _
  simp only
  cases f b.busId <;> cases g b.busId <;> rfl

theorem memoryRun_filter {id : ZMod p} {q : BusInteraction (ZMod p) → Bool} :
    ∀ {l : List (BusInteraction (ZMod p))} {m m' : Memory p},
      (∀ b ∈ l, q b = false → b.busId ≠ id ∨ b.multiplicity = 0) →
      (MemoryRun id l m m' ↔ MemoryRun id (l.filter q) m m')
  | [], _, _, _ => Iff.rfl
  | b :: t, m, m', h => by
    have ih := fun m1 : Memory p => memoryRun_filter (l := t) (m := m1) (m' := m')
      fun c hc => h c (List.mem_cons_of_mem _ hc)
    rw [List.filter_cons]
    cases hq : q b with
    | true =>
      simp only [if_true, MemoryRun, ih]
    | false =>
      simp only [Bool.false_eq_true, if_false, MemoryRun]
      have hb := h b List.mem_cons_self hq
      rw [← ih m]
      constructor
      · rintro ⟨m1, h1, h2⟩
        rwa [h1.1 hb] at h2
      · intro h2
        refine ⟨m, ⟨fun _ => rfl, fun space pointer data timestamp h3 _ => ?_⟩, h2⟩
        have h0 : b.multiplicity = 0 := hb.resolve_left (fun h => h h3)
        rw [h0]
        exact ⟨fun h => absurd h zero_ne_one, fun h => absurd h.symm (neg_ne_zero.2 one_ne_zero)⟩

theorem usesMemory_messages {f : ZMod p → Bool} {id : ℕ} (hf : f id = true)
    (s : ConstraintSystem p V) (σ : V → ZMod p) (m m' : Memory p) :
    s.UsesMemory id σ m m' ↔ MemoryRun (id : ZMod p) (s.messages f σ) m m' := by
  unfold ConstraintSystem.UsesMemory ConstraintSystem.messages
  apply memoryRun_filter
  intro b _ hb
  by_contra hc
  rw [not_or, not_not] at hc
  rw [hc.1, hf] at hb
  simp [hc.2] at hb

theorem busBalance_messages {f : ZMod p → Bool} {id : ZMod p} (hf : f id = true)
    (s : ConstraintSystem p V) (σ : V → ZMod p) (message : List (ZMod p)) :
    busBalance σ s.bus id message = ((s.messages f σ).map fun b =>
      if b.busId = id ∧ b.payload = message then b.multiplicity else 0).sum := by
  unfold busBalance ConstraintSystem.messages
  generalize s.bus = l
  induction l with
  | nil => rfl
  | cons b t ih =>
    rw [List.map_cons, List.sum_cons, List.map_cons, List.filter_cons, ih]
    by_cases h : (f (b.evalAt σ).busId && decide ((b.evalAt σ).multiplicity ≠ 0)) = true
    · rw [if_pos h, List.map_cons, List.sum_cons]
    · rw [if_neg h]
      split
      · rename_i hb
        rw [hb.1, hf] at h
        have h0 : (b.evalAt σ).multiplicity = 0 := by simpa using h
        rw [h0, zero_add]
      · rw [zero_add]

theorem sameBalance_of_messages {f : ZMod p → Bool} {s s' : ConstraintSystem p V}
    {σ σ' : V → ZMod p} (h : s.messages f σ = s'.messages f σ') : SameBalance f s σ s' σ' := by
  intro id hid message
  rw [busBalance_messages hid, busBalance_messages hid, h]

/-! ### Completeness -/

/-- What holds after each pass: the executions in `A` of the original system are executions of the
current system with the same memory and the same messages on other stateful buses. -/
structure Stage (c : OptimizerConfig p V) (bus : Bus p) (A : (V → ZMod p) → Prop) (m m' : Memory p)
    (s0 s : ConstraintSystem p V) : Prop where
  wf : s.WF
  sat : ∀ σ, A σ → s.Satisfied bus σ
  memory : ∀ σ, A σ → ∀ id, c.memoryBusId = some id → s.UsesMemory id σ m m'
  messages : ∀ σ, A σ → s.messages c.otherStateful σ = s0.messages c.otherStateful σ
  derived : ∀ σ, A σ → DerivedGood σ s.derived

theorem messages_other {c : OptimizerConfig p V} {s s' : ConstraintSystem p V} {σ τ : V → ZMod p}
    (h : s.messages c.isStateful σ = s'.messages c.isStateful τ) :
    s.messages c.otherStateful σ = s'.messages c.otherStateful τ := by
  unfold OptimizerConfig.otherStateful
  rw [messages_and, messages_and, h]

theorem Stage.next {c : OptimizerConfig p V} {bus : Bus p} (hc : c.Correct bus)
    {A : (V → ZMod p) → Prop} {m m' : Memory p} {s0 s s' : ConstraintSystem p V}
    (h : Stage c bus A m m' s0 s) (hw : s'.WF) (hsat : ∀ σ, A σ → s'.Satisfied bus σ)
    (hm : ∀ σ, A σ → s'.messages c.isStateful σ = s.messages c.isStateful σ)
    (hd : ∀ σ, A σ → DerivedGood σ s.derived → DerivedGood σ s'.derived) :
    Stage c bus A m m' s0 s' := by
  refine ⟨hw, hsat, fun σ hσ id hid => ?_, fun σ hσ => ?_, fun σ hσ => hd σ hσ (h.derived σ hσ)⟩
  · have := h.memory σ hσ id hid
    rw [usesMemory_messages (hc.memory id hid)] at this ⊢
    rwa [hm σ hσ]
  · rw [messages_other (hm σ hσ), h.messages σ hσ]

/-- The part of the system that is kept consists of constraints of the system. -/
theorem wf_removed {s : ConstraintSystem p V} (hw : s.WF) {q : GExpr p V → Bool}
    {q' : BusInteraction (GExpr p V) → Bool} {d : List (DerivedVariable p V)} :
    (⟨s.algebraic.filter q, s.bus.filter q', d⟩ : ConstraintSystem p V).WF :=
  wf_sublist hw (fun _ he => (List.mem_filter.1 he).1) (fun _ he => (List.mem_filter.1 he).1) _

theorem assignments_wf_applyAction {st : DriverState p V} (h : ∀ a ∈ st.assignments, WF a.2)
    (a : RuleAction p V) : ∀ x ∈ (applyAction st a).assignments, WF x.2 := by
  have key : ∀ (v : V) (e : GExpr p V), WF e → ∀ x ∈ st.assignments ++ [(v, e)], WF x.2 := by
    intro v e he x hx
    rcases List.mem_append.1 hx with hx | hx
    · exact h x hx
    · rw [List.mem_singleton.1 hx]
      exact he
  cases a with
  | updateRange v rc =>
    simp only [applyAction]
    split
    · split
      · exact key _ _ (wf_const _)
      · exact h
    · exact h
  | substituteByConstant v k => exact key _ _ (wf_const _)
  | substituteByVariable v w => exact key _ _ (wf_var _)

theorem assignments_wf_foldl {st : DriverState p V} (h : ∀ a ∈ st.assignments, WF a.2)
    (as : List (RuleAction p V)) : ∀ x ∈ (as.foldl applyAction st).assignments, WF x.2 := by
  induction as generalizing st with
  | nil => exact h
  | cons a t ih => exact ih (assignments_wf_applyAction h a)

theorem assignments_wf_run {rc : V → RangeConstraint p} {h : Handler p}
    {lt : GExpr p V → GExpr p V → Prop} {intBits : ℕ} {bound : Option DegreeBound}
    {ok : RuleInput p V → ConstraintSystem p V → ConstraintSystem p V → Prop} {st st' : DriverState p V}
    (h0 : ∀ a ∈ st.assignments, WF a.2) {news : List (DerivedVariable p V)}
    (run : DriverRun rc h lt intBits bound ok st st' news) : ∀ a ∈ st'.assignments, WF a.2 := by
  induction run with
  | refl => exact h0
  | round run new inp hinp hnew actions hactions rs hrs hok ih => exact assignments_wf_foldl ih actions

theorem finish_wf {st : DriverState p V} (h : st.system.WF) : st.finish.system.WF :=
  ⟨fun e he => h.1 e (List.mem_filter.1 he).1, h.2⟩

theorem finish_messages (f : ZMod p → Bool) (st : DriverState p V) (σ : V → ZMod p) :
    st.finish.system.messages f σ = st.system.messages f σ := rfl

theorem get_allows {bus : Bus p} {h : Handler p} (hs : h.Sound bus)
    {A : (V → ZMod p) → Prop} {s : Solver p V} (hm : s.MadeFor bus h A) {σ : V → ZMod p}
    (hσ : A σ) (v : V) : (s.get v).allowsValue (σ v) = true :=
  (RangeConstraint.allowsValue_iff _ _).2 ((hm.queries hs hσ).1 v)

/-- A run of the rules. -/
theorem Stage.rules [Fintype V] (hV : Fintype.card V ≤ p) {c : OptimizerConfig p V} {bus : Bus p}
    (hc : c.Correct bus) {A : (V → ZMod p) → Prop} {m m' : Memory p} {s0 s : ConstraintSystem p V}
    (h : Stage c bus A m m' s0 s) {solver : Solver p V} (hm : solver.MadeFor bus c.handler A)
    {ok : RuleInput p V → ConstraintSystem p V → ConstraintSystem p V → Prop}
    (hcmp : ∀ σ, A σ → ComparisonsRight σ ok)
    {lt : GExpr p V → GExpr p V → Prop} {bound : Option DegreeBound} {st : DriverState p V}
    {news : List (DerivedVariable p V)}
    (run : DriverRun solver.get c.handler lt c.intBits bound ok (driverStart solver.get s) st news)
    (hnews : ∀ σ, A σ → ∀ d ∈ news, d.Computed σ) :
    Stage c bus A m m' s0 st.finish.system ∧
      ∀ σ, A σ → ∀ a ∈ st.finish.assignments, σ a.1 = eval σ a.2 := by
  have key := fun σ (hσ : A σ) => C57_keeps_solution hV hc.integers h.wf hc.handler
    (get_allows hc.handler hm hσ) (hcmp σ hσ) run (hnews σ hσ) (h.sat σ hσ)
  refine ⟨h.next hc ?_ (fun σ hσ => (key σ hσ).1) (fun σ hσ => ?_) fun σ hσ hd => ?_,
    fun σ hσ => (key σ hσ).2.1⟩
  · exact finish_wf (wf_of_run (st := driverStart solver.get s) h.wf run)
  · rw [finish_messages]
    exact messages_of_sent (sent_of_run (st := driverStart solver.get s) h.wf run
      (key σ hσ).2.1).1 _
  · exact derivedGood_of_run (st := driverStart solver.get s) (st' := st) h.wf run (hnews σ hσ) hd
      (key σ hσ).2.1

theorem optimizeMemory_wf {bus : Bus p} {h : Handler p} (hs : h.Sound bus)
    {A : (V → ZMod p) → Prop} {id : ℕ} {s s' : ConstraintSystem p V} {solver solver' : Solver p V}
    (hw : s.WF) (hm : solver.MadeFor bus h A)
    (hr : optimizeMemory h (some id) s solver = .ok (s', solver')) : s'.WF := by
  obtain ⟨P, -, hP, -, -, -, rfl⟩ := optimizeMemory_ok hs hw hm hr
  refine ⟨fun e he => ?_, fun b hb => ?_⟩
  · rcases List.mem_append.1 he with he | he
    · exact hw.1 e he
    · exact pairs_wf hw hP e he
  · obtain ⟨x, hx, rfl⟩ := List.mem_map.1 hb
    exact hw.2 _ ((List.mem_zipIdx' (List.mem_filter.1 hx).1).2 ▸ List.getElem_mem _)

/-- Only interactions whose bus is the constant memory bus are removed. -/
theorem optimizeMemory_messages {bus : Bus p} {h : Handler p} (hs : h.Sound bus)
    {A : (V → ZMod p) → Prop} {id : ℕ} {s s' : ConstraintSystem p V} {solver solver' : Solver p V}
    (hw : s.WF) (hm : solver.MadeFor bus h A)
    (hr : optimizeMemory h (some id) s solver = .ok (s', solver')) :
    (∀ b ∈ s.bus, b ∈ s'.bus ∨ b.busId = const (id : ZMod p)) ∧
    ∀ (f : ZMod p → Bool) (σ : V → ZMod p), f id = false → s'.messages f σ = s.messages f σ := by
  obtain ⟨P, -, hP, hn, -, -, rfl⟩ := optimizeMemory_ok hs hw hm hr
  have hid : ∀ k b, k ∈ P.flatMap MemPair.indices → s.bus[k]? = some b →
      b.busId = const (id : ZMod p) := by
    intro k b hk hb
    obtain ⟨x, hx, hk⟩ := List.mem_flatMap.1 hk
    simp only [MemPair.indices, List.mem_cons, List.not_mem_nil, or_false] at hk
    rcases hk with rfl | rfl
    · obtain ⟨c, c1, c2⟩ := (hP x hx).get
      rw [hb] at c1; cases c1
      exact (memConversion_memory c2).1
    · obtain ⟨c, c1, c2⟩ := (hP x hx).set
      rw [hb] at c1; cases c1
      exact (memConversion_memory c2).1
  have hf := fun (q : BusInteraction (GExpr p V) → Bool)
      (hq : ∀ b, b.busId = const (id : ZMod p) → q b = false) =>
    filter_removed (R := P.flatMap MemPair.indices) q s.bus 0 fun k b hk hb =>
      hq b (hid k b (by rwa [Nat.add_zero] at hk) hb)
  refine ⟨fun b hb => ?_, fun f σ hfid => ?_⟩
  · by_contra hc
    rw [not_or] at hc
    have := hf (fun b' => decide (b' = b)) (fun b' hb' => by
      rw [decide_eq_false_iff_not]
      rintro rfl
      exact hc.2 hb')
    have hmem : b ∈ s.bus.filter fun b' => decide (b' = b) := List.mem_filter.2 ⟨hb, by simp⟩
    rw [← this] at hmem
    exact hc.1 (List.mem_filter.1 hmem).1
  · unfold ConstraintSystem.messages
    simp only
    rw [List.filter_map (l := s.bus), List.filter_map]
    congr 1
    apply hf
    intro b hb
    simp [BusInteraction.evalAt, hb, eval_const, hfid]

theorem Stage.memoryPass {c : OptimizerConfig p V} {bus : Bus p}
    (hc : c.Correct bus) {A : (V → ZMod p) → Prop} {m m' : Memory p} {s0 s s' : ConstraintSystem p V}
    (h : Stage c bus A m m' s0 s) {solver solver' : Solver p V}
    (hm : solver.MadeFor bus c.handler A)
    (hr : optimizeMemory c.handler c.memoryBusId s solver = .ok (s', solver')) :
    Stage c bus A m m' s0 s' ∧ solver'.MadeFor bus c.handler A := by
  cases hid : c.memoryBusId with
  | none =>
    rw [hid, C35_no_memory_bus] at hr
    cases hr
    exact ⟨h, hm⟩
  | some id =>
    rw [hid] at hr
    have hv := fun σ (hσ : A σ) => C35_valid_executions bus c.handler hc.handler A id s s' solver
      solver' h.wf hm hr σ hσ m m' (h.memory σ hσ id hid)
    refine ⟨⟨optimizeMemory_wf hc.handler h.wf hm hr, fun σ hσ => (hv σ hσ).2 (h.sat σ hσ),
      fun σ hσ id' hid' => ?_, fun σ hσ => ?_, fun σ hσ => ?_⟩, ?_⟩
    · rw [hid] at hid'
      cases hid'
      exact (hv σ hσ).1
    · rw [← h.messages σ hσ]
      refine (optimizeMemory_messages hc.handler h.wf hm hr).2 _ σ ?_
      simp [OptimizerConfig.otherStateful, hid]
    · obtain ⟨P, -, -, -, -, -, rfl⟩ := optimizeMemory_ok hc.handler h.wf hm hr
      exact h.derived σ hσ
    · exact (C35_solver bus c.handler hc.handler A id s s' solver solver' h.wf hm hr).mono
        fun σ hσ => ⟨hσ, m, m', h.memory σ hσ id hid⟩

/-! ### Range constraints -/

theorem collectPure_messages {c : OptimizerConfig p V} {bus : Bus p} (hc : c.Correct bus)
    (σ : V → ZMod p) : ∀ {bs kept : List (BusInteraction (GExpr p V))} {rcs : RangeConstraints p V},
    collectPure c.rangeHandler bs = .ok (kept, rcs) →
    (kept.map (BusInteraction.evalAt σ)).filter
        (fun m => c.isStateful m.busId && decide (m.multiplicity ≠ 0)) =
      (bs.map (BusInteraction.evalAt σ)).filter
        (fun m => c.isStateful m.busId && decide (m.multiplicity ≠ 0))
  | [], kept, rcs, h => by cases h; rfl
  | b :: t, kept, rcs, h => by
    rw [collectPure] at h
    cases hr : collectPure c.rangeHandler t with
    | error x =>
      rw [hr] at h
      exfalso
      split at h
      · cases h
      · cases hp : c.rangeHandler.pure b with
        | error y => rw [hp] at h; cases h
        | ok o => rw [hp] at h; cases o <;> cases h
    | ok r =>
      have ih := collectPure_messages hc σ (rcs := r.2) hr
      rw [hr] at h
      split at h
      · cases h
        simp only [List.map_cons, List.filter_cons, ih]
      · cases hp : c.rangeHandler.pure b with
        | error y => rw [hp] at h; cases h
        | ok o =>
          rw [hp] at h
          cases o with
          | none =>
            cases h
            simp only [List.map_cons, List.filter_cons, ih]
          | some x =>
            cases h
            obtain ⟨id, hid, hf⟩ := hc.lookups b x hp
            have : c.isStateful (b.evalAt σ).busId = false := by
              simp [BusInteraction.evalAt, hid, eval_const, hf]
            simp only [List.map_cons, List.filter_cons, ih, this, Bool.false_and,
              Bool.false_eq_true, if_false]

theorem rangeConstraints_messages {c : OptimizerConfig p V} {bus : Bus p} (hc : c.Correct bus)
    {ch : Choices p V} {s s' : ConstraintSystem p V}
    (ho : optimizeRangeConstraints c.handler c.rangeHandler ch c.bound s = .ok s')
    (σ : V → ZMod p) : s'.messages c.isStateful σ = s.messages c.isStateful σ := by
  obtain ⟨kept, rcs, solver, made, h1, -, h3, -, rfl⟩ := optimizeRangeConstraints_ok ho
  unfold ConstraintSystem.messages
  simp only
  rw [List.map_append, List.filter_append, collectPure_messages hc σ h1]
  convert List.append_nil _
  rw [List.filter_eq_nil_iff]
  intro b hb
  obtain ⟨b, hb', rfl⟩ := List.mem_map.1 hb
  obtain ⟨id, hid, hf⟩ := hc.makes.stateless _ _ h3 b hb'
  simp [BusInteraction.evalAt, hid, eval_const, hf]

theorem rangeConstraints_wf {c : OptimizerConfig p V} {bus : Bus p} (hc : c.Correct bus)
    {ch : Choices p V} {s s' : ConstraintSystem p V} {w : ℕ} (he : c.rangeHandler.Exact bus w s.bus)
    (hw : s.WF) (ho : optimizeRangeConstraints c.handler c.rangeHandler ch c.bound s = .ok s') :
    s'.WF := by
  obtain ⟨kept, rcs, solver, made, h1, -, h3, -, rfl⟩ := optimizeRangeConstraints_ok ho
  obtain ⟨c1, c2, c3⟩ := collectPure_spec h1
  have hwf : ∀ x ∈ mergeRanges rcs, WF x.1 := by
    intro x hx
    obtain ⟨e, he', rfl⟩ := List.mem_map.1 hx
    obtain ⟨x, hx', rfl⟩ := List.mem_map.1 (List.mem_dedup.1 (List.mem_reverse.1 he')
      |> List.mem_reverse.1)
    obtain ⟨b, hb, hm, r, hp, hxr⟩ := c3 x hx'
    exact hw.2 b hb _ (List.mem_cons_of_mem _ (List.mem_cons_of_mem _
      (he.shape b hb hm r hp x hxr).1))
  refine ⟨fun e he => ?_, fun b hb => ?_⟩
  · rcases List.mem_append.1 he with he | he
    · exact hw.1 e he
    · obtain ⟨x, hx, rfl⟩ := List.mem_map.1 he
      have := hwf x (List.mem_filter.1 (List.mem_filter.1 hx).1).1
      exact wf_mul this (wf_sub this (wf_const _))
  · rcases List.mem_append.1 hb with hb | hb
    · exact hw.2 b (c1 b hb)
    · exact hc.makes.wf _ _ (fun x hx => hwf x (List.mem_filter.1 (List.mem_filter.1 hx).1).1) h3 b hb

theorem rangeConstraints_derived {h : Handler p} {rh : RangeHandler p V} {bound : DegreeBound}
    {ch : Choices p V} {s s' : ConstraintSystem p V}
    (ho : optimizeRangeConstraints h rh ch bound s = .ok s') : s'.derived = s.derived := by
  obtain ⟨kept, rcs, solver, made, -, -, -, -, rfl⟩ := optimizeRangeConstraints_ok ho
  rfl

theorem lowDegree_derived {h : Handler p} {rh : RangeHandler p V} {isStateful : ZMod p → Bool}
    {bound : DegreeBound} {s s' : ConstraintSystem p V} {solver solver' : Solver p V}
    (ho : lowDegreeOptimize h rh isStateful bound s solver = .ok (s', solver')) :
    s'.derived = s.derived := by
  unfold lowDegreeOptimize at ho
  rw [Except.bind_ok_iff] at ho
  obtain ⟨r, -, ho⟩ := ho
  rw [Except.bind_ok_iff] at ho
  obtain ⟨o, -, ho⟩ := ho
  cases ho
  rfl

theorem trivialSimplifications_derived {f : ZMod p → Bool} {s s' : ConstraintSystem p V} (hw : s.WF)
    (h : trivialSimplifications f s = .ok s') {σ : V → ZMod p} (hd : DerivedGood σ s.derived) :
    DerivedGood σ s'.derived := by
  unfold trivialSimplifications at h
  simp only at h
  rw [Except.bind_ok_iff] at h
  obtain ⟨s1, h1, h⟩ := h
  cases h
  have hw0 : (removeEqualBus f (removeTrivial s)).WF :=
    wf_sublist hw (fun e he => (List.mem_filter.1 he).1)
      (fun x hx => (List.mem_filter.1 ((retainUnseen_sublist f _ _).subset hx)).1) _
  obtain ⟨-, -, e, -⟩ := removeRedundant_spec h1 hw0
  intro d hd'
  have := (List.mem_filter.1 hd').1
  rw [e] at this
  exact hd d this

/-! ### A round -/

theorem IndexOf.eq {s : ConstraintSystem p V} (i : IndexOf s) : i.ix.sys = s := i.sys

/-- The systems and solvers after the passes of a round. -/
theorem ConstraintRound.stages [Fintype V] (hV : Fintype.card V ≤ p) {c : OptimizerConfig p V}
    {bus : Bus p} (hc : c.Correct bus) {A : (V → ZMod p) → Prop} {m m' : Memory p}
    {s0 s s' : ConstraintSystem p V} (h : Stage c bus A m m' s0 s) {solver solver' : Solver p V}
    (hm : solver.MadeFor bus c.handler A)
    {ok : RuleInput p V → ConstraintSystem p V → ConstraintSystem p V → Prop}
    (hcmp : ∀ σ, A σ → ComparisonsRight σ ok)
    (r : ConstraintRound c ok s solver s' solver')
    (hnews : ∀ σ, A σ → ∀ d ∈ r.new7, d.Computed σ) :
    Stage c bus A m m' s0 r.s1 ∧
    Stage c bus A m m' s0 (removeTrivial r.s1) ∧
    Stage c bus A m m' s0 r.s3 ∧
    Stage c bus A m m' s0 r.s4 ∧
    Stage c bus A m m' s0 r.s5 ∧
    Stage c bus A m m' s0 r.s6 ∧
    Stage c bus A m m' s0 r.st.finish.system ∧
    r.solver7.MadeFor bus c.handler A ∧
    Stage c bus A m m' s0 (substituteBusFields r.solver7 r.st.finish.system) ∧
    Stage c bus A m m' s0 r.s9 ∧
    Stage c bus A m m' s0 s' ∧
    solver'.MadeFor bus c.handler A := by
  obtain ⟨⟨base0, ops0, rfl⟩, ch, s1, found, solver1, step1, ix2, s3, solver3, step3, ix3, ord, fuel,
    s4, solver4, step4, ix4, s5, step5, s6, step6, lt, st, new7, step7, solver7, step8, s9, solver9, step9,
    step10⟩ := r
  simp only at hnews ⊢
  have hs := hc.handler
  -- solver based optimization
  obtain ⟨w1, m1, k1⟩ := C60_complete hs c.isStateful base0 ops0 h.wf ch A solver solver1 hm s1 found
    step1
  have g1 : Stage c bus A m m' s0 s1 := h.next hc w1
    (fun σ hσ => ((k1 σ hσ).2 (h.sat σ hσ)).1) (fun σ hσ => ((k1 σ hσ).2 (h.sat σ hσ)).2)
    fun σ hσ hd => solverBased_derived hs (Indexed.inv_history base0 ops0) hm step1 hσ hd
  -- trivial constraints
  have g2 : Stage c bus A m m' s0 (removeTrivial s1) := g1.next hc (wf_removed g1.wf)
    (fun σ hσ => (C50_trivial bus hc.zero c.isStateful s1 σ).1.2 (g1.sat σ hσ))
    (fun σ hσ => (C50_trivial bus hc.zero c.isStateful s1 σ).2) fun _ _ hd => hd
  -- free variables
  have g3 : Stage c bus A m m' s0 s3 ∧ solver3.MadeFor bus c.handler A := by
    obtain ⟨base, ops, hsys⟩ := ix2
    have k := C48_solutions_kept hs c.isStateful base ops A solver1 solver3 m1 s3 step3
    obtain ⟨delete, -, -, h3, h4⟩ := removeFree_ok step3
    simp only [hsys] at k
    refine ⟨g2.next hc ?_ (fun σ hσ => (k.2.2 σ).2 (g2.sat σ hσ)) (fun σ hσ => (k.2.2 σ).1)
      fun σ hσ hd => by rw [k.2.1]; exact hd, k.1⟩
    rw [h4]
    exact wf_removed (by simp only [IndexOf.ix, hsys]; exact g2.wf)
  obtain ⟨g3, m3⟩ := g3
  -- disconnected columns
  have g4 : Stage c bus A m m' s0 s4 ∧ solver4.MadeFor bus c.handler A := by
    obtain ⟨base, ops, rfl⟩ := ix3
    have k := C49_solutions_kept hs c.isStateful base ops ord fuel A solver3 solver4 m3 s4 step4
    obtain ⟨keep, -, -, h3, h4⟩ := removeDisconnected_ok (Indexed.inv_history base ops) step4
    refine ⟨g3.next hc ?_ (fun σ hσ => (k.2.2 σ).2 (g3.sat σ hσ)) (fun σ hσ => (k.2.2 σ).1)
      fun σ hσ hd => by rw [k.2.1]; exact hd, k.1⟩
    rw [h4]
    exact wf_removed g3.wf
  obtain ⟨g4, m4⟩ := g4
  -- exhaustive search
  have g5 : Stage c bus A m m' s0 s5 := by
    obtain ⟨base, ops, rfl⟩ := ix4
    have k := fun σ (hσ : A σ) => C51_complete base ops g4.wf solver4.get s5 step5 bus σ
      (g4.sat σ hσ) (get_allows hs m4 hσ)
    exact g4.next hc (simplifyExhaustive_wf (Indexed.inv_history base ops) g4.wf step5)
      (fun σ hσ => (k σ hσ).2)
      (fun σ hσ => (C51_sound base ops solver4.get s5 step5 bus c.isStateful σ (k σ hσ).2).2)
      fun σ hσ hd => by rw [simplifyExhaustive_derived step5]; exact hd
  -- trivial simplifications
  have t6 := fun σ => C50_trivial_simplifications bus hc.zero c.isStateful s5 s6 g5.wf step6 σ
  have g6 : Stage c bus A m m' s0 s6 := g5.next hc (t6 fun _ => 0).1
    (fun σ hσ => (t6 σ).2.1.2 (g5.sat σ hσ)) (fun σ _ => (t6 σ).2.2)
    fun σ _ hd => trivialSimplifications_derived g5.wf step6 hd
  -- rules
  obtain ⟨g7, a7⟩ := g6.rules hV hc m4 hcmp step7 hnews
  have m7 : solver7.MadeFor bus c.handler A := by
    refine (m4.run hs (op := .addAlgebraic _) ?_ step8 ?_).1
    · intro e he
      obtain ⟨a, ha, rfl⟩ := List.mem_map.1 he
      exact wf_sub (wf_var _) (assignments_wf_run (st := driverStart solver4.get s6)
        (by simp [driverStart]) step7 a ha)
    · intro σ hσ e he
      obtain ⟨a, ha, rfl⟩ := List.mem_map.1 he
      rw [eval_sub, eval_var, a7 σ hσ a ha, sub_self]
  -- bus interaction fields
  have k8 := C61_complete hs A solver7 m7 st.finish.system g7.wf
  have g8 : Stage c bus A m m' s0 (substituteBusFields solver7 st.finish.system) :=
    g7.next hc k8.1 (fun σ hσ => k8.2 σ hσ (g7.sat σ hσ))
      (fun σ hσ => (C61_sound solver7 _ bus c.isStateful σ (k8.2 σ hσ (g7.sat σ hσ))).2)
      fun _ _ hd => hd
  -- memory
  obtain ⟨g9, m9⟩ := g8.memoryPass hc m7 step9
  -- low degree
  obtain ⟨w10, m10, k10⟩ := C52_complete hs c.isStateful c.rangeHandler hc.makes c.bound s9 s' g9.wf A
    g9.sat solver9 solver' m9 step10
  exact ⟨g1, g2, g3, g4, g5, g6, g7, m7, g8, g9, g9.next hc w10 (fun σ hσ => (k10 σ hσ).1)
    (fun σ hσ => (k10 σ hσ).2) (fun σ _ hd => by rw [lowDegree_derived step10]; exact hd), m10⟩

theorem OptimizeLoop.stage [Fintype V] (hV : Fintype.card V ≤ p) {c : OptimizerConfig p V}
    {bus : Bus p} (hc : c.Correct bus) {A : (V → ZMod p) → Prop} {m m' : Memory p}
    {s0 : ConstraintSystem p V}
    {ok : RuleInput p V → ConstraintSystem p V → ConstraintSystem p V → Prop}
    (hcmp : ∀ σ, A σ → ComparisonsRight σ ok)
    {s s' : ConstraintSystem p V} {solver solver' : Solver p V}
    (l : OptimizeLoop c ok s solver s' solver') (h : Stage c bus A m m' s0 s)
    (hm : solver.MadeFor bus c.handler A) (hnews : ∀ σ, A σ → ∀ d ∈ l.news, d.Computed σ) :
    Stage c bus A m m' s0 s' ∧ solver'.MadeFor bus c.handler A := by
  induction l with
  | one r => exact (r.stages hV hc h hm hcmp hnews).2.2.2.2.2.2.2.2.2.2
  | more r rest ih =>
    obtain ⟨-, -, -, -, -, -, -, -, -, -, h1, h2⟩ := r.stages hV hc h hm hcmp
      fun σ hσ d hd => hnews σ hσ d (List.mem_append.2 (Or.inl hd))
    exact ih h1 h2 fun σ hσ d hd => hnews σ hσ d (List.mem_append.2 (Or.inr hd))

/-- The systems after the passes of a run. -/
theorem OptimizePasses.stages [Fintype V] (hV : Fintype.card V ≤ p) {c : OptimizerConfig p V}
    {bus : Bus p} (hc : c.Correct bus) {A : (V → ZMod p) → Prop} {m m' : Memory p}
    {s s' : ConstraintSystem p V} (h : Stage c bus A m m' s s)
    {ok : RuleInput p V → ConstraintSystem p V → ConstraintSystem p V → Prop}
    (hcmp : ∀ σ, A σ → ComparisonsRight σ ok) (r : OptimizePasses c ok s s')
    (hnews : ∀ σ, A σ → ∀ d ∈ r.news, d.Computed σ) {w : ℕ}
    (he : c.rangeHandler.Exact bus w r.st.finish.system.bus) :
    r.solver0.MadeFor bus c.handler A ∧
    Stage c bus A m m' s r.s1 ∧
    Stage c bus A m m' s r.ix2.sys ∧
    Stage c bus A m m' s r.s3 ∧
    Stage c bus A m m' s r.st.finish.system ∧
    Stage c bus A m m' s r.s5 ∧
    Stage c bus A m m' s s' := by
  revert he hnews
  obtain ⟨solver0, step0, s1, solver1, loop, ⟨base, ops, hb⟩, passes, ix2, inlined, step2, ix3, ord,
    fuel, s3, solver3, step3, lt, st, new4, step4, ch, s5, step5, step6⟩ := r
  intro hnews he
  simp only [OptimizePasses.news] at hnews he ⊢
  have hs := hc.handler
  have m0 : solver0.MadeFor bus c.handler A := (newSolver_madeFor h.wf step0).mono h.sat
  obtain ⟨g1, m1⟩ := loop.stage hV hc hcmp h m0
    fun σ hσ d hd => hnews σ hσ d (List.mem_append.2 (Or.inl hd))
  subst hb
  -- inlining
  have k2 := C22_solutions base ops g1.wf (belowDegreeBound c.bound) passes ix2 inlined step2 bus
  have g2 : Stage c bus A m m' s ix2.sys := by
    refine g1.next hc ?_ (fun σ hσ => ((k2 σ).1 (g1.sat σ hσ)).1) (fun σ hσ => ?_)
      fun σ hσ hd => replace_derived (Indexed.inv_history base ops) g1.wf step2
        ((k2 σ).1 (g1.sat σ hσ)).2 hd
    · exact ((replace_spec (Indexed.inv_history base ops) g1.wf _ passes).1 ix2 inlined step2).2.1
    · exact messages_of_sent (C22_messages base ops g1.wf (belowDegreeBound c.bound) passes ix2
        inlined step2 σ ((k2 σ).1 (g1.sat σ hσ)).2) _
  -- disconnected columns
  have g3 : Stage c bus A m m' s s3 ∧ solver3.MadeFor bus c.handler A := by
    obtain ⟨base', ops', hsys⟩ := ix3
    have k := C49_solutions_kept hs c.isStateful base' ops' ord fuel A solver1 solver3 m1 s3 step3
    obtain ⟨keep, -, -, h3, h4⟩ := removeDisconnected_ok (Indexed.inv_history base' ops') step3
    rw [hsys] at k h4
    refine ⟨g2.next hc ?_ (fun σ hσ => (k.2.2 σ).2 (g2.sat σ hσ)) (fun σ hσ => (k.2.2 σ).1)
      fun σ hσ hd => by rw [k.2.1]; exact hd, k.1⟩
    rw [h4]
    exact wf_removed g2.wf
  obtain ⟨g3, m3⟩ := g3
  -- rules
  obtain ⟨g4, -⟩ := g3.rules hV hc m3 hcmp step4
    fun σ hσ d hd => hnews σ hσ d (List.mem_append.2 (Or.inr hd))
  -- range constraints
  have g5 : Stage c bus A m m' s s5 := g4.next hc (rangeConstraints_wf hc he g4.wf step5)
    (fun σ hσ => (C34_same_solutions bus c.handler hs c.rangeHandler w ch c.bound st.finish.system s5
      he g4.wf step5 σ).2 (g4.sat σ hσ))
    (fun σ _ => rangeConstraints_messages hc step5 σ)
    fun σ _ hd => by rw [rangeConstraints_derived step5]; exact hd
  -- trivial simplifications
  have t6 := fun σ => C50_trivial_simplifications bus hc.zero c.isStateful s5 s' g5.wf step6 σ
  exact ⟨m0, g1, g2, g3, g4, g5, g5.next hc (t6 fun _ => 0).1
    (fun σ hσ => (t6 σ).2.1.2 (g5.sat σ hσ)) (fun σ _ => (t6 σ).2.2)
    fun σ _ hd => trivialSimplifications_derived g5.wf step6 hd⟩

/-! ### Soundness -/

/-- Every solution of `s'` comes from a solution of `s` with the same balances. -/
def Back (c : OptimizerConfig p V) (bus : Bus p) (s s' : ConstraintSystem p V) : Prop :=
  ∀ σ, s'.Satisfied bus σ → ∃ τ, s.Satisfied bus τ ∧ SameBalance c.isStateful s τ s' σ

theorem Back.trans {c : OptimizerConfig p V} {bus : Bus p} {s s' s'' : ConstraintSystem p V}
    (h1 : Back c bus s s') (h2 : Back c bus s' s'') : Back c bus s s'' := by
  intro σ hσ
  obtain ⟨τ, h3, h4⟩ := h2 σ hσ
  obtain ⟨ρ, h5, h6⟩ := h1 τ h3
  exact ⟨ρ, h5, fun id hid message => (h6 id hid message).trans (h4 id hid message)⟩

theorem back_of_messages {c : OptimizerConfig p V} {bus : Bus p} {s s' : ConstraintSystem p V}
    (h : ∀ σ, s'.Satisfied bus σ → ∃ τ, s.Satisfied bus τ ∧
      s.messages c.isStateful τ = s'.messages c.isStateful σ) : Back c bus s s' := by
  intro σ hσ
  obtain ⟨τ, h1, h2⟩ := h σ hσ
  exact ⟨τ, h1, sameBalance_of_messages h2⟩

theorem satisfied_exceptMemory {c : OptimizerConfig p V} {bus : Bus p} {s : ConstraintSystem p V}
    {σ : V → ZMod p} (h : s.Satisfied bus σ) : s.Satisfied (c.exceptMemory bus) σ :=
  ⟨h.1, fun b hb _ => h.2 b hb⟩

theorem makesExactly_exceptMemory {c : OptimizerConfig p V} {bus : Bus p} (hc : c.Correct bus) :
    c.rangeHandler.MakesExactly (c.exceptMemory bus) c.isStateful := by
  refine ⟨fun rcs made h1 h2 σ => ?_, hc.makes.stateless, hc.makes.wf⟩
  rw [← hc.makes.exact rcs made h1 h2 σ]
  refine ⟨fun h b hb => h b hb fun id hid heq => ?_, fun h b hb _ => h b hb⟩
  obtain ⟨i, hi, hf⟩ := hc.makes.stateless rcs made h2 b hb
  have : i = id := by simpa [BusInteraction.evalAt, hi, eval_const] using heq
  rw [this, hc.memory id hid] at hf
  cases hf

theorem back_memory {c : OptimizerConfig p V} {bus : Bus p} (hc : c.Correct bus)
    {A : (V → ZMod p) → Prop} {s s' : ConstraintSystem p V} {solver solver' : Solver p V}
    (hw : s.WF) (hm : solver.MadeFor bus c.handler A)
    (hr : optimizeMemory c.handler c.memoryBusId s solver = .ok (s', solver')) :
    Back c (c.exceptMemory bus) s s' := by
  cases hid : c.memoryBusId with
  | none =>
    rw [hid, C35_no_memory_bus] at hr
    cases hr
    exact fun σ hσ => ⟨σ, hσ, fun _ _ _ => rfl⟩
  | some id =>
    rw [hid] at hr
    intro σ hσ
    refine ⟨σ, ⟨fun e he => ?_, fun b hb => ?_⟩, fun i _ message => ?_⟩
    · exact hσ.1 e ((C35_nothing_else bus c.handler hc.handler A id s s' solver solver' hw hm
        hr).1.subset he)
    · rcases (optimizeMemory_messages hc.handler hw hm hr).1 b hb with h | h
      · exact hσ.2 b h
      · intro hne
        exact absurd (by simp [BusInteraction.evalAt, h, eval_const]) (hne id hid)
    · exact (C35_balance bus c.handler hc.handler A id s s' solver solver' hw hm hr σ hσ.1 i
        message).symm

theorem back_rules {c : OptimizerConfig p V} {bus : Bus p} {s : ConstraintSystem p V}
    (hw : s.WF) {ok : RuleInput p V → ConstraintSystem p V → ConstraintSystem p V → Prop}
    (hok : ReplacementsSound bus ok) {rc : V → RangeConstraint p}
    {lt : GExpr p V → GExpr p V → Prop} {bound : Option DegreeBound} {st : DriverState p V}
    {news : List (DerivedVariable p V)}
    (run : DriverRun rc c.handler lt c.intBits bound ok (driverStart rc s) st news) :
    Back c bus s st.finish.system := by
  apply back_of_messages
  intro σ hσ
  obtain ⟨τ, h1, -⟩ := comesFrom_run (changed := fun _ => True)
    (fun inp a b h σ hσ => (hok inp a b h σ hσ).imp fun τ k => ⟨fun _ h => absurd trivial h, k⟩)
    (st := driverStart rc s) hw run (satisfied_finish.1 hσ)
  exact ⟨τ, h1.sat, messages_of_sent h1.sent _⟩

theorem ConstraintRound.back [Fintype V] (hV : Fintype.card V ≤ p) {c : OptimizerConfig p V}
    {bus : Bus p} (hc : c.Correct bus) {m m' : Memory p}
    {s0 s s' : ConstraintSystem p V} (h : Stage c bus (fun _ => False) m m' s0 s)
    {solver solver' : Solver p V} (hm : solver.MadeFor bus c.handler fun _ => False)
    {ok : RuleInput p V → ConstraintSystem p V → ConstraintSystem p V → Prop}
    (hok : ReplacementsSound (c.exceptMemory bus) ok)
    (r : ConstraintRound c ok s solver s' solver') (hsafe : r.Safe bus) :
    Back c (c.exceptMemory bus) s s' := by
  obtain ⟨g1, g2, g3, g4, g5, g6, g7, m7, g8, g9, -, -⟩ :=
    r.stages hV hc h hm (fun _ hf => hf.elim) fun _ hf => hf.elim
  obtain ⟨hfree, ⟨τ0, hdis⟩, hdec⟩ := hsafe
  obtain ⟨⟨base0, ops0, rfl⟩, ch, s1, found, solver1, step1, ix2, s3, solver3, step3, ix3, ord, fuel,
    s4, solver4, step4, ix4, s5, step5, s6, step6, lt, st, new7, step7, solver7, step8, s9, solver9, step9,
    step10⟩ := r
  simp only at g1 g2 g3 g4 g5 g6 g7 m7 g8 g9 hfree hdis hdec
  have h0 : ∀ b : BusInteraction (ZMod p), b.multiplicity = 0 → c.exceptMemory bus b :=
    fun b hb _ => hc.zero b hb
  have hdis' : ∀ x : ConstraintRef p V, x.In s3 → ¬ x.In s4 → x.Holds (c.exceptMemory bus) τ0 := by
    intro x h1 h2
    have := hdis x h1 h2
    cases x with
    | alg e => exact this
    | bus b => exact fun _ => this
  have b1 : Back c (c.exceptMemory bus) (indexedHistory base0 ops0).sys s1 := back_of_messages fun σ hσ => by
    obtain ⟨τ, -, h1, h2⟩ := C60_sound c.handler base0 ops0 ch solver solver1 s1 found step1 _
      c.isStateful σ hσ
    exact ⟨τ, h1, h2⟩
  have b2 : Back c (c.exceptMemory bus) s1 (removeTrivial s1) := back_of_messages fun σ hσ =>
    ⟨σ, (C50_trivial _ h0 c.isStateful s1 σ).1.1 hσ,
      (C50_trivial _ h0 c.isStateful s1 σ).2.symm⟩
  have b3 : Back c (c.exceptMemory bus) (removeTrivial s1) s3 := back_of_messages fun σ hσ => by
    obtain ⟨base, ops, hsys⟩ := ix2
    have := C48_projection _ c.handler c.isStateful base ops (by rw [hsys]; exact g2.wf) solver1
      solver3 s3 step3 (by rw [hsys]; exact fun b h1 h2 x h3 h4 h5 h6 τ =>
        (hfree b h1 h2 x h3 h4 h5 h6 τ).imp fun k hk _ => hk) σ hσ
    rw [hsys] at this
    obtain ⟨τ, -, h1, h2⟩ := this
    exact ⟨τ, h1, h2⟩
  have b4 : Back c (c.exceptMemory bus) s3 s4 := back_of_messages fun σ hσ => by
    obtain ⟨base, ops, rfl⟩ := ix3
    obtain ⟨ρ, -, -, h1, h2⟩ := C49_projection _ c.handler c.isStateful base ops ord fuel solver3
      solver4 s4 step4 σ τ0 hσ hdis'
    exact ⟨ρ, h1, h2⟩
  have b5 : Back c (c.exceptMemory bus) s4 s5 := back_of_messages fun σ hσ => by
    obtain ⟨base, ops, rfl⟩ := ix4
    obtain ⟨h1, h2⟩ := C51_sound base ops solver4.get s5 step5 _ c.isStateful σ hσ
    exact ⟨σ, h1, h2.symm⟩
  have b6 : Back c (c.exceptMemory bus) s5 s6 := back_of_messages fun σ hσ => by
    obtain ⟨-, h1, h2⟩ := C50_trivial_simplifications _ h0 c.isStateful s5 s6 g5.wf step6 σ
    exact ⟨σ, h1.1 hσ, h2.symm⟩
  have b7 : Back c (c.exceptMemory bus) s6 st.finish.system := back_rules g6.wf hok step7
  have b8 : Back c (c.exceptMemory bus) st.finish.system (substituteBusFields solver7 st.finish.system) :=
    back_of_messages fun σ hσ => by
      obtain ⟨h1, h2⟩ := C61_sound solver7 _ _ c.isStateful σ hσ
      exact ⟨σ, h1, h2.symm⟩
  have b9 := back_memory hc g8.wf m7 step9
  have b10 : Back c (c.exceptMemory bus) s9 s' := back_of_messages fun σ hσ => by
    obtain ⟨h1, h2⟩ := C52_sound c.handler c.isStateful c.rangeHandler (makesExactly_exceptMemory hc) c.bound s9 s' solver9
      solver' (fun b hb id h1 h2 σ out values k1 k2 k3 r' rc v k4 k5 k6 k7 _ =>
        hdec b hb id h1 h2 σ out values k1 k2 k3 r' rc v k4 k5 k6 k7) step10 σ hσ
    exact ⟨σ, h1, h2.symm⟩
  exact ((((((((b1.trans b2).trans b3).trans b4).trans b5).trans b6).trans b7).trans b8).trans
    b9).trans b10

theorem OptimizeLoop.back [Fintype V] (hV : Fintype.card V ≤ p) {c : OptimizerConfig p V}
    {bus : Bus p} (hc : c.Correct bus) {m m' : Memory p}
    {s0 : ConstraintSystem p V}
    {ok : RuleInput p V → ConstraintSystem p V → ConstraintSystem p V → Prop}
    (hok : ReplacementsSound (c.exceptMemory bus) ok)
    {s s' : ConstraintSystem p V} {solver solver' : Solver p V}
    (l : OptimizeLoop c ok s solver s' solver') (hsafe : l.Safe bus)
    (h : Stage c bus (fun _ => False) m m' s0 s)
    (hm : solver.MadeFor bus c.handler fun _ => False) :
    Back c (c.exceptMemory bus) s s' := by
  induction l with
  | one r => exact r.back hV hc h hm hok hsafe
  | more r rest ih =>
    obtain ⟨-, -, -, -, -, -, -, -, -, -, h1, h2⟩ :=
      r.stages hV hc h hm (fun _ hf => hf.elim) fun _ hf => hf.elim
    exact (r.back hV hc h hm hok hsafe.1).trans (ih hsafe.2 h1 h2)

theorem inlined_projection {bus : Bus p} (s : ConstraintSystem p V) (ops : List (IndexedOp p V))
    (hw : (indexedHistory s ops).sys.WF) {should : ShouldInline p V} {passes : ℕ}
    {ix : Indexed p V} {subs : List (V × GExpr p V)}
    (h : replaceConstrainedWitnessColumns passes (indexedHistory s ops) should =
      .ok (some (ix, subs))) {σ : V → ZMod p} (hσ : ix.sys.Satisfied bus σ) :
    ∃ τ, (indexedHistory s ops).sys.Satisfied bus τ ∧
      (indexedHistory s ops).sys.sent τ = ix.sys.sent σ := by
  obtain ⟨τ, h1, h2⟩ := (C22_projection s ops hw should passes ix subs h bus σ).1 hσ
  have h3 := (C22_solutions s ops hw should passes ix subs h bus τ).1 h2
  obtain ⟨-, -, -, h4, -⟩ := (replace_spec (Indexed.inv_history s ops) hw should passes).1 ix subs h
  refine ⟨τ, h2, (C22_messages s ops hw should passes ix subs h τ h3.2).symm.trans ?_⟩
  refine List.map_congr_left fun b hb => evalAt_congr fun v hv => h1 v fun y hy hyv => ?_
  exact h4 y hy (hyv ▸ mem_systemVars.2 (Or.inr ⟨b, hb, List.mem_flatMap.1 hv⟩))

theorem OptimizeRun.back [Fintype V] (hV : Fintype.card V ≤ p) {c : OptimizerConfig p V}
    {bus : Bus p} (hc : c.Correct bus) {s s' : ConstraintSystem p V} (hw : s.WF)
    {ok : RuleInput p V → ConstraintSystem p V → ConstraintSystem p V → Prop}
    (hok : ReplacementsSound bus ok) (hok' : ReplacementsSound (c.exceptMemory bus) ok)
    (r : OptimizeRun c ok s s') {w : ℕ}
    (he : c.rangeHandler.Exact bus w r.st.finish.system.bus) (hsafe : r.Safe bus) :
    ∀ σ, s'.Satisfied bus σ →
      ∃ τ, s.Satisfied (c.exceptMemory bus) τ ∧ SameBalance c.isStateful s τ s' σ := by
  have h : Stage c bus (fun _ => False) (fun _ => none) (fun _ => none) s s :=
    ⟨hw, fun _ hf => hf.elim, fun _ hf => hf.elim, fun _ hf => hf.elim, fun _ hf => hf.elim⟩
  obtain ⟨m0, g1, g2, g3, g4, g5, -⟩ := r.stages hV hc h (fun _ hf => hf.elim)
    (fun _ hf => hf.elim) he
  obtain ⟨hl, τ0, hdis⟩ := hsafe
  revert he m0 g1 g2 g3 g4 g5 hl hdis
  obtain ⟨⟨solver0, step0, s1, solver1, loop, ⟨base, ops, hb⟩, passes, ix2, inlined, step2, ix3, ord,
    fuel, s3, solver3, step3, lt, st, new4, step4, ch, s5, step5, step6⟩, -, -, -⟩ := r
  intro he m0 g1 g2 g3 g4 g5 hl hdis
  simp only at he m0 g1 g2 g3 g4 g5 hl hdis
  have b1 := loop.back hV hc hok' hl h m0
  subst hb
  have b2 : Back c bus (indexedHistory base ops).sys ix2.sys := back_of_messages fun σ hσ => by
    obtain ⟨τ, h1, h2⟩ := inlined_projection base ops g1.wf step2 hσ
    exact ⟨τ, h1, messages_of_sent h2 _⟩
  have b3 : Back c bus ix2.sys s3 := back_of_messages fun σ hσ => by
    obtain ⟨base', ops', hsys⟩ := ix3
    have := C49_projection bus c.handler c.isStateful base' ops' ord fuel solver1
      solver3 s3 step3 σ τ0 hσ (by rw [hsys]; exact hdis)
    rw [hsys] at this
    obtain ⟨ρ, -, -, h1, h2⟩ := this
    exact ⟨ρ, h1, h2⟩
  have b4 : Back c bus s3 st.finish.system := back_rules g3.wf hok step4
  have b5 : Back c bus st.finish.system s5 := back_of_messages fun σ hσ =>
    ⟨σ, (C34_same_solutions bus c.handler hc.handler c.rangeHandler w ch c.bound st.finish.system s5
      he g4.wf step5 σ).1 hσ, (rangeConstraints_messages hc step5 σ).symm⟩
  have b6 : Back c bus s5 s' := back_of_messages fun σ hσ => by
    obtain ⟨-, h1, h2⟩ := C50_trivial_simplifications bus hc.zero c.isStateful s5 s' g5.wf step6 σ
    exact ⟨σ, h1.1 hσ, h2.symm⟩
  intro σ hσ
  obtain ⟨τ, h1, h2⟩ := ((((b2.trans b3).trans b4).trans b5).trans b6) σ hσ
  obtain ⟨ρ, h3, h4⟩ := b1 τ (satisfied_exceptMemory h1)
  exact ⟨ρ, h3, fun id hid message => (h4 id hid message).trans (h2 id hid message)⟩

/-! ### New columns -/

theorem methodValue_congr {σ τ : V → ZMod p} {m : ComputationMethod p (GExpr p V)}
    (h : ∀ v ∈ m.vars, σ v = τ v) : m.value σ = m.value τ := by
  cases m with
  | constant c => rfl
  | quotientOrZero e1 e2 =>
    simp only [ComputationMethod.value]
    rw [eval_congr (e := e1) fun v hv => h v (mem_methodVars.2 (Or.inl (mem_vars_iff_occurs.1 hv))),
      eval_congr (e := e2) fun v hv => h v (mem_methodVars.2 (Or.inr (mem_vars_iff_occurs.1 hv)))]

/-- New columns can be computed one after the other. -/
theorem compute_news (σ0 : V → ZMod p) {news : List (DerivedVariable p V)}
    (h1 : news.Pairwise fun d d' => d'.column ≠ d.column ∧ d'.column ∉ d.method.vars)
    (h2 : ∀ d ∈ news, d.column ∉ d.method.vars) :
    ∃ σ : V → ZMod p, (∀ v, (∀ d ∈ news, d.column ≠ v) → σ v = σ0 v) ∧
      ∀ d ∈ news, d.Computed σ := by
  induction news using List.reverseRecOn with
  | nil => exact ⟨σ0, fun _ _ => rfl, by simp⟩
  | append_singleton news d ih =>
    rw [List.pairwise_append] at h1
    obtain ⟨σ, k1, k2⟩ := ih h1.1 fun d hd => h2 d (List.mem_append.2 (Or.inl hd))
    refine ⟨Function.update σ d.column (d.method.value σ), fun v hv => ?_, fun x hx => ?_⟩
    · rw [Function.update_of_ne (hv d (by simp)).symm]
      exact k1 v fun d hd => hv d (List.mem_append.2 (Or.inl hd))
    · have hval : ∀ m : ComputationMethod p (GExpr p V), d.column ∉ m.vars →
          m.value (Function.update σ d.column (d.method.value σ)) = m.value σ := fun m hm =>
        methodValue_congr fun v hv => Function.update_of_ne (by rintro rfl; exact hm hv) _ _
      unfold DerivedVariable.Computed
      rcases List.mem_append.1 hx with hx | hx
      · obtain ⟨e1, e2⟩ := h1.2.2 x hx d (by simp)
        rw [hval _ e2, Function.update_of_ne e1.symm]
        exact k2 x hx
      · rw [List.mem_singleton.1 hx, hval _ (h2 d (by simp)), Function.update_self]

/-- What a change outside the system leaves. -/
theorem unchanged_of_unused {s : ConstraintSystem p V} {σ τ : V → ZMod p}
    (h : ∀ v, s.Mentions v → σ v = τ v) :
    (∀ bus : Bus p, s.Satisfied bus σ ↔ s.Satisfied bus τ) ∧
      s.bus.map (BusInteraction.evalAt σ) = s.bus.map (BusInteraction.evalAt τ) := by
  have hv : ∀ v ∈ systemVars s, σ v = τ v := by
    intro v hv
    apply h v
    rcases mem_systemVars.1 hv with ⟨e, he, hv⟩ | ⟨b, hb, e, he, hv⟩
    · exact Or.inl ⟨e, he, mem_vars_iff_occurs.1 hv⟩
    · exact Or.inr ⟨b, hb, e, he, mem_vars_iff_occurs.1 hv⟩
  refine ⟨fun bus => satisfied_congr hv, List.map_congr_left fun b hb => ?_⟩
  exact evalAt_congr fun v hv' => hv v (mem_systemVars.2 (Or.inr ⟨b, hb, List.mem_flatMap.1 hv'⟩))

end Verif
