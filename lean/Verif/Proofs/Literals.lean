import Verif.Spec.Literals
import Verif.Proofs.Build
import Verif.Proofs.Linearizer
import Verif.Props.Optimizer
import Verif.Props.Evaluator
import Mathlib.Data.List.ReduceOption

/-!
# Proofs: optimistic literals and execution constraints
-/

set_option linter.unusedSectionVars false

namespace Verif

open GExpr

/-! ### Memory -/

section
variable {p : ℕ} [Fact p.Prime] {V : Type} [LinearOrder V] {id : ℕ} {σ : V → ZMod p}

/-- The address of a converted interaction. -/
def MemInt.addressAt (σ : V → ZMod p) (m : MemInt p V) : ZMod p × ZMod p := (m.space, eval σ m.pointer)

/-- The content of a converted interaction. -/
def MemInt.contentAt (σ : V → ZMod p) (m : MemInt p V) : List (ZMod p) × ZMod p :=
  (m.data.map (eval σ), eval σ m.timestamp)

/-- No effect on memory or a get or a set. -/
def ClearAccess (id : ℕ) (b : BusInteraction (GExpr p V)) : Prop :=
  memConversion id b = .ok .notMemory ∨ ∃ m, memConversion id b = .ok (.memory m)

/-- An access with the given operation and address. -/
def AccessAt (id : ℕ) (σ : V → ZMod p) (op : MemoryOp) (a : ZMod p × ZMod p)
    (b : BusInteraction (GExpr p V)) : Prop :=
  ∃ m, memConversion id b = .ok (.memory m) ∧ m.op = op ∧ m.addressAt σ = a

/-- Without a get, a content stays. -/
theorem run_no_get {a : ZMod p × ZMod p} : ∀ {bs : List (BusInteraction (GExpr p V))} {g g' : Memory p},
    MemoryRun (id : ZMod p) (bs.map fun b => b.evalAt σ) g g' → (∀ b ∈ bs, ClearAccess id b) →
    (∀ b ∈ bs, ¬ AccessAt id σ .getPrevious a b) → g a ≠ none → g' a = g a
  | [], g, g', h, _, _, _ => by
    cases h
    rfl
  | b :: bs, g, g', ⟨g1, h1, h2⟩, hc, hn, hg => by
    have h3 : g1 a = g a := by
      rcases hc b List.mem_cons_self with hm | ⟨m, hm⟩
      · rw [step_notMemory hm h1]
      · obtain ⟨s1, s2⟩ := step_memory hm h1
        cases hop : m.op with
        | setNew =>
          obtain ⟨e1, e2⟩ := s1 hop
          have : a ≠ (m.space, eval σ m.pointer) := fun h => hg (h ▸ e1)
          rw [e2, Function.update_of_ne this]
        | getPrevious =>
          obtain ⟨e1, e2⟩ := s2 hop
          have : a ≠ (m.space, eval σ m.pointer) := fun h =>
            hn b List.mem_cons_self ⟨m, hm, hop, h.symm⟩
          rw [e2, Function.update_of_ne this]
    rw [← h3]
    exact run_no_get h2 (fun b hb => hc b (List.mem_cons_of_mem _ hb))
      (fun b hb => hn b (List.mem_cons_of_mem _ hb)) (by rw [h3]; exact hg)

/-- Without a set, no content comes. -/
theorem run_no_set_none {a : ZMod p × ZMod p} : ∀ {bs : List (BusInteraction (GExpr p V))}
    {g g' : Memory p},
    MemoryRun (id : ZMod p) (bs.map fun b => b.evalAt σ) g g' → (∀ b ∈ bs, ClearAccess id b) →
    (∀ b ∈ bs, ¬ AccessAt id σ .setNew a b) → g' a = none ∨ g' a = g a
  | [], g, g', h, _, _ => by
    cases h
    exact .inr rfl
  | b :: bs, g, g', ⟨g1, h1, h2⟩, hc, hn => by
    have h3 : g1 a = none ∨ g1 a = g a := by
      rcases hc b List.mem_cons_self with hm | ⟨m, hm⟩
      · rw [step_notMemory hm h1]
        exact .inr rfl
      · obtain ⟨s1, s2⟩ := step_memory hm h1
        cases hop : m.op with
        | setNew =>
          obtain ⟨e1, e2⟩ := s1 hop
          have : a ≠ (m.space, eval σ m.pointer) := fun h =>
            hn b List.mem_cons_self ⟨m, hm, hop, h.symm⟩
          rw [e2, Function.update_of_ne this]
          exact .inr rfl
        | getPrevious =>
          obtain ⟨e1, e2⟩ := s2 hop
          rw [e2]
          by_cases h : a = (m.space, eval σ m.pointer)
          · rw [h, Function.update_self]
            exact .inl rfl
          · rw [Function.update_of_ne h]
            exact .inr rfl
    rcases run_no_set_none h2 (fun b hb => hc b (List.mem_cons_of_mem _ hb))
      (fun b hb => hn b (List.mem_cons_of_mem _ hb)) with h4 | h4
    · exact .inl h4
    · rw [h4]
      exact h3

theorem memoryRun_append {i : ZMod p} : ∀ {l l' : List (BusInteraction (ZMod p))} {g g' : Memory p},
    MemoryRun i (l ++ l') g g' ↔ ∃ g1, MemoryRun i l g g1 ∧ MemoryRun i l' g1 g'
  | [], l', g, g' => by simp [MemoryRun]
  | b :: l, l', g, g' => by
    simp only [List.cons_append, MemoryRun, memoryRun_append (l := l)]
    constructor
    · rintro ⟨g1, h1, g2, h2, h3⟩
      exact ⟨g2, ⟨g1, h1, h2⟩, h3⟩
    · rintro ⟨g2, ⟨g1, h1, h2⟩, h3⟩
      exact ⟨g1, h1, g2, h2, h3⟩

/-- A get whose address is not fetched before reads the memory at the start. -/
theorem run_get {pre post : List (BusInteraction (GExpr p V))} {b : BusInteraction (GExpr p V)}
    {m : MemInt p V} {g g' : Memory p}
    (h : MemoryRun (id : ZMod p) ((pre ++ b :: post).map fun b => b.evalAt σ) g g')
    (hm : memConversion id b = .ok (.memory m)) (hop : m.op = .getPrevious)
    (hc : ∀ b ∈ pre, ClearAccess id b)
    (hn : ∀ b ∈ pre, ¬ AccessAt id σ .getPrevious (m.addressAt σ) b) (hg : g (m.addressAt σ) ≠ none) :
    g (m.addressAt σ) = some (m.contentAt σ) := by
  rw [List.map_append, memoryRun_append] at h
  obtain ⟨g1, h1, g2, h2, -⟩ := h
  rw [← run_no_get h1 hc hn hg]
  exact ((step_memory hm h2).2 hop).1

/-- A set whose address is not set after it determines the memory at the end. -/
theorem run_set {pre post : List (BusInteraction (GExpr p V))} {b : BusInteraction (GExpr p V)}
    {m : MemInt p V} {g g' : Memory p}
    (h : MemoryRun (id : ZMod p) ((pre ++ b :: post).map fun b => b.evalAt σ) g g')
    (hm : memConversion id b = .ok (.memory m)) (hop : m.op = .setNew)
    (hc : ∀ b ∈ post, ClearAccess id b)
    (hn : ∀ b ∈ post, ¬ AccessAt id σ .setNew (m.addressAt σ) b) (hg : g' (m.addressAt σ) ≠ none) :
    g' (m.addressAt σ) = some (m.contentAt σ) := by
  rw [List.map_append, memoryRun_append] at h
  obtain ⟨g1, -, g2, h2, h3⟩ := h
  rcases run_no_set_none h3 hc hn with h4 | h4
  · exact absurd h4 hg
  · rw [h4, ((step_memory hm h2).1 hop).2]
    exact Function.update_self ..

end

/-! ### The optimized machine -/

section
variable {p : ℕ} [Fact p.Prime] {N : ℕ} {execBus : ℕ} {c : OptimizerConfig p (Fin N)}
  {ok : RuleInput p (Fin N) → ConstraintSystem p (Fin N) → ConstraintSystem p (Fin N) → Prop}
  {m m' : SymMachine (ZMod p) ℕ}

theorem MachineOptimizeRun.newColumns (r : MachineOptimizeRun execBus c ok m m') (hd : m.derived = []) :
    NewColumns (machineToSystem r.m3) r.step4.news := by
  have hd3 : r.m3.derived = [] := by
    have := congrArg SymMachine.derived r.step3
    rw [(C55_interactions r.step2).2.1, hd] at this
    exact List.map_eq_nil_iff.1 this
  refine ⟨?_, fun d hd hc => lt_irrefl _ (r.issuedFor d hd _ hc), fun d hd hm => ?_, fun d hd d' hd' => ?_⟩
  · refine List.Pairwise.imp_of_mem ?_ r.issued
    intro d d' h1 h2 h3
    exact ⟨ne_of_gt h3, fun hv => absurd (r.issuedFor d h1 _ hv) (not_lt.2 h3.le)⟩
  · have h1 : (d.column : ℕ) ∈ r.m2.refs := by
      rw [← r.step3, renumber_refs]
      exact List.mem_map.2 ⟨_, machineToSystem_mentions hm, rfl⟩
    have h2 := (C47_from_machine m).1 _ (exec_refs r.step2 h1)
    have h3 := r.issuedAfter d hd
    simp only [ColumnAllocator.isKnownId, decide_eq_true_eq] at h2
    omega
  · simp [machineToSystem, hd3] at hd'

/-- An execution of the machine is an execution of the optimized machine. -/
theorem MachineOptimizeRun.complete (r : MachineOptimizeRun execBus c ok m m') (hN : N ≤ p) (bus : Bus p)
    (hc : c.Correct bus) (hd : m.derived = [])
    (hmem : ∀ id, c.memoryBusId = some id → (execBus : ZMod p) ≠ (id : ZMod p)) (w : ℕ)
    (he : c.rangeHandler.Exact bus w r.step4.st.finish.system.bus) (g g' : Memory p)
    (σ : ℕ → ZMod p) (hσ : m.Holds σ) (hch : m.Chained execBus σ)
    (hacc : ∀ x ∈ m.messages σ, bus (toInteraction x))
    (hrun : ∀ id, c.memoryBusId = some id →
      MemoryRun (id : ZMod p) ((m.messages σ).map toInteraction) g g')
    (hcmp : ∀ τ : Fin N → ZMod p,
      (∀ v : Fin N, (v : ℕ) < (ColumnAllocator.fromMaxPolyId m).nextPolyId → τ v = σ v) →
      (∀ d ∈ r.step4.news, d.Computed τ) → ComparisonsRight τ ok) :
    ∃ τ : ℕ → ZMod p, (∀ v < (ColumnAllocator.fromMaxPolyId m).nextPolyId, τ v = σ v) ∧
      ∀ id, c.memoryBusId = some id →
        MemoryRun (id : ZMod p) ((m'.bus.map symBusToBus).map fun b => b.evalAt τ) g g' := by
  have : NeZero p := ⟨(Fact.out : p.Prime).ne_zero⟩
  have hm2 : r.m2.Holds σ := (C55_rows r.step2 σ).2 ⟨hσ, hch⟩
  obtain ⟨i1, i2, a, s, ha, hs, has⟩ := C55_interactions r.step2
  have k2 : ((machineToSystem r.m3).bus.map fun b => b.evalAt (σ ∘ Fin.val)) =
      (r.m2.messages σ).map toInteraction := by
    rw [machineToSystem_messages, ← r.step3, renumber_messages]
  have hd3 : r.m3.derived = [] := by
    have := congrArg SymMachine.derived r.step3
    rw [i2, hd] at this
    exact List.map_eq_nil_iff.1 this
  have hd3' : (machineToSystem r.m3).derived = [] := by simp [machineToSystem, hd3]
  have hsub : ∀ b ∈ r.m2.bus, b ∈ m.bus := by
    intro b hb
    by_cases hid : b.id = execBus
    · have hb' : b ∈ r.m2.onBus execBus := List.mem_filter.2 ⟨hb, by simpa using hid⟩
      rw [has] at hb'
      rcases List.mem_cons.1 hb' with rfl | hb'
      · exact List.mem_of_mem_filter (List.mem_of_getElem? ha)
      · rw [List.mem_singleton.1 hb']
        exact List.mem_of_mem_filter (List.mem_of_getElem? hs)
    · have hb' : b ∈ r.m2.offBus execBus := List.mem_filter.2 ⟨hb, by simpa using hid⟩
      rw [i1] at hb'
      exact List.mem_of_mem_filter hb'
  have hex : (machineToSystem r.m3).Execution bus c.memoryBusId (σ ∘ Fin.val) g g' := by
    refine ⟨⟨?_, ?_⟩, fun id hid => ?_⟩
    · intro x hx
      have := (machineToSystem_satisfied (fun _ => True) r.m3 (σ ∘ Fin.val)).2
        ⟨by rw [← renumber_holds, r.step3]; exact hm2, fun _ _ => trivial⟩
      exact this.algebraic x hx
    · intro b hb
      have : b.evalAt (σ ∘ Fin.val) ∈ (r.m2.messages σ).map toInteraction := by
        rw [← k2]
        exact List.mem_map.2 ⟨b, hb, rfl⟩
      obtain ⟨y, hy, hyb⟩ := List.mem_map.1 this
      rw [← hyb]
      obtain ⟨z, hz, rfl⟩ := List.mem_map.1 hy
      exact hacc _ (List.mem_map.2 ⟨z, hsub z hz, rfl⟩)
    · unfold ConstraintSystem.UsesMemory
      rw [k2]
      have h := hrun id hid
      rw [memoryRun_onBus] at h ⊢
      have hf : ∀ l : List (ℕ × ZMod p × List (ZMod p)),
          (l.map toInteraction).filter (fun b => b.busId = (id : ZMod p)) =
          ((l.filter fun x => x.1 ≠ execBus).map toInteraction).filter
            (fun b => b.busId = (id : ZMod p)) := by
        intro l
        rw [List.filter_map, List.filter_map, List.filter_filter]
        congr 1
        refine List.filter_congr fun x _ => ?_
        simp only [Function.comp_apply, toInteraction]
        by_cases hx : (x.1 : ZMod p) = (id : ZMod p)
        · have : x.1 ≠ execBus := fun h' => hmem id hid (by rw [← h']; exact hx)
          simp [hx, this]
        · simp [hx]
      have g0 : ∀ m : SymMachine (ZMod p) ℕ, ((m.messages σ).filter fun x => x.1 ≠ execBus) =
          (m.offBus execBus).map (SymBus.message σ) := by
        intro m
        rw [SymMachine.messages, List.filter_map]
        rfl
      rw [hf, g0] at h ⊢
      rw [i1]
      exact h
  obtain ⟨τ, t1, t2, -, -⟩ := C62_extends (by simpa using hN) c bus hc (machineToSystem r.m3) r.s4
    (machineToSystem_wf _) (fun d hd => by rw [hd3'] at hd; cases hd) g g' ok r.step4
    (r.newColumns hd) w he (σ ∘ Fin.val) hex (fun d hd => by rw [hd3'] at hd; cases hd)
    (fun τ h1 h2 => hcmp τ (fun v hv => h1 v fun d hd heq => by
      have := r.issuedAfter d hd
      rw [heq] at this
      omega) h2)
  let τN : ℕ → ZMod p := fun i => if h : i < N then τ ⟨i, h⟩ else σ i
  have hτN : τN ∘ Fin.val = τ := by
    funext v
    simp [τN]
  refine ⟨τN, fun v hv => ?_, fun id hid => ?_⟩
  · by_cases h : v < N
    · simp only [τN, dif_pos h]
      refine t1 ⟨v, h⟩ fun d hd heq => ?_
      have := r.issuedAfter d hd
      rw [heq] at this
      simp only at this
      omega
    · simp only [τN, dif_neg h]
  · have h1 := t2.memory id hid
    unfold ConstraintSystem.UsesMemory at h1
    have h2 : ((m'.bus.map symBusToBus).map fun b => b.evalAt τN) = (m'.messages τN).map toInteraction := by
      simp only [SymMachine.messages, List.map_map]
      exact List.map_congr_left fun b _ => symBusToBus_evalAt τN b
    rw [h2]
    have h3 : m'.messages τN = r.m5.messages τ :=
      (congrArg (fun m => m.messages τN) r.result).trans (by rw [renumber_messages, hτN])
    rw [h3, (systemToMachine_messages r.step5 τ).1]
    exact h1

end

/-! ### The literals -/

section
variable {p : ℕ} [Fact p.Prime] {memoryBusId idx : ℕ}

theorem concreteAccess_ok {b : SymBus (ZMod p) ℕ} {x : ConcreteAccess p}
    (h : concreteAccess memoryBusId idx b = .ok (some x)) :
    ∃ m pointer, memConversion memoryBusId (symBusToBus b) = .ok (.memory m) ∧
      m.pointer = const pointer ∧ x.address = [m.space, pointer] ∧ m.data = x.limbs.map var ∧
      (m.op = .getPrevious → x.instrIdx = idx) ∧ (m.op = .setNew → x.instrIdx = idx + 1) := by
  unfold concreteAccess at h
  cases hm : memConversion memoryBusId (symBusToBus b) with
  | error e => rw [hm] at h; cases h
  | ok y =>
    rw [hm] at h
    simp only [bind, Except.bind] at h
    cases y with
    | notMemory => cases h
    | unclear => cases h
    | memory m =>
      simp only at h
      cases hp : m.pointer.tryToKnown with
      | none => rw [hp] at h; cases h
      | some pointer =>
        rw [hp] at h
        cases hl : m.data.mapM tryToSimpleUnknown with
        | none => rw [hl] at h; cases h
        | some limbs =>
          rw [hl] at h
          simp only [pure, Except.pure, Except.ok.injEq, Option.some.injEq] at h
          subst h
          refine ⟨m, pointer, rfl, tryToNumber_eq hp, rfl, ?_, ?_, ?_⟩
          · clear hm hp
            simp only
            generalize m.data = l at hl
            induction l generalizing limbs with
            | nil => simp at hl; subst hl; rfl
            | cons e t ih =>
              rw [List.mapM_cons] at hl
              cases he : e.tryToSimpleUnknown with
              | none => rw [he] at hl; cases hl
              | some v =>
                cases ht : t.mapM tryToSimpleUnknown with
                | none => rw [he, ht] at hl; cases hl
                | some vs =>
                  rw [he, ht] at hl
                  cases hl
                  rw [List.map_cons, ← ih _ ht, tryToSimpleUnknown_eq_some.1 he]
          · intro hop
            simp [hop]
          · intro hop
            simp [hop]

theorem mem_limbMapping {a : ColumnAllocator} {x : ConcreteAccess p}
    {y : ℕ × OptLiteral (List (ZMod p))} :
    y ∈ limbMapping a x ↔ ∃ i : ℕ, x.limbs[i]? = some y.1 ∧ a.isKnownId y.1 = true ∧
      y.2 = ⟨x.instrIdx, .registerLimb x.address i⟩ := by
  unfold limbMapping
  simp only [List.mem_filterMap, Prod.exists, List.mem_zipIdx_iff_getElem?]
  constructor
  · rintro ⟨r, i, h1, h2⟩
    split_ifs at h2 with h3
    cases h2
    exact ⟨i, h1, h3, rfl⟩
  · rintro ⟨i, h1, h2, h3⟩
    refine ⟨y.1, i, h1, ?_⟩
    rw [if_pos h2, ← h3]

theorem mapM_reduceOption {α β ε : Type} {f : α → Except ε (Option β)} : ∀ {l : List α}
    {r : List (Option β)}, l.mapM f = .ok r → ∀ {x : β}, x ∈ r.reduceOption →
      ∃ a ∈ l, f a = .ok (some x)
  | [], r, h, x, hx => by
    cases h
    cases hx
  | a :: l, r, h, x, hx => by
    rw [List.mapM_cons] at h
    simp only [Except.bind_ok_iff] at h
    obtain ⟨y, h1, t, h2, h3⟩ := h
    cases h3
    rw [List.reduceOption_mem_iff] at hx
    rcases List.mem_cons.1 hx with rfl | hx
    · exact ⟨a, List.mem_cons_self, h1⟩
    · obtain ⟨b, hb, h4⟩ := mapM_reduceOption h2 (List.reduceOption_mem_iff.2 hx)
      exact ⟨b, List.mem_cons_of_mem _ hb, h4⟩

theorem instrLiterals_ok {a : ColumnAllocator} : ∀ {ms : List (SymMachine (ZMod p) ℕ)} {idx : ℕ}
    {r : List (List (ℕ × OptLiteral (List (ZMod p))))}, instrLiterals memoryBusId a idx ms = .ok r →
    r.length = ms.length ∧ ∀ (k : ℕ) (l : List (ℕ × OptLiteral (List (ZMod p)))), r[k]? = some l →
      ∃ m, ms[k]? = some m ∧ ∀ y ∈ l, ∃ b ∈ m.bus, ∃ x,
        concreteAccess memoryBusId (idx + k) b = .ok (some x) ∧ y ∈ limbMapping a x
  | [], idx, r, h => by
    cases h
    simp
  | m :: t, idx, r, h => by
    rw [instrLiterals] at h
    simp only [Except.bind_ok_iff] at h
    obtain ⟨accesses, h1, rest, h2, h3⟩ := h
    cases h3
    obtain ⟨h4, h5⟩ := instrLiterals_ok h2
    refine ⟨by simp [h4], fun k l hl => ?_⟩
    cases k with
    | zero =>
      cases hl
      refine ⟨m, rfl, fun y hy => ?_⟩
      obtain ⟨x, hx, hy⟩ := List.mem_flatMap.1 hy
      obtain ⟨b, hb, h6⟩ := mapM_reduceOption h1 hx
      exact ⟨b, hb, x, h6, hy⟩
    | succ k =>
      obtain ⟨m', h6, h7⟩ := h5 k l (by simpa using hl)
      refine ⟨m', by simpa using h6, fun y hy => ?_⟩
      have := h7 y hy
      rwa [Nat.add_assoc, Nat.add_comm 1 k] at this

/-- The literals of one instruction are right, if its accesses can be told apart. -/
theorem literal_right {m' : SymMachine (ZMod p) ℕ} {b : SymBus (ZMod p) ℕ} (hb : b ∈ m'.bus)
    {x : ConcreteAccess p} (hx : concreteAccess memoryBusId idx b = .ok (some x)) {a : ColumnAllocator}
    {y : ℕ × OptLiteral (List (ZMod p))} (hy : y ∈ limbMapping a x)
    (hap : AccessesApart memoryBusId m'.bus) {τ : ℕ → ZMod p} {g g' : Memory p}
    (hrun : MemoryRun (memoryBusId : ZMod p) ((m'.bus.map symBusToBus).map fun b => b.evalAt τ) g g')
    {limb : ℕ → ℕ → ℕ} {states : List (ExecState (List (ZMod p)) ℕ)}
    {st st' : ExecState (List (ZMod p)) ℕ} (hs : states[idx]? = some st)
    (hs' : states[idx + 1]? = some st') (hg : StateMatches limb st g) (hg' : StateMatches limb st' g') :
    LiteralRight limb states τ y := by
  obtain ⟨i, h1, -, h2⟩ := mem_limbMapping.1 hy
  obtain ⟨m, pointer, hm, hp, hadr, hdata, hget, hset⟩ := concreteAccess_ok hx
  obtain ⟨pre, post, hbs⟩ := List.append_of_mem hb
  obtain ⟨hclear, hpw⟩ := hap
  rw [hbs] at hclear hpw hrun
  rw [List.map_append, List.map_cons] at hrun
  rw [List.pairwise_append] at hpw
  obtain ⟨-, hpost, hpre⟩ := hpw
  rw [List.pairwise_cons] at hpost
  have haddr : m.addressAt τ = (m.space, pointer) := by
    rw [MemInt.addressAt, hp, eval_const]
  have hclear' : ∀ l : List (SymBus (ZMod p) ℕ), (∀ c ∈ l, c ∈ pre ++ b :: post) →
      ∀ c ∈ l.map symBusToBus, ClearAccess memoryBusId c := by
    intro l hl c hc
    obtain ⟨z, hz, rfl⟩ := List.mem_map.1 hc
    exact hclear z (hl z hz)
  have hval : ∀ (d : List (ZMod p)) (ts : ZMod p), (d, ts) = m.contentAt τ → d[i]? = some (τ y.1) := by
    intro d ts h
    have : d = m.data.map (eval τ) := congrArg Prod.fst h
    rw [this, hdata, List.map_map, List.getElem?_map, h1]
    simp [eval_var]
  have hneq : ∀ {m1 m2 : MemInt p ℕ}, (m1.space ≠ m2.space ∨ ∃ u v, m1.pointer.tryToKnown = some u ∧
      m2.pointer.tryToKnown = some v ∧ u ≠ v) → m1.addressAt τ ≠ m2.addressAt τ := by
    rintro m1 m2 (h | ⟨u, v, h3, h4, h5⟩) heq
    · exact h (congrArg Prod.fst heq)
    · have := congrArg Prod.snd heq
      simp only [MemInt.addressAt, tryToNumber_eq h3, tryToNumber_eq h4, eval_const] at this
      exact h5 this
  unfold LiteralRight
  rw [h2, OptLiteral.read]
  simp only
  cases hop : m.op with
  | getPrevious =>
    rw [hget hop, hs]
    simp only [Option.map_some, Option.some.injEq]
    obtain ⟨d, ts, h3, h4⟩ := hg m.space pointer
    have := run_get hrun hm hop (hclear' pre fun c hc => by simp [hc]) ?_ (by rw [haddr, h3]; simp)
    · rw [haddr, h3] at this
      rw [hadr]
      exact h4 i _ (hval d ts (Option.some.inj this))
    · intro c hc hacc
      obtain ⟨z, hz, rfl⟩ := List.mem_map.1 hc
      obtain ⟨mz, k1, k2, k3⟩ := hacc
      exact hneq (hpre z hz b List.mem_cons_self mz m k1 hm (by rw [k2, hop])) k3
  | setNew =>
    rw [hset hop, hs']
    simp only [Option.map_some, Option.some.injEq]
    obtain ⟨d, ts, h3, h4⟩ := hg' m.space pointer
    have := run_set hrun hm hop (hclear' post fun c hc => by simp [hc]) ?_ (by rw [haddr, h3]; simp)
    · rw [haddr, h3] at this
      rw [hadr]
      exact h4 i _ (hval d ts (Option.some.inj this))
    · intro c hc hacc
      obtain ⟨z, hz, rfl⟩ := List.mem_map.1 hc
      obtain ⟨mz, k1, k2, k3⟩ := hacc
      exact hneq (hpost.1 z hz m mz hm k1 (by rw [k2, hop])) k3.symm

end

/-! ### Execution constraints -/

section
variable {A : Type} [DecidableEq A] {p : ℕ}

/-- The constraints have literals for all references and numbers of 32 bits. -/
theorem executionConstraints_defined {literals : ℕ → Option (OptLiteral A)} : ∀ {cs : List (EqConstraint ℕ)},
    (∃ ocs, executionConstraints p literals cs = .ok ocs) ↔ ∀ k ∈ cs, (literals k.left).isSome ∧
      (∀ r, k.right = .inl r → (literals r).isSome) ∧ ∀ n, k.right = .inr n → (n : ZMod p).val < 2 ^ 32
  | [] => by simp [executionConstraints]
  | k :: t => by
    rw [List.forall_mem_cons, ← executionConstraints_defined (cs := t)]
    simp only [executionConstraints, Except.bind_ok_iff]
    have h1 : ∀ r, (∃ e, optimisticReference literals r = .ok e) ↔ (literals r).isSome := by
      intro r
      unfold optimisticReference
      cases literals r <;> simp
    have h2 : (∃ e, optimisticExpression p literals k.right = .ok e) ↔
        (∀ r, k.right = .inl r → (literals r).isSome) ∧
          ∀ n, k.right = .inr n → (n : ZMod p).val < 2 ^ 32 := by
      cases hr : k.right with
      | inl r =>
        simp only [optimisticExpression, h1]
        simp
      | inr n =>
        simp only [optimisticExpression, numberToU32]
        split_ifs with hn
        · simpa [bind, Except.bind, pure, Except.pure] using hn
        · simpa [bind, Except.bind] using hn
    rw [← h1, ← h2]
    constructor
    · rintro ⟨ocs, l, e1, e, e2, r, e3, -⟩
      exact ⟨⟨⟨l, e1⟩, e, e2⟩, r, e3⟩
    · rintro ⟨⟨⟨l, e1⟩, e, e2⟩, r, e3⟩
      exact ⟨_, l, e1, e, e2, r, e3, rfl⟩

theorem executionConstraints_hold [NeZero p] {literals : ℕ → Option (OptLiteral A)}
    {limb : ℕ → ℕ → ℕ} {states : List (ExecState A ℕ)} {σ : ℕ → ZMod p}
    (hr : ∀ r l, literals r = some l → l.read limb states = some (σ r).val) :
    ∀ {cs : List (EqConstraint ℕ)} {ocs : List (OptConstraint A ℕ)},
    executionConstraints p literals cs = .ok ocs →
    ((∀ k ∈ ocs, k.Holds limb states) ↔ ∀ k ∈ cs, k.Holds σ) ∧
      ∀ k ∈ ocs, ∀ i, k.MentionsStep i → i < states.length
  | [], ocs, h => by
    cases h
    simp
  | k :: t, ocs, h => by
    simp only [executionConstraints, Except.bind_ok_iff] at h
    obtain ⟨l, e1, e, e2, r, e3, h4⟩ := h
    cases h4
    obtain ⟨i1, i2⟩ := executionConstraints_hold hr e3
    have href : ∀ {q : ℕ} {e : OptExpr A ℕ}, optimisticReference literals q = .ok e →
        e.read limb states = some (σ q).val ∧ ∀ l, e = .literal l → l.instrIdx < states.length := by
      intro q e he
      unfold optimisticReference at he
      cases hq : literals q with
      | none => rw [hq] at he; cases he
      | some l =>
        rw [hq] at he
        cases he
        refine ⟨hr q l hq, fun l' h => ?_⟩
        cases h
        have := hr q l hq
        rw [OptLiteral.read, Option.map_eq_some_iff] at this
        obtain ⟨st, hst, -⟩ := this
        exact (List.getElem?_eq_some_iff.1 hst).1
    obtain ⟨f1, f2⟩ := href e1
    have hright : (∃ z : ZMod p, e.read limb states = some z.val ∧
        (k.Holds σ ↔ σ k.left = z)) ∧ ∀ l, e = .literal l → l.instrIdx < states.length := by
      unfold EqConstraint.Holds
      cases hk : k.right with
      | inl q =>
        rw [hk] at e2
        obtain ⟨f3, f4⟩ := href e2
        exact ⟨⟨σ q, f3, by simp⟩, f4⟩
      | inr n =>
        rw [hk, optimisticExpression] at e2
        simp only [Except.bind_ok_iff] at e2
        obtain ⟨v, hv, e2⟩ := e2
        cases e2
        unfold numberToU32 at hv
        split_ifs at hv
        cases hv
        exact ⟨⟨(n : ZMod p), rfl, by simp⟩, fun l h => by cases h⟩
    obtain ⟨⟨z, f3, f5⟩, f4⟩ := hright
    constructor
    · rw [List.forall_mem_cons, List.forall_mem_cons, i1, f5]
      refine and_congr ?_ Iff.rfl
      simp only [OptConstraint.Holds, f1, f3, Option.some.injEq]
      constructor
      · rintro ⟨v, h1, h2⟩
        exact ZMod.val_injective p (h1.trans h2.symm)
      · rintro h
        exact ⟨_, rfl, by rw [h]⟩
    · intro k' hk' i hi
      rcases List.mem_cons.1 hk' with rfl | hk'
      · rcases hi with ⟨l', h1, rfl⟩ | ⟨l', h1, rfl⟩
        · exact f2 l' h1
        · exact f4 l' h1
      · exact i2 k' hk' i hi

end

end Verif
