import Verif.Proofs.Build
import Verif.Props.Optimizer

/-!
# C65: the generation of a precompile as a whole
-/

set_option linter.unusedSectionVars false

namespace Verif

open GExpr

section
variable {p : ℕ} [Fact p.Prime] {U I : Type} [Field U] [DecidableEq U] {N : ℕ} {φ : U ≃+* ZMod p}
  {execBus step : ℕ} {c : OptimizerConfig p (Fin N)}
  {ok : RuleInput p (Fin N) → ConstraintSystem p (Fin N) → ConstraintSystem p (Fin N) → Prop}
  {air : ℕ × I → InstrAir U} {blocks : List (BasicBlock I)} {e : EmpiricalConstraints}
  {keep : Option (BlockCell → Bool)} {apc : SymMachine U ℕ} {subs : List (List (ℕ × ℕ))}

/-- C65: the instructions of a superblock and their program counters, by position. -/
theorem C65_instructions {k pc : ℕ} {i : I} :
    (superBlockInstructions step blocks)[k]? = some (pc, i) ↔ ∃ before b after j,
      blocks = before ++ b :: after ∧ b.instructions[j]? = some i ∧
      k = (before.flatMap fun b => b.instructions).length + j ∧ pc = b.startPc + j * step := by
  induction blocks generalizing k with
  | nil => simp [superBlockInstructions]
  | cons b t ih =>
    have hb : (b.pcInstructions step).length = b.instructions.length := by simp [BasicBlock.pcInstructions]
    rw [superBlockInstructions, List.flatMap_cons, List.getElem?_append, hb]
    split
    · rename_i hk
      rw [BasicBlock.pcInstructions, List.getElem?_map, List.getElem?_zipIdx]
      constructor
      · intro h
        simp only [Option.map_eq_some_iff, Prod.mk.injEq, Prod.exists] at h
        obtain ⟨i', j, ⟨i'', h1, rfl, rfl⟩, rfl, rfl⟩ := h
        exact ⟨[], b, t, k, rfl, h1, by simp, by rw [Nat.zero_add]⟩
      · rintro ⟨before, b', after, j, h1, h2, h3, rfl⟩
        cases before with
        | nil =>
          injection h1 with h1 h4
          subst h1
          simp at h3
          rw [h3, h2]
          simp
        | cons c before =>
          injection h1 with h1 h4
          subst h1
          simp at h3
          omega
    · rename_i hk
      have := ih (k := k - b.instructions.length)
      rw [superBlockInstructions] at this
      rw [this]
      constructor
      · rintro ⟨before, b', after, j, rfl, h2, h3, rfl⟩
        refine ⟨b :: before, b', after, j, rfl, h2, ?_, rfl⟩
        rw [List.flatMap_cons, List.length_append]
        clear this ih
        omega
      · rintro ⟨before, b', after, j, h1, h2, h3, rfl⟩
        have hj := (List.getElem?_eq_some_iff.1 h2).1
        cases before with
        | nil =>
          injection h1 with h1 h4
          subst h1
          simp at h3
          omega
        | cons c before =>
          injection h1 with h1 h4
          subst h1
          refine ⟨before, b', after, j, h4, h2, ?_, rfl⟩
          rw [List.flatMap_cons, List.length_append] at h3
          clear this ih
          omega

/-- The steps after the optimizer. -/
theorem BuildRun.finish (r : BuildRun φ execBus step c ok air blocks e keep apc subs) (σ : ℕ → ZMod p)
    (h1 : σ N = 1) :
    (apc.Holds (φ.symm ∘ σ) ↔ ∀ x ∈ r.s4.algebraic, x.eval (σ ∘ Fin.val) = 0) ∧
    asInteractions φ (apc.messages (φ.symm ∘ σ)) = r.s4.bus.map (fun b => b.evalAt (σ ∘ Fin.val)) ∧
    (∀ x ∈ apc.messages (φ.symm ∘ σ), x.1 < p) ∧
    (r.s4.Computed (σ ∘ Fin.val) → ∀ d ∈ apc.derived, (φ.symm ∘ σ) d.1 = d.2.value (φ.symm ∘ σ)) := by
  have h2 := C37_active r.step6 h1
  have h3 := C36_system_to_machine r.step5 (σ ∘ Fin.val)
  have h4 := systemToMachine_messages r.step5 (σ ∘ Fin.val)
  have h5 := C59_convert (φ.symm : ZMod p →+* U) σ r.m6
  have h6 := C59_convert_derived (φ.symm : ZMod p →+* U) σ r.m6
  have hapc : apc = r.m6.convert (φ.symm : ZMod p →+* U) := r.machine
  have hcomp : φ.symm ∘ σ = ((φ.symm : ZMod p →+* U) : ZMod p → U) ∘ σ := rfl
  have hm6 : r.m6.messages σ = r.m5.messages (σ ∘ Fin.val) := by
    rw [h2.2, renumber_messages]
  have a1 : apc.Holds = (r.m6.convert (φ.symm : ZMod p →+* U)).Holds := by rw [← hapc]
  have a2 : apc.messages = (r.m6.convert (φ.symm : ZMod p →+* U)).messages := by rw [← hapc]
  have a3 : apc.derived = (r.m6.convert (φ.symm : ZMod p →+* U)).derived := by rw [← hapc]
  rw [hcomp, a1, a2, a3, h5.2.2, hm6]
  refine ⟨?_, ?_, ?_, ?_⟩
  · rw [← h3.1, ← renumber_holds Fin.val r.m5 σ, ← h2.1]
    exact ⟨h5.2.1 φ.symm.injective, h5.1⟩
  · rw [← h4.1, asInteractions, List.map_map]
    refine List.map_congr_left fun x _ => ?_
    simp [toInteraction, Function.comp_def]
  · intro x hx
    obtain ⟨y, hy, rfl⟩ := List.mem_map.1 hx
    exact h4.2 y hy
  · intro hs d hd
    have hd' : (d.1, d.2.value ((φ.symm : ZMod p →+* U) ∘ σ)) ∈
        r.m6.derived.map fun x => (x.1, (φ.symm : ZMod p →+* U) (x.2.value σ)) := by
      rw [← h6]
      exact List.mem_map.2 ⟨d, hd, rfl⟩
    obtain ⟨y, hy, hyd⟩ := List.mem_map.1 hd'
    injection hyd with g1 g2
    rw [← g2, ← g1, Function.comp_apply]
    congr 1
    rw [(C37_column r.step6).1] at hy
    rcases List.mem_append.1 hy with hy | hy
    · obtain ⟨z, hz, rfl⟩ := List.mem_map.1 hy
      rw [renumber_method]
      have hz' : (z.1, z.2.value (σ ∘ Fin.val)) ∈
          r.s4.derived.map fun d => (d.column, d.method.value (σ ∘ Fin.val)) := by
        rw [← h3.2.2]
        exact List.mem_map.2 ⟨z, hz, rfl⟩
      obtain ⟨d', hd', he⟩ := List.mem_map.1 hz'
      injection he with e1 e2
      rw [← e2, ← e1]
      exact hs d' hd'
    · rw [List.mem_singleton.1 hy]
      exact h1

/-- The steps before the optimizer, for an assignment of the columns below `N`. -/
theorem BuildStart.start {pcBus : ℕ} (r : BuildStart N φ execBus pcBus step air blocks e keep) (σ : ℕ → ZMod p) :
    (r.m3.Holds (σ ∘ Fin.val) ↔ r.m2.Holds σ) ∧
    ((machineToSystem r.m3).bus.map fun b => b.evalAt (σ ∘ Fin.val)) =
      (r.m2.messages σ).map toInteraction := by
  constructor
  · rw [← r.step3, renumber_holds]
  · rw [machineToSystem_messages, ← r.step3, renumber_messages]

theorem systemSatisfied_iff {V : Type} {bus : Bus p} {s : ConstraintSystem p V} {σ : V → ZMod p} :
    s.Satisfied bus σ ↔ (∀ x ∈ s.algebraic, x.eval σ = 0) ∧
      ∀ x ∈ s.bus.map fun b => b.evalAt σ, bus x := by
  constructor
  · rintro ⟨h1, h2⟩
    refine ⟨h1, fun x hx => ?_⟩
    obtain ⟨b, hb, rfl⟩ := List.mem_map.1 hx
    exact h2 b hb
  · rintro ⟨h1, h2⟩
    exact ⟨h1, fun b hb => h2 _ (List.mem_map.2 ⟨b, hb, rfl⟩)⟩

theorem rowMessages_ids {width : ℕ}
    (hair : ∀ x ∈ superBlockInstructions step blocks, (air x).Good execBus p width) {rows : ℕ → ℕ → U} :
    ∀ x ∈ rowMessages ((superBlockInstructions step blocks).map air) rows, x.1 < p := by
  intro y hy
  obtain ⟨z, hz, hyz⟩ := List.mem_flatMap.1 hy
  obtain ⟨b, hb, rfl⟩ := List.mem_map.1 hyz
  have hz' := List.fst_mem_of_mem_zipIdx hz
  obtain ⟨q, hq, hqz⟩ := List.mem_map.1 hz'
  rw [← hqz] at hb
  exact (hair q hq).ids b hb

/-- The rows of a block are an execution of the system that is optimized. -/
theorem BuildStart.execution {pcBus : ℕ} (r : BuildStart N φ execBus pcBus step air blocks e keep)
    {width : ℕ} (hair : ∀ x ∈ superBlockInstructions step blocks, (air x).Good execBus p width) (hwf : e.WF)
    (hcells : ∀ b ∈ blocks, CellsInBlock e b) {rows : ℕ → ℕ → U} {σ : ℕ → ZMod p}
    (hσ : Agrees φ r.a0.subs rows σ)
    (hrows : BlockRows execBus pcBus ((superBlockInstructions step blocks).map air) rows)
    (hemp : EmpiricallyTrue e step blocks (keep.getD fun _ => true) rows) (bus : Bus p)
    (hacc : ∀ b ∈ asInteractions φ (rowMessages ((superBlockInstructions step blocks).map air) rows),
      bus b) (memoryBusId : Option ℕ)
    (hmem : ∀ id, memoryBusId = some id → (execBus : ZMod p) ≠ (id : ZMod p)) (m m' : Memory p)
    (hrun : ∀ id, memoryBusId = some id → MemoryRun (id : ZMod p)
      (asInteractions φ (rowMessages ((superBlockInstructions step blocks).map air) rows)) m m') :
    (machineToSystem r.m3).Execution bus memoryBusId (σ ∘ Fin.val) m m' ∧
    (machineToSystem r.m3).derived = [] := by
  obtain ⟨g1, g2, g3, g4, g5⟩ := r.rows hair hwf hcells hσ
  have hm2 : r.m2.Holds σ := g1.2 ⟨hrows, hemp⟩
  obtain ⟨k1, k2⟩ := r.start σ
  have hd3 : r.m3.derived = [] := by
    have := congrArg SymMachine.derived r.step3
    rw [g5] at this
    exact List.map_eq_nil_iff.1 this
  have hd3' : (machineToSystem r.m3).derived = [] := by simp [machineToSystem, hd3]
  refine ⟨?_, hd3'⟩
  · refine ⟨systemSatisfied_iff.2 ⟨?_, ?_⟩, fun id hid => ?_⟩
    · intro x hx
      have := (machineToSystem_satisfied (fun _ => True) r.m3 (σ ∘ Fin.val)).2
        ⟨k1.2 hm2, fun _ _ => trivial⟩
      exact this.algebraic x hx
    · rw [k2]
      intro x hx
      obtain ⟨y, hy, rfl⟩ := List.mem_map.1 hx
      refine hacc _ ?_
      rw [asInteractions_eq]
      exact List.mem_map.2 ⟨y, g4 y hy, rfl⟩
    · unfold ConstraintSystem.UsesMemory
      rw [k2]
      have h := hrun id hid
      rw [asInteractions_eq] at h
      rw [memoryRun_onBus] at h ⊢
      have hf : ∀ l : List (ℕ × ZMod p × List (ZMod p)),
          (l.map toInteraction).filter (fun b => b.busId = (id : ZMod p)) =
          ((l.filter fun x => x.1 ≠ execBus).map toInteraction).filter
            (fun b => b.busId = (id : ZMod p)) := by
        intro l
        rw [List.filter_map, List.filter_map, List.filter_filter]
        congr 1
        refine List.filter_congr fun x _ => ?_
        simp only [Function.comp_apply, toInteraction]
        by_cases hx : (x.1 : ZMod p) = (id : ZMod p)
        · have : x.1 ≠ execBus := fun h' => hmem id hid (by rw [← h']; exact hx)
          simp [hx, this]
        · simp [hx]
      rw [hf] at h ⊢
      rw [g3]
      exact h

/-- C65, completeness: take rows of the instructions of the block that are an execution of the block
and satisfy the empirical constraints. Then there is a row of the precompile that has the values of
these rows in the columns copied from them, computes all other columns by their computation methods,
satisfies the precompile, and whose messages are admissible, lead from the same memory to the same
memory, and have the same balance on the other stateful buses. -/
theorem C65_complete (r : BuildRun φ execBus step c ok air blocks e keep apc subs) (hN : N ≤ p)
    (bus : Bus p) (hc : c.Correct bus)
    (hmem : ∀ id, c.memoryBusId = some id → (execBus : ZMod p) ≠ (id : ZMod p)) (width : ℕ)
    (hair : ∀ x ∈ superBlockInstructions step blocks, (air x).Good execBus p width) (hwf : e.WF)
    (hcells : ∀ b ∈ blocks, CellsInBlock e b) (w : ℕ)
    (he : c.rangeHandler.Exact bus w r.step4.st.finish.system.bus) (m m' : Memory p)
    (rows : ℕ → ℕ → U)
    (hrows : BlockRows execBus c.pcLookupId ((superBlockInstructions step blocks).map air) rows)
    (hemp : EmpiricallyTrue e step blocks (keep.getD fun _ => true) rows)
    (hacc : ∀ b ∈ asInteractions φ (rowMessages ((superBlockInstructions step blocks).map air) rows),
      bus b)
    (hrun : ∀ id, c.memoryBusId = some id → MemoryRun (id : ZMod p)
      (asInteractions φ (rowMessages ((superBlockInstructions step blocks).map air) rows)) m m')
    (hcmp : ∀ τ : Fin N → ZMod p,
      (∀ (k : ℕ) (l : List ℕ) (j : ℕ) (v : Fin N), r.a0.subs[k]? = some l → l[j]? = some (v : ℕ) →
        τ v = φ (rows k j)) →
      (∀ d ∈ r.step4.news, d.Computed τ) → ComparisonsRight τ ok) :
    ∃ row : ℕ → U,
      (∀ (k : ℕ) (l : List (ℕ × ℕ)), subs[k]? = some l → ∀ x ∈ l, row x.2 = rows k x.1) ∧
      (∀ d ∈ apc.derived, row d.1 = d.2.value row) ∧
      apc.Holds row ∧
      (∀ b ∈ asInteractions φ (apc.messages row), bus b) ∧
      (∀ id, c.memoryBusId = some id →
        MemoryRun (id : ZMod p) (asInteractions φ (apc.messages row)) m m') ∧
      ∀ id : ℕ, c.otherStateful (id : ZMod p) = true → ∀ payload,
        messageBalance (apc.messages row) id payload =
          messageBalance (rowMessages ((superBlockInstructions step blocks).map air) rows) id payload := by
  have : NeZero p := ⟨(Fact.out : p.Prime).ne_zero⟩
  set is := (superBlockInstructions step blocks).map air with his
  have hids := C47_ids r.step0
  have hn : r.a0.subs.flatten.Nodup := by
    rw [hids.1]
    exact List.nodup_range
  obtain ⟨σ, hσ⟩ := exists_agrees φ hn rows
  obtain ⟨g1, g2, g3, g4, g5⟩ := r.rows hair hwf hcells hσ
  have hm2 : r.m2.Holds σ := g1.2 ⟨hrows, hemp⟩
  obtain ⟨k1, k2⟩ := r.start σ
  have hd3 : r.m3.derived = [] := by
    have := congrArg SymMachine.derived r.step3
    rw [g5] at this
    exact List.map_eq_nil_iff.1 this
  have hd3' : (machineToSystem r.m3).derived = [] := by simp [machineToSystem, hd3]
  have hex : (machineToSystem r.m3).Execution bus c.memoryBusId (σ ∘ Fin.val) m m' :=
    (r.execution hair hwf hcells hσ hrows hemp bus hacc c.memoryBusId hmem m m' hrun).1
  have hnew := r.newColumns g5
  have hsub : ∀ (k : ℕ) (l : List ℕ) (j id : ℕ), r.a0.subs[k]? = some l → l[j]? = some id →
      id < r.a0.nextPolyId := by
    intro k l j id h1 h2
    have : id ∈ r.a0.subs.flatten :=
      List.mem_flatten.2 ⟨l, List.mem_of_getElem? h1, List.mem_of_getElem? h2⟩
    rw [hids.1] at this
    exact List.mem_range.1 this
  have hold : ∀ τ : Fin N → ZMod p, (∀ v, (∀ d ∈ r.step4.news, d.column ≠ v) → τ v = (σ ∘ Fin.val) v) →
      ∀ (k : ℕ) (l : List ℕ) (j : ℕ) (v : Fin N), r.a0.subs[k]? = some l → l[j]? = some (v : ℕ) →
        τ v = φ (rows k j) := by
    intro τ hτ k l j v h1 h2
    rw [hτ v fun d hd heq => ?_]
    · exact hσ k l j v h1 h2
    · have := r.issuedAfter d hd
      rw [heq] at this
      exact absurd (hsub k l j v h1 h2) (not_lt.2 this)
  obtain ⟨τ, t1, t2, t3, t4⟩ := C62_extends (by simpa using hN) c bus hc (machineToSystem r.m3) r.s4
    (machineToSystem_wf _) (fun d hd => by rw [hd3'] at hd; cases hd) m m' ok r.step4 hnew w he
    (σ ∘ Fin.val) hex (fun d hd => by rw [hd3'] at hd; cases hd)
    (fun τ h1 h2 => hcmp τ (hold τ h1) h2)
  let τN : ℕ → ZMod p := fun i => if h : i < N then τ ⟨i, h⟩ else 1
  have hτN : τN ∘ Fin.val = τ := by
    funext v
    simp [τN]
  obtain ⟨f1, f2, f3, f4⟩ := r.finish τN (by simp [τN])
  rw [hτN] at f1 f2 f4
  refine ⟨φ.symm ∘ τN, ?_, f4 t4, f1.2 t2.sat.algebraic, ?_, ?_, ?_⟩
  · intro k l hl x hx
    rw [r.substitutions] at hl
    obtain ⟨s1, s2⟩ := C47_substitutions r.m6 r.a6
    have ha6 : r.a6.subs = r.a0.subs := by rw [(C37_column r.step6).2.1]
    have hk : k < r.a6.subs.length := by
      rw [← s1]
      exact (List.getElem?_eq_some_iff.1 hl).1
    obtain ⟨l', hl', hmem', -⟩ := s2 k _ (List.getElem?_eq_getElem hk)
    rw [hl] at hl'
    cases hl'
    have hx' := ((hmem' x.1 x.2).1 hx).1
    have h0 : r.a0.subs[k]? = some (r.a6.subs[k]) := by
      rw [← ha6, List.getElem?_eq_getElem hk]
    have hlt : x.2 < N := lt_of_lt_of_le (hsub k _ x.1 x.2 h0 hx') r.allocated
    have := hold τ t1 k _ x.1 ⟨x.2, hlt⟩ h0 hx'
    simp [τN, hlt, this]
  · rw [f2]
    exact (systemSatisfied_iff.1 t2.sat).2
  · intro id hid
    rw [f2]
    exact t2.memory id hid
  · intro id hid payload
    by_cases hlt : id < p
    · apply φ.injective
      rw [← messageBalance_convert, ← messageBalance_convert, ← g2 hm2,
        messageBalance_eq ?_ hlt, messageBalance_eq ?_ hlt, ← k2, ← asInteractions_eq, f2]
      · have hs : ∀ (s : ConstraintSystem p (Fin N)) (ρ : Fin N → ZMod p),
            interactionBalance (s.bus.map fun b => b.evalAt ρ) (id : ZMod p) (payload.map φ) =
              interactionBalance (s.messages c.otherStateful ρ) (id : ZMod p) (payload.map φ) := by
          intro s ρ
          exact (interactionBalance_filter (f := c.otherStateful) hid _ _).symm
        rw [hs, hs, t3]
      · intro x hx
        obtain ⟨y, hy, hyx⟩ := List.mem_map.1 (g4 x hx)
        rw [← hyx]
        exact rowMessages_ids hair y hy
      · intro x hx
        obtain ⟨y, hy, rfl⟩ := List.mem_map.1 hx
        exact f3 y hy
    · rw [messageBalance_none, messageBalance_none]
      · intro x hx heq
        exact hlt (heq ▸ rowMessages_ids hair x hx)
      · intro x hx heq
        exact hlt (heq ▸ f3 x hx)

/-- C65, soundness: a row that satisfies the precompile, with admissible messages, is either inactive
and sends nothing, or there are rows of the instructions of the block which are an execution of the
block, satisfy the empirical constraints, have admissible messages except for the execution bus and
memory, and have the same balance as the row on every stateful bus, including the execution bus and
memory. -/
theorem C65_sound (r : BuildRun φ execBus step c ok air blocks e keep apc subs) (hN : N ≤ p)
    (bus : Bus p) (hc : c.Correct bus) (hsound : ReplacementsSound bus ok)
    (hsound' : ReplacementsSound (c.exceptMemory bus) ok) (width : ℕ)
    (hair : ∀ x ∈ superBlockInstructions step blocks, (air x).Good execBus p width) (hwf : e.WF)
    (hcells : ∀ b ∈ blocks, CellsInBlock e b) (w : ℕ)
    (he : c.rangeHandler.Exact bus w r.step4.st.finish.system.bus) (hsafe : r.step4.Safe bus)
    (row : ℕ → U) (hrow : apc.Holds row) (hacc : ∀ b ∈ asInteractions φ (apc.messages row), bus b) :
    (row N = 0 ∧ ∀ x ∈ apc.messages row, x.2.1 = 0) ∨
    (row N = 1 ∧ ∃ rows : ℕ → ℕ → U,
      BlockRows execBus c.pcLookupId ((superBlockInstructions step blocks).map air) rows ∧
      EmpiricallyTrue e step blocks (keep.getD fun _ => true) rows ∧
      (∀ x ∈ rowMessages ((superBlockInstructions step blocks).map air) rows, x.1 ≠ execBus →
        ∀ b ∈ asInteractions φ [x], c.exceptMemory bus b) ∧
      ∀ id : ℕ, c.isStateful (id : ZMod p) = true → ∀ payload,
        messageBalance (rowMessages ((superBlockInstructions step blocks).map air) rows) id payload =
          messageBalance (apc.messages row) id payload) := by
  have : NeZero p := ⟨(Fact.out : p.Prime).ne_zero⟩
  let σ : ℕ → ZMod p := φ ∘ row
  have hσ : φ.symm ∘ σ = row := by
    funext i
    simp [σ]
  have a1 : apc.Holds = (r.m6.convert (φ.symm : ZMod p →+* U)).Holds := by rw [← show _ = r.m6.convert (φ.symm : ZMod p →+* U) from r.machine]
  have a2 : apc.messages = (r.m6.convert (φ.symm : ZMod p →+* U)).messages := by rw [← show _ = r.m6.convert (φ.symm : ZMod p →+* U) from r.machine]
  have h5 := C59_convert (φ.symm : ZMod p →+* U) σ r.m6
  have hrow' : r.m6.Holds σ := by
    apply h5.2.1 φ.symm.injective
    rw [← a1]
    exact hσ.symm ▸ hrow
  rcases C37_boolean r.step6 hrow' with h0 | h1
  · left
    have h0' : φ (row N) = 0 := h0
    refine ⟨by simpa using h0', ?_⟩
    have h6 := C37_inactive r.step6 h0 hrow'
    intro x hx
    rw [← hσ, a2] at hx
    rw [show φ.symm ∘ σ = ((φ.symm : ZMod p →+* U) : ZMod p → U) ∘ σ from rfl, h5.2.2] at hx
    obtain ⟨y, hy, rfl⟩ := List.mem_map.1 hx
    simp [h6 y hy]
  · right
    have h1' : φ (row N) = 1 := h1
    refine ⟨by simpa using h1', ?_⟩
    obtain ⟨f1, f2, f3, -⟩ := r.finish σ h1
    rw [hσ] at f1 f2 f3
    have hsat : r.s4.Satisfied bus (σ ∘ Fin.val) := by
      refine systemSatisfied_iff.2 ⟨f1.1 hrow, ?_⟩
      rw [← f2]
      exact hacc
    obtain ⟨τ, t1, t2⟩ := C62_sound (by simpa using hN) c bus hc (machineToSystem r.m3) r.s4
      (machineToSystem_wf _) ok hsound hsound' r.step4 w he hsafe (σ ∘ Fin.val) hsat
    let τN : ℕ → ZMod p := fun i => if h : i < N then τ ⟨i, h⟩ else 0
    have hτN : τN ∘ Fin.val = τ := by
      funext v
      simp [τN]
    obtain ⟨k1, k2⟩ := r.start τN
    rw [hτN] at k1 k2
    have hag := agrees_rows φ r.a0.subs τN
    generalize (fun k c => φ.symm (τN ((r.a0.subs.getD k []).getD c 0))) = rows at hag
    obtain ⟨g1, g2, g3, g4, g5⟩ := r.rows hair hwf hcells hag
    have hm2 : r.m2.Holds τN := by
      refine k1.1 ?_
      have := (machineToSystem_satisfied (c.exceptMemory bus) r.m3 τ).1 t1
      exact this.1
    refine ⟨rows, (g1.1 hm2).1, (g1.1 hm2).2, ?_, ?_⟩
    · intro x hx hne b hb
      have hx' : convertMessage φ x ∈ r.m2.messages τN := by
        refine List.mem_of_mem_filter (p := fun x => decide (x.1 ≠ execBus)) ?_
        rw [g3]
        exact List.mem_filter.2 ⟨List.mem_map.2 ⟨x, hx, rfl⟩, decide_eq_true hne⟩
      have hb' : b = toInteraction (convertMessage φ x) := by
        rw [asInteractions_eq] at hb
        simpa using hb
      rw [hb']
      have hall := (systemSatisfied_iff.1 t1).2
      rw [k2] at hall
      exact hall _ (List.mem_map.2 ⟨_, hx', rfl⟩)
    · intro id hid payload
      by_cases hlt : id < p
      · apply φ.injective
        rw [← messageBalance_convert, ← messageBalance_convert, ← g2 hm2,
          messageBalance_eq ?_ hlt, messageBalance_eq ?_ hlt, ← k2, ← asInteractions_eq, f2]
        · rw [← interactionBalance_evalAt, ← interactionBalance_evalAt]
          exact t2 id hid _
        · intro x hx
          obtain ⟨y, hy, rfl⟩ := List.mem_map.1 hx
          exact f3 y hy
        · intro x hx
          obtain ⟨y, hy, hyx⟩ := List.mem_map.1 (g4 x hx)
          rw [← hyx]
          exact rowMessages_ids hair y hy
      · rw [messageBalance_none, messageBalance_none]
        · exact fun x hx heq => hlt (heq ▸ f3 x hx)
        · exact fun x hx heq => hlt (heq ▸ rowMessages_ids hair x hx)

end

/-! ### A sample

Two instructions. The first writes its column 2 to memory, the second reads it and sends it on bus 7.
Both pass on a program counter on the execution bus (bus 0). In all executions seen, the columns 2 of both
were equal. The precompile receives the state before the first instruction, sends the state after the
second one, and sends the value on bus 7. -/

attribute [local instance] fact_babyBear

def buildAir : ℕ × ℕ → InstrAir (ZMod 2013265921) := fun x =>
  { machine := {
      constraints := []
      bus := [⟨0, .minus (.reference 1), [.reference 0]⟩,
        ⟨0, .reference 1, [.binary (.reference 0) .add (.number 4)]⟩,
        ⟨9, .reference 1, [.reference 0]⟩] ++
        if x.2 = 0 then
          [⟨1, .reference 1, [.number 2, .number 7, .reference 2, .reference 3]⟩]
        else
          [⟨1, .minus (.reference 1), [.number 2, .number 7, .reference 2, .reference 3]⟩,
            ⟨7, .reference 1, [.reference 2]⟩]
      derived := [] }
    pcLookupRow := [(x.1 : ZMod 2013265921)] }

def buildBlocks : List (BasicBlock ℕ) := [⟨0, [0, 1]⟩]

def buildStats : EmpiricalConstraints :=
  ⟨[(0, [(0, 0), (1, 1), (2, 9), (3, 8)])], [(0, ⟨[((0, 2), 0), ((1, 2), 0)], 1⟩)], ⟨[], []⟩, []⟩

/-- Column 1 is not considered. -/
def buildKeep : BlockCell → Bool := fun x => x.2 != 1

def buildCs : List (EqConstraint ℕ) := [⟨0, .inr 0⟩, ⟨2, .inl 6⟩]

/-- All steps. -/
def buildAll : Option ((SymMachine (ZMod 2013265921) ℕ × ColumnAllocator) × List (BlockCell × ℕ) ×
    SymMachine (ZMod 2013265921) ℕ × ConstraintSystem 2013265921 (Fin 8) ×
    SymMachine (ZMod 2013265921) (Fin 8) × SymMachine (ZMod 2013265921) ℕ × ColumnAllocator) := do
  let r0 ← (blockMachine 0 9 (RingEquiv.refl (ZMod 2013265921))
    ((superBlockInstructions 4 buildBlocks).map buildAir)).toOption
  let refs ← (newReferenceMapper id r0.2.subs r0.1.refs.dedup).toOption
  let m2 ← (optimizeExecBus { r0.1 with
    constraints := r0.1.constraints ++ buildCs.map EqConstraint.toSymbolic } 0).toOption
  let s4 ← (pipelineAll (machineToSystem (m2.renumber (Fin.ofNat 8)))).toOption
  let m5 ← (systemToMachine s4).toOption
  let r6 ← (addGuards (m5.renumber Fin.val) { r0.2 with nextPolyId := 8 }).toOption
  pure (r0, refs, m2, s4, m5, r6)

/-- The precompile. Column 2 is the value in the row of the first instruction. -/
def buildApc : SymMachine (ZMod 2013265921) ℕ where
  constraints := [.binary (.reference 8) .mul (.binary (.reference 8) .sub (.number 1))]
  bus := [⟨0, .minus (.reference 8), [.number 0]⟩, ⟨7, .reference 8, [.reference 2]⟩,
    ⟨0, .reference 8, [.number 8]⟩]
  derived := [(8, .constant 1)]

/-- What is checked of the results. -/
def buildCheck (x : (SymMachine (ZMod 2013265921) ℕ × ColumnAllocator) × List (BlockCell × ℕ) ×
    SymMachine (ZMod 2013265921) ℕ × ConstraintSystem 2013265921 (Fin 8) ×
    SymMachine (ZMod 2013265921) (Fin 8) × SymMachine (ZMod 2013265921) ℕ × ColumnAllocator) : Prop :=
  x.1.2 = ⟨[[0, 1, 2, 3], [4, 5, 6, 7]], 8⟩ ∧
  x.2.1 = [((0, 0), 0), ((0, 1), 1), ((0, 2), 2), ((0, 3), 3), ((1, 0), 4), ((1, 3), 7), ((1, 1), 5),
    ((1, 2), 6)] ∧
  (x.2.2.1.renumber (Fin.ofNat 8)).renumber Fin.val = x.2.2.1 ∧
  x.2.2.2.1.algebraic = [] ∧
  (∀ b ∈ x.2.2.2.1.bus, (∀ e ∈ b.fields, e.degree ≤ 3) ∧ b.busId ≠ const 9) ∧
  x.2.2.2.2.2 = (buildApc, ⟨[[0, 1, 2, 3], [4, 5, 6, 7]], 9⟩)

instance : DecidablePred buildCheck := fun _ => by unfold buildCheck; infer_instance

theorem build_result : ∃ x, buildAll = some x ∧ buildCheck x := by
  have h : (match buildAll with
      | some x => decide (buildCheck x)
      | none => false) = true := by decide +kernel
  cases hb : buildAll with
  | none => rw [hb] at h; cases h
  | some x =>
    rw [hb] at h
    exact ⟨x, rfl, of_decide_eq_true h⟩

theorem ok_of_toOption {ε α : Type} {x : Except ε α} {a : α} (h : x.toOption = some a) : x = .ok a := by
  cases x with
  | error e => cases h
  | ok b => cases h; rfl

/-- The empirical constraints of the block: `v0 = 0` and `v2 = v6`. -/
theorem build_empirical (m : SymMachine (ZMod 2013265921) ℕ) (subs : List (List ℕ))
    (h : newReferenceMapper id subs m.refs.dedup = .ok [((0, 0), 0), ((0, 1), 1), ((0, 2), 2), ((0, 3), 3), ((1, 0), 4), ((1, 3), 7), ((1, 1), 5),
    ((1, 2), 6)]) :
    Nonempty (EmpiricalRun buildStats 4 buildBlocks (some buildKeep) m subs buildCs) := by
  refine ⟨{
    refs := _
    mapper := h
    ofBlock := ⟨[0, 4], [(0, [(0, (0, 0)), (1, (1, 1)), (2, (2, 9)), (3, (3, 8))])],
      ⟨[((0, 2), 0), ((1, 2), 0)], 1⟩⟩
    forBlock := ⟨_, .cons ⟨_, .refl _, by rfl⟩ .nil, by rfl⟩
    kept := ⟨[0, 4], [(0, [(0, (0, 0)), (2, (2, 9)), (3, (3, 8))])], ⟨[((0, 2), 0), ((1, 2), 0)], 1⟩⟩
    filter := ⟨nofun, fun q hq => ?_⟩
    generate := ⟨_, ⟨_, .refl _, rfl⟩, by rfl⟩ }⟩
  cases hq
  exact ⟨_, ⟨_, .refl _, rfl⟩, by rfl⟩

/-- The generation of the precompile. -/
theorem build_run_news : ∃ r : BuildRun (RingEquiv.refl (ZMod 2013265921)) 0 4 (pipelineConfig 8)
    (fun _ _ _ => False) buildAir buildBlocks buildStats (some buildKeep) buildApc [[(2, 2)], []],
    r.step4.Safe pipelineBus ∧
    (pipelineConfig 8).rangeHandler.Exact pipelineBus 0 r.step4.st.finish.system.bus ∧
    r.step4.news = [] := by
  obtain ⟨x, hx, hc⟩ := build_result
  unfold buildAll at hx
  simp only [bind, Option.bind_eq_some_iff] at hx
  obtain ⟨r0, h0, refs, h1, m2, h2, s4, h4, m5, h5, r6, h6, hx⟩ := hx
  cases hx
  obtain ⟨c1, c2, c3, c4, c5, c6⟩ := hc
  obtain ⟨m0, a0⟩ := r0
  simp only at c1 c2 c3 c4 c5 c6 h1 h2 h6
  subst c1 c2 c6
  obtain ⟨e⟩ := build_empirical m0 _ (ok_of_toOption h1)
  obtain ⟨run, k1, k2, k3⟩ := pipeline_run (ok_of_toOption h4) ⟨by rw [c4]; simp, c5⟩
  refine ⟨{
    m0 := m0
    a0 := _
    step0 := ok_of_toOption h0
    cs := buildCs
    step1 := e
    m2 := m2
    step2 := ok_of_toOption h2
    m3 := _
    step3 := c3
    s4 := s4
    step4 := run
    issued := by rw [k2]; exact .nil
    issuedAfter := by rw [k2]; simp
    allocated := le_refl _
    issuedFor := by rw [k2]; simp
    m5 := m5
    step5 := ok_of_toOption h5
    m6 := _
    a6 := _
    step6 := ok_of_toOption h6
    machine := by decide +kernel
    substitutions := by decide +kernel }, k1, k3, k2⟩

theorem build_run : ∃ r : BuildRun (RingEquiv.refl (ZMod 2013265921)) 0 4 (pipelineConfig 8)
    (fun _ _ _ => False) buildAir buildBlocks buildStats (some buildKeep) buildApc [[(2, 2)], []],
    r.step4.Safe pipelineBus ∧
    (pipelineConfig 8).rangeHandler.Exact pipelineBus 0 r.step4.st.finish.system.bus := by
  obtain ⟨r, h1, h2, -⟩ := build_run_news
  exact ⟨r, h1, h2⟩

/-- An execution of the two instructions. -/
def buildRows : ℕ → ℕ → ZMod 2013265921 := fun k c =>
  ((([[0, 1, 5, 100], [4, 1, 5, 100]] : List (List (ZMod 2013265921))).getD k []).getD c 0)

theorem build_instructions : superBlockInstructions 4 buildBlocks = [(0, 0), (4, 1)] := by decide +kernel

theorem build_good : ∀ x ∈ superBlockInstructions 4 buildBlocks, (buildAir x).Good 0 2013265921 1 := by
  rw [build_instructions]
  intro x hx
  simp only [List.mem_cons, List.not_mem_nil, or_false] at hx
  rcases hx with rfl | rfl
  · refine ⟨by decide +kernel, rfl, by decide +kernel, fun ρ _ r s hrs => ?_⟩
    cases hrs
    simp [AlgExpr.value]
  · refine ⟨by decide +kernel, rfl, by decide +kernel, fun ρ _ r s hrs => ?_⟩
    cases hrs
    simp [AlgExpr.value]

theorem build_blockRows : BlockRows 0 9 ((superBlockInstructions 4 buildBlocks).map buildAir) buildRows := by
  rw [build_instructions]
  refine ⟨?_, ?_, ?_, ?_⟩
  · intro k i hk
    rcases k with _ | _ | k
    · cases hk; exact fun e he => nomatch he
    · cases hk; exact fun e he => nomatch he
    · simp at hk
  · intro k i hk r s hrs
    rcases k with _ | _ | k
    · cases hk; cases hrs; decide +kernel
    · cases hk; cases hrs; decide +kernel
    · simp at hk
  · intro k i hk
    rcases k with _ | _ | k
    · cases hk; decide +kernel
    · cases hk; decide +kernel
    · simp at hk
  · intro k i j hk hj r s r' s' h1 h2
    rcases k with _ | k
    · cases hk; cases hj; cases h1; cases h2; decide +kernel
    · simp at hj

theorem build_empiricallyTrue : EmpiricallyTrue buildStats 4 buildBlocks buildKeep buildRows := by
  constructor
  · intro k pc c v hk hr hkeep
    have hpcs : superBlockPcs 4 buildBlocks = [0, 4] := by decide +kernel
    rw [hpcs] at hk hkeep
    rcases k with _ | _ | k
    · cases hk
      have h1 : c ≠ 1 := by simpa [buildKeep] using hkeep 0 rfl
      rcases c with _ | _ | _ | _ | c
      · cases hr; decide +kernel
      · exact absurd rfl h1
      · cases hr
      · cases hr
      · cases hr
    · cases hk
      cases hr
    · simp at hk
  · intro x y h hx hy
    simp only [superBlockEquates, buildBlocks, or_false, zero_add] at h
    obtain ⟨x', y', rfl, rfl, hne, h⟩ := h
    obtain ⟨h1, h2⟩ := same_elements h hne
    have hall : ∀ x ∈ (buildStats.blockClasses 0).elements, buildRows x.1 x.2 = 5 := by decide +kernel
    exact (hall x' h1).trans (hall y' h2).symm

theorem build_memoryRun : MemoryRun (p := 2013265921) ((1 : ℕ) : ZMod 2013265921) (asInteractions (RingEquiv.refl (ZMod 2013265921))
    (rowMessages ((superBlockInstructions 4 buildBlocks).map buildAir) buildRows))
    (fun _ => none) (fun _ => none) := by
  rw [memoryRun_onBus]
  have e : (asInteractions (RingEquiv.refl (ZMod 2013265921))
      (rowMessages ((superBlockInstructions 4 buildBlocks).map buildAir) buildRows)).filter
      (fun b => b.busId = ((1 : ℕ) : ZMod 2013265921)) =
      [⟨1, 1, 2 :: 7 :: ([5] ++ [100])⟩, ⟨1, -1, 2 :: 7 :: ([5] ++ [100])⟩] := by
    decide +kernel
  rw [e, Nat.cast_one]
  refine ⟨_, memoryStep_set rfl, _, memoryStep_get (by simp) (by decide +kernel), ?_⟩
  funext a
  by_cases h : a = (2, 7)
  · rw [h]; simp
  · rw [Function.update_of_ne h, Function.update_of_ne h]

theorem build_wf : buildStats.WF := by
  refine ⟨?_, ?_, ?_, ?_, ?_, ?_⟩
  iterate 5 (unfold MapKeys; decide)
  intro x hx
  rw [List.mem_singleton.1 hx]
  refine ⟨by decide, by decide, ?_⟩
  intro c hc
  have : c = 0 := Nat.lt_one_iff.1 hc
  subst this
  exact ⟨(0, 2), (1, 2), by decide, by decide, by decide⟩

theorem build_cells : ∀ b ∈ buildBlocks, CellsInBlock buildStats b := by
  intro b hb x y hne h
  have hb' : b = ⟨0, [0, 1]⟩ := by simpa [buildBlocks] using hb
  subst hb'
  have hall : ∀ x ∈ (buildStats.blockClasses 0).elements, x.1 < 2 := by decide
  exact hall x (same_elements h hne).1

/-- The execution gives a row of the precompile. -/
example : ∃ row : ℕ → ZMod 2013265921, row 2 = 5 ∧ row 8 = 1 ∧ buildApc.Holds row ∧
    messageBalance (buildApc.messages row) 0 [0] = -1 ∧ messageBalance (buildApc.messages row) 0 [8] = 1 ∧
    messageBalance (buildApc.messages row) 7 [5] = 1 := by
  obtain ⟨r, -, he⟩ := build_run
  obtain ⟨row, h1, h2, h3, -, -, h6⟩ := C65_complete r (by decide) pipelineBus (pipeline_correct 8)
    (by intro id hid; cases hid; decide +kernel) 1 build_good build_wf build_cells 0 he _ _ buildRows
    build_blockRows build_empiricallyTrue (fun _ _ => trivial)
    (by intro id hid; cases hid; exact build_memoryRun) (fun τ _ _ _ _ _ h => h.elim)
  refine ⟨row, ?_, h2 _ List.mem_cons_self, h3, ?_, ?_, ?_⟩
  · rw [h1 0 _ rfl (2, 2) List.mem_cons_self]
    decide +kernel
  all_goals
    rw [h6 _ (by decide +kernel)]
    decide +kernel

/-- A row of the precompile comes from rows of the instructions. -/
example (row : ℕ → ZMod 2013265921) (h : buildApc.Holds row) (h1 : row 8 ≠ 0) :
    ∃ rows, BlockRows 0 9 ((superBlockInstructions 4 buildBlocks).map buildAir) rows := by
  obtain ⟨r, hs, he⟩ := build_run
  rcases C65_sound r (by decide) pipelineBus (pipeline_correct 8) (fun _ _ _ h => h.elim)
    (fun _ _ _ h => h.elim) 1 build_good build_wf build_cells 0 he hs row h (fun _ _ => trivial) with
    ⟨h0, -⟩ | ⟨-, rows, hr, -⟩
  · exact absurd h0 h1
  · exact ⟨rows, hr⟩

end Verif
