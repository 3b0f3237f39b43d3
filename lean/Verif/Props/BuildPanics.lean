import Verif.Proofs.BuildPanics
import Verif.Props.Build
import Verif.Props.OptimizerDegree
import Verif.Props.OptimizerPanics

/-!
# C97: in which ways the generation of a precompile for the buses of OpenVM can fail
-/

set_option linter.unusedSectionVars false

namespace Verif

open GExpr

section
variable {p : ℕ} [Fact p.Prime] {U I : Type} [Field U] [DecidableEq U] {N : ℕ} {φ : U ≃+* ZMod p}
  {bm : BusMap} {execBus pcBus step : ℕ} {air : ℕ × I → InstrAir U} {blocks : List (BasicBlock I)}
  {e : EmpiricalConstraints} {keep : Option (BlockCell → Bool)} {size : U → ℕ} {bound : DegreeBound}
  {width : ℕ}

/-! ### Before the optimizer -/

/-- C97: the machine of a block of well-formed instructions can be built. -/
theorem C97_block (hne : superBlockInstructions step blocks ≠ [])
    (hform : ∀ x ∈ superBlockInstructions step blocks, (air x).OpenVmForm bm execBus pcBus size bound) :
    ∃ m a, blockMachine execBus pcBus φ ((superBlockInstructions step blocks).map air) = .ok (m, a) := by
  obtain ⟨⟨m, a⟩, h⟩ := (C58_exists (execBus := execBus) (pcBus := pcBus) (f := φ)
    (is := (superBlockInstructions step blocks).map air)).2 ⟨by simpa using hne, by
      intro i hi
      obtain ⟨x, hx, rfl⟩ := List.mem_map.1 hi
      exact ⟨(hform x hx).columns, (hform x hx).states, (hform x hx).program⟩⟩
  exact ⟨m, a, h⟩

/-- C97: the empirical constraints can be generated, whatever the iteration order of the equivalence
classes, if the statistics are about columns of the instructions. -/
theorem C97_empirical (hb : blocks ≠ []) (hwf : e.WF) (hcells : ∀ b ∈ blocks, CellsInBlock e b)
    (hknown : KnownColumns e step blocks (keep.getD fun _ => true)
      ((superBlockInstructions step blocks).map air)) {m : SymMachine (ZMod p) ℕ} {a : ColumnAllocator}
    (h : blockMachine execBus pcBus φ ((superBlockInstructions step blocks).map air) = .ok (m, a)) :
    (∃ x, e.ForBlock step blocks x) ∧ ∀ x, e.ForBlock step blocks x → ∃ ofBlock, x = .ok ofBlock ∧
      ∀ q, (∃ y, ofBlock.Filtered q y) ∧ ∀ y, ofBlock.Filtered q y → ∃ kept, y = .ok kept ∧
      ∃ refs, newReferenceMapper id a.subs m.refs.dedup = .ok refs ∧
      ∀ kept', (keep = none ∧ kept' = ofBlock ∨ keep = some q ∧ kept' = kept) →
        (∃ z, kept'.Generate (fun cell => refs.lookup cell) (superBlockPcs step blocks) z) ∧
        ∀ z, kept'.Generate (fun cell => refs.lookup cell) (superBlockPcs step blocks) z →
          ∃ cs, z = .ok cs := by
  obtain ⟨h1, h2⟩ := C53_for_block hwf step blocks
  refine ⟨h1, fun x hx => ?_⟩
  obtain ⟨s, rfl, -, s2, -, -⟩ := (h2 x hx).2 hb hcells
  refine ⟨s, rfl, fun q => ?_⟩
  obtain ⟨h3, h4⟩ := C53_filtered s2 (forBlock_shape hx) q
  refine ⟨h3, fun y hy => ?_⟩
  obtain ⟨kept, rfl, -⟩ := h4 y hy
  obtain ⟨refs, h5, -⟩ := blockMachine_mapper h
  refine ⟨kept, rfl, refs, h5, fun kept' hk => ?_⟩
  have hfi : (keep = none → kept' = s) ∧ ∀ q', keep = some q' → s.Filtered q' (.ok kept') := by
    rcases hk with ⟨hk, rfl⟩ | ⟨hk, rfl⟩
    · exact ⟨fun _ => rfl, fun q' hq => absurd (hk.symm.trans hq) (by simp)⟩
    · refine ⟨fun hq => absurd (hk.symm.trans hq) (by simp), fun q' hq => ?_⟩
      rw [hk] at hq
      cases hq
      exact hy
  obtain ⟨w1, w2, -, -⟩ := kept_of hwf hcells hx hfi
  exact ⟨(C53_generate (F := ZMod p) w1 w2 _ _).1, fun z hz =>
    blockMachine_generate h hwf hcells hknown h5 hx hfi hz⟩

/-- C97: the states on the execution bus can be connected, whatever constraints have been added. -/
theorem C97_exec {m : SymMachine (ZMod p) ℕ} {a : ColumnAllocator}
    (h : blockMachine execBus pcBus φ ((superBlockInstructions step blocks).map air) = .ok (m, a))
    (hair : ∀ x ∈ superBlockInstructions step blocks, (air x).Good execBus p width)
    (cs : List (AlgExpr (ZMod p) ℕ)) :
    ∃ m', optimizeExecBus { m with constraints := cs } execBus = .ok m' := by
  obtain ⟨m', h1, -⟩ := C55_block h (width := width) (by
    intro i hi b hb hid
    obtain ⟨x, hx, rfl⟩ := List.mem_map.1 hi
    exact (hair x hx).width b (List.mem_filter.2 ⟨hb, by simpa using hid⟩))
  exact exec_with cs h1

/-- C97: all steps before the optimizer succeed. -/
theorem C97_start (hne : superBlockInstructions step blocks ≠ [])
    (hform : ∀ x ∈ superBlockInstructions step blocks, (air x).OpenVmForm bm execBus pcBus size bound)
    (hair : ∀ x ∈ superBlockInstructions step blocks, (air x).Good execBus p width)
    (hwf : e.WF) (hcells : ∀ b ∈ blocks, CellsInBlock e b)
    (hknown : KnownColumns e step blocks (keep.getD fun _ => true)
      ((superBlockInstructions step blocks).map air))
    (hN : columnCount ((superBlockInstructions step blocks).map air) ≤ N) :
    Nonempty (BuildStart N φ execBus pcBus step air blocks e keep) := by
  obtain ⟨m, a, h⟩ := C97_block (φ := φ) hne hform
  have hb : blocks ≠ [] := by
    rintro rfl
    exact hne rfl
  obtain ⟨⟨x, hx⟩, h1⟩ := C97_empirical (keep := keep) hb hwf hcells hknown h
  obtain ⟨ofBlock, rfl, h2⟩ := h1 x hx
  obtain ⟨⟨y, hy⟩, h3⟩ := h2 (keep.getD fun _ => true)
  obtain ⟨kept, rfl, refs, h4, h5⟩ := h3 y hy
  have key : ∃ cs, Nonempty (EmpiricalRun e step blocks keep m a.subs cs) := by
    cases keep with
    | none =>
      obtain ⟨⟨z, hz⟩, h6⟩ := h5 ofBlock (Or.inl ⟨rfl, rfl⟩)
      obtain ⟨cs, rfl⟩ := h6 z hz
      exact ⟨cs, ⟨⟨refs, h4, ofBlock, hx, ofBlock, ⟨fun _ => rfl, fun q hq => by cases hq⟩, hz⟩⟩⟩
    | some q =>
      obtain ⟨⟨z, hz⟩, h6⟩ := h5 kept (Or.inr ⟨rfl, rfl⟩)
      obtain ⟨cs, rfl⟩ := h6 z hz
      exact ⟨cs, ⟨⟨refs, h4, ofBlock, hx, kept, ⟨fun hq => by (cases hq),
        fun q' hq => by cases hq; exact hy⟩, hz⟩⟩⟩
  obtain ⟨cs, ⟨run⟩⟩ := key
  obtain ⟨m2, h7⟩ := C97_exec h hair (m.constraints ++ cs.map EqConstraint.toSymbolic)
  have hder : m.derived = [] := by
    rw [C58_derived h]
    refine List.flatMap_eq_nil_iff.2 fun i hi => ?_
    obtain ⟨x, hx, rfl⟩ := List.mem_map.1 hi
    simp [SymMachine.convert, (hair x hx).derived]
  have hn : a.subs.flatten.Nodup := by
    rw [(C47_ids h).1]
    exact List.nodup_range
  have hlt : ∀ x ∈ m2.refs, x < N := by
    intro x hx
    refine lt_of_lt_of_le ?_ (le_trans (le_of_eq (blockMachine_count h)) hN)
    have h0 : x ∈ m.refs := by
      obtain ⟨g, hg, hxg⟩ := List.mem_flatMap.1 (exec_refs h7 hx)
      rcases List.mem_append.1 hg with hg | hg
      · rcases List.mem_append.1 hg with hg | hg
        · exact List.mem_flatMap.2 ⟨g, List.mem_append_left _ hg, hxg⟩
        · obtain ⟨k, hk, rfl⟩ := List.mem_map.1 hg
          exact empirical_refs hn run hk hxg
      · exact List.mem_flatMap.2 ⟨g, List.mem_append_right _ hg, hxg⟩
    simpa [ColumnAllocator.isKnownId] using ((C47_fresh h).1 x h0).1
  have hN0 : 0 < N := by
    refine lt_of_lt_of_le ?_ (le_trans (le_of_eq (blockMachine_count h)) hN)
    obtain ⟨x, t, hxt⟩ := List.exists_cons_of_ne_nil hne
    obtain ⟨n, n1, n2⟩ := (hform x (by rw [hxt]; simp)).columns
    obtain ⟨l, r, -, -, h8⟩ := blockMachine_column (k := 0) (i := air x) h (by rw [hxt]; simp) ((n2 0).2 n1)
    have := ((C47_fresh h).1 r h8).1
    simp only [ColumnAllocator.isKnownId, decide_eq_true_eq] at this
    omega
  obtain ⟨m3, h9⟩ := renumber_back (m := m2) (by rw [(C55_interactions h7).2.1]; exact hder) hN0 hlt
  exact ⟨⟨m, a, h, cs, run, m2, h7, m3, h9⟩⟩

/-! ### The optimizer -/

/-- The rows with values for the new columns. -/
theorem BuildStart.extends_rows (r : BuildStart N φ execBus pcBus step air blocks e keep)
    (hair : ∀ x ∈ superBlockInstructions step blocks, (air x).Good execBus p width)
    (hwf : e.WF) (hcells : ∀ b ∈ blocks, CellsInBlock e b) {memoryBusId : Option ℕ}
    (hexec : ∀ id, memoryBusId = some id → (execBus : ZMod p) ≠ (id : ZMod p)) {m m' : Memory p}
    {rows : ℕ → ℕ → U} (hrows : BlockExecution φ bm execBus pcBus step memoryBusId air blocks e keep rows m m')
    {news : List (DerivedVariable p (Fin N))} (hnews : IssuedColumns r.a0.nextPolyId news) :
    (machineToSystem r.m3).derived = [] ∧ ∃ τ : Fin N → ZMod p,
      (∀ (k : ℕ) (l : List ℕ) (j : ℕ) (v : Fin N), r.a0.subs[k]? = some l → l[j]? = some (v : ℕ) →
        τ v = φ (rows k j)) ∧ (∀ d ∈ news, d.Computed τ) ∧
      (machineToSystem r.m3).Execution (openVmBus bm) memoryBusId τ m m' := by
  have hids := C47_ids r.step0
  have hn : r.a0.subs.flatten.Nodup := by
    rw [hids.1]
    exact List.nodup_range
  obtain ⟨σ, hσ⟩ := exists_agrees φ hn rows
  obtain ⟨hex, hder⟩ := r.execution hair hwf hcells hσ hrows.block hrows.empirical _ hrows.accepted
    memoryBusId hexec m m' hrows.memory
  obtain ⟨-, -, -, -, g5⟩ := r.rows hair hwf hcells hσ
  have hnew := r.newColumns hnews.order hnews.after hnews.known g5
  obtain ⟨τ, h1, h2⟩ := compute_news (σ ∘ Fin.val) hnew.different hnew.own
  have h3 : ∀ v, (machineToSystem r.m3).Mentions v → τ v = (σ ∘ Fin.val) v := fun v hv =>
    h1 v fun d hd heq => hnew.unused d hd (heq ▸ hv)
  obtain ⟨h4, h5⟩ := unchanged_of_unused h3
  refine ⟨hder, τ, fun k l j v hl hv => ?_, h2, (h4 _).2 hex.sat, fun id hid => ?_⟩
  · rw [h1 v fun d hd heq => ?_]
    · exact hσ k l j v hl hv
    · have h6 := hnews.after d hd
      rw [heq] at h6
      have : (v : ℕ) ∈ r.a0.subs.flatten :=
        List.mem_flatten.2 ⟨l, List.mem_of_getElem? hl, List.mem_of_getElem? hv⟩
      rw [hids.1] at this
      exact absurd (List.mem_range.1 this) (not_lt.2 h6)
  · have := hex.memory id hid
    unfold ConstraintSystem.UsesMemory at this ⊢
    rwa [h5]

/-- C97: let the block have an execution that satisfies the empirical constraints. Then no pass of the
optimizer panics, except that in the low-degree optimizer, a bus interaction may agree with two of the
functions that are tried. -/
theorem C97_no_panic (hNp : N ≤ p) (hm : bm.Fits p) (hf : bm.Complete) (h26 : 2 ^ 26 ≤ p)
    (h32 : p ≤ 2 ^ 32) (memoryBusId : Option ℕ)
    (hmem : ∀ id, memoryBusId = some id → (id, BusType.memory) ∈ bm)
    (hexec : ∀ id, memoryBusId = some id → (execBus : ZMod p) ≠ (id : ZMod p)) (intBits : ℕ)
    (hint : 2 * (p - 1) < 2 ^ intBits)
    (hform : ∀ x ∈ superBlockInstructions step blocks, (air x).OpenVmForm bm execBus pcBus size bound)
    (hair : ∀ x ∈ superBlockInstructions step blocks, (air x).Good execBus p width)
    (hwf : e.WF) (hcells : ∀ b ∈ blocks, CellsInBlock e b) (m m' : Memory p) (rows : ℕ → ℕ → U)
    (hrows : BlockExecution φ bm execBus pcBus step memoryBusId air blocks e keep rows m m')
    (r : BuildStart N φ execBus pcBus step air blocks e keep)
    (ok : RuleInput p (Fin N) → ConstraintSystem p (Fin N) → ConstraintSystem p (Fin N) → Prop)
    (st : OptState p (Fin N)) (news : List (DerivedVariable p (Fin N)))
    (hreach : OptReach (openVmConfig bm memoryBusId pcBus bound intBits) ok
      (.start (machineToSystem r.m3)) st news) (hnews : IssuedColumns r.a0.nextPolyId news)
    (hcmp : ∀ τ : Fin N → ZMod p,
      (∀ (k : ℕ) (l : List ℕ) (j : ℕ) (v : Fin N), r.a0.subs[k]? = some l → l[j]? = some (v : ℕ) →
        τ v = φ (rows k j)) → (∀ d ∈ news, d.Computed τ) → ComparisonsRight τ ok) :
    (∃ t solver, st = .remembered t solver ∧ ∃ b ∈ t.bus, AmbiguousFunction (openVmHandler bm) solver b) ∨
    ∃ k, ∀ n, k ≤ n → ∀ x new,
      OptStep (openVmConfig bm memoryBusId pcBus bound intBits) ok n st x new → ∃ st', x = .ok st' := by
  obtain ⟨hder, τ, h1, h2, h3⟩ := r.extends_rows hair hwf hcells hexec hrows hnews
  have hbus := fun x hx => (hform x hx).bus
  exact C96_openvm_no_panic (by simpa using hNp) bm hm hf h26 h32 memoryBusId hmem pcBus bound intBits hint
    _ (r.shape hm hbus) (machineToSystem_wf _) (fun d hd => by rw [hder] at hd; cases hd)
    (size ∘ φ.symm) (r.regular hm hbus hmem) m m' ok τ (hcmp τ h1 h2) h3
    (fun d hd => by rw [hder] at hd; cases hd) st news hreach h2

/-- C97: if a bus interaction agrees with only one of the functions in all states that are reached, then
the optimizer can be completed from every state that is reached. -/
theorem C97_completes (hNp : N ≤ p) (hm : bm.Fits p) (hf : bm.Complete) (h26 : 2 ^ 26 ≤ p)
    (h32 : p ≤ 2 ^ 32) (memoryBusId : Option ℕ)
    (hmem : ∀ id, memoryBusId = some id → (id, BusType.memory) ∈ bm)
    (hexec : ∀ id, memoryBusId = some id → (execBus : ZMod p) ≠ (id : ZMod p)) (intBits : ℕ)
    (hint : 2 * (p - 1) < 2 ^ intBits)
    (hform : ∀ x ∈ superBlockInstructions step blocks, (air x).OpenVmForm bm execBus pcBus size bound)
    (hair : ∀ x ∈ superBlockInstructions step blocks, (air x).Good execBus p width)
    (hwf : e.WF) (hcells : ∀ b ∈ blocks, CellsInBlock e b) (m m' : Memory p) (rows : ℕ → ℕ → U)
    (hrows : BlockExecution φ bm execBus pcBus step memoryBusId air blocks e keep rows m m')
    (r : BuildStart N φ execBus pcBus step air blocks e keep)
    (ok : RuleInput p (Fin N) → ConstraintSystem p (Fin N) → ConstraintSystem p (Fin N) → Prop)
    (hamb : ∀ t solver news, OptReach (openVmConfig bm memoryBusId pcBus bound intBits) ok
      (.start (machineToSystem r.m3)) (.remembered t solver) news →
      ∀ b ∈ t.bus, ¬ AmbiguousFunction (openVmHandler bm) solver b)
    (st : OptState p (Fin N)) (news : List (DerivedVariable p (Fin N)))
    (hreach : OptReach (openVmConfig bm memoryBusId pcBus bound intBits) ok
      (.start (machineToSystem r.m3)) st news) (hnews : IssuedColumns r.a0.nextPolyId news)
    (hcmp : ∀ τ : Fin N → ZMod p,
      (∀ (k : ℕ) (l : List ℕ) (j : ℕ) (v : Fin N), r.a0.subs[k]? = some l → l[j]? = some (v : ℕ) →
        τ v = φ (rows k j)) → (∀ d ∈ news, d.Computed τ) → ComparisonsRight τ ok) :
    ∃ s, OptReach (openVmConfig bm memoryBusId pcBus bound intBits) ok
      (.start (machineToSystem r.m3)) (.done s) news := by
  obtain ⟨hder, τ, h1, h2, h3⟩ := r.extends_rows hair hwf hcells hexec hrows hnews
  have hbus := fun x hx => (hform x hx).bus
  exact C96_openvm_completes (by simpa using hNp) bm hm hf h26 h32 memoryBusId hmem pcBus bound intBits hint
    _ (r.shape hm hbus) (machineToSystem_wf _) (fun d hd => by rw [hder] at hd; cases hd)
    (size ∘ φ.symm) (r.regular hm hbus hmem) m m' ok τ (hcmp τ h1 h2) h3
    (fun d hd => by rw [hder] at hd; cases hd) (fun t solver news h _ => hamb t solver news h) st news hreach h2

/-- C97: what remains after the optimizer. If the optimizer reaches its end and no interaction with the
pc lookup bus is left, then its assertions on degrees hold, and the system can be converted to a machine.
If guards can be added without changing its degree, the precompile is generated. -/
theorem C97_finish (hNp : N ≤ p) (hm : bm.Fits p) (hf : bm.Complete) (h26 : 2 ^ 26 ≤ p)
    (h32 : p ≤ 2 ^ 32) (memoryBusId : Option ℕ)
    (hmem : ∀ id, memoryBusId = some id → (id, BusType.memory) ∈ bm)
    (hexec : ∀ id, memoryBusId = some id → (execBus : ZMod p) ≠ (id : ZMod p)) (intBits : ℕ)
    (hint : 2 * (p - 1) < 2 ^ intBits) (hb : bound.busInteractions ≤ bound.identities)
    (hb1 : 1 ≤ bound.identities)
    (hform : ∀ x ∈ superBlockInstructions step blocks, (air x).OpenVmForm bm execBus pcBus size bound)
    (hair : ∀ x ∈ superBlockInstructions step blocks, (air x).Good execBus p width)
    (hwf : e.WF) (hcells : ∀ b ∈ blocks, CellsInBlock e b) (m m' : Memory p) (rows : ℕ → ℕ → U)
    (hrows : BlockExecution φ bm execBus pcBus step memoryBusId air blocks e keep rows m m')
    (r : BuildStart N φ execBus pcBus step air blocks e keep) (hN : r.a0.nextPolyId ≤ N)
    (ok : RuleInput p (Fin N) → ConstraintSystem p (Fin N) → ConstraintSystem p (Fin N) → Prop)
    (s : ConstraintSystem p (Fin N)) (news : List (DerivedVariable p (Fin N)))
    (hreach : OptReach (openVmConfig bm memoryBusId pcBus bound intBits) ok
      (.start (machineToSystem r.m3)) (.done s) news) (hnews : IssuedColumns r.a0.nextPolyId news)
    (hcmp : ∀ τ : Fin N → ZMod p,
      (∀ (k : ℕ) (l : List ℕ) (j : ℕ) (v : Fin N), r.a0.subs[k]? = some l → l[j]? = some (v : ℕ) →
        τ v = φ (rows k j)) → (∀ d ∈ news, d.Computed τ) → ComparisonsRight τ ok)
    (hpc : ∀ b ∈ s.bus, b.busId ≠ const (pcBus : ZMod p)) :
    s.Degrees bound.identities bound.busInteractions ∧ ∃ m5, systemToMachine s = .ok m5 ∧
      ∀ m6 a6, addGuards (m5.renumber Fin.val) { r.a0 with nextPolyId := N } = .ok (m6, a6) →
        ∃ run : BuildRun φ execBus step (openVmConfig bm memoryBusId pcBus bound intBits) ok air blocks e keep
          (m6.convert φ.symm) (apcSubs m6 a6), run.toBuildStart = r ∧ run.s4 = s := by
  obtain ⟨hder, τ, h1, h2, h3⟩ := r.extends_rows hair hwf hcells hexec hrows hnews
  have hbus := fun x hx => (hform x hx).bus
  have hc : (openVmConfig bm memoryBusId pcBus bound intBits : OptimizerConfig p (Fin N)).Correct
      (openVmBus bm) := C62_openvm bm hm h26
    (fun x hx => lt_of_lt_of_le (hm.ids x hx) (le_trans h32 (by norm_num))) memoryBusId hmem pcBus bound
    intBits hint
  have hp := openVm_panicFreeOn (V := Fin N) hm hf h26 h32 memoryBusId pcBus bound intBits
  have hd := r.degrees hb hb1 fun x hx => (hform x hx).degrees
  obtain ⟨passes, rfl⟩ := (C95_steps_are_runs _ _ _ _ _).1 hreach
  have inv := fun st hst => C96_invariant (by simpa using hNp) _ _ hc _ hp _ (r.shape hm hbus)
    (machineToSystem_wf _) (fun d hd => by rw [hder] at hd; cases hd)
    (size ∘ φ.symm) (r.regular hm hbus hmem) m m' ok τ (hcmp τ h1 h2) h3
    (fun d hd => by rw [hder] at hd; cases hd)
    (fun t _ _ _ h => ⟨_, openVm_exact_satisfied hm hf h26 h⟩) st passes.news hst h2
  have he := openVm_exact_satisfied (V := Fin N) hm hf h26 (inv _ passes.reach_final).2.sat
  have hdeg := C94_degrees (by simpa using hNp) _ _ hc _ s (machineToSystem_wf _) ok passes _ he
    (openVm_keepsDegree bm) _ _ hb le_rfl le_rfl hd
  obtain ⟨run, hrun⟩ := C94_assertions_hold (by simpa using hNp) _ _ hc _ s (machineToSystem_wf _) ok passes _
    he (openVm_keepsDegree bm) hb hd hpc
  obtain ⟨m5, h5⟩ := systemToMachine_shape h32 (inv _ hreach).1
  refine ⟨hdeg, m5, h5, fun m6 a6 h6 => ?_⟩
  have hn' : run.news = passes.news := by rw [← hrun]
  exact ⟨{ toBuildStart := r, s4 := s, step4 := run, issued := by rw [hn']; exact hnews.order,
           issuedAfter := by rw [hn']; exact hnews.after, allocated := hN,
           issuedFor := by rw [hn']; exact hnews.known, m5 := m5, step5 := h5, m6 := m6, a6 := a6,
           step6 := h6, machine := rfl, substitutions := rfl }, rfl, rfl⟩

end

/-! ### A sample

The instructions of the sample of C65 with the buses of OpenVM: the first one writes its column 2 to memory,
the second one reads it and checks that it has eight bits. -/

attribute [local instance] fact_babyBear

def openVmAir : ℕ × ℕ → InstrAir (ZMod 2013265921) := fun x =>
  { machine := {
      constraints := []
      bus := [⟨0, .minus (.reference 1), [.reference 0]⟩,
        ⟨0, .reference 1, [.binary (.reference 0) .add (.number 4)]⟩,
        ⟨2, .reference 1, [.reference 0]⟩] ++
        if x.2 = 0 then
          [⟨1, .reference 1, [.number 2, .number 7, .reference 2, .reference 3]⟩]
        else
          [⟨1, .minus (.reference 1), [.number 2, .number 7, .reference 2, .reference 3]⟩,
            ⟨3, .reference 1, [.reference 2, .number 8]⟩]
      derived := [] }
    pcLookupRow := [(x.1 : ZMod 2013265921)] }

theorem openVmAir_good : ∀ x ∈ superBlockInstructions 4 buildBlocks, (openVmAir x).Good 0 2013265921 1 := by
  rw [build_instructions]
  intro x hx
  simp only [List.mem_cons, List.not_mem_nil, or_false] at hx
  rcases hx with rfl | rfl
  · refine ⟨by decide +kernel, rfl, by decide +kernel, fun ρ _ r s hrs => ?_⟩
    cases hrs
    simp [AlgExpr.value]
  · refine ⟨by decide +kernel, rfl, by decide +kernel, fun ρ _ r s hrs => ?_⟩
    cases hrs
    simp [AlgExpr.value]

theorem openVmAir_columns : ∀ x ∈ [((0 : ℕ), (0 : ℕ)), (4, 1)], ∀ k, k ∈ (openVmAir x).machine.refs ↔ k < 4 := by
  have h1 : ∀ x ∈ [((0 : ℕ), (0 : ℕ)), (4, 1)], ∀ k ∈ (openVmAir x).machine.refs, k < 4 := by decide +kernel
  have h2 : ∀ x ∈ [((0 : ℕ), (0 : ℕ)), (4, 1)], ∀ k < 4, k ∈ (openVmAir x).machine.refs := by decide +kernel
  exact fun x hx k => ⟨h1 x hx k, h2 x hx k⟩

theorem openVmAir_form : ∀ x ∈ superBlockInstructions 4 buildBlocks,
    (openVmAir x).OpenVmForm BusMap.default 0 2 (fun _ => 1) ⟨3, 3⟩ := by
  rw [build_instructions]
  intro x hx
  have hcol := openVmAir_columns x hx
  simp only [List.mem_cons, List.not_mem_nil, or_false] at hx
  have hexe : (0, BusType.executionBridge) ∈ BusMap.default := by decide
  have hmem : (1, BusType.memory) ∈ BusMap.default := by decide
  have hpc : (2, BusType.pcLookup) ∈ BusMap.default := by decide
  have hvar : (3, BusType.other .variableRangeChecker) ∈ BusMap.default := by decide
  rcases hx with rfl | rfl
  · refine ⟨⟨4, by norm_num, hcol⟩, rfl, ⟨_, rfl, rfl⟩, fun b hb => ?_,
      ⟨by decide +kernel, by decide +kernel, by decide +kernel⟩⟩
    simp only [openVmAir, if_true, List.cons_append, List.nil_append, List.mem_cons, List.not_mem_nil,
      or_false] at hb
    rcases hb with rfl | rfl | rfl | rfl
    · exact ⟨_, hexe, trivial⟩
    · exact ⟨_, hexe, trivial⟩
    · exact ⟨_, hpc, trivial⟩
    · exact ⟨_, hmem, 2, .number 7, [.reference 2], .reference 3, rfl, rfl, by simp⟩
  · refine ⟨⟨4, by norm_num, hcol⟩, rfl, ⟨_, rfl, rfl⟩, fun b hb => ?_,
      ⟨by decide +kernel, by decide +kernel, by decide +kernel⟩⟩
    simp only [openVmAir, one_ne_zero, if_false, List.cons_append, List.nil_append, List.mem_cons,
      List.not_mem_nil, or_false] at hb
    rcases hb with rfl | rfl | rfl | rfl | rfl
    · exact ⟨_, hexe, trivial⟩
    · exact ⟨_, hexe, trivial⟩
    · exact ⟨_, hpc, trivial⟩
    · exact ⟨_, hmem, 2, .number 7, [.reference 2], .reference 3, rfl, rfl, by simp⟩
    · exact ⟨_, hvar, rfl⟩

theorem openVmAir_known : KnownColumns buildStats 4 buildBlocks buildKeep
    ((superBlockInstructions 4 buildBlocks).map openVmAir) := by
  rw [build_instructions]
  constructor
  · intro k pc c v hk hr hkeep
    have hpcs : superBlockPcs 4 buildBlocks = [0, 4] := by decide +kernel
    rw [hpcs] at hk hkeep
    rcases k with _ | _ | k
    · cases hk
      rcases c with _ | _ | _ | _ | c
      · exact ⟨_, rfl, (openVmAir_columns _ (by simp) _).2 (by norm_num)⟩
      · exact ⟨_, rfl, (openVmAir_columns _ (by simp) _).2 (by norm_num)⟩
      · cases hr
      · cases hr
      · cases hr
    · cases hk
      cases hr
    · simp at hk
  · intro x y h hx hy
    simp only [superBlockEquates, buildBlocks, or_false, zero_add] at h
    obtain ⟨x', y', rfl, rfl, hne, h⟩ := h
    have h1 := (same_elements h hne).1
    have hall : (buildStats.blockClasses 0).elements = [(0, 2), (1, 2)] := by decide +kernel
    rw [hall] at h1
    simp only [List.mem_cons, List.not_mem_nil, or_false] at h1
    rcases h1 with rfl | rfl
    · exact ⟨_, rfl, (openVmAir_columns _ (by simp) _).2 (by norm_num)⟩
    · exact ⟨_, rfl, (openVmAir_columns _ (by simp) _).2 (by norm_num)⟩

theorem openVmAir_execution : BlockExecution (RingEquiv.refl (ZMod 2013265921)) BusMap.default 0 2 4 (some 1)
    openVmAir buildBlocks buildStats (some buildKeep) buildRows (fun _ => none) (fun _ => none) := by
  have e : asInteractions (RingEquiv.refl (ZMod 2013265921))
      (rowMessages ((superBlockInstructions 4 buildBlocks).map openVmAir) buildRows) =
      [⟨0, -1, [0]⟩, ⟨0, 1, [4]⟩, ⟨2, 1, [0]⟩, ⟨1, 1, 2 :: 7 :: ([5] ++ [100])⟩,
        ⟨0, -1, [4]⟩, ⟨0, 1, [8]⟩, ⟨2, 1, [4]⟩, ⟨1, -1, 2 :: 7 :: ([5] ++ [100])⟩, ⟨3, 1, [5, 8]⟩] := by
    decide +kernel
  refine ⟨?_, build_empiricallyTrue, ?_, ?_⟩
  · rw [build_instructions]
    refine ⟨?_, ?_, ?_, ?_⟩
    · intro k i hk
      rcases k with _ | _ | k
      · cases hk; exact fun e he => nomatch he
      · cases hk; exact fun e he => nomatch he
      · simp at hk
    · intro k i hk r s hrs
      rcases k with _ | _ | k
      · cases hk; cases hrs; decide +kernel
      · cases hk; cases hrs; decide +kernel
      · simp at hk
    · intro k i hk
      rcases k with _ | _ | k
      · cases hk; decide +kernel
      · cases hk; decide +kernel
      · simp at hk
    · intro k i j hk hj r s r' s' h1 h2
      rcases k with _ | k
      · cases hk; cases hj; cases h1; cases h2; decide +kernel
      · simp at hj
  · rw [e]
    have hexe : ∀ x y : ZMod 2013265921, openVmBus BusMap.default ⟨0, x, [y]⟩ := fun x y _ =>
      ⟨.executionBridge, (by decide +kernel : ((0 : ZMod 2013265921).val, BusType.executionBridge) ∈ BusMap.default),
        trivial⟩
    have hpc : ∀ x y : ZMod 2013265921, openVmBus BusMap.default ⟨2, x, [y]⟩ := fun x y _ =>
      ⟨.pcLookup, (by decide +kernel : ((2 : ZMod 2013265921).val, BusType.pcLookup) ∈ BusMap.default), trivial⟩
    intro b hb
    simp only [List.mem_cons, List.not_mem_nil, or_false] at hb
    rcases hb with rfl | rfl | rfl | rfl | rfl | rfl | rfl | rfl | rfl
    · exact hexe _ _
    · exact hexe _ _
    · exact hpc _ _
    · refine fun _ => ⟨.memory, by decide +kernel, ?_⟩
      intro _ _ _ _ _ h
      exact absurd h (by decide +kernel)
    · exact hexe _ _
    · exact hexe _ _
    · exact hpc _ _
    · refine fun _ => ⟨.memory, by decide +kernel, ?_⟩
      intro space pointer data timestamp h _ _
      rw [List.cons.injEq, List.cons.injEq] at h
      obtain ⟨rfl, rfl, h⟩ := h
      obtain ⟨rfl, -⟩ := List.append_inj' h rfl
      intro d hd
      rw [List.mem_singleton.1 hd]
      exact ⟨by decide +kernel, fun h => absurd h (by decide +kernel)⟩
    · exact fun _ => ⟨.other .variableRangeChecker, by decide +kernel, _, _, rfl, by decide +kernel,
        by decide +kernel⟩
  · intro id hid
    cases hid
    rw [memoryRun_onBus, e]
    have e' : ([⟨0, -1, [0]⟩, ⟨0, 1, [4]⟩, ⟨2, 1, [0]⟩, ⟨1, 1, 2 :: 7 :: ([5] ++ [100])⟩,
        ⟨0, -1, [4]⟩, ⟨0, 1, [8]⟩, ⟨2, 1, [4]⟩, ⟨1, -1, 2 :: 7 :: ([5] ++ [100])⟩, ⟨3, 1, [5, 8]⟩] :
        List (BusInteraction (ZMod 2013265921))).filter (fun b => b.busId = ((1 : ℕ) : ZMod 2013265921)) =
        [⟨1, 1, 2 :: 7 :: ([5] ++ [100])⟩, ⟨1, -1, 2 :: 7 :: ([5] ++ [100])⟩] := by
      decide +kernel
    rw [e', Nat.cast_one]
    refine ⟨_, memoryStep_set rfl, _, memoryStep_get (by simp) (by decide +kernel), ?_⟩
    funext a
    by_cases h : a = (2, 7)
    · rw [h]; simp
    · rw [Function.update_of_ne h, Function.update_of_ne h]

/-- The steps before the optimizer succeed for the sample. -/
theorem openVmAir_start : Nonempty (BuildStart 10 (RingEquiv.refl (ZMod 2013265921)) 0 2 4 openVmAir
    buildBlocks buildStats (some buildKeep)) :=
  C97_start (by rw [build_instructions]; simp) openVmAir_form openVmAir_good build_wf build_cells
    openVmAir_known (by rw [build_instructions]; decide +kernel)

/-- The optimizer does not panic on it. -/
example (r : BuildStart 10 (RingEquiv.refl (ZMod 2013265921)) 0 2 4 openVmAir
    buildBlocks buildStats (some buildKeep)) (st : OptState 2013265921 (Fin 10))
    (news : List (DerivedVariable 2013265921 (Fin 10)))
    (hreach : OptReach (openVmConfig BusMap.default (some 1) 2 ⟨3, 3⟩ 32) (fun _ _ _ => False)
      (.start (machineToSystem r.m3)) st news) (hnews : IssuedColumns r.a0.nextPolyId news) :
    (∃ t solver, st = .remembered t solver ∧
      ∃ b ∈ t.bus, AmbiguousFunction (openVmHandler BusMap.default) solver b) ∨
    ∃ k, ∀ n, k ≤ n → ∀ x new,
      OptStep (openVmConfig BusMap.default (some 1) 2 ⟨3, 3⟩ 32) (fun _ _ _ => False) n st x new →
        ∃ st', x = .ok st' :=
  C97_no_panic (by norm_num) default_fits default_complete (by norm_num) (by norm_num) (some 1)
    (by intro id hid; cases hid; decide) (by intro id hid; cases hid; decide +kernel) 32 (by norm_num)
    openVmAir_form openVmAir_good build_wf build_cells _ _ buildRows openVmAir_execution r _ st news hreach
    hnews (fun τ _ _ _ _ _ h => h.elim)

end Verif
