import Verif.Proofs.ExtractionAirs

/-!
# C79, C80: the machines of the instructions, and the cached chip complex
-/

set_option linter.unusedSectionVars false
set_option linter.unusedSimpArgs false

namespace Verif

section
variable {F : Type}

/-- **C79** The machine extracted from an AIR says the same about every row as the AIR, whatever the next row, the other traces
and the selectors are. -/
theorem C79_machine [CommRing F] {a : VmAir F} {m : SymMachine F ℕ} {metrics : AirMetrics}
    (h : extractMachine a = .ok (m, metrics)) :
    m.Agrees a ∧ metrics = ⟨a.preprocessed.getD 0, a.width, a.constraints.length, a.interactions.length⟩ :=
  ⟨extractMachine_agrees h, (extractMachine_inv h).2.2.2.2⟩

/-- **C79** An AIR can be extracted if and only if it only looks at the current row of its main trace. -/
theorem C79_supported (a : VmAir F) : (∃ r, extractMachine a = .ok r) ↔ a.Supported :=
  ⟨fun ⟨_, h⟩ => (extractMachine_inv h).1, extractMachine_total⟩

/-- **C79** An AIR that looks at the next row or at a selector, but at no other trace, is reported as unsupported. -/
theorem C79_unsupported {a : VmAir F} (hn : a.NamesFit) (h2 : ∀ e ∈ a.exprs, e.TwoRows a.width)
    (h1 : ∃ e ∈ a.exprs, ¬ e.CurrentRow a.width) : extractMachine a = .error .unsupported := by
  cases h : extractMachine a with
  | ok r =>
    obtain ⟨e, he, hne⟩ := h1
    exact absurd ((extractMachine_inv h).1.2 e he) hne
  | error x =>
    rcases extractMachine_error h with ⟨hf, _⟩ | ⟨columns, hlen, e, he, hx⟩
    · exact absurd hn hf
    · rcases extractExpr_twoRows (columns := columns) (e := e) (by rw [hlen]; exact h2 e he) with hc | hc
      · rw [extractExpr_currentRow hc] at hx
        exact absurd hx (by simp)
      · rw [hc] at hx
        cases hx
        rfl

/-- **C79** Only an AIR with an expression over the next row or a selector is reported as unsupported; all other failures
stop the program. -/
theorem C79_unsupported_only {a : VmAir F} (h : extractMachine a = .error .unsupported) :
    ∃ e ∈ a.exprs, e.TwoRows a.width ∧ ¬ e.CurrentRow a.width := by
  rcases extractMachine_error h with ⟨_, hx⟩ | ⟨columns, hlen, e, he, hx⟩
  · exact absurd hx (by simp)
  · have := extractExpr_unsupported hx
    rw [hlen] at this
    exact ⟨e, he, this⟩

/-- **C79** The machine of an opcode is that of the first AIR, in the order of the allowed opcodes, with the same name as the AIR
of the opcode. -/
theorem C79_opcodes [CommRing F] {v : VmInventory F} {bound : ℕ} {allowed : List ℕ} {o : OriginalAirs F}
    (h : v.airs bound allowed = .ok o) {op : ℕ} (hop : op ∈ allowed) {e : ℕ} (he : v.instructionLookup op = some e) :
    ∃ a b m, v.AirOf op a ∧ v.FirstNamed allowed a.name b ∧ o.airAndId op = .ok (a.name, m) ∧ m.Agrees b ∧
      o.airStats op = .ok ⟨b.width, b.constraints.length, b.interactions.length⟩ := by
  have hs := airs_state h
  have hmem : op ∈ o.opcodes := by
    rw [hs.opcodes]
    exact List.mem_filter.2 ⟨hop, by simp [he]⟩
  obtain ⟨a, ha, hname⟩ := hs.airs op hmem
  obtain ⟨b, m, hb, hm, hom⟩ := hs.machines op hmem a ha
  refine ⟨a, b, m.1, ha, hb, ?_, extractMachine_agrees hm, ?_⟩
  · simp only [OriginalAirs.airAndId, hname, hom]
  · simp only [OriginalAirs.airStats, OriginalAirs.instructionMetrics, hname, hom, Option.bind_some, Option.map_some,
      (extractMachine_inv hm).2.2.2.2]
    rfl

/-- **C79** If different AIRs have different names, the machine of an opcode is that of its AIR. -/
theorem C79_unique [CommRing F] {v : VmInventory F} {bound : ℕ} {allowed : List ℕ} {o : OriginalAirs F}
    (h : v.airs bound allowed = .ok o) (hn : ∀ a ∈ v.extAirs, ∀ b ∈ v.extAirs, a.name = b.name → a = b)
    {op : ℕ} (hop : op ∈ allowed) {e : ℕ} (he : v.instructionLookup op = some e) :
    ∃ a m, v.AirOf op a ∧ o.airAndId op = .ok (a.name, m) ∧ m.Agrees a ∧
      o.airStats op = .ok ⟨a.width, a.constraints.length, a.interactions.length⟩ := by
  obtain ⟨a, b, m, ha, hb, h1, h2, h3⟩ := C79_opcodes h hop he
  have hab : b = a := by
    obtain ⟨_, x, _, _, hx, hxn, _⟩ := hb
    obtain ⟨_, i, _, _, hi⟩ := hx
    obtain ⟨_, j, _, _, hj⟩ := ha
    exact hn b (List.mem_of_getElem? hi) a (List.mem_of_getElem? hj) hxn
  subst hab
  exact ⟨b, m, ha, h1, h2, h3⟩

/-- **C79** The opcodes that have a machine are the allowed ones that have an executor. -/
theorem C79_allowed {v : VmInventory F} {bound : ℕ} {allowed : List ℕ} {o : OriginalAirs F}
    (h : v.airs bound allowed = .ok o) :
    o.allowList = allowed.filter (fun op => (v.instructionLookup op).isSome) ∧ o.allowList.Nodup ∧
      o.degreeBound = bound ∧ ∀ op, op ∉ o.allowList → o.airAndId op = .error .assertion ∧
        o.airStats op = .error .assertion := by
  have hs := airs_state h
  refine ⟨hs.opcodes, hs.nodup, hs.bound, ?_⟩
  intro op hop
  have := hs.others op hop
  constructor
  · simp only [OriginalAirs.airAndId, this]
  · simp only [OriginalAirs.airStats, OriginalAirs.instructionMetrics, this, Option.bind_none]

/-- **C79** The extraction succeeds if no allowed opcode is listed twice and the AIRs of all of them can be extracted. -/
theorem C79_total {v : VmInventory F} (bound : ℕ) {allowed : List ℕ}
    (hnd : (allowed.filter fun op => (v.instructionLookup op).isSome).Nodup)
    (hair : ∀ op ∈ allowed, (v.instructionLookup op).isSome → ∃ a, v.AirOf op a ∧ a.Supported) :
    ∃ o, v.airs bound allowed = .ok o := airs_total bound hnd hair

/-- **C79** The cost that a precompile is compared with is the sum of the widths, constraints and interactions of the AIRs of
the instructions of its block; its own is what its machine has. -/
theorem C79_cost [CommRing F] {v : VmInventory F} {bound : ℕ} {allowed : List ℕ} {o : OriginalAirs F}
    (h : v.airs bound allowed = .ok o) (hn : ∀ a ∈ v.extAirs, ∀ b ∈ v.extAirs, a.name = b.name → a = b)
    {ops : List ℕ} {airs : List (VmAir F)} (hops : List.Forall₂ (fun op a => op ∈ allowed ∧ v.AirOf op a) ops airs)
    (m : SymMachine F ℕ) :
    evaluateApc o ops m = .ok
      (⟨(airs.map (·.width)).sum, (airs.map (·.constraints.length)).sum, (airs.map (·.interactions.length)).sum⟩,
        ⟨m.refs.dedup.length, m.constraints.length, m.bus.length⟩) := by
  have h1 : ops.mapM o.airStats =
      .ok (airs.map fun a => ⟨a.width, a.constraints.length, a.interactions.length⟩) := by
    induction hops with
    | nil => rfl
    | @cons op a ops airs hx _ ih =>
      obtain ⟨hop, ha⟩ := hx
      obtain ⟨e, he⟩ := Option.isSome_iff_exists.1 (AirOf_lookup ha)
      obtain ⟨b, _, hb, _, _, hst⟩ := C79_unique h hn hop he
      have := AirOf_unique ha hb
      subst this
      rw [List.mapM_cons, hst]
      simp only [bind, Except.bind, ih, pure, Except.pure, List.map_cons]
  have hsum : ∀ (l : List (VmAir F)) (s : AirStats),
      (l.map fun a : VmAir F => (⟨a.width, a.constraints.length, a.interactions.length⟩ : AirStats)).foldl
        (fun a b => ⟨a.mainColumns + b.mainColumns, a.constraints + b.constraints,
          a.busInteractions + b.busInteractions⟩) s =
      ⟨s.mainColumns + (l.map (·.width)).sum, s.constraints + (l.map (·.constraints.length)).sum,
        s.busInteractions + (l.map (·.interactions.length)).sum⟩ := by
    intro l
    induction l with
    | nil => intro s; simp
    | cons a l ih => intro s; simp only [List.map_cons, List.foldl_cons, ih, List.sum_cons, Nat.add_assoc]
  simp only [evaluateApc, h1, bind, Except.bind, pure, Except.pure, sumStats, hsum, machineStats, Nat.zero_add]

/-- **C79** The map of the buses has exactly the given pairs, and lookups find them. -/
theorem C79_buses {execution memory program range : ℕ} {bitwise : Option ℕ} {tuple : Option (ℕ × ℕ × ℕ)} {m : BusMap}
    (h : vmBusMap execution memory program range bitwise tuple = .ok m) :
    (m.busType execution = .ok .executionBridge ∧ m.busType memory = .ok .memory ∧
      m.busType program = .ok .pcLookup ∧ m.busType range = .ok (.other .variableRangeChecker)) ∧
    (∀ i, bitwise = some i → m.busType i = .ok (.other .bitwiseLookup)) ∧
    (∀ i a b, tuple = some (i, a, b) → m.busType i = .ok (.other (.tupleRangeChecker a b))) ∧
    ∀ i, i ≠ execution → i ≠ memory → i ≠ program → i ≠ range → bitwise ≠ some i → (∀ x, tuple ≠ some (i, x)) →
      m.busType i = .error .assertion := by
  obtain ⟨h1, h2⟩ := fromPairs_inv h List.Pairwise.nil
  have get : ∀ i t, (i, t) ∈ m → m.busType i = .ok t := by
    intro i t hit
    simp only [BusMap.busType, (sorted_mapGet h1).2 hit]
  refine ⟨⟨get _ _ ((h2 _).2 (by simp)), get _ _ ((h2 _).2 (by simp)), get _ _ ((h2 _).2 (by simp)),
    get _ _ ((h2 _).2 (by simp))⟩, ?_, ?_, ?_⟩
  · intro i hi
    exact get _ _ ((h2 _).2 (by simp [hi]))
  · intro i a b hi
    exact get _ _ ((h2 _).2 (by simp [hi]))
  · intro i h3 h4 h5 h6 h7 h8
    unfold BusMap.busType
    cases hg : mapGet i m with
    | none => rfl
    | some t =>
      have hm := (h2 _).1 ((sorted_mapGet h1).1 hg)
      simp only [List.mem_append, List.mem_cons, Prod.mk.injEq, List.not_mem_nil, or_false, List.mem_map,
        Option.mem_toList] at hm
      rcases hm with ((hm | hm | hm | hm) | ⟨x, hx, hm, _⟩) | ⟨x, hx, hm, _⟩
      · exact absurd hm.1 h3
      · exact absurd hm.1 h4
      · exact absurd hm.1 h5
      · exact absurd hm.1 h6
      · subst hm; exact absurd hx h7
      · obtain ⟨x1, x2⟩ := x
        subst hm
        exact absurd hx (h8 x2)

/-- **C79** The map of the buses exists if and only if no id is given two types. -/
theorem C79_buses_total (pairs : List (ℕ × BusType)) :
    (∃ m, BusMap.fromPairs pairs = .ok m) ↔ ∀ x ∈ pairs, ∀ y ∈ pairs, x.1 = y.1 → x.2 = y.2 := by
  constructor
  · rintro ⟨m, h⟩ x hx y hy hxy
    obtain ⟨h1, h2⟩ := fromPairs_inv h List.Pairwise.nil
    have gx := (sorted_mapGet (k := x.1) (t := x.2) h1).2 ((h2 _).2 (.inl hx))
    have gy := (sorted_mapGet (k := y.1) (t := y.2) h1).2 ((h2 _).2 (.inl hy))
    rw [hxy, gy] at gx
    simpa using gx.symm
  · intro h
    exact fromPairs_total List.Pairwise.nil (by simpa using h)

/-! ### A virtual machine with three AIRs, two of which have the same name -/

/-- `x * (x - 1) = 0`, and `3 * x` on bus 5. -/
def sampleAirA : VmAir ℚ where
  name := "A"
  width := 2
  columnNames := some ["x", "y"]
  preprocessed := none
  constraints := [.mul (.column (.main 0 0) 0) (.sub (.column (.main 0 0) 0) (.constant 1))]
  interactions := [⟨5, [.mul (.constant 3) (.column (.main 0 0) 0), .column (.main 0 0) 1], .column (.main 0 0) 0⟩]

/-- `-(x + y) = 0`. -/
def sampleAirB : VmAir ℚ where
  name := "B"
  width := 3
  columnNames := none
  preprocessed := some 1
  constraints := [.neg (.add (.column (.main 0 0) 0) (.column (.main 0 0) 1))]
  interactions := []

/-- Another AIR called `A`. -/
def sampleAirC : VmAir ℚ := { sampleAirB with name := "A" }

/-- An AIR that looks at the next row. -/
def sampleAirNext : VmAir ℚ :=
  { sampleAirB with constraints := [.sub (.column (.main 0 1) 0) (.column (.main 0 0) 0)] }

theorem sampleAirA_supported : sampleAirA.Supported := by
  refine ⟨?_, ?_⟩
  · intro l hl
    simp only [sampleAirA, Option.some.injEq] at hl
    subst hl
    rfl
  · intro e he
    simp only [VmAir.exprs, sampleAirA, List.flatMap_cons, List.flatMap_nil, List.append_nil, List.mem_append,
      List.mem_cons, List.not_mem_nil, or_false] at he
    rcases he with rfl | rfl | rfl | rfl <;> simp [AirExpr.CurrentRow, AirExpr.All, sampleAirA]

theorem sampleAirB_supported : sampleAirB.Supported := by
  refine ⟨by intro l hl; simp [sampleAirB] at hl, ?_⟩
  intro e he
  simp only [VmAir.exprs, sampleAirB, List.flatMap_nil, List.append_nil, List.mem_cons, List.not_mem_nil, or_false] at he
  subst he
  simp [AirExpr.CurrentRow, AirExpr.All, sampleAirB]

theorem sampleAirC_supported : sampleAirC.Supported := by
  refine ⟨by intro l hl; simp [sampleAirC, sampleAirB] at hl, ?_⟩
  exact sampleAirB_supported.2

theorem sampleAirNext_unsupported : extractMachine sampleAirNext = .error .unsupported := by
  refine C79_unsupported (by intro l hl; simp [sampleAirNext, sampleAirB] at hl) ?_ ?_
  · intro e he
    simp only [VmAir.exprs, sampleAirNext, sampleAirB, List.flatMap_nil, List.append_nil, List.mem_cons,
      List.not_mem_nil, or_false] at he
    subst he
    simp [AirExpr.TwoRows, AirExpr.All, sampleAirNext, sampleAirB]
  · exact ⟨.sub (.column (.main 0 1) 0) (.column (.main 0 0) 0), by simp [VmAir.exprs, sampleAirNext],
      by simp [AirExpr.CurrentRow, AirExpr.All]⟩

/-- Opcodes 10 and 11 have the AIR `A`, 12 has `B` and 13 has no executor. -/
def sampleInventory : VmInventory ℚ where
  instructionLookup := fun op => if op = 10 then some 0 else if op = 11 then some 0 else if op = 12 then some 1 else none
  insertionIndex := [1, 0]
  extAirs := [sampleAirB, sampleAirA]

/-- As before, but opcode 12 has another AIR called `A`. -/
def sampleInventorySame : VmInventory ℚ := { sampleInventory with extAirs := [sampleAirC, sampleAirA] }

theorem sampleInventory_airs : ∃ o, sampleInventory.airs 3 [13, 10, 12, 11] = .ok o := by
  refine C79_total 3 (by decide) ?_
  intro op hop hs
  simp only [List.mem_cons, List.not_mem_nil, or_false] at hop
  rcases hop with rfl | rfl | rfl | rfl
  · simp [sampleInventory] at hs
  · exact ⟨sampleAirA, ⟨0, 1, rfl, rfl, rfl⟩, sampleAirA_supported⟩
  · exact ⟨sampleAirB, ⟨1, 0, rfl, rfl, rfl⟩, sampleAirB_supported⟩
  · exact ⟨sampleAirA, ⟨0, 1, rfl, rfl, rfl⟩, sampleAirA_supported⟩

/-- The hypotheses of `C79_unique` and `C79_cost` hold. -/
theorem C79_sample : ∃ o, sampleInventory.airs 3 [13, 10, 12, 11] = .ok o ∧
    (∃ m, o.airAndId 12 = .ok ("B", m) ∧ m.Agrees sampleAirB) ∧ o.allowList = [10, 12, 11] ∧
    evaluateApc o [10, 12, 10] ⟨[.reference 4], [], []⟩ = .ok (⟨7, 3, 2⟩, ⟨1, 1, 0⟩) := by
  obtain ⟨o, ho⟩ := sampleInventory_airs
  have hn : ∀ a ∈ sampleInventory.extAirs, ∀ b ∈ sampleInventory.extAirs, a.name = b.name → a = b := by
    intro a ha b hb hab
    simp only [sampleInventory, List.mem_cons, List.not_mem_nil, or_false] at ha hb
    rcases ha with rfl | rfl <;> rcases hb with rfl | rfl
    · rfl
    · exact absurd hab (by decide)
    · exact absurd hab (by decide)
    · rfl
  refine ⟨o, ho, ?_, ?_, ?_⟩
  · obtain ⟨a, m, ha, h1, h2, _⟩ := C79_unique ho hn (op := 12) (by simp) (e := 1) rfl
    have hab : a = sampleAirB := AirOf_unique ha ⟨1, 0, rfl, rfl, rfl⟩
    subst hab
    exact ⟨m, h1, h2⟩
  · rw [(C79_allowed ho).1]
    decide
  · have hA : sampleInventory.AirOf 10 sampleAirA := ⟨0, 1, rfl, rfl, rfl⟩
    have hB : sampleInventory.AirOf 12 sampleAirB := ⟨1, 0, rfl, rfl, rfl⟩
    rw [C79_cost ho hn (ops := [10, 12, 10]) (airs := [sampleAirA, sampleAirB, sampleAirA])
      (.cons ⟨by simp, hA⟩ (.cons ⟨by simp, hB⟩ (.cons ⟨by simp, hA⟩ .nil)))]
    simp [sampleAirA, sampleAirB, SymMachine.refs, SymMachine.exprs, AlgExpr.refs]

/-- **C79** With two AIRs of the same name, an opcode can get the machine of another AIR: here opcode 12, which gets the
machine of opcode 10. -/
theorem C79_same_name : ∃ o m, sampleInventorySame.airs 3 [13, 10, 12, 11] = .ok o ∧
    sampleInventorySame.AirOf 12 sampleAirC ∧ o.airAndId 12 = .ok ("A", m) ∧ m.Agrees sampleAirA ∧ ¬ m.Agrees sampleAirC := by
  have h10 : sampleInventorySame.AirOf 10 sampleAirA := ⟨0, 1, rfl, rfl, rfl⟩
  have h12 : sampleInventorySame.AirOf 12 sampleAirC := ⟨1, 0, rfl, rfl, rfl⟩
  obtain ⟨o, ho⟩ : ∃ o, sampleInventorySame.airs 3 [13, 10, 12, 11] = .ok o := by
    refine C79_total 3 (by decide) ?_
    intro op hop hs
    simp only [List.mem_cons, List.not_mem_nil, or_false] at hop
    rcases hop with rfl | rfl | rfl | rfl
    · simp [sampleInventorySame, sampleInventory] at hs
    · exact ⟨sampleAirA, h10, sampleAirA_supported⟩
    · exact ⟨sampleAirC, h12, sampleAirC_supported⟩
    · exact ⟨sampleAirA, ⟨0, 1, rfl, rfl, rfl⟩, sampleAirA_supported⟩
  obtain ⟨a, b, m, ha, hb, h1, h2, _⟩ := C79_opcodes ho (op := 12) (by simp) (e := 1) rfl
  have hac : a = sampleAirC := AirOf_unique ha h12
  subst hac
  have hbA : b = sampleAirA := by
    obtain ⟨before, op, after, hl, hb1, hb2, hb3⟩ := hb
    rcases before with _ | ⟨x, _ | ⟨y, before⟩⟩
    · simp only [List.nil_append, List.cons.injEq] at hl
      obtain ⟨rfl, _⟩ := hl
      obtain ⟨e, i, he, _⟩ := hb1
      simp [sampleInventorySame, sampleInventory] at he
    · simp only [List.cons_append, List.nil_append, List.cons.injEq] at hl
      obtain ⟨_, rfl, _⟩ := hl
      exact AirOf_unique hb1 h10
    · simp only [List.cons_append, List.cons.injEq] at hl
      obtain ⟨_, rfl, _⟩ := hl
      exact absurd rfl (hb3 10 (by simp) sampleAirA h10)
  subst hbA
  refine ⟨o, m, ho, h12, h1, h2, ?_⟩
  intro hc
  have e1 := h2.messages ⟨fun _ _ _ => 0, fun _ _ => 0, 0, 0, 0⟩
  have e2 := hc.messages ⟨fun _ _ _ => 0, fun _ _ => 0, 0, 0, 0⟩
  rw [e1] at e2
  simp [sampleAirA, sampleAirC, sampleAirB] at e2

end

/-! ### The cached chip complex -/

section
variable {C X : Type}

/-- What the cache knows: the chip complex of the configuration of one of the clones. -/
def VmConfigs.Fresh (create : C → X) (s : VmConfigs C X) : Prop :=
  ∀ x, s.cache = some x → ∃ c ∈ s.configs, x = create c

theorem VmConfigs.step_fresh (create : C → X) (s : VmConfigs C X) (op : VmConfigOp C) (h : s.Fresh create) :
    (s.step create op).1.Fresh create := by
  intro x hx
  cases op with
  | clone i =>
    simp only [VmConfigs.step] at hx ⊢
    cases hi : s.configs[i]? with
    | none => simp only [hi] at hx ⊢; exact h x hx
    | some d =>
      simp only [hi] at hx ⊢
      obtain ⟨c, hc, rfl⟩ := h x hx
      exact ⟨c, by simp [hc], rfl⟩
  | update i f =>
    simp only [VmConfigs.step] at hx ⊢
    cases hi : s.configs[i]? with
    | none => simp only [hi] at hx ⊢; exact h x hx
    | some d => simp [hi] at hx
  | chipComplex i =>
    simp only [VmConfigs.step] at hx ⊢
    cases hi : s.configs[i]? with
    | none => simp only [hi] at hx ⊢; exact h x hx
    | some c =>
      cases hc : s.cache with
      | some y =>
        simp only [hi, hc] at hx ⊢
        exact h x (hc.trans hx)
      | none =>
        simp only [hi, hc, Option.some.injEq] at hx ⊢
        exact ⟨c, List.mem_of_getElem? hi, hx.symm⟩

theorem VmConfigs.run_fresh (create : C → X) : ∀ (ops : List (VmConfigOp C)) (s : VmConfigs C X), s.Fresh create →
    (s.run create ops).Fresh create
  | [], _, h => h
  | op :: ops, s, h => VmConfigs.run_fresh create ops _ (VmConfigs.step_fresh create s op h)

/-- **C80** After every history of clones, changes and requests, a request for the chip complex is answered with that of the
present configuration of one of the clones. -/
theorem C80_some (create : C → X) (c : C) (ops : List (VmConfigOp C)) (i : ℕ) {x : X}
    (h : (((VmConfigs.new c).run create ops).step create (.chipComplex i)).2 = some x) :
    ∃ c' ∈ ((VmConfigs.new c).run create ops : VmConfigs C X).configs, x = create c' := by
  have hf := VmConfigs.run_fresh create ops (VmConfigs.new c) (by intro x hx; simp [VmConfigs.new] at hx)
  generalize (VmConfigs.new c).run create ops = s at h hf
  simp only [VmConfigs.step] at h
  split at h
  · simp at h
  · rename_i c' hi
    split at h
    · rename_i y hy
      simp only [Option.some.injEq] at h
      subst h
      exact hf y hy
    · simp only [Option.some.injEq] at h
      exact ⟨c', List.mem_of_getElem? hi, h.symm⟩

/-- **C80** A request is always answered. -/
theorem C80_answered (create : C → X) (c : C) (ops : List (VmConfigOp C)) (i : ℕ)
    (hi : i < ((VmConfigs.new c).run create ops : VmConfigs C X).configs.length) :
    ∃ x, (((VmConfigs.new c).run create ops).step create (.chipComplex i)).2 = some x := by
  simp only [VmConfigs.step, List.getElem?_eq_getElem hi]
  split
  · exact ⟨_, rfl⟩
  · exact ⟨_, rfl⟩

theorem VmConfigs.run_single (create : C → X) : ∀ (ops : List (VmConfigOp C)) (s : VmConfigs C X),
    (∀ i, VmConfigOp.clone i ∉ ops) → (s.run create ops).configs.length = s.configs.length
  | [], s, _ => rfl
  | op :: ops, s, h => by
    show ((s.step create op).1.run create ops).configs.length = _
    rw [VmConfigs.run_single create ops _ fun i hi => h i (by simp [hi])]
    cases op with
    | clone i => exact absurd (by simp) (h i)
    | update i f =>
      simp only [VmConfigs.step]
      split <;> simp
    | chipComplex i =>
      simp only [VmConfigs.step]
      split
      · rfl
      · split <;> rfl

/-- **C80** Without clones, after every history of changes and requests, the answer is the chip complex of the present
configuration. -/
theorem C80_single (create : C → X) (c : C) (ops : List (VmConfigOp C)) (hops : ∀ i, VmConfigOp.clone i ∉ ops) :
    ∃ c', ((VmConfigs.new c).run create ops : VmConfigs C X).configs = [c'] ∧
      (((VmConfigs.new c).run create ops).step create (.chipComplex 0)).2 = some (create c') := by
  have hlen := VmConfigs.run_single create ops (VmConfigs.new c : VmConfigs C X) hops
  obtain ⟨c', hc'⟩ := List.length_eq_one_iff.1 (show _ = 1 from hlen)
  refine ⟨c', hc', ?_⟩
  obtain ⟨x, hx⟩ := C80_answered create c ops 0 (by rw [hc']; simp)
  obtain ⟨c'', hm, rfl⟩ := C80_some create c ops 0 hx
  rw [hc'] at hm
  simp only [List.mem_singleton] at hm
  rw [hx, hm]

/-- **C80** With clones, the answer is right as long as all of them have the same configuration. -/
theorem C80_equal (create : C → X) (c : C) (ops : List (VmConfigOp C)) {c' : C}
    (hall : ∀ d ∈ ((VmConfigs.new c).run create ops : VmConfigs C X).configs, d = c') (i : ℕ)
    (hi : i < ((VmConfigs.new c).run create ops : VmConfigs C X).configs.length) :
    (((VmConfigs.new c).run create ops).step create (.chipComplex i)).2 = some (create c') := by
  obtain ⟨x, hx⟩ := C80_answered create c ops i hi
  obtain ⟨d, hd, rfl⟩ := C80_some create c ops i hx
  rw [hx, hall d hd]

/-- **C80** The cache is shared by the clones: after a clone is changed and asked, the original answers with the chip complex
of the clone, although its own configuration is as before. -/
theorem C80_shared (create : C → X) (c : C) (f : C → C) :
    let s : VmConfigs C X := (VmConfigs.new c).run create [.clone 0, .update 1 f, .chipComplex 1]
    s.configs = [c, f c] ∧ (s.step create (.chipComplex 0)).2 = some (create (f c)) := by
  simp [VmConfigs.run, VmConfigs.new, VmConfigs.step]

/-- The hypotheses of `C80_single` and `C80_equal` hold for histories that fill the cache and change the configuration. -/
example : (∀ i, VmConfigOp.clone i ∉ [.chipComplex 0, .update 0 (· + 1), .chipComplex 0, (.update 0 (· + 5) : VmConfigOp ℕ)]) ∧
    ((VmConfigs.new 1).run (· * 10) [.clone 0, .chipComplex 1, .update 1 (· + 1), .update 0 (· + 1), .chipComplex 1] :
      VmConfigs ℕ ℕ).configs = [2, 2] := by
  simp [VmConfigs.run, VmConfigs.new, VmConfigs.step]

end

end Verif
