import Verif.Proofs.Build
import Verif.Proofs.OpenVmPanics
import Verif.Spec.BuildPanics

/-!
# Proofs about the generation of a precompile for the buses of OpenVM
-/

set_option linter.unusedSectionVars false

namespace Verif

open GExpr

/-! ### Degrees and arguments -/

section
variable {T T' R R' : Type}

theorem AlgExpr.degree_mapRefs (f : R → R') (e : AlgExpr T R) : (e.mapRefs f).degree = e.degree := by
  induction e with
  | reference r => rfl
  | number n => rfl
  | binary l op r ihl ihr => cases op <;> simp [AlgExpr.mapRefs, AlgExpr.degree, ihl, ihr]
  | minus e ih => simp [AlgExpr.mapRefs, AlgExpr.degree, ih]

theorem AlgExpr.degree_convert (f : T → T') (e : AlgExpr T R) : (e.convert f).degree = e.degree := by
  induction e with
  | reference r => rfl
  | number n => rfl
  | binary l op r ihl ihr => cases op <;> simp [AlgExpr.convert, AlgExpr.degree, ihl, ihr]
  | minus e ih => simp [AlgExpr.convert, AlgExpr.degree, ih]

theorem mapRefs_number {f : R → R'} {e : AlgExpr T R} {n : T} :
    e.mapRefs f = .number n ↔ e = .number n := by
  cases e <;> simp [AlgExpr.mapRefs]

variable [Zero T] [One T]

theorem BusType.HasArgs.renumber {size : T → ℕ} {t : BusType} {f : R → R'} {l : List (AlgExpr T R)} :
    t.HasArgs size (l.map (AlgExpr.mapRefs f)) ↔ t.HasArgs size l := by
  have hlen : (l.map (AlgExpr.mapRefs f)).length = 2 ↔ l.length = 2 := by rw [List.length_map]
  cases t with
  | executionBridge => exact Iff.rfl
  | pcLookup => exact Iff.rfl
  | memory =>
    constructor
    · rintro ⟨space, pointer, data, timestamp, h, h1, h2⟩
      obtain ⟨a, l', rfl, ha, h⟩ := List.map_eq_cons_iff.1 h
      obtain ⟨b, l'', rfl, hb, h⟩ := List.map_eq_cons_iff.1 h
      obtain ⟨d, t, rfl, hd, ht⟩ := List.map_eq_append_iff.1 h
      obtain ⟨t', rfl, ht'⟩ := List.map_eq_singleton_iff.1 ht
      refine ⟨space, b, d, t', by rw [mapRefs_number.1 ha], by rw [← h1, ← hd, List.length_map], ?_⟩
      rintro rfl
      exact h2 hd.symm
    · rintro ⟨space, pointer, data, timestamp, rfl, h1, h2⟩
      refine ⟨space, pointer.mapRefs f, data.map (AlgExpr.mapRefs f), timestamp.mapRefs f, by
        simp [AlgExpr.mapRefs], by rw [List.length_map, h1], by simpa using h2⟩
  | other o =>
    cases o with
    | bitwiseLookup =>
      constructor
      · rintro ⟨x, y, z, op, h, h1⟩
        obtain ⟨a, l', rfl, -, h⟩ := List.map_eq_cons_iff.1 h
        obtain ⟨b, l', rfl, -, h⟩ := List.map_eq_cons_iff.1 h
        obtain ⟨c, l', rfl, -, h⟩ := List.map_eq_cons_iff.1 h
        obtain ⟨d, rfl, hd⟩ := List.map_eq_singleton_iff.1 h
        exact ⟨a, b, c, op, by rw [mapRefs_number.1 hd], h1⟩
      · rintro ⟨x, y, z, op, rfl, h1⟩
        exact ⟨_, _, _, op, rfl, h1⟩
    | variableRangeChecker => exact hlen
    | tupleRangeChecker a b => exact hlen

end

section
variable {p : ℕ} {U R : Type} [CommRing U]

theorem BusType.HasArgs.convert {size : U → ℕ} {t : BusType} (φ : U ≃+* ZMod p) {l : List (AlgExpr U R)}
    (h : t.HasArgs size l) : t.HasArgs (size ∘ φ.symm) (l.map (AlgExpr.convert φ)) := by
  cases t with
  | executionBridge => trivial
  | pcLookup => trivial
  | memory =>
    obtain ⟨space, pointer, data, timestamp, rfl, h1, h2⟩ := h
    refine ⟨φ space, pointer.convert φ, data.map (AlgExpr.convert φ), timestamp.convert φ, by
        simp [AlgExpr.convert], by rw [List.length_map, h1]; simp, by simpa using h2⟩
  | other o =>
    cases o with
    | bitwiseLookup =>
      obtain ⟨x, y, z, op, rfl, h1⟩ := h
      refine ⟨_, _, _, φ op, rfl, ?_⟩
      rcases h1 with rfl | rfl
      · exact Or.inl (map_zero φ)
      · exact Or.inr (map_one φ)
    | variableRangeChecker => exact (List.length_map _).trans h
    | tupleRangeChecker a b => exact (List.length_map _).trans h

theorem BusType.HasArgs.fields {V : Type} [LinearOrder V] {size : ZMod p → ℕ} {t : BusType}
    {l : List (AlgExpr (ZMod p) V)} (h : t.HasArgs size l) : t.HasFields (l.map algebraicToGrouped) := by
  cases t with
  | executionBridge => trivial
  | pcLookup => trivial
  | memory =>
    obtain ⟨space, pointer, data, timestamp, rfl, h1, h2⟩ := h
    have := List.length_pos_iff.2 h2
    simp only [BusType.HasFields, List.map_cons, List.map_append, List.length_cons, List.length_append,
      List.length_map]
    simp
    omega
  | other o =>
    cases o with
    | bitwiseLookup =>
      obtain ⟨x, y, z, op, rfl, h1⟩ := h
      exact ⟨_, _, _, op, rfl, h1⟩
    | variableRangeChecker => exact (List.length_map _).trans h
    | tupleRangeChecker a b => exact (List.length_map _).trans h

end

/-! ### The machine of the block -/

section
variable {p : ℕ} {U : Type} {f : U → ZMod p} {execBus pcBus : ℕ}

/-- The machines that a block consists of, by position. -/
theorem blockMachine_parts {is : List (InstrAir U)} {m : SymMachine (ZMod p) ℕ} {a : ColumnAllocator}
    (h : blockMachine execBus pcBus f is = .ok (m, a)) :
    ∃ ms : List (SymMachine (ZMod p) ℕ), m.constraints = ms.flatMap (·.constraints) ∧ m.bus = ms.flatMap (·.bus) ∧
      (∀ mm ∈ ms, ∃ i ∈ is, ∃ next next' subs,
        instructionMachine execBus pcBus f next i = .ok (next', subs, mm)) ∧
      ∀ (k : ℕ) (i : InstrAir U), is[k]? = some i → ∃ mm ∈ ms, ∃ next next' subs, a.subs[k]? = some subs ∧
        instructionMachine execBus pcBus f next i = .ok (next', subs, mm) := by
  obtain ⟨ms, h1, h2, h3, -⟩ := blockMachine_ok h
  obtain ⟨h4, h5, -⟩ := instructionMachines_ok h1
  refine ⟨ms, h2, h3, fun mm hm => ?_, fun k i hk => ?_⟩
  · obtain ⟨k, hk⟩ := List.mem_iff_getElem.1 hm
    obtain ⟨hk, rfl⟩ := hk
    have hk' : k < (is.zip a.subs).length := by rw [h4.length_eq]; exact hk
    obtain ⟨next, next', hx⟩ := h4.get hk' hk
    exact ⟨_, (List.of_mem_zip (List.get_mem (is.zip a.subs) ⟨k, hk'⟩)).1, next, next', _, hx⟩
  · obtain ⟨hlt, rfl⟩ := List.getElem?_eq_some_iff.1 hk
    have hk2 : k < a.subs.length := by rw [h5]; exact hlt
    have hk' : k < (is.zip a.subs).length := by rw [List.length_zip]; omega
    have hk3 : k < ms.length := by rw [← h4.length_eq]; exact hk'
    obtain ⟨next, next', hx⟩ := h4.get hk' hk3
    refine ⟨_, List.get_mem ms ⟨k, hk3⟩, next, next', a.subs[k], List.getElem?_eq_getElem hk2, ?_⟩
    simpa using hx

/-- Every column of an instruction has an id, and the block machine has this column. -/
theorem blockMachine_column {is : List (InstrAir U)} {m : SymMachine (ZMod p) ℕ} {a : ColumnAllocator}
    (h : blockMachine execBus pcBus f is = .ok (m, a)) {k c : ℕ} {i : InstrAir U} (hk : is[k]? = some i)
    (hc : c ∈ i.machine.refs) : ∃ l r, a.subs[k]? = some l ∧ l[c]? = some r ∧ r ∈ m.refs := by
  obtain ⟨ms, h1, h2, -, h3⟩ := blockMachine_parts h
  obtain ⟨mm, hmm, next, next', subs, h4, h5⟩ := h3 k i hk
  obtain ⟨n, r, s, pc, g0, g1, rfl, g3, g4, g5, g6, g7, g8, g9⟩ := instructionMachine_ok h5
  refine ⟨_, c + next, h4, ?_, ?_⟩
  · rw [List.getElem?_range' ((g3 c).1 hc)]
    simp [Nat.add_comm]
  · have h6 : c + next ∈ ((i.machine.convert f).mapRefs (· + next)).refs := by
      rw [mapRefs_refs, convert_refs]
      exact List.mem_map.2 ⟨c, hc, rfl⟩
    obtain ⟨x, hx, hcx⟩ := List.mem_flatMap.1 h6
    refine List.mem_flatMap.2 ⟨x, ?_, hcx⟩
    rcases List.mem_append.1 hx with hx | hx
    · refine List.mem_append_left _ ?_
      rw [h1]
      refine List.mem_flatMap.2 ⟨mm, hmm, ?_⟩
      rw [g9]
      exact List.mem_append_left _ (List.mem_append_left _ hx)
    · refine List.mem_append_right _ ?_
      obtain ⟨b, hb, hxb⟩ := List.mem_flatMap.1 hx
      refine List.mem_flatMap.2 ⟨b, ?_, hxb⟩
      rw [h2]
      refine List.mem_flatMap.2 ⟨mm, hmm, ?_⟩
      rw [g7]
      exact hb

/-- The bus interactions of a block are those of the instructions. -/
theorem blockMachine_bus {is : List (InstrAir U)} {m : SymMachine (ZMod p) ℕ} {a : ColumnAllocator}
    (h : blockMachine execBus pcBus f is = .ok (m, a)) {b : SymBus (ZMod p) ℕ} (hb : b ∈ m.bus) :
    ∃ i ∈ is, ∃ b' ∈ i.machine.bus, ∃ next, b = ⟨b'.id, (b'.mult.convert f).mapRefs (· + next),
      (b'.args.map (AlgExpr.convert f)).map (AlgExpr.mapRefs (· + next))⟩ := by
  obtain ⟨ms, -, h2, h3, -⟩ := blockMachine_parts h
  rw [h2] at hb
  obtain ⟨mm, hmm, hb⟩ := List.mem_flatMap.1 hb
  obtain ⟨i, hi, next, next', subs, h5⟩ := h3 mm hmm
  obtain ⟨n, r, s, pc, g0, g1, g2, g3, g4, g5, g6, g7, g8, g9⟩ := instructionMachine_ok h5
  rw [g7] at hb
  obtain ⟨b1, hb1, rfl⟩ := List.mem_map.1 hb
  obtain ⟨b2, hb2, rfl⟩ := List.mem_map.1 hb1
  exact ⟨i, hi, b2, hb2, next, rfl⟩

theorem blockMachine_degrees {is : List (InstrAir U)} {m : SymMachine (ZMod p) ℕ} {a : ColumnAllocator}
    (h : blockMachine execBus pcBus f is = .ok (m, a)) {n k : ℕ} (hkn : k ≤ n)
    (hd : ∀ i ∈ is, i.machine.Degrees n k) : m.Degrees n k := by
  have hbus : ∀ b ∈ m.bus, b.mult.degree ≤ k ∧ ∀ x ∈ b.args, x.degree ≤ k := by
    intro b hb
    obtain ⟨i, hi, b', hb', next, rfl⟩ := blockMachine_bus h hb
    refine ⟨?_, fun x hx => ?_⟩
    · simp only [AlgExpr.degree_mapRefs, AlgExpr.degree_convert]
      exact (hd i hi).mult b' hb'
    · rw [List.map_map] at hx
      obtain ⟨y, hy, rfl⟩ := List.mem_map.1 hx
      simp only [Function.comp_apply, AlgExpr.degree_mapRefs, AlgExpr.degree_convert]
      exact (hd i hi).args b' hb' y hy
  refine ⟨fun x hx => ?_, fun b hb => (hbus b hb).1, fun b hb => (hbus b hb).2⟩
  obtain ⟨ms, h1, h2, h3, -⟩ := blockMachine_parts h
  rw [h1] at hx
  obtain ⟨mm, hmm, hx⟩ := List.mem_flatMap.1 hx
  obtain ⟨i, hi, next, next', subs, h5⟩ := h3 mm hmm
  obtain ⟨n', r, s, pc, g0, g1, g2, g3, g4, g5, g6, g7, g8, g9⟩ := instructionMachine_ok h5
  have horig : ∀ b ∈ (i.machine.convert f).bus, b.mult.degree ≤ k ∧ ∀ x ∈ b.args, x.degree ≤ k := by
    intro b hb
    obtain ⟨b2, hb2, rfl⟩ := List.mem_map.1 hb
    refine ⟨?_, fun x hx => ?_⟩
    · rw [AlgExpr.degree_convert]
      exact (hd i hi).mult b2 hb2
    · obtain ⟨y, hy, rfl⟩ := List.mem_map.1 hx
      rw [AlgExpr.degree_convert]
      exact (hd i hi).args b2 hb2 y hy
  rw [g9] at hx
  rcases List.mem_append.1 hx with hx | hx
  · rcases List.mem_append.1 hx with hx | hx
    · obtain ⟨y, hy, rfl⟩ := List.mem_map.1 hx
      obtain ⟨z, hz, rfl⟩ := List.mem_map.1 hy
      rw [AlgExpr.degree_mapRefs, AlgExpr.degree_convert]
      exact (hd i hi).constraints z hz
    · rw [List.mem_singleton.1 hx]
      have hr : r ∈ (i.machine.convert f).bus := List.mem_of_mem_filter (p := fun b => decide (b.id = execBus))
        (by rw [g4]; simp)
      simp only [AlgExpr.toConstraint, AlgExpr.degree, AlgExpr.degree_mapRefs]
      exact max_le ((horig r hr).1.trans hkn) (Nat.zero_le _)
  · have hpc : pc ∈ (i.machine.convert f).bus := List.mem_of_mem_filter (p := fun b => decide (b.id = pcBus))
      (by rw [g5]; simp)
    obtain ⟨y, hy, rfl⟩ := List.mem_map.1 hx
    obtain ⟨z, hz, hyz⟩ := List.mem_map.1 (List.of_mem_zip hy).1
    simp only [AlgExpr.toConstraint, AlgExpr.degree]
    rw [← hyz, AlgExpr.degree_mapRefs]
    exact max_le (((horig pc hpc).2 z hz).trans hkn) (Nat.zero_le _)

/-- The number of ids is the number of columns. -/
theorem blockMachine_count {U : Type} [CommRing U] {f : U → ZMod p} {is : List (InstrAir U)}
    {m : SymMachine (ZMod p) ℕ} {a : ColumnAllocator}
    (h : blockMachine execBus pcBus f is = .ok (m, a)) : a.nextPolyId = columnCount is := by
  obtain ⟨h1, h2, h3⟩ := C47_ids h
  have h4 := congrArg List.length h1
  rw [List.length_range, List.length_flatten] at h4
  rw [← h4, columnCount]
  have key : ∀ (is : List (InstrAir U)) (ss : List (List ℕ)), ss.length = is.length →
      (∀ x ∈ is.zip ss, x.2.length = x.1.machine.refs.dedup.length) →
      ss.map List.length = is.map fun i => i.machine.refs.dedup.length := by
    intro is
    induction is with
    | nil =>
      intro ss hl _
      rw [List.eq_nil_of_length_eq_zero hl]
      rfl
    | cons i t ih =>
      intro ss hl hx
      cases ss with
      | nil => simp at hl
      | cons s ss =>
        rw [List.map_cons, List.map_cons, ih ss (by simpa using hl) fun x h => hx x (by
          rw [List.zip_cons_cons]; exact List.mem_cons_of_mem _ h)]
        rw [hx (i, s) (by simp)]
  rw [key is _ h2 h3]

end

/-! ### The execution bus -/

theorem exec_bus_sub {T R : Type} {m m' : SymMachine T R} {execBus : ℕ}
    (h : optimizeExecBus m execBus = .ok m') {b : SymBus T R} (hb : b ∈ m'.bus) : b ∈ m.bus := by
  obtain ⟨h1, -, r, s, hr, hs, hrs⟩ := C55_interactions h
  by_cases hid : b.id = execBus
  · have : b ∈ m'.onBus execBus := List.mem_filter.2 ⟨hb, by simpa using hid⟩
    rw [hrs] at this
    rcases List.mem_cons.1 this with rfl | h2
    · exact List.mem_of_mem_filter (List.mem_of_getElem? hr)
    · rw [List.mem_singleton.1 h2]
      exact List.mem_of_mem_filter (List.mem_of_getElem? hs)
  · have : b ∈ m'.offBus execBus := List.mem_filter.2 ⟨hb, by simpa using hid⟩
    rw [h1] at this
    exact List.mem_of_mem_filter this

theorem exec_degrees {T R : Type} {m m' : SymMachine T R} {execBus : ℕ}
    (h : optimizeExecBus m execBus = .ok m') {n k : ℕ} (hkn : k ≤ n) (hd : m.Degrees n k) :
    m'.Degrees n k := by
  refine ⟨fun x hx => ?_, fun b hb => hd.mult b (exec_bus_sub h hb), fun b hb =>
    hd.args b (exec_bus_sub h hb)⟩
  obtain ⟨l1, r, l2, s, h1, -, -, -, -, -, -, h8, -⟩ := optimizeExecBus_ok h
  rw [h8] at hx
  rcases List.mem_append.1 hx with hx | hx
  · exact hd.constraints x hx
  · obtain ⟨y, hy, he⟩ := List.mem_flatMap.1 hx
    obtain ⟨k, k1, k2⟩ := (mem_twoByTwo _ _).1 hy
    have b1 : y.1 ∈ m.bus := by
      rw [h1]
      exact List.mem_append_right _ (List.mem_cons_of_mem _ (List.mem_of_mem_filter (List.mem_of_getElem? k1)))
    have b2 : y.2 ∈ m.bus := by
      rw [h1]
      exact List.mem_append_right _ (List.mem_cons_of_mem _ (List.mem_of_mem_filter (List.mem_of_getElem? k2)))
    obtain ⟨z, hz, rfl⟩ := List.mem_map.1 he
    have hz' := List.of_mem_zip hz
    simp only [AlgExpr.toConstraint, AlgExpr.degree]
    exact max_le ((hd.args _ b2 _ hz'.1).trans hkn) ((hd.args _ b1 _ hz'.2).trans hkn)

/-- Whether the execution bus can be optimized does not depend on the constraints. -/
theorem exec_with {T R : Type} {m m' : SymMachine T R} {execBus : ℕ} (cs : List (AlgExpr T R))
    (h : optimizeExecBus m execBus = .ok m') :
    ∃ m'', optimizeExecBus { m with constraints := cs } execBus = .ok m'' := by
  unfold optimizeExecBus at h ⊢
  simp only [bind, Except.bind] at h ⊢
  cases hr : execBusRetain execBus m.bus false true none with
  | error x => rw [hr] at h; cases h
  | ok r =>
    rw [hr] at h
    simp only at h ⊢
    cases hs : r.2.2 with
    | none => rw [hs] at h; cases h
    | some send => exact ⟨_, rfl⟩

/-! ### The ids below a bound -/

section
variable {T : Type} {N : ℕ}

theorem mapRefs_back {g : ℕ → Fin N} {e : AlgExpr T ℕ} (h : ∀ x ∈ e.refs, (g x : ℕ) = x) :
    (e.mapRefs g).mapRefs Fin.val = e := by
  induction e with
  | reference r => simp only [AlgExpr.mapRefs, h r (by simp [AlgExpr.refs])]
  | number n => rfl
  | binary l op r ihl ihr =>
    simp only [AlgExpr.refs, List.mem_append] at h
    simp only [AlgExpr.mapRefs, ihl fun x hx => h x (Or.inl hx), ihr fun x hx => h x (Or.inr hx)]
  | minus e ih =>
    simp only [AlgExpr.mapRefs, ih h]

theorem renumber_back {m : SymMachine T ℕ} (hd : m.derived = []) (hN : 0 < N) (h : ∀ x ∈ m.refs, x < N) :
    ∃ m' : SymMachine T (Fin N), m'.renumber Fin.val = m := by
  let g : ℕ → Fin N := fun x => if h : x < N then ⟨x, h⟩ else ⟨0, hN⟩
  have hg : ∀ x ∈ m.refs, (g x : ℕ) = x := fun x hx => by simp [g, h x hx]
  refine ⟨m.renumber g, ?_⟩
  obtain ⟨cs, bus, derived⟩ := m
  simp only at hd
  subst hd
  simp only [SymMachine.renumber, List.map_map, List.map_nil, SymMachine.mk.injEq, and_true]
  constructor
  · conv_rhs => rw [← List.map_id cs]
    exact List.map_congr_left fun x hx => mapRefs_back fun y hy => hg y
      (List.mem_flatMap.2 ⟨x, List.mem_append_left _ hx, hy⟩)
  · conv_rhs => rw [← List.map_id bus]
    refine List.map_congr_left fun b hb => ?_
    obtain ⟨bid, mult, args⟩ := b
    simp only [Function.comp_apply, id_eq, SymBus.mk.injEq, true_and]
    refine ⟨mapRefs_back fun y hy => hg y (List.mem_flatMap.2 ⟨_, mult_mem_exprs hb, hy⟩), ?_⟩
    rw [List.map_map]
    conv_rhs => rw [← List.map_id args]
    exact List.map_congr_left fun x hx => mapRefs_back fun y hy => hg y
      (List.mem_flatMap.2 ⟨_, args_mem_exprs hb hx, hy⟩)

end

/-! ### The empirical constraints -/

section
variable {p : ℕ} {U I : Type} [CommRing U] {execBus pcBus step : ℕ} {f : U → ZMod p}
  {blocks : List (BasicBlock I)} {e : EmpiricalConstraints} {keep : Option (BlockCell → Bool)}
  {is : List (InstrAir U)} {m : SymMachine (ZMod p) ℕ} {a : ColumnAllocator}

theorem forBlock_shape {b : BlockEmpiricalConstraints} (h : e.ForBlock step blocks (.ok b)) :
    ∀ x ∈ b.columnRangesByPc, ∃ l : List (ℕ × ℕ), x.2 = l.zipIdx.map fun y => (y.2, y.1) := by
  obtain ⟨c, -, hc⟩ := h
  cases c with
  | error x => cases hc
  | ok c =>
    have : b = _ := Except.ok.inj hc
    rw [this]
    exact blockRanges_shape _ _ [] (by simp)

/-- The columns that the statistics refer to are found. -/
theorem blockMachine_mapper (h : blockMachine execBus pcBus f is = .ok (m, a)) :
    ∃ refs, newReferenceMapper id a.subs m.refs.dedup = .ok refs ∧
      ∀ (k c : ℕ), (∃ i : InstrAir U, is[k]? = some i ∧ c ∈ i.machine.refs) →
        (refs.lookup (k, c)).isSome := by
  have hn : a.subs.flatten.Nodup := by
    rw [(C47_ids h).1]
    exact List.nodup_range
  obtain ⟨refs, h1, h2⟩ := (C53_references (id : ℕ → ℕ) hn (columns := m.refs.dedup)
    (by rw [List.map_id]; exact List.nodup_dedup _)).2 (fun r hr => by
      obtain ⟨l, hl, hrl⟩ := ((C47_fresh h).1 r (List.mem_dedup.1 hr)).2
      exact List.mem_flatten.2 ⟨l, hl, hrl⟩)
  refine ⟨refs, h1, ?_⟩
  rintro k c ⟨i, hi, hc⟩
  obtain ⟨l, r, g1, g2, g3⟩ := blockMachine_column h hi hc
  rw [(h2 k c r).2 ⟨List.mem_dedup.2 g3, l, g1, g2⟩]
  rfl

/-- All constraints of the statistics can be generated. -/
theorem blockMachine_generate (h : blockMachine execBus pcBus f is = .ok (m, a)) (hwf : e.WF)
    (hcells : ∀ b ∈ blocks, CellsInBlock e b)
    (hknown : KnownColumns e step blocks (keep.getD fun _ => true) is)
    {refs : List (BlockCell × ℕ)} (hrefs : newReferenceMapper id a.subs m.refs.dedup = .ok refs)
    {ofBlock kept : BlockEmpiricalConstraints} (hfb : e.ForBlock step blocks (.ok ofBlock))
    (hfi : (keep = none → kept = ofBlock) ∧ ∀ q, keep = some q → ofBlock.Filtered q (.ok kept))
    {x : Except LoopStop (List (EqConstraint ℕ))}
    (hx : kept.Generate (fun cell => refs.lookup cell) (superBlockPcs step blocks) x) :
    ∃ cs, x = .ok cs := by
  obtain ⟨w1, w2, w3, w4⟩ := kept_of hwf hcells hfb hfi
  obtain ⟨refs', h1, h2⟩ := blockMachine_mapper h
  rw [hrefs] at h1
  cases h1
  obtain ⟨cs, h3, -⟩ := ((C53_generate (F := ZMod p) w1 w2 (fun cell => refs.lookup cell)
    (superBlockPcs step blocks)).2 x hx).2
    (fun i pc c v g1 g2 => h2 i c (by
      obtain ⟨g3, g4⟩ := (w3 i pc c v g1).1 g2
      exact hknown.constant i pc c v g1 g3 g4))
    (fun y z g1 g2 => h2 y.1 y.2 (by
      obtain ⟨g3, g4, g5⟩ := ((w4 y z).1 g2).resolve_left g1
      exact hknown.equal y z g3 g4 g5))
  exact ⟨cs, h3⟩

end

/-! ### The system that is optimized -/

section
variable {p : ℕ} [Fact p.Prime] {U I : Type} [CommRing U] {N : ℕ} {φ : U ≃+* ZMod p}
  {execBus pcBus step : ℕ} {air : ℕ × I → InstrAir U} {blocks : List (BasicBlock I)}
  {e : EmpiricalConstraints} {keep : Option (BlockCell → Bool)}

theorem degree_toSymbolic (k : EqConstraint ℕ) : (k.toSymbolic : AlgExpr (ZMod p) ℕ).degree ≤ 1 := by
  obtain ⟨l, r⟩ := k
  cases r <;> simp [EqConstraint.toSymbolic, AlgExpr.degree]

/-- The bus interactions of the system are those of the instructions. -/
theorem BuildStart.bus (r : BuildStart N φ execBus pcBus step air blocks e keep) {bm : BusMap}
    {size : U → ℕ}
    (h : ∀ x ∈ superBlockInstructions step blocks, ∀ b ∈ (air x).machine.bus,
      ∃ t, (b.id, t) ∈ bm ∧ t.HasArgs size b.args)
    {b : BusInteraction (GExpr p (Fin N))} (hb : b ∈ (machineToSystem r.m3).bus) :
    ∃ (id : ℕ) (t : BusType) (l : List (AlgExpr (ZMod p) (Fin N))), (id, t) ∈ bm ∧
      t.HasArgs (size ∘ φ.symm) l ∧ b.busId = const (id : ZMod p) ∧
      b.payload = l.map algebraicToGrouped := by
  obtain ⟨b3, hb3, rfl⟩ := List.mem_map.1 hb
  have h2 : (⟨b3.id, b3.mult.mapRefs Fin.val, b3.args.map (AlgExpr.mapRefs Fin.val)⟩ : SymBus _ _) ∈
      r.m2.bus := by
    rw [← r.step3]
    exact List.mem_map.2 ⟨b3, hb3, rfl⟩
  have h0 := exec_bus_sub r.step2 h2
  obtain ⟨i, hi, b', hb', next, heq⟩ := blockMachine_bus r.step0 h0
  obtain ⟨y, hy, rfl⟩ := List.mem_map.1 hi
  injection heq with e1 e2 e3
  obtain ⟨t, ht1, ht2⟩ := h y hy b' hb'
  refine ⟨b3.id, t, b3.args, by rw [e1]; exact ht1, ?_, rfl, rfl⟩
  rw [← BusType.HasArgs.renumber (f := Fin.val), e3, BusType.HasArgs.renumber]
  exact ht2.convert φ

theorem BuildStart.shape (r : BuildStart N φ execBus pcBus step air blocks e keep) {bm : BusMap}
    (hm : bm.Fits p) {size : U → ℕ}
    (h : ∀ x ∈ superBlockInstructions step blocks, ∀ b ∈ (air x).machine.bus,
      ∃ t, (b.id, t) ∈ bm ∧ t.HasArgs size b.args) :
    ∀ b ∈ (machineToSystem r.m3).bus, OpenVmShape bm b := by
  intro b hb
  obtain ⟨id, t, l, h1, h2, h3, h4⟩ := r.bus h hb
  refine ⟨_, t, h3, ?_, ?_⟩
  · rw [ZMod.val_cast_of_lt (hm.ids _ h1)]
    exact h1
  · rw [h4]
    exact h2.fields

theorem BuildStart.regular (r : BuildStart N φ execBus pcBus step air blocks e keep) {bm : BusMap}
    (hm : bm.Fits p) {size : U → ℕ}
    (h : ∀ x ∈ superBlockInstructions step blocks, ∀ b ∈ (air x).machine.bus,
      ∃ t, (b.id, t) ∈ bm ∧ t.HasArgs size b.args) {memoryBusId : Option ℕ}
    (hmem : ∀ id, memoryBusId = some id → (id, BusType.memory) ∈ bm) :
    ∀ b ∈ (machineToSystem r.m3).bus, RegularBus memoryBusId (size ∘ φ.symm) b := by
  intro b hb
  obtain ⟨id, t, l, h1, h2, h3, h4⟩ := r.bus h hb
  refine ⟨_, h3, fun id' hid heq => ?_⟩
  have h5 := hmem id' hid
  have h6 : id = id' := by
    have := congrArg ZMod.val heq
    rwa [ZMod.val_cast_of_lt (hm.ids _ h1), ZMod.val_cast_of_lt (hm.ids _ h5)] at this
  subst h6
  have h7 := mapGet_of_mem hm.keys h1
  rw [mapGet_of_mem hm.keys h5] at h7
  cases h7
  obtain ⟨space, pointer, data, timestamp, rfl, g1, -⟩ := h2
  refine ⟨space, algebraicToGrouped pointer, data.map algebraicToGrouped, algebraicToGrouped timestamp, ?_, ?_⟩
  · rw [h4]
    simp only [List.map_cons, List.map_append, List.map_nil]
    rfl
  · rw [List.length_map, g1]

theorem BuildStart.degrees (r : BuildStart N φ execBus pcBus step air blocks e keep) {n k : ℕ}
    (hkn : k ≤ n) (hn : 1 ≤ n)
    (hd : ∀ x ∈ superBlockInstructions step blocks, (air x).machine.Degrees n k) :
    (machineToSystem r.m3).Degrees n k := by
  have h0 := blockMachine_degrees r.step0 hkn (by
    intro i hi
    obtain ⟨y, hy, rfl⟩ := List.mem_map.1 hi
    exact hd y hy)
  have h1 : SymMachine.Degrees
      { r.m0 with constraints := r.m0.constraints ++ r.cs.map EqConstraint.toSymbolic } n k := by
    refine ⟨fun x hx => ?_, h0.mult, h0.args⟩
    rcases List.mem_append.1 hx with hx | hx
    · exact h0.constraints x hx
    · obtain ⟨y, -, rfl⟩ := List.mem_map.1 hx
      exact (degree_toSymbolic y).trans hn
  have h2 := exec_degrees r.step2 hkn h1
  have h3 : r.m3.Degrees n k := by
    rw [← r.step3] at h2
    refine ⟨fun x hx => ?_, fun b hb => ?_, fun b hb x hx => ?_⟩
    · rw [← AlgExpr.degree_mapRefs Fin.val]
      exact h2.constraints _ (List.mem_map.2 ⟨x, hx, rfl⟩)
    · rw [← AlgExpr.degree_mapRefs Fin.val]
      exact h2.mult _ (List.mem_map.2 ⟨b, hb, rfl⟩)
    · rw [← AlgExpr.degree_mapRefs Fin.val]
      exact h2.args _ (List.mem_map.2 ⟨b, hb, rfl⟩) _ (List.mem_map.2 ⟨x, hx, rfl⟩)
  refine ⟨fun x hx => ?_, fun b hb x hx => ?_⟩
  · obtain ⟨y, hy, rfl⟩ := List.mem_map.1 hx
    exact (degree_algebraicToGrouped y).trans (h3.constraints y hy)
  · obtain ⟨b', hb', rfl⟩ := List.mem_map.1 hb
    simp only [symBusToBus, BusInteraction.fields, List.mem_cons, List.mem_map] at hx
    rcases hx with rfl | rfl | ⟨y, hy, rfl⟩
    · rw [degree_const]
      exact Nat.zero_le _
    · exact (degree_algebraicToGrouped _).trans (h3.mult b' hb')
    · exact (degree_algebraicToGrouped y).trans (h3.args b' hb' y hy)

end

/-! ### After the optimizer -/

section
variable {p : ℕ} [Fact p.Prime] {V : Type} [LinearOrder V]

theorem systemToMachine_shape {bm : BusMap} (h32 : p ≤ 2 ^ 32) {s : ConstraintSystem p V}
    (h : ∀ b ∈ s.bus, OpenVmShape bm b) : ∃ m, systemToMachine s = .ok m := by
  have hb : ∀ b ∈ s.bus, ∃ x, busToSymBus b = .ok x := by
    intro b hb
    obtain ⟨i, t, h1, -, -⟩ := h b hb
    have : NeZero p := ⟨(Fact.out : p.Prime).ne_zero⟩
    unfold busToSymBus
    rw [h1, show (const i : GExpr p V).tryToNumber = some i from rfl]
    simp only
    rw [if_pos (lt_of_lt_of_le (ZMod.val_lt i) (h32.trans (by norm_num)))]
    exact ⟨_, rfl⟩
  have key : ∀ l : List (BusInteraction (GExpr p V)), (∀ b ∈ l, ∃ x, busToSymBus b = .ok x) →
      ∃ l', l.mapM busToSymBus = .ok l' := by
    intro l
    induction l with
    | nil => exact fun _ => ⟨[], rfl⟩
    | cons b t ih =>
      intro h
      obtain ⟨x, hx⟩ := h b List.mem_cons_self
      obtain ⟨l', hl'⟩ := ih fun b hb => h b (List.mem_cons_of_mem _ hb)
      rw [List.mapM_cons, hx, hl']
      exact ⟨_, rfl⟩
  obtain ⟨l', hl'⟩ := key _ hb
  unfold systemToMachine
  rw [hl']
  exact ⟨_, rfl⟩

/-- The last state but two of the passes is reached. -/
theorem OptimizePasses.reach_final {c : OptimizerConfig p V}
    {ok : RuleInput p V → ConstraintSystem p V → ConstraintSystem p V → Prop}
    {s s' : ConstraintSystem p V} (r : OptimizePasses c ok s s') :
    OptReach c ok (.start s) (.finalRuled r.st.finish.system) r.news := by
  have h1 : OptReach c ok (.start s) (.looped r.s1 r.solver1) r.loop.news :=
    ((OptReach.refl _).next (.newSolver (n := 0) s) (by rw [r.step0]; rfl)).trans r.loop.reach
  have h3 := (h1.next (.inline (n := 0) _ _ r.ix1 r.passes (Nat.zero_le _))
    (by rw [r.step2]; rfl)).next (.connectFinal (n := 0) _ _ r.ix3 r.ord r.fuel (Nat.zero_le _))
    (by rw [r.step3]; rfl)
  exact h3.step (.rulesFinal (n := 0) _ _ r.lt r.st r.new4 r.step4)

end

end Verif
