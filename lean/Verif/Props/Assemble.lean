import Verif.Proofs.Assemble
import Verif.Props.Compile

/-!
# C88: the specialised VM is the original one with its precompiles
-/

set_option linter.unusedSimpArgs false

namespace Verif

section
variable {A E M : Type}

/-- C88, first part: the executors are assembled if and only if the opcodes of the precompiles are free. Then every other
opcode has the executor it had in the original VM, and the opcode of a precompile has an executor with its block, writing
to its arenas and counting one row per call. -/
theorem C88_executors (orig : ExecInventory E) (precompiles : List (Precompile A)) :
    ((∃ inv, createExecutors orig precompiles = .ok inv) ↔ OpcodesFree orig precompiles) ∧
    ∀ inv, createExecutors orig precompiles = .ok inv →
      (∀ opcode, (∀ p ∈ precompiles, p.opcode.classOffset ≠ opcode) →
        inv.lookup.lookup opcode = orig.lookup.lookup opcode ∧
        ∀ e, orig.getExecutor opcode = some e → inv.getExecutor opcode = some (.original e)) ∧
      ∀ p ∈ precompiles,
        inv.getExecutor p.opcode.classOffset = some (.powdr p.apc p.arenaCpu p.arenaGpu 1) := by
  refine ⟨⟨fun ⟨inv, h⟩ => extendExecution_taken _ _ h, fun h => ⟨_, extendExecution_ok _ _ h.1 h.2⟩⟩, ?_⟩
  intro inv h
  obtain ⟨h1, h2⟩ := extendExecution_taken _ _ h
  rw [createExecutors, extendExecution_ok _ _ h1 h2] at h
  obtain rfl := Except.ok.inj h
  have hlook : ∀ opcode, (∀ p ∈ precompiles, p.opcode.classOffset ≠ opcode) →
      (orig.lookup ++ (precompiles.zipIdx (orig.executors.map (VmExecutor.original (A := A))).length).map fun x =>
        (x.1.opcode.classOffset, x.2)).lookup opcode = orig.lookup.lookup opcode := by
    intro opcode hop
    apply lookup_append_left'
    intro x hx
    obtain ⟨y, hy, rfl⟩ := List.mem_map.1 hx
    exact hop _ (List.fst_mem_of_mem_zipIdx hy)
  refine ⟨?_, ?_⟩
  · intro opcode hop
    refine ⟨hlook opcode hop, ?_⟩
    intro e he
    rw [ExecInventory.getExecutor] at he ⊢
    simp only
    rw [hlook opcode hop]
    cases hl : orig.lookup.lookup opcode with
    | none => rw [hl] at he; cases he
    | some i =>
      rw [hl] at he
      have he : orig.executors[i]? = some e := he
      show (orig.executors.map VmExecutor.original ++ precompiles.map precompileExecutor)[i]? = some (.original e)
      have hi : i < orig.executors.length := (List.getElem?_eq_some_iff.1 he).1
      rw [List.getElem?_append_left (by simpa using hi), List.getElem?_map, he]
      rfl
  · intro p hp
    obtain ⟨k, hk⟩ := List.mem_iff_getElem?.1 hp
    rw [ExecInventory.getExecutor]
    simp only
    rw [lookup_append_right' (h2 p hp), lookup_zipIdx _ _ _ _ h1 hk]
    show (orig.executors.map VmExecutor.original ++
      precompiles.map precompileExecutor)[(orig.executors.map (VmExecutor.original (A := A))).length + k]? = _
    rw [List.getElem?_append_right (by omega), Nat.add_sub_cancel_left, List.getElem?_map, hk]
    rfl

/-- C88, second part: the parts of each precompile belong together. In the assembled VM, the opcode of the precompile
number `k` is that of an executor, the executor has a chip, and the chip has an AIR: all of them are those of the
precompile number `k`, and the chip takes its records from the arena the executor writes to. The AIRs and chips of the
original VM come first, unchanged. -/
theorem C88_wired (machine : A → M) (kind : ProverKind) {orig : ExecInventory E} {airs : List OrigAir}
    {chips : List (Option TableKind)} {executorChips : List ℕ}
    (ho : OriginalInOrder airs chips orig.executors.length executorChips.length) {precompiles : List (Precompile A)}
    (hf : OpcodesFree orig precompiles) {range bus : ℕ} (hr : FirstTable airs .rangeChecker range bus) :
    ∃ execs inv, createExecutors orig precompiles = .ok execs ∧
      createChipComplex kind (createAirs machine airs precompiles) chips executorChips precompiles = .ok inv ∧
      (∀ (k : ℕ) (p : Precompile A), precompiles[k]? = some p →
        Wired machine kind execs inv p (orig.executors.length + k) (airs.length + k)) ∧
      inv.airs.length = airs.length + precompiles.length ∧ inv.chips.length = inv.airs.length ∧
      inv.executorChips.length = execs.executors.length ∧
      (∀ (i : ℕ) (a : OrigAir), airs[i]? = some a → inv.airs[i]? = some (.original a) ∧
        inv.chips[i]? = some (.original (a.table.map (·.1)))) ∧
      ∀ e : ℕ, e < orig.executors.length → inv.executorChips[e]? = executorChips[e]? := by
  obtain ⟨rfl, hx⟩ := ho
  obtain ⟨h3, h4⟩ := find_first (A := A) (M := M) hr
  have hex := extendExecution_ok (E := E) precompiles ⟨orig.executors.map .original, orig.lookup⟩ hf.1 hf.2
  have hshared : ∃ shared, sharedTables (A := A) (M := M) ⟨createAirs machine airs precompiles,
      (airs.map fun a => a.table.map (·.1)).map .original, executorChips⟩ = .ok shared := by
    rw [sharedTables]
    simp only
    rw [h4]
    simp only [peripheryBusIds]
    rw [findAirBus_createAirs, h3]
    exact ⟨_, rfl⟩
  obtain ⟨shared, hsh⟩ := hshared
  have hadd := addPowdrChips_ok machine kind shared precompiles ⟨createAirs machine airs precompiles,
    (airs.map fun a => a.table.map (·.1)).map .original, executorChips⟩ (by
      intro k p hk
      simp only [List.length_map]
      exact createAirs_get machine airs precompiles hk)
  have hall := (createChipComplex_eq kind precompiles hsh).trans hadd
  refine ⟨_, _, hex, hall, ?_, ?_, ?_, ?_, ?_, ?_⟩
  · intro k p hk
    refine ⟨?_, ?_, ?_, ?_, ?_⟩
    · simp only
      rw [lookup_append_right' (hf.2 p (List.mem_of_getElem? hk)), lookup_zipIdx _ _ _ _ hf.1 hk, List.length_map]
    · simp only
      rw [List.getElem?_append_right (by simp), List.length_map, Nat.add_sub_cancel_left, List.getElem?_map, hk]
      rfl
    · simp only
      rw [List.getElem?_append_right (by omega), hx, Nat.add_sub_cancel_left]
      have hlt : k < precompiles.length := (List.getElem?_eq_some_iff.1 hk).1
      rw [List.getElem?_range' hlt]
      simp
    · refine ⟨shared, ?_⟩
      simp only
      rw [List.getElem?_append_right (by simp), List.length_map, List.length_map, Nat.add_sub_cancel_left,
        List.getElem?_map, hk]
      cases kind <;> rfl
    · exact createAirs_get machine airs precompiles hk
  · simp [createAirs]
  · simp [createAirs]
  · simp [hx]
  · intro i a ha
    have hi : i < airs.length := (List.getElem?_eq_some_iff.1 ha).1
    refine ⟨?_, ?_⟩
    · simp only [createAirs]
      rw [List.getElem?_append_left (by simpa using hi), List.getElem?_map, ha]
      rfl
    · simp only
      rw [List.getElem?_append_left (by simpa using hi), List.getElem?_map, List.getElem?_map, ha]
      rfl
  · intro e he
    simp only
    rw [List.getElem?_append_left (by omega)]

/-- C88, third part: the tables the chips of the precompiles use are those of the original VM: the first chip of each
kind, with the bus of its AIR. Without a range checker there is a panic. -/
theorem C88_tables (machine : A → M) (kind : ProverKind) {airs : List OrigAir} {chips : List (Option TableKind)}
    (hc : chips = airs.map fun a => a.table.map (·.1)) (executorChips : List ℕ) (precompiles : List (Precompile A)) :
    (NoTable airs .rangeChecker →
      createChipComplex kind (createAirs machine airs precompiles) chips executorChips precompiles =
        .error .assertion) ∧
    ∀ inv, createChipComplex kind (createAirs machine airs precompiles) chips executorChips precompiles = .ok inv →
      ∀ (c : ℕ) (name : String) (arena : ℕ) (apc : A) (shared : SharedTables),
        inv.chips[c]? = some (.powdr name arena apc shared) →
        FirstTable airs .rangeChecker shared.rangeChecker shared.busIds.rangeChecker ∧
        (match shared.bitwiseLookup, shared.busIds.bitwiseLookup with
          | some i, some bus => FirstTable airs .bitwiseLookup i bus
          | none, none => NoTable airs .bitwiseLookup
          | _, _ => False) ∧
        match shared.tupleRangeChecker, shared.busIds.tupleRangeChecker with
          | some i, some bus => FirstTable airs .tupleRangeChecker i bus
          | none, none => NoTable airs .tupleRangeChecker
          | _, _ => False := by
  subst hc
  refine ⟨?_, ?_⟩
  · intro h
    rw [createChipComplex]
    simp only [bind, Except.bind]
    rw [sharedTables]
    simp only
    rw [(find_none (A := A) (M := M) h).2]
  · intro inv h c name arena apc shared hget
    rcases exists_first .rangeChecker airs with hn | ⟨i, bus, hr⟩
    · rw [createChipComplex] at h
      simp only [bind, Except.bind] at h
      rw [sharedTables] at h
      simp only at h
      rw [(find_none (A := A) (M := M) hn).2] at h
      cases h
    · obtain ⟨h3, h4⟩ := find_first (A := A) (M := M) hr
      have hadd := addPowdrChips_ok machine kind
        ⟨i, findTableChip (A := A) .bitwiseLookup ((airs.map fun a => a.table.map (·.1)).map .original),
          findTableChip (A := A) .tupleRangeChecker ((airs.map fun a => a.table.map (·.1)).map .original),
          ⟨bus, findAirBus .bitwiseLookup (createAirs machine airs precompiles),
            findAirBus .tupleRangeChecker (createAirs machine airs precompiles)⟩⟩
        precompiles ⟨createAirs machine airs precompiles,
          (airs.map fun a => a.table.map (·.1)).map .original, executorChips⟩ (by
          intro k p hk
          simp only [List.length_map]
          exact createAirs_get machine airs precompiles hk)
      have hall := (createChipComplex_eq kind precompiles (by
        rw [sharedTables]
        simp only
        rw [h4]
        simp only [peripheryBusIds, bind, Except.bind, pure, Except.pure]
        rw [findAirBus_createAirs machine airs precompiles .rangeChecker, h3])).trans hadd
      rw [hall] at h
      obtain rfl := Except.ok.inj h
      simp only at hget
      have hsh : shared = ⟨i, findTableChip (A := A) .bitwiseLookup ((airs.map fun a => a.table.map (·.1)).map .original),
          findTableChip (A := A) .tupleRangeChecker ((airs.map fun a => a.table.map (·.1)).map .original),
          ⟨bus, findAirBus .bitwiseLookup (createAirs machine airs precompiles),
            findAirBus .tupleRangeChecker (createAirs machine airs precompiles)⟩⟩ := by
        rcases List.mem_append.1 (List.mem_of_getElem? hget) with hm | hm
        · obtain ⟨x, -, hx⟩ := List.mem_map.1 hm
          cases hx
        · obtain ⟨p, -, hp⟩ := List.mem_map.1 hm
          cases kind
          · simp only [powdrChip, AssembledChip.powdr.injEq] at hp
            exact hp.2.2.2.symm
          · simp only [powdrChip, AssembledChip.powdr.injEq] at hp
            exact hp.2.2.2.symm
      subst hsh
      refine ⟨hr, ?_, ?_⟩
      · simp only
        rw [findAirBus_createAirs]
        rcases exists_first .bitwiseLookup airs with hn | ⟨j, b, hj⟩
        · rw [(find_none (A := A) (M := M) hn).1, (find_none (A := A) (M := M) hn).2]
          exact hn
        · rw [(find_first (A := A) (M := M) hj).1, (find_first (A := A) (M := M) hj).2]
          exact hj
      · simp only
        rw [findAirBus_createAirs]
        rcases exists_first .tupleRangeChecker airs with hn | ⟨j, b, hj⟩
        · rw [(find_none (A := A) (M := M) hn).1, (find_none (A := A) (M := M) hn).2]
          exact hn
        · rw [(find_first (A := A) (M := M) hj).1, (find_first (A := A) (M := M) hj).2]
          exact hj

/-- C88, fourth part: the opcodes and arenas `setup` gives to the precompiles are their own: if the opcodes of the
original VM are below `0x10ff`, all are free, and no two precompiles write to the same arena. -/
theorem C88_own (startPc : A → ℕ) (widths : A → WidthsDiff) (fresh : ℕ) (apcs : List A) :
    (∀ orig : ExecInventory E, (∀ x ∈ orig.lookup, x.1 < 0x10ff) →
      OpcodesFree orig (setupPrecompiles startPc widths fresh apcs)) ∧
    ((setupPrecompiles startPc widths fresh apcs).map (·.arenaCpu)).Nodup ∧
    ((setupPrecompiles startPc widths fresh apcs).map (·.arenaGpu)).Nodup ∧
    ((setupPrecompiles startPc widths fresh apcs).map (·.apc)) = apcs ∧
    ((setupPrecompiles startPc widths fresh apcs).map fun p => (p.opcode.classOffset, p.apc)) =
      (apcs.zipIdx.map fun x => (0x10ff + x.2, x.1)) := by
  have hn : ∀ c : ℕ, (apcs.zipIdx.map fun x => c + x.2).Nodup := by
    intro c
    have : (apcs.zipIdx.map fun x => c + x.2) = (apcs.zipIdx.map Prod.snd).map fun i => c + i := by
      rw [List.map_map]; rfl
    rw [this, List.zipIdx_map_snd]
    exact (List.nodup_range' (step := 1) (by decide)).map fun a b h => by simpa using h
  refine ⟨?_, ?_, ?_, ?_, ?_⟩
  · intro orig ho
    refine ⟨?_, ?_⟩
    · rw [setupPrecompiles, List.map_map]
      exact hn powdrOpcode
    · intro p hp x hx
      rw [setupPrecompiles] at hp
      obtain ⟨y, -, rfl⟩ := List.mem_map.1 hp
      have := ho x hx
      simp only [Precompile.new, powdrOpcode]
      omega
  · rw [setupPrecompiles, List.map_map]
    exact hn fresh
  · rw [setupPrecompiles, List.map_map]
    exact hn fresh
  · rw [setupPrecompiles, List.map_map]
    exact List.zipIdx_map_fst 0 apcs
  · rw [setupPrecompiles, List.map_map]
    rfl

/-- C88, fifth part: the metrics of the AIR of each precompile come with the widths of the same precompile, in the order of
the precompiles, and the others are those of the original VM, unless an AIR of the original VM has a name that starts
with `PowdrAir`. -/
theorem C88_metrics (machine : A → M) (metricsOf : M → AirMetrics) {airs : List OrigAir}
    (hn : ∀ a ∈ airs, ¬ "PowdrAir".toList <+: a.name.toList) (precompiles : List (Precompile A)) :
    airMetrics metricsOf (createAirs machine airs precompiles) precompiles =
      .ok (precompiles.map fun p => (metricsOf (machine p.apc), p.widths), airs.map (·.metrics)) := by
  rw [airMetrics, createAirs, airMetricsLoop_original, airMetricsLoop_powdr]
  · simp
  · intro a ha
    rw [Bool.eq_false_iff, ne_eq, List.isPrefixOf_iff_prefix]
    exact hn a ha

/-- C88, sixth part: the columns of the original VM that are subtracted from the limit are those of its AIRs if no two of
them have the same name; else they are at most those, and can be less. -/
theorem C88_columns (airs : List OrigAir) :
    nonApcColumns airs ≤ (airs.map (·.metrics.totalWidth)).sum ∧
    ((airs.map (·.name)).Nodup → nonApcColumns airs = (airs.map (·.metrics.totalWidth)).sum) := by
  refine ⟨?_, ?_⟩
  · have := byName_le airs []
    simpa [nonApcColumns, airMetricsByName] using this
  · intro hd
    rw [nonApcColumns, airMetricsByName, byName_nodup airs [] (by simp) hd]
    rw [List.nil_append, List.map_map]
    rfl

/-- C88: the totals of the metrics. Each number of a sum of metrics is the sum of that number over the summands, and the
total width is that of all columns, preprocessed or not; the sum of width changes adds up what was there before and what
is there after, apart; and the columns saved are those before minus those after, in both kinds: the calculation stops
with a panic exactly if there are more columns of one kind after than before. -/
theorem C88_sums (l : List AirMetrics) (d : List WidthsDiff) (w : WidthsDiff) :
    ((AirMetrics.sum l).preprocessed = (l.map (·.preprocessed)).sum ∧ (AirMetrics.sum l).main = (l.map (·.main)).sum ∧
      (AirMetrics.sum l).constraints = (l.map (·.constraints)).sum ∧
      (AirMetrics.sum l).busInteractions = (l.map (·.busInteractions)).sum ∧
      (AirMetrics.sum l).totalWidth = (l.map (·.preprocessed)).sum + (l.map (·.main)).sum) ∧
    ((WidthsDiff.sum d).before.preprocessed = (d.map (·.before.preprocessed)).sum ∧
      (WidthsDiff.sum d).before.main = (d.map (·.before.main)).sum ∧
      (WidthsDiff.sum d).after.preprocessed = (d.map (·.after.preprocessed)).sum ∧
      (WidthsDiff.sum d).after.main = (d.map (·.after.main)).sum) ∧
    (∀ saved : ColumnWidths, w.columnsSaved = .ok saved ↔
      saved.preprocessed + w.after.preprocessed = w.before.preprocessed ∧
      saved.main + w.after.main = w.before.main) ∧
    (w.columnsSaved = .error .assertion ↔
      w.before.preprocessed < w.after.preprocessed ∨ w.before.main < w.after.main) := by
  have hs : ∀ (l : List AirMetrics) (a : AirMetrics), l.foldl AirMetrics.add a =
      ⟨a.preprocessed + (l.map (·.preprocessed)).sum, a.main + (l.map (·.main)).sum,
        a.constraints + (l.map (·.constraints)).sum, a.busInteractions + (l.map (·.busInteractions)).sum⟩ := by
    intro l
    induction l with
    | nil => intro a; simp
    | cons x l ih =>
      intro a
      rw [List.foldl_cons, ih]
      simp [AirMetrics.add, AirMetrics.widths, ColumnWidths.add, Nat.add_assoc]
  have hd : ∀ (l : List WidthsDiff) (a : WidthsDiff), l.foldl WidthsDiff.add a =
      ⟨⟨a.before.preprocessed + (l.map (·.before.preprocessed)).sum, a.before.main + (l.map (·.before.main)).sum⟩,
        ⟨a.after.preprocessed + (l.map (·.after.preprocessed)).sum, a.after.main + (l.map (·.after.main)).sum⟩⟩ := by
    intro l
    induction l with
    | nil => intro a; simp
    | cons x l ih =>
      intro a
      rw [List.foldl_cons, ih]
      simp [WidthsDiff.add, ColumnWidths.add, Nat.add_assoc]
  refine ⟨?_, ?_, ?_, ?_⟩
  · unfold AirMetrics.sum AirMetrics.totalWidth ColumnWidths.total AirMetrics.widths
    rw [hs]
    simp
  · unfold WidthsDiff.sum
    rw [hd]
    simp
  · rintro ⟨sp, sm⟩
    unfold WidthsDiff.columnsSaved ColumnWidths.sub
    split
    · simp only [Except.ok.injEq, ColumnWidths.mk.injEq]
      omega
    · simp only [reduceCtorEq, false_iff]
      omega
  · unfold WidthsDiff.columnsSaved ColumnWidths.sub
    split
    · simp only [reduceCtorEq, false_iff]
      omega
    · simp only [true_iff]
      omega

/-- Sample for `C88_sums`: saved columns, and columns that became more. -/
example : (WidthsDiff.mk ⟨2, 30⟩ ⟨0, 12⟩).columnsSaved = .ok ⟨2, 18⟩ ∧
    (WidthsDiff.mk ⟨0, 30⟩ ⟨1, 12⟩).columnsSaved = .error .assertion ∧
    AirMetrics.sum [⟨0, 3, 1, 2⟩, ⟨1, 4, 0, 5⟩] = ⟨1, 7, 1, 7⟩ := by decide

/-- C88, seventh part: so the columns of the assembled VM are within the limit given for the selection by cells, if no two
AIRs of the original VM have the same name, and the width of a precompile in the selection is that of its AIR. -/
theorem C88_limit {I : Type} {isa : IsaInfo I} {built : List (BasicBlock I) → Option A → Prop} {info : ApcInfo I A}
    {airs : List OrigAir} (hd : (airs.map (·.name)).Nodup) {prog : VmProgram I} {cfg : CompileConfig} {pcs : List ℕ}
    {limit : ℕ} {apcs : List A}
    (h : CompileApcs isa built info (nonApcColumns airs) prog cfg (.cell pcs (some limit)) (.ok apcs))
    (machine : A → M) (metricsOf : M → AirMetrics)
    (hw : ∀ a ∈ apcs, (metricsOf (machine a)).totalWidth = info.widthAfter a)
    (hle : (airs.map (·.metrics.totalWidth)).sum ≤ limit) (startPc : A → ℕ) (widths : A → WidthsDiff) (fresh : ℕ) :
    ((createAirs machine airs (setupPrecompiles startPc widths fresh apcs)).map fun a =>
      (a.metrics metricsOf).totalWidth).sum ≤ limit := by
  have h1 := (C88_columns airs).2 hd
  obtain ⟨apcs', h2, h3⟩ := C70_cells h
  obtain rfl := Except.ok.inj h2
  have h4 := h3 limit rfl (by omega)
  rw [createAirs, List.map_append, List.sum_append, List.map_map, List.map_map]
  have h5 : ((setupPrecompiles startPc widths fresh apcs).map
      ((fun a => (AssembledAir.metrics metricsOf a).totalWidth) ∘ fun p => .powdr (machine p.apc))) =
      apcs.map info.widthAfter := by
    have : ((fun a : AssembledAir M => (AssembledAir.metrics metricsOf a).totalWidth) ∘
        fun p : Precompile A => .powdr (machine p.apc)) = (fun a => (metricsOf (machine a)).totalWidth) ∘
        (·.apc) := rfl
    rw [this, ← List.map_map, (C88_own (E := Unit) startPc widths fresh apcs).2.2.2.1]
    exact List.map_congr_left hw
  rw [h5]
  have h6 : (airs.map ((fun a : AssembledAir M => (AssembledAir.metrics metricsOf a).totalWidth) ∘ .original)).sum =
      (airs.map (·.metrics.totalWidth)).sum := rfl
  rw [h6]
  omega

end

/-! ### Examples -/

/-- Two AIRs with the same name: the columns of one of them are forgotten. -/
example : nonApcColumns [⟨"A", none, ⟨0, 3, 0, 0⟩⟩, ⟨"A", none, ⟨1, 4, 0, 0⟩⟩, ⟨"B", none, ⟨0, 2, 0, 0⟩⟩] = 7 := by
  decide +kernel

/-- An original VM with a range checker and one executor. -/
def sampleOrigAirs : List OrigAir :=
  [⟨"RangeChecker", some (.rangeChecker, 3), ⟨0, 2, 1, 1⟩⟩, ⟨"Adder", none, ⟨0, 30, 20, 10⟩⟩]

example : FirstTable sampleOrigAirs .rangeChecker 0 3 := ⟨⟨_, rfl, rfl⟩, by intro j; omega⟩

example : NoTable sampleOrigAirs .bitwiseLookup := by
  intro a ha bus
  simp only [sampleOrigAirs, List.mem_cons, List.not_mem_nil, or_false] at ha
  rcases ha with rfl | rfl <;> simp

example : OriginalInOrder sampleOrigAirs [some .rangeChecker, none] 1 [1].length := ⟨rfl, rfl⟩

example : ∀ a ∈ sampleOrigAirs, ¬ "PowdrAir".toList <+: a.name.toList := by
  intro a ha
  rw [← List.isPrefixOf_iff_prefix]
  revert a
  decide +kernel

example : OpcodesFree (E := Unit) ⟨[()], [(512, 0)]⟩
    (setupPrecompiles (fun a : ℕ => 4 * a) (fun _ => ⟨⟨0, 30⟩, ⟨0, 10⟩⟩) 0 [7, 9]) :=
  (C88_own _ _ _ _).1 _ (by decide)

/-- An AIR of the original VM with the name of the AIR of a precompile: a panic. -/
example : (match airMetrics (M := ℕ) (A := ℕ) (fun _ => ⟨0, 1, 0, 0⟩)
    (createAirs (fun a => a) [⟨"PowdrAirX", none, ⟨0, 3, 0, 0⟩⟩] []) [] with
    | .error _ => true
    | .ok _ => false) = true := by decide +kernel

end Verif
