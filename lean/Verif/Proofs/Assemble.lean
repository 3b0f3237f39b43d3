import Verif.Spec.Assemble

set_option linter.unusedSimpArgs false

namespace Verif

section
variable {A E M : Type}

/-- The executor of a precompile. -/
def precompileExecutor (p : Precompile A) : VmExecutor E A := .powdr p.apc p.arenaCpu p.arenaGpu 1

theorem lookup_eq_none_of_ne {l : List (ℕ × ℕ)} {o : ℕ} (h : ∀ x ∈ l, x.1 ≠ o) : l.lookup o = none := by
  rw [List.lookup_eq_none_iff]
  intro x hx
  simpa using (h x hx).symm

theorem lookup_append_left' {l l' : List (ℕ × ℕ)} {o : ℕ} (h : ∀ x ∈ l', x.1 ≠ o) :
    (l ++ l').lookup o = l.lookup o := by
  rw [List.lookup_append, lookup_eq_none_of_ne h, Option.or_none]

theorem lookup_append_right' {l l' : List (ℕ × ℕ)} {o : ℕ} (h : ∀ x ∈ l, x.1 ≠ o) :
    (l ++ l').lookup o = l'.lookup o := by
  rw [List.lookup_append, lookup_eq_none_of_ne h, Option.none_or]

theorem extendExecution_ok : ∀ (ps : List (Precompile A)) (inv : ExecInventory (VmExecutor E A)),
    (ps.map (·.opcode.classOffset)).Nodup → (∀ p ∈ ps, ∀ x ∈ inv.lookup, x.1 ≠ p.opcode.classOffset) →
    extendExecution ps inv = .ok ⟨inv.executors ++ ps.map precompileExecutor,
      inv.lookup ++ (ps.zipIdx inv.executors.length).map fun x => (x.1.opcode.classOffset, x.2)⟩
  | [], inv, _, _ => by simp [extendExecution]
  | p :: ps, inv, hd, hf => by
    rw [List.map_cons, List.nodup_cons] at hd
    have h1 : inv.lookup.lookup p.opcode.globalOpcode = none :=
      lookup_eq_none_of_ne fun x hx => hf p List.mem_cons_self x hx
    have h2 : inv.addExecutor (.powdr p.apc p.arenaCpu p.arenaGpu 1) p.opcode.globalOpcode =
        .ok ⟨inv.executors ++ [.powdr p.apc p.arenaCpu p.arenaGpu 1],
          inv.lookup ++ [(p.opcode.classOffset, inv.executors.length)]⟩ := by
      rw [ExecInventory.addExecutor, h1]
      rfl
    rw [extendExecution, h2]
    simp only [bind, Except.bind]
    rw [extendExecution_ok ps _ hd.2]
    · simp [precompileExecutor, List.zipIdx_cons]
    · intro q hq x hx
      rcases List.mem_append.1 hx with hx | hx
      · exact hf q (List.mem_cons_of_mem _ hq) x hx
      · rw [List.mem_singleton] at hx
        subst hx
        exact fun e => hd.1 (List.mem_map.2 ⟨q, hq, e.symm⟩)

theorem extendExecution_taken : ∀ (ps : List (Precompile A)) (inv : ExecInventory (VmExecutor E A)) {inv'},
    extendExecution ps inv = .ok inv' →
    (ps.map (·.opcode.classOffset)).Nodup ∧ ∀ p ∈ ps, ∀ x ∈ inv.lookup, x.1 ≠ p.opcode.classOffset
  | [], inv, _, _ => by simp
  | p :: ps, inv, inv', h => by
    rw [extendExecution] at h
    cases h1 : inv.lookup.lookup p.opcode.globalOpcode with
    | some i =>
      rw [ExecInventory.addExecutor, h1] at h
      cases h
    | none =>
      rw [ExecInventory.addExecutor, h1] at h
      simp only [bind, Except.bind] at h
      obtain ⟨h2, h3⟩ := extendExecution_taken ps _ h
      have h4 : ∀ x ∈ inv.lookup, x.1 ≠ p.opcode.classOffset := by
        intro x hx e
        rw [List.lookup_eq_none_iff] at h1
        have := h1 x hx
        simp only [PowdrOpcode.globalOpcode, bne_iff_ne, ne_eq] at this
        exact this e.symm
      refine ⟨?_, ?_⟩
      · rw [List.map_cons, List.nodup_cons]
        refine ⟨?_, h2⟩
        intro hm
        obtain ⟨q, hq, e⟩ := List.mem_map.1 hm
        exact h3 q hq _ (List.mem_append_right _ (List.mem_singleton.2 rfl)) e.symm
      · intro q hq
        rcases List.mem_cons.1 hq with rfl | hq
        · exact h4
        · exact fun x hx => h3 q hq x (List.mem_append_left _ hx)

theorem lookup_zipIdx : ∀ (ps : List (Precompile A)) (n k : ℕ) (p : Precompile A),
    (ps.map (·.opcode.classOffset)).Nodup → ps[k]? = some p →
    ((ps.zipIdx n).map fun x => (x.1.opcode.classOffset, x.2)).lookup p.opcode.classOffset = some (n + k)
  | [], _, _, _, _, h => by simp at h
  | q :: ps, n, 0, p, _, h => by
    simp only [List.getElem?_cons_zero, Option.some.injEq] at h
    subst h
    simp [List.zipIdx_cons]
  | q :: ps, n, k + 1, p, hd, h => by
    rw [List.map_cons, List.nodup_cons] at hd
    rw [List.getElem?_cons_succ] at h
    have hne : p.opcode.classOffset ≠ q.opcode.classOffset := by
      intro e
      exact hd.1 (List.mem_map.2 ⟨p, List.mem_of_getElem? h, e⟩)
    rw [List.zipIdx_cons, List.map_cons, List.lookup_cons]
    rw [show (p.opcode.classOffset == q.opcode.classOffset) = false from by simpa using hne]
    simp only
    rw [lookup_zipIdx ps (n + 1) k p hd.2 h]
    congr 1
    omega

theorem addPowdrChips_ok (machine : A → M) (kind : ProverKind) (shared : SharedTables) :
    ∀ (ps : List (Precompile A)) (inv : ChipInventory A M),
    (∀ (k : ℕ) (p : Precompile A), ps[k]? = some p →
      inv.airs[inv.chips.length + k]? = some (.powdr (machine p.apc))) →
    addPowdrChips kind shared ps inv = .ok ⟨inv.airs, inv.chips ++ ps.map (powdrChip kind shared),
      inv.executorChips ++ List.range' inv.chips.length ps.length⟩
  | [], inv, _ => by simp [addPowdrChips]
  | p :: ps, inv, h => by
    have h1 : inv.nextPowdrAir = .ok (machine p.apc) := by
      have := h 0 p rfl
      rw [Nat.add_zero] at this
      rw [ChipInventory.nextPowdrAir, this]
    rw [addPowdrChips, h1]
    simp only [bind, Except.bind]
    rw [addPowdrChips_ok machine kind shared ps]
    · simp [ChipInventory.addExecutorChip, List.range'_succ]
    · intro k q hq
      have := h (k + 1) q (by rw [List.getElem?_cons_succ]; exact hq)
      simp only [ChipInventory.addExecutorChip, List.length_append, List.length_singleton]
      rw [← this]
      congr 1
      omega

theorem createChipComplex_eq (kind : ProverKind) {airs : List (AssembledAir M)} {chips : List (Option TableKind)}
    {executorChips : List ℕ} (ps : List (Precompile A)) {shared : SharedTables}
    (h : sharedTables (A := A) ⟨airs, chips.map .original, executorChips⟩ = .ok shared) :
    createChipComplex kind airs chips executorChips ps =
      addPowdrChips kind shared ps ⟨airs, chips.map .original, executorChips⟩ := by
  rw [createChipComplex]
  simp only [bind, Except.bind]
  rw [h]

theorem createAirs_get (machine : A → M) (orig : List OrigAir) (ps : List (Precompile A)) {k : ℕ} {p : Precompile A}
    (h : ps[k]? = some p) : (createAirs machine orig ps)[orig.length + k]? = some (.powdr (machine p.apc)) := by
  rw [createAirs, List.getElem?_append_right (by simp)]
  simp [h]

theorem findAirBus_createAirs (machine : A → M) (orig : List OrigAir) (ps : List (Precompile A)) (k : TableKind) :
    findAirBus k (createAirs machine orig ps) = orig.findSome? fun a => AssembledAir.tableBus (M := M) k (.original a) := by
  rw [findAirBus, createAirs, List.findSome?_append, List.findSome?_map, List.findSome?_map]
  have : List.findSome? (AssembledAir.tableBus k ∘ fun p : Precompile A => AssembledAir.powdr (machine p.apc)) ps = none := by
    rw [List.findSome?_eq_none_iff]
    intros
    rfl
  rw [this, Option.or_none]
  rfl

theorem tableBus_eq_some {k : TableKind} {a : OrigAir} {bus : ℕ} :
    AssembledAir.tableBus (M := M) k (.original a) = some bus ↔ a.table = some (k, bus) := by
  obtain ⟨n, t, m⟩ := a
  match t with
  | none => simp [AssembledAir.tableBus]
  | some (k', b) =>
    simp only [AssembledAir.tableBus, Option.some.injEq, Prod.mk.injEq]
    by_cases h : k' = k
    · simp [h]
    · simp [h]

theorem isTable_iff {k : TableKind} {a : OrigAir} :
    AssembledChip.isTable (A := A) k (.original (a.table.map (·.1))) = true ↔ ∃ bus, a.table = some (k, bus) := by
  obtain ⟨n, t, m⟩ := a
  match t with
  | none => simp [AssembledChip.isTable]
  | some (k', b) => simp [AssembledChip.isTable]

theorem find_first {k : TableKind} : ∀ {orig : List OrigAir} {i bus : ℕ}, FirstTable orig k i bus →
    orig.findSome? (fun a => AssembledAir.tableBus (M := M) k (.original a)) = some bus ∧
    findTableChip (A := A) k ((orig.map fun a => a.table.map (·.1)).map .original) = some i
  | [], i, bus, ⟨⟨a, h, _⟩, _⟩ => by simp at h
  | a :: orig, 0, bus, ⟨⟨a', h, ht⟩, _⟩ => by
    simp only [List.getElem?_cons_zero, Option.some.injEq] at h
    subst h
    refine ⟨?_, ?_⟩
    · rw [List.findSome?_cons, tableBus_eq_some.2 ht]
    · rw [findTableChip, List.map_cons, List.map_cons, List.findIdx?_cons, isTable_iff.2 ⟨bus, ht⟩]
      rfl
  | a :: orig, i + 1, bus, ⟨⟨a', h, ht⟩, hf⟩ => by
    rw [List.getElem?_cons_succ] at h
    have h1 : ∀ b, a.table ≠ some (k, b) := fun b => hf 0 a b (by omega) rfl
    have h2 : FirstTable orig k i bus := ⟨⟨a', h, ht⟩, fun j x b hj hx => hf (j + 1) x b (by omega)
      (by rw [List.getElem?_cons_succ]; exact hx)⟩
    obtain ⟨h3, h4⟩ := find_first h2
    refine ⟨?_, ?_⟩
    · rw [List.findSome?_cons]
      have : AssembledAir.tableBus (M := M) k (.original a) = none := by
        cases hb : AssembledAir.tableBus (M := M) k (.original a) with
        | none => rfl
        | some b => exact absurd (tableBus_eq_some.1 hb) (h1 b)
      rw [this]
      exact h3
    · rw [findTableChip, List.map_cons, List.map_cons, List.findIdx?_cons]
      have : AssembledChip.isTable (A := A) k (.original (a.table.map (·.1))) = false := by
        cases hb : AssembledChip.isTable (A := A) k (.original (a.table.map (·.1))) with
        | false => rfl
        | true =>
          obtain ⟨b, hb⟩ := isTable_iff.1 hb
          exact absurd hb (h1 b)
      rw [this]
      rw [findTableChip] at h4
      rw [h4]
      rfl

theorem find_none {k : TableKind} {orig : List OrigAir} (h : NoTable orig k) :
    orig.findSome? (fun a => AssembledAir.tableBus (M := M) k (.original a)) = none ∧
    findTableChip (A := A) k ((orig.map fun a => a.table.map (·.1)).map .original) = none := by
  refine ⟨?_, ?_⟩
  · rw [List.findSome?_eq_none_iff]
    intro a ha
    cases hb : AssembledAir.tableBus (M := M) k (.original a) with
    | none => rfl
    | some b => exact absurd (tableBus_eq_some.1 hb) (h a ha b)
  · rw [findTableChip, List.findIdx?_eq_none_iff]
    intro x hx
    obtain ⟨y, hy, rfl⟩ := List.mem_map.1 hx
    obtain ⟨a, ha, rfl⟩ := List.mem_map.1 hy
    cases hb : AssembledChip.isTable (A := A) k (.original (a.table.map (·.1))) with
    | false => rfl
    | true =>
      obtain ⟨b, hb⟩ := isTable_iff.1 hb
      exact absurd hb (h a ha b)

theorem exists_first (k : TableKind) : ∀ orig : List OrigAir, NoTable orig k ∨ ∃ i bus, FirstTable orig k i bus
  | [] => .inl (by intro a ha; simp at ha)
  | a :: orig => by
    by_cases h : ∃ bus, a.table = some (k, bus)
    · obtain ⟨bus, h⟩ := h
      exact .inr ⟨0, bus, ⟨a, rfl, h⟩, by intro j; omega⟩
    · rcases exists_first k orig with h1 | ⟨i, bus, ⟨a', h1, h2⟩, h3⟩
      · left
        intro x hx bus e
        rcases List.mem_cons.1 hx with rfl | hx
        · exact h ⟨bus, e⟩
        · exact h1 x hx bus e
      · right
        refine ⟨i + 1, bus, ⟨a', by rw [List.getElem?_cons_succ]; exact h1, h2⟩, ?_⟩
        intro j x b hj hx e
        cases j with
        | zero =>
          simp only [List.getElem?_cons_zero, Option.some.injEq] at hx
          subst hx
          exact h ⟨b, e⟩
        | succ j =>
          rw [List.getElem?_cons_succ] at hx
          exact h3 j x b (by omega) hx e

/-! ### Metrics -/

theorem airMetricsLoop_powdr (machine : A → M) (metricsOf : M → AirMetrics) : ∀ (ps : List (Precompile A)) (acc) (other),
    airMetricsLoop metricsOf (ps.map fun p => .powdr (machine p.apc)) (ps.map (·.widths)) acc other =
      .ok (acc ++ ps.map fun p => (metricsOf (machine p.apc), p.widths), other)
  | [], acc, other => by simp [airMetricsLoop]
  | p :: ps, acc, other => by
    rw [List.map_cons, airMetricsLoop.eq_def]
    simp only
    rw [if_pos (show "PowdrAir".toList.isPrefixOf (AssembledAir.powdr (machine p.apc)).name.toList = true from by
      rw [AssembledAir.name]; decide)]
    rw [List.map_cons]
    simp only
    rw [airMetricsLoop_powdr machine metricsOf ps]
    simp [AssembledAir.metrics]

theorem airMetricsLoop_original (metricsOf : M → AirMetrics) (rest : List (AssembledAir M)) (stats) :
    ∀ (orig : List OrigAir) (acc) (other), (∀ a ∈ orig, "PowdrAir".toList.isPrefixOf a.name.toList = false) →
    airMetricsLoop metricsOf (orig.map .original ++ rest) stats acc other =
      airMetricsLoop metricsOf rest stats acc (other ++ orig.map (·.metrics))
  | [], acc, other, _ => by simp
  | a :: orig, acc, other, h => by
    rw [List.map_cons, List.cons_append, airMetricsLoop.eq_def]
    simp only
    rw [if_neg (by rw [AssembledAir.name, h a List.mem_cons_self]; decide)]
    rw [airMetricsLoop_original metricsOf rest stats orig _ _ fun x hx => h x (List.mem_cons_of_mem _ hx)]
    simp [AssembledAir.metrics]

/-! ### Columns -/

theorem byName_nodup : ∀ (airs : List OrigAir) (m : List (String × AirMetrics)),
    (∀ a ∈ airs, ∀ x ∈ m, x.1 ≠ a.name) → (airs.map (·.name)).Nodup →
    airs.foldl (fun m a => (m.filter fun x => x.1 ≠ a.name) ++ [(a.name, a.metrics)]) m =
      m ++ airs.map fun a => (a.name, a.metrics)
  | [], m, _, _ => by simp
  | a :: airs, m, h, hd => by
    rw [List.map_cons, List.nodup_cons] at hd
    rw [List.foldl_cons]
    have hfil : (m.filter fun x => x.1 ≠ a.name) = m := by
      rw [List.filter_eq_self]
      intro x hx
      simpa using h a List.mem_cons_self x hx
    rw [hfil, byName_nodup airs]
    · simp
    · intro b hb x hx
      rcases List.mem_append.1 hx with hx | hx
      · exact h b (List.mem_cons_of_mem _ hb) x hx
      · rw [List.mem_singleton] at hx
        subst hx
        exact fun e => hd.1 (List.mem_map.2 ⟨b, hb, e.symm⟩)
    · exact hd.2

theorem byName_le : ∀ (airs : List OrigAir) (m : List (String × AirMetrics)),
    ((airs.foldl (fun m a => (m.filter fun x => x.1 ≠ a.name) ++ [(a.name, a.metrics)]) m).map
      (·.2.totalWidth)).sum ≤ (m.map (·.2.totalWidth)).sum + (airs.map (·.metrics.totalWidth)).sum
  | [], m => by simp
  | a :: airs, m => by
    rw [List.foldl_cons]
    refine (byName_le airs _).trans ?_
    have : ((m.filter fun x => x.1 ≠ a.name).map (·.2.totalWidth)).sum ≤ (m.map (·.2.totalWidth)).sum :=
      List.Sublist.sum_le_sum (List.Sublist.map _ List.filter_sublist) (by simp)
    simp only [List.map_append, List.sum_append, List.map_cons, List.map_nil, List.sum_cons, List.sum_nil]
    omega

end

end Verif
