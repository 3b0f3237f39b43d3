import Verif.Proofs.GpuTrace

/-!
# Proofs about the run of the kernels: the device has the rows of the CPU
-/

set_option linter.unusedSectionVars false

namespace Verif

section
variable {A S β γ : Type}

theorem zip_map_zip (l : List (A × S)) (offs : List ℕ) (hl : offs.length = l.length) (f : A × ℕ → β) (g : A × S → γ) :
    (((l.map Prod.fst).zip offs).map f).zip (l.map g) = (l.zip offs).map fun x => (f (x.1.1, x.2), g x.1) := by
  induction l generalizing offs with
  | nil => simp
  | cons x t ih =>
    cases offs with
    | nil => simp at hl
    | cons o offs =>
      simp only [List.map_cons, List.zip_cons_cons]
      rw [ih offs (by simpa using hl)]

theorem kept_flatten (airs : List A) (subs : List (List (ℕ × ℕ))) (h : airs.length = subs.length) :
    (keptInstrs airs subs).flatMap Prod.snd = subs.flatten := by
  unfold keptInstrs
  induction airs generalizing subs with
  | nil =>
    cases subs with
    | nil => rfl
    | cons => simp at h
  | cons a t ih =>
    cases subs with
    | nil => simp at h
    | cons s l =>
      rw [List.zip_cons_cons, List.filter_cons]
      have := ih l (by simpa using h)
      split
      · rw [List.flatMap_cons, this]
        rfl
      · rename_i hs
        have hs' : s = [] := by simpa using hs
        rw [this, hs']
        rfl

end

section
variable {A R F : Type} [LinearOrder A] [Field F] [DecidableEq F]

/-- The instructions with the numbers of earlier ones on the same AIR. -/
def numbered (airs : List A) (subs : List (List (ℕ × ℕ))) : List ((A × List (ℕ × ℕ)) × ℕ) :=
  (keptInstrs airs subs).zip (tableOffsets (keptAirs airs subs) fun _ => 0)

theorem numbered_fst (airs : List A) (subs : List (List (ℕ × ℕ))) :
    (numbered airs subs).map Prod.fst = keptInstrs airs subs := by
  rw [numbered, List.map_fst_zip]
  rw [tableOffsets_length, keptAirs, List.length_map]
  exact le_refl _

/-- The rows of the CPU. -/
theorem cpu_rows {gen : A → List R → DummyTrace F} {gen' : A → List R → DeviceMatrix F} (hg : SameChips gen gen')
    {chips : List A} {o : OriginalArenas A R} {airs : List A} {subs : List (List (ℕ × ℕ))} {m : SymMachine F ℕ}
    {values : List F} {messages : List (List (ℕ × F × List F))} (hc : 0 < o.numberOfCalls)
    (h : generateWitness gen chips (some o) airs subs m = .ok (values, messages)) :
    airs.length = subs.length ∧ (∀ id, IsCopied subs id → id ∈ m.mainColumns) ∧
    ∃ D : A → DeviceMatrix F,
      (∀ a ∈ keptAirs airs subs, (gpuDummyTraces gen' chips.reverse o).find? (fun y => y.1 = a) = some (a, D a)) ∧
      (∀ a, (D a).buffer.size = (D a).width * (D a).height) ∧
      ∃ rows : List (List F), values = rows.flatten ∧ rows.length = nextPowerOfTwoOrZero o.numberOfCalls ∧
        messages.length = o.numberOfCalls ∧
        (∀ i < o.numberOfCalls, ∃ row ms, rows[i]? = some row ∧ messages[i]? = some ms ∧
          m.derived.foldlM (computeColumn m.mainColumns) (setAll (List.replicate m.mainColumns.length 0)
            (copiedCells D m.mainColumns i (numbered airs subs) fun a => (keptAirs airs subs).count a)) = .ok row ∧
          m.bus.mapM (evalInteraction m.mainColumns row) = .ok ms ∧
          ∀ x ∈ numbered airs subs, ∀ y ∈ x.1.2, y.1 < (D x.1.1).width ∧
            i * (keptAirs airs subs).count x.1.1 + x.2 < (D x.1.1).height) ∧
        ∀ i, o.numberOfCalls ≤ i → i < nextPowerOfTwoOrZero o.numberOfCalls →
          rows[i]? = some (List.replicate m.mainColumns.length 0) := by
  unfold generateWitness at h
  simp only [bind, Except.bind] at h
  split at h
  · cases h
  · rename_i d hd
    obtain ⟨h1, h2, h3⟩ := generateTrace_inv hd hc
    have hrs : ∀ a, ∃ rs, a ∈ keptAirs airs subs →
        (dummyTraces gen chips.reverse o).find? (fun y => y.1 = a) = some (a, gen a rs) ∧ (0 < (gen' a rs).height →
        (gpuDummyTraces gen' chips.reverse o).find? (fun y => y.1 = a) = some (a, gen' a rs)) := by
      intro a
      by_cases ha : a ∈ keptAirs airs subs
      · obtain ⟨t, ht⟩ := h3 a ha
        obtain ⟨rs, e1, e2⟩ := gpuDummyTraces_find (gen' := gen') _ _ ht
        exact ⟨rs, fun _ => ⟨e1 ▸ ht, e2⟩⟩
      · exact ⟨[], fun hc => absurd hc ha⟩
    choose rs hrs using hrs
    have hd' := generateTrace_eq (traces := dummyTraces gen chips.reverse o) (calls := o.numberOfCalls)
      (fun a => gen a (rs a)) h1 h2 fun a ha => (hrs a ha).1
    rw [hd] at hd'
    cases hd'
    obtain ⟨rows, e1, e2, e3, e4, e5⟩ := fillWitness_inv h (by simp [traceDataOf])
    have key : ∀ i < o.numberOfCalls, ∃ row ms, rows[i]? = some row ∧ messages[i]? = some ms ∧
          m.derived.foldlM (computeColumn m.mainColumns) (setAll (List.replicate m.mainColumns.length 0)
            (copiedCells (fun a => gen' a (rs a)) m.mainColumns i (numbered airs subs)
              fun a => (keptAirs airs subs).count a)) = .ok row ∧
          m.bus.mapM (evalInteraction m.mainColumns row) = .ok ms ∧
          ∀ x ∈ numbered airs subs, ∀ y ∈ x.1.2, y.1 < (gen' x.1.1 (rs x.1.1)).width ∧
            i * (keptAirs airs subs).count x.1.1 + x.2 < (gen' x.1.1 (rs x.1.1)).height := by
      intro i hi
      obtain ⟨refs, row, ms, f1, f2, f3, f4⟩ := e4 i hi
      obtain ⟨row1, g1, g2, g3⟩ := witnessRow_inv f2
      have hrefs : refs = ((keptAirs airs subs).zip (tableOffsets (keptAirs airs subs) fun _ => 0)).map fun x =>
          ⟨(gen x.1 (rs x.1)).values, (i * (keptAirs airs subs).count x.1 + x.2) * (gen x.1 (rs x.1)).width,
            (gen x.1 (rs x.1)).width⟩ := by
        simp only [traceDataOf] at f1
        rw [List.getElem?_map, List.getElem?_range hi] at f1
        exact (Option.some.inj f1).symm
      simp only [traceDataOf] at g1 g2 g3
      rw [hrefs] at g1
      have hz := zip_map_zip (keptInstrs airs subs) (tableOffsets (keptAirs airs subs) fun _ => 0)
        (by rw [tableOffsets_length, keptAirs, List.length_map]; rfl)
        (fun x => (⟨(gen x.1 (rs x.1)).values, (i * (keptAirs airs subs).count x.1 + x.2) * (gen x.1 (rs x.1)).width,
            (gen x.1 (rs x.1)).width⟩ : RowReference F))
        (fun x => x.2.map fun y => (y.1, m.mainColumns.idxOf y.2))
      have hk : (keptInstrs airs subs).map Prod.fst = keptAirs airs subs := rfl
      rw [hk] at hz
      rw [hz] at g1
      obtain ⟨k1, k2⟩ := copyCells_setAll (D := fun a => gen' a (rs a)) (tr := fun a => gen a (rs a))
        (columns := m.mainColumns) (i := i) (fun a => hg a (rs a)) (count := fun a => (keptAirs airs subs).count a) _ g1
      refine ⟨row, ms, f3, f4, ?_, g3, fun x hx y hy => ⟨(k2 x hx y hy).1, (k2 x hx y hy).2.1⟩⟩
      rw [k1] at g2
      exact g2
    refine ⟨h1, fun id hid => mem_mainColumns.2 (h2 id hid), fun a => gen' a (rs a), ?_,
      fun a => (hg a (rs a)).2.2.1, rows, e1, e2, e3, key, e5⟩
    intro a ha
    refine (hrs a ha).2 ?_
    obtain ⟨_, _, -, -, -, -, hb⟩ := key 0 hc
    obtain ⟨x, hx, hxa⟩ := List.mem_map.1 ha
    have hx' : x ∈ (numbered airs subs).map Prod.fst := by
      rw [numbered_fst]
      exact hx
    obtain ⟨z, hz, hzx⟩ := List.mem_map.1 hx'
    have hne : x.2 ≠ [] := by
      have := (List.mem_filter.1 hx).2
      intro h0
      rw [h0] at this
      cases this
    obtain ⟨y, hy⟩ := List.exists_mem_of_ne_nil _ hne
    have := (hb z hz y (by rw [hzx]; exact hy)).2
    rw [hzx, hxa] at this
    omega

end

section
variable {A R : Type} [LinearOrder A] {p : ℕ}

/-- What is sent to the device. -/
theorem gpuPlan_inv {gen' : A → List R → DeviceMatrix (ZMod p)} {chips order : List A} {o : OriginalArenas A R}
    {airs : List A} {subs : List (List (ℕ × ℕ))} {m : SymMachine (ZMod p) ℕ} {g : GpuPlan (ZMod p)}
    (h : gpuPlan gen' chips order o airs subs m = .ok g) :
    g.width = m.mainColumns.length ∧ g.height = nextPowerOfTwoOrZero o.numberOfCalls ∧ g.calls = o.numberOfCalls ∧
    (∃ l, order.zipIdx.mapM (gpuAirSubsts m.mainColumns (keptInstrs airs subs)) = .ok l ∧ g.substs = l.flatten) ∧
    order.mapM (gpuOriginalAir (gpuDummyTraces gen' chips.reverse o) (keptInstrs airs subs)) = .ok g.airs ∧
    compileDerived m.mainColumns g.height m.derived ([], []) = .ok (g.specs, g.derivedCode) ∧
    compileBus m.mainColumns g.height m.bus ([], [], []) = .ok (g.interactions, g.spans, g.busCode) := by
  unfold gpuPlan at h
  simp only at h
  split at h
  · cases h
  · simp only [bind, Except.bind] at h
    split at h
    · cases h
    · rename_i l hl
      split at h
      · cases h
      · rename_i oa hoa
        split at h
        · cases h
        · rename_i sp hsp
          split at h
          · cases h
          · rename_i bu hbu
            cases h
            exact ⟨rfl, rfl, rfl, ⟨l, hl, rfl⟩, hoa, hsp, hbu⟩

theorem numbered_group {airs : List A} {subs : List (List (ℕ × ℕ))} {order : List A}
    (ho : order.Perm (keptAirs airs subs).dedup) {β : Type} (G : A → List (ℕ × ℕ) → ℕ → List β) :
    ((numbered airs subs).flatMap fun x => G x.1.1 x.1.2 x.2).Perm
      (order.flatMap fun a => (gpuGroup (keptInstrs airs subs) a).zipIdx.flatMap fun y => G a y.1 y.2) := by
  refine group_perm (ho.nodup_iff.2 (List.nodup_dedup _)) G (keptInstrs airs subs) (fun x hx => ?_) fun _ => 0
  rw [ho.mem_iff, List.mem_dedup]
  exact List.mem_map.2 ⟨x, hx, rfl⟩

variable [Fact p.Prime]

theorem gpu_airs {D : A → DeviceMatrix (ZMod p)} {traces : List (A × DeviceMatrix (ZMod p))}
    {kept : List (A × List (ℕ × ℕ))} {order : List A}
    (h : ∀ a ∈ order, traces.find? (fun y => y.1 = a) = some (a, D a)) :
    order.mapM (gpuOriginalAir traces kept) =
      .ok (order.map fun a => ⟨(D a).height, (D a).buffer, (gpuGroup kept a).length⟩) := by
  refine mapM_of_forall _ fun a ha => ?_
  rw [gpuOriginalAir, h a ha]

/-- The copies for a row. -/
theorem gpu_copies {D : A → DeviceMatrix (ZMod p)} (hD : ∀ a, (D a).buffer.size = (D a).width * (D a).height)
    {airs : List A} {subs : List (List (ℕ × ℕ))} {columns : List ℕ}
    (h1 : airs.length = subs.length) (hcol : ∀ id, IsCopied subs id → id ∈ columns) (honce : CopiedOnce subs)
    {order : List A} (ho : order.Perm (keptAirs airs subs).dedup) {calls r : ℕ}
    (hb : r < calls → ∀ x ∈ numbered airs subs, ∀ y ∈ x.1.2, y.1 < (D x.1.1).width ∧
      r * (keptAirs airs subs).count x.1.1 + x.2 < (D x.1.1).height) :
    (allSubsts columns (keptInstrs airs subs) order).foldlM (tracegenRow calls (order.map fun a =>
        ⟨(D a).height, (D a).buffer, (gpuGroup (keptInstrs airs subs) a).length⟩) r)
        (List.replicate columns.length 0) =
      some (if r < calls then setAll (List.replicate columns.length 0)
        (copiedCells D columns r (numbered airs subs) fun a => (keptAirs airs subs).count a)
        else List.replicate columns.length 0) := by
  have hcount : ∀ a, (gpuGroup (keptInstrs airs subs) a).length = (keptAirs airs subs).count a := fun a =>
    gpuGroup_length _ a
  -- what the substitutions are
  have hmem : ∀ s ∈ allSubsts columns (keptInstrs airs subs) order, ∃ a z y, (order[s.airIndex]? = some a) ∧
      ((a, z), s.row) ∈ numbered airs subs ∧ y ∈ z ∧ s.col = y.1 ∧ s.apcCol = columns.idxOf y.2 := by
    intro s hs
    obtain ⟨⟨a, ai⟩, ha, hs⟩ := List.mem_flatMap.1 hs
    obtain ⟨⟨z, row⟩, hz, hs⟩ := List.mem_flatMap.1 hs
    obtain ⟨y, hy, rfl⟩ := List.mem_map.1 hs
    refine ⟨a, z, y, ?_, ?_, hy, rfl, rfl⟩
    · have := List.mem_zipIdx_iff_getElem?.1 ha
      exact this
    · have hp := numbered_group ho fun a z n => [((a, z), n)]
      have hm : ((a, z), row) ∈ order.flatMap fun a =>
          (gpuGroup (keptInstrs airs subs) a).zipIdx.flatMap fun y => [((a, y.1), y.2)] := by
        refine List.mem_flatMap.2 ⟨a, List.fst_mem_of_mem_zipIdx ha, ?_⟩
        exact List.mem_flatMap.2 ⟨(z, row), hz, by simp⟩
      have hm' := hp.mem_iff.2 hm
      simpa using hm'
  have hcopied : ∀ a z n, ((a, z), n) ∈ numbered airs subs → ∀ y ∈ z, IsCopied subs y.2 := by
    intro a z n hx y hy
    have hx' : (a, z) ∈ keptInstrs airs subs := by
      rw [← numbered_fst]
      exact List.mem_map.2 ⟨_, hx, rfl⟩
    exact ⟨z, (List.of_mem_zip (List.mem_filter.1 hx').1).2, y.1, hy⟩
  set oa := order.map fun a => (⟨(D a).height, (D a).buffer, (gpuGroup (keptInstrs airs subs) a).length⟩ :
    OriginalAir (ZMod p)) with hoa
  let value : GpuSubst → ZMod p := fun s => match oa[s.airIndex]? with
    | some air => air.buffer.cell (s.col * air.height + (s.row + r * air.rowBlockSize))
    | none => 0
  rw [tracegenRow_fold (allSubsts columns (keptInstrs airs subs) order) value fun s hs => ?_]
  · congr 1
    split
    · rename_i hr
      have hnd : ((copiedCells D columns r (numbered airs subs) fun a => (keptAirs airs subs).count a).map
          Prod.fst).Nodup := by
        have e : (copiedCells D columns r (numbered airs subs) fun a => (keptAirs airs subs).count a).map Prod.fst =
            (subs.flatten.map Prod.snd).map columns.idxOf := by
          rw [← kept_flatten airs subs h1, ← numbered_fst]
          rw [copiedCells, List.map_flatMap, List.flatMap_map, List.map_flatMap, List.map_flatMap]
          apply List.flatMap_congr
          intro x _
          rw [List.map_map, List.map_map]
          rfl
        rw [e]
        refine List.Nodup.map_on ?_ honce
        intro x hx y hy hxy
        obtain ⟨⟨c, x'⟩, hx', rfl⟩ := List.mem_map.1 hx
        obtain ⟨⟨c', y'⟩, hy', rfl⟩ := List.mem_map.1 hy
        obtain ⟨s, hs, hxs⟩ := List.mem_flatten.1 hx'
        exact (List.idxOf_inj (hcol _ ⟨s, hs, c, hxs⟩)).1 hxy
      have hperm := numbered_group ho fun a z n => z.map fun y =>
          (columns.idxOf y.2, (D a).buffer.cell (y.1 * (D a).height + (r * (keptAirs airs subs).count a + n)))
      refine (setAll_perm (hperm.trans (List.Perm.of_eq ?_)) hnd _).symm
      · rw [allSubsts, List.map_flatMap]
        have e2 : order.flatMap (fun a => (gpuGroup (keptInstrs airs subs) a).zipIdx.flatMap fun y => y.1.map fun y_1 =>
            (columns.idxOf y_1.2, (D a).buffer.cell (y_1.1 * (D a).height + (r * (keptAirs airs subs).count a + y.2)))) =
            order.zipIdx.flatMap (fun x => (gpuGroup (keptInstrs airs subs) x.1).zipIdx.flatMap fun y => y.1.map fun y_1 =>
            (columns.idxOf y_1.2,
              (D x.1).buffer.cell (y_1.1 * (D x.1).height + (r * (keptAirs airs subs).count x.1 + y.2)))) := by
          conv_lhs => rw [← List.zipIdx_map_fst 0 order]
          rw [List.flatMap_map]
        rw [e2]
        apply List.flatMap_congr
        intro x hx
        rw [List.map_flatMap]
        apply List.flatMap_congr
        intro y _
        rw [List.map_map]
        apply List.map_congr_left
        intro z _
        simp only [Function.comp, value]
        have : oa[x.2]? = some ⟨(D x.1).height, (D x.1).buffer, (gpuGroup (keptInstrs airs subs) x.1).length⟩ := by
          rw [hoa, List.getElem?_map, List.mem_zipIdx_iff_getElem?.1 hx]
          rfl
        rw [this]
        simp only
        rw [hcount, Nat.add_comm y.2]
    · rename_i hr
      apply setAll_zero
      intro x hx
      obtain ⟨s, -, rfl⟩ := List.mem_map.1 hx
      rfl
  · obtain ⟨a, z, y, e1, e2, e3, e4, e5⟩ := hmem s hs
    refine ⟨?_, fun hr => ?_⟩
    · rw [List.length_replicate, e5]
      exact List.idxOf_lt_length_iff.2 (hcol _ (hcopied a z _ e2 y e3))
    · obtain ⟨k1, k2⟩ := hb hr _ e2 y e3
      have hair : oa[s.airIndex]? = some ⟨(D a).height, (D a).buffer, (gpuGroup (keptInstrs airs subs) a).length⟩ := by
        rw [hoa, List.getElem?_map, e1]
        rfl
      refine ⟨_, hair, ?_⟩
      simp only [value, hair]
      rw [DeviceBuffer.read, if_pos]
      rw [hD, e4, hcount]
      exact cell_lt (by simp only at k2; omega) k1

/-- The device has the rows of the CPU. -/
theorem gpu_run {gen : A → List R → DummyTrace (ZMod p)} {gen' : A → List R → DeviceMatrix (ZMod p)}
    (hg : SameChips gen gen') {chips order : List A} {o : OriginalArenas A R} {airs : List A}
    {subs : List (List (ℕ × ℕ))} {m : SymMachine (ZMod p) ℕ} {values : List (ZMod p)}
    {messages : List (List (ℕ × ZMod p × List (ZMod p)))} (hc : 0 < o.numberOfCalls)
    (h : generateWitness gen chips (some o) airs subs m = .ok (values, messages))
    (honce : CopiedOnce subs) (ho : order.Perm (keptAirs airs subs).dedup) (hfit : FitsStack m)
    {g : GpuPlan (ZMod p)} (hp : gpuPlan gen' chips order o airs subs m = .ok g) (hs : g.width * g.height ≤ 2 ^ 32)
    (hcode : g.derivedCode.length < 2 ^ 32) {steps1 : List (ℕ × GpuSubst)} {steps2 : List (ℕ × DerivedExprSpec)}
    (hs1 : Interleaving (rowThreads (launchThreads g.height) g.height g.substs) steps1)
    (hs2 : Interleaving (rowThreads (launchThreads g.height) g.height g.specs) steps2) :
    ∃ b, g.run steps1 steps2 = some b ∧ b.size = g.width * g.height ∧
      ∃ rows : List (List (ZMod p)), values = rows.flatten ∧ rows.length = g.height ∧
        messages.length = o.numberOfCalls ∧
        (∀ r < g.height, rows[r]? = some (rowOf g.height g.width b r)) ∧
        ∀ i < o.numberOfCalls, ∃ ms, messages[i]? = some ms ∧
          m.bus.mapM (evalInteraction m.mainColumns (rowOf g.height g.width b i)) = .ok ms := by
  obtain ⟨h1, hcol, D, hD1, hD2, rows, e1, e2, e3, e4, e5⟩ := cpu_rows hg hc h
  obtain ⟨p1, p2, p3, ⟨l, p4, p5⟩, p6, p7, p8⟩ := gpuPlan_inv hp
  have hsub : g.substs = allSubsts m.mainColumns (keptInstrs airs subs) order := by
    obtain ⟨l', q1, q2⟩ := gpuAirSubsts_ok (columns := m.mainColumns) (kept := keptInstrs airs subs)
      (fun x hx s hs => hcol _ ⟨x.2, (List.of_mem_zip (List.mem_filter.1 hx).1).2, s.1, hs⟩) order
    rw [p4] at q1
    cases q1
    rw [p5, q2]
  have hairs : g.airs = order.map fun a => ⟨(D a).height, (D a).buffer, (gpuGroup (keptInstrs airs subs) a).length⟩ := by
    rw [gpu_airs (D := D) fun a ha => hD1 a (List.mem_dedup.1 (ho.mem_iff.1 ha))] at p6
    exact (Except.ok.inj p6).symm
  have hge := clog_ge o.numberOfCalls
  obtain ⟨-, new, hnew, hspecs⟩ := compileDerived_ok m.derived p7 hcode
  rw [List.nil_append] at hnew
  rw [← hnew] at hspecs
  have hspecs' : List.Forall₂ (fun d s => d.1 ∈ m.mainColumns ∧ (∀ r ∈ SymMethod.refs d.2, r ∈ m.mainColumns) ∧
      s.colBase = m.mainColumns.idxOf d.1 * g.height ∧
      spanCode g.derivedCode s.span = methodCode m.mainColumns g.height d.2) m.derived g.specs := by
    refine hspecs.imp fun d s hds => ⟨hds.1, hds.2.1, hds.2.2.1, ?_⟩
    have := hds.2.2.2 []
    rw [List.append_nil] at this
    exact this
  have hzero : ∀ r, rowOf g.height g.width (⟨g.width * g.height, fun _ => 0⟩ : DeviceBuffer (ZMod p)) r =
      List.replicate m.mainColumns.length 0 := by
    intro r
    rw [rowOf, p1]
    simp
  obtain ⟨b1, r1, s1, t1⟩ := kernel_interleaving (W := g.width) (launchThreads_pos g.height)
    (step := tracegenStep g.height g.calls g.airs) (rowStep := tracegenRow g.calls g.airs)
    (fun b hb r hr s row' hrow => tracegen_local b hb r hr s row' hrow) hs1
    (b := ⟨g.width * g.height, fun _ => 0⟩) rfl
    (R := fun r => if r < g.calls then setAll (List.replicate m.mainColumns.length 0)
        (copiedCells D m.mainColumns r (numbered airs subs) fun a => (keptAirs airs subs).count a)
        else List.replicate m.mainColumns.length 0) (by
      intro r hr
      rw [hzero, hsub, hairs]
      exact gpu_copies hD2 h1 hcol honce ho fun hrc => by
        obtain ⟨_, _, -, -, -, -, hb⟩ := e4 r (p3 ▸ hrc)
        exact hb)
  have hrow : ∀ r < g.height, ∃ row, rows[r]? = some row ∧ row.length = m.mainColumns.length ∧
      g.specs.foldlM (derivedRow g.height g.calls g.derivedCode r) (rowOf g.height g.width b1 r) = some row ∧
      (r < g.calls → ∃ ms, messages[r]? = some ms ∧ m.bus.mapM (evalInteraction m.mainColumns row) = .ok ms) := by
    intro r hr
    rw [t1 r hr]
    by_cases hrc : r < g.calls
    · obtain ⟨row, ms, f1, f2, f3, f4, -⟩ := e4 r (p3 ▸ hrc)
      rw [if_pos hrc]
      obtain ⟨k1, k2⟩ := (derivedRow_fold (calls := g.calls) hr (by rw [← p1]; exact hs) hspecs' hfit.1
        (row := setAll (List.replicate m.mainColumns.length 0)
          (copiedCells D m.mainColumns r (numbered airs subs) fun a => (keptAirs airs subs).count a))
        (by rw [setAll_length, List.length_replicate])).1 hrc f3
      exact ⟨row, f1, k2, k1, fun _ => ⟨ms, f2, f4⟩⟩
    · rw [if_neg hrc]
      refine ⟨_, e5 r (by omega) (by omega), by rw [List.length_replicate], ?_, fun hc => absurd hc hrc⟩
      exact (derivedRow_fold (calls := g.calls) (row' := []) hr (by rw [← p1]; exact hs) hspecs' hfit.1
        (by rw [List.length_replicate])).2 hrc rfl
  obtain ⟨b2, r2, s2, t2⟩ := kernel_interleaving (W := g.width) (launchThreads_pos g.height)
    (step := derivedStep g.calls g.derivedCode) (rowStep := derivedRow g.height g.calls g.derivedCode)
    (fun b hb r hr s row' hrow => derived_local b hb r hr s row' hrow) hs2 s1
    (R := fun r => rows.getD r []) (by
      intro r hr
      obtain ⟨row, f1, -, f2, -⟩ := hrow r hr
      rw [f2, List.getD_eq_getElem?_getD, f1]
      rfl)
  refine ⟨b2, ?_, s2, rows, e1, by rw [e2, p2], e3, ?_, ?_⟩
  · rw [GpuPlan.run, r1]
    exact r2
  · intro r hr
    obtain ⟨row, f1, -⟩ := hrow r hr
    rw [t2 r hr, List.getD_eq_getElem?_getD, f1]
    rfl
  · intro i hi
    obtain ⟨row, f1, -, -, f2⟩ := hrow i (by omega)
    obtain ⟨ms, f3, f4⟩ := f2 (by omega)
    refine ⟨ms, f3, ?_⟩
    rw [t2 i (by omega), List.getD_eq_getElem?_getD, f1]
    exact f4

end

end Verif
