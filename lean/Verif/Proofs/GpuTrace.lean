import Verif.Proofs.GpuKernel
import Verif.Proofs.Witness
import Verif.Spec.Gpu

/-!
# Proofs about the matrix of the precompile on the GPU
-/

set_option linter.unusedSectionVars false

namespace Verif

/-! ## Assignments to cells -/

section
variable {F : Type}

/-- Assignments to cells of a row, one after the other. -/
def setAll (row : List F) (l : List (ℕ × F)) : List F := l.foldl (fun row x => row.set x.1 x.2) row

theorem setAll_length (row : List F) (l : List (ℕ × F)) : (setAll row l).length = row.length := by
  induction l generalizing row with
  | nil => rfl
  | cons x t ih =>
    rw [setAll, List.foldl_cons]
    exact (ih _).trans (List.length_set ..)

theorem setAll_append (row : List F) (l l' : List (ℕ × F)) : setAll row (l ++ l') = setAll (setAll row l) l' := by
  simp [setAll]

/-- Assignments to different cells can be made in any order. -/
theorem setAll_perm {l l' : List (ℕ × F)} (h : l.Perm l') (hn : (l.map Prod.fst).Nodup) (row : List F) :
    setAll row l = setAll row l' := by
  refine h.foldl_eq' ?_ row
  intro x hx y hy z
  by_cases hxy : x = y
  · rw [hxy]
  · have hne : x.1 ≠ y.1 := fun he => hxy (List.inj_on_of_nodup_map hn hx hy he)
    exact List.set_comm _ _ hne

theorem setAll_zero [Zero F] {n : ℕ} (l : List (ℕ × F)) (h : ∀ x ∈ l, x.2 = 0) :
    setAll (List.replicate n (0 : F)) l = List.replicate n 0 := by
  induction l with
  | nil => rfl
  | cons x t ih =>
    rw [setAll, List.foldl_cons, h x List.mem_cons_self]
    have : (List.replicate n (0 : F)).set x.1 0 = List.replicate n 0 := by
      apply List.ext_getElem
      · simp
      · intro i h1 h2
        rw [List.getElem_set]
        split <;> simp
    rw [this]
    exact ih fun y hy => h y (List.mem_cons_of_mem _ hy)

end

/-! ## Grouping by AIR -/

section
variable {A S β : Type} [DecidableEq A]

theorem flatMap_insert {order : List A} (hn : order.Nodup) {a0 : A} (ha : a0 ∈ order) {f g : A → List β} {X : List β}
    (h0 : f a0 = X ++ g a0) (h : ∀ a, a ≠ a0 → f a = g a) : (order.flatMap f).Perm (X ++ order.flatMap g) := by
  induction order with
  | nil => cases ha
  | cons b t ih =>
    rw [List.nodup_cons] at hn
    rw [List.flatMap_cons, List.flatMap_cons]
    by_cases hb : b = a0
    · subst hb
      have : t.flatMap f = t.flatMap g := by
        apply List.flatMap_congr
        intro a ha'
        exact h a fun he => hn.1 (he ▸ ha')
      rw [h0, this, List.append_assoc]
    · have hm : a0 ∈ t := by
        rcases List.mem_cons.1 ha with h' | h'
        · exact absurd h'.symm hb
        · exact h'
      rw [h b hb]
      refine ((ih hn.2 hm).append_left (g b)).trans ?_
      rw [← List.append_assoc, ← List.append_assoc]
      exact List.perm_append_comm.append_right _

/-- The instructions in order, each with the number of earlier ones on its AIR, are the instructions by AIR, each with
its number. -/
theorem group_perm {order : List A} (hn : order.Nodup) (G : A → S → ℕ → List β) (kept : List (A × S))
    (ho : ∀ x ∈ kept, x.1 ∈ order) (counts : A → ℕ) :
    ((kept.zip (tableOffsets (kept.map Prod.fst) counts)).flatMap fun x => G x.1.1 x.1.2 x.2).Perm
      (order.flatMap fun a =>
        (((kept.filter fun x => x.1 = a).map Prod.snd).zipIdx (counts a)).flatMap fun y => G a y.1 y.2) := by
  induction kept generalizing counts with
  | nil => simp
  | cons x t ih =>
    obtain ⟨a0, s0⟩ := x
    rw [List.map_cons, tableOffsets, List.zip_cons_cons, List.flatMap_cons]
    have ih' := ih (fun y hy => ho y (List.mem_cons_of_mem _ hy)) (Function.update counts a0 (counts a0 + 1))
    refine List.Perm.trans (ih'.append_left _) (flatMap_insert hn (ho _ List.mem_cons_self) ?_ ?_).symm
    · rw [List.filter_cons, if_pos (by simp), List.map_cons, List.zipIdx_cons, List.flatMap_cons,
        Function.update_self]
    · intro a ha
      rw [List.filter_cons, if_neg (by simpa using Ne.symm ha), Function.update_of_ne ha]

theorem gpuGroup_length (kept : List (A × List (ℕ × ℕ))) (a : A) :
    (gpuGroup kept a).length = (kept.map Prod.fst).count a := by
  rw [gpuGroup, List.length_map, List.count_eq_countP, List.countP_map, List.countP_eq_length_filter]
  congr 1

end

/-! ## The trace of the CPU -/

section
variable {A R F : Type} [LinearOrder A]

/-- What the success of `generate_trace` says. -/
theorem generateTrace_inv {traces : List (A × DummyTrace F)} {calls : ℕ} {airs : List A}
    {subs : List (List (ℕ × ℕ))} {m : SymMachine F ℕ} {d : TraceData F}
    (h : generateTrace traces calls airs subs m = .ok d) (hc : 0 < calls) :
    airs.length = subs.length ∧ (∀ id, IsCopied subs id → id ∈ m.refs) ∧
      ∀ a ∈ keptAirs airs subs, ∃ t, traces.find? (fun y => y.1 = a) = some t := by
  unfold generateTrace at h
  split at h
  · cases h
  · rename_i h1
    have h1 : airs.length = subs.length := by simpa using h1
    simp only [bind, Except.bind] at h
    cases h2 : ((airs.zip subs).filter fun x => !x.2.isEmpty).mapM (fun x => indexPairs m.mainColumns x.2) with
    | error e => rw [h2] at h; cases h
    | ok indices =>
      rw [h2] at h
      simp only at h
      split at h
      · cases h
      · rename_i dv hdv
        refine ⟨h1, ?_, ?_⟩
        · rintro id ⟨s, hs, c, hcs⟩
          obtain ⟨i, hi⟩ := List.mem_iff_getElem?.1 hs
          have hi' : i < airs.length := by
            rw [h1]
            exact (List.getElem?_eq_some_iff.1 hi).1
          have hmem : (airs[i], s) ∈ (airs.zip subs).filter fun x => !x.2.isEmpty := by
            rw [List.mem_filter]
            constructor
            · rw [List.mem_iff_getElem?]
              exact ⟨i, by rw [List.getElem?_zip_eq_some]; exact ⟨List.getElem?_eq_getElem hi', hi⟩⟩
            · cases s with
              | nil => cases hcs
              | cons => rfl
          obtain ⟨k, hk⟩ := List.mem_iff_getElem?.1 hmem
          have hf := mapM_ok h2
          have hk1 := (List.getElem?_eq_some_iff.1 hk).1
          have hg := (List.forall₂_iff_get.1 hf).2 k hk1 (by rw [← hf.length_eq]; exact hk1)
          rw [List.get_eq_getElem, (List.getElem?_eq_some_iff.1 hk).2] at hg
          have hf2 := mapM_ok hg
          obtain ⟨k2, hk2⟩ := List.mem_iff_getElem?.1 hcs
          have hk3 := (List.getElem?_eq_some_iff.1 hk2).1
          have hg2 := (List.forall₂_iff_get.1 hf2).2 k2 hk3 (by rw [← hf2.length_eq]; exact hk3)
          rw [List.get_eq_getElem, (List.getElem?_eq_some_iff.1 hk2).2, columnIndex] at hg2
          by_contra hno
          rw [if_neg (fun hc => hno (mem_mainColumns.1 hc))] at hg2
          cases hg2
        · intro a ha
          have hf := mapM_ok hdv
          have hl := hf.length_eq
          rw [List.length_range] at hl
          have := (List.forall₂_iff_get.1 hf).2 0 (by simpa using hc) (by omega)
          have hrow := mapM_ok this
          obtain ⟨k, hk⟩ := List.mem_iff_getElem?.1 ha
          have hkl : k < (keptAirs airs subs).length := (List.getElem?_eq_some_iff.1 hk).1
          have hz : k < ((keptAirs airs subs).zip (tableOffsets (keptAirs airs subs) fun _ => 0)).length := by
            rw [List.length_zip, tableOffsets_length, Nat.min_self]
            exact hkl
          have hg := (List.forall₂_iff_get.1 hrow).2 k hz (by rw [← hrow.length_eq]; exact hz)
          rw [rowReference] at hg
          split at hg
          · cases hg
          · rename_i t ht
            refine ⟨t, ?_⟩
            have : (((keptAirs airs subs).zip (tableOffsets (keptAirs airs subs) fun _ => 0)).get ⟨k, hz⟩).1 = a := by
              rw [List.get_eq_getElem, List.getElem_zip]
              exact (List.getElem?_eq_some_iff.1 hk).2
            rw [← this]
            exact ht

/-- The matrices of the chips on the device. -/
theorem gpuDummyTraces_find {gen : A → List R → DummyTrace F} {gen' : A → List R → DeviceMatrix F} {a : A}
    {t : A × DummyTrace F} (chips : List A) (o : OriginalArenas A R)
    (h : (dummyTraces gen chips o).find? (fun y => y.1 = a) = some t) :
    ∃ rs, t = (a, gen a rs) ∧ (0 < (gen' a rs).height →
      (gpuDummyTraces gen' chips o).find? (fun y => y.1 = a) = some (a, gen' a rs)) := by
  induction chips generalizing o with
  | nil => cases h
  | cons c l ih =>
    rw [dummyTraces] at h
    rw [gpuDummyTraces]
    cases ho : o.takeReal c with
    | mk ra o' =>
      rw [ho] at h
      cases ra with
      | none =>
        simp only at h ⊢
        exact ih o' h
      | some ra =>
        simp only at h ⊢
        by_cases hca : c = a
        · subst hca
          rw [List.find?_cons_of_pos (by simp)] at h
          cases h
          refine ⟨ra.records, rfl, fun hh => ?_⟩
          rw [if_pos hh, List.find?_cons_of_pos (by simp)]
        · rw [List.find?_cons_of_neg (by simpa using hca)] at h
          obtain ⟨rs, h1, h2⟩ := ih o' h
          refine ⟨rs, h1, fun hh => ?_⟩
          split
          · rw [List.find?_cons_of_neg (by simpa using hca)]
            exact h2 hh
          · exact h2 hh

variable [Zero F]

/-- The cells that are copied for a call, in the order of the instructions. -/
def copiedCells (D : A → DeviceMatrix F) (columns : List ℕ) (i : ℕ) (kept : List ((A × List (ℕ × ℕ)) × ℕ))
    (count : A → ℕ) : List (ℕ × F) :=
  kept.flatMap fun x => x.1.2.map fun y =>
    (columns.idxOf y.2, (D x.1.1).buffer.cell (y.1 * (D x.1.1).height + (i * count x.1.1 + x.2)))

theorem copyCell_setAll {dummyRow : List F} (pairs : List (ℕ × ℕ)) {row row' : List F}
    (h : pairs.foldlM (copyCell dummyRow) row = .ok row') :
    row' = setAll row (pairs.map fun x => (x.2, dummyRow.getD x.1 0)) ∧
      ∀ x ∈ pairs, x.1 < dummyRow.length ∧ x.2 < row.length := by
  induction pairs generalizing row with
  | nil =>
    cases h
    exact ⟨rfl, by simp⟩
  | cons x t ih =>
    rw [List.foldlM_cons] at h
    simp only [bind, Except.bind] at h
    split at h
    · cases h
    · rename_i row1 h1
      rw [copyCell] at h1
      split at h1
      · cases h1
      · rename_i v hv
        split at h1
        · rename_i hlt
          cases h1
          obtain ⟨h2, h3⟩ := ih h
          have hx1 := (List.getElem?_eq_some_iff.1 hv).1
          refine ⟨?_, ?_⟩
          · rw [h2, List.map_cons, setAll, setAll, List.foldl_cons]
            simp only
            rw [List.getD_eq_getElem?_getD, hv]
            rfl
          · intro y hy
            rcases List.mem_cons.1 hy with rfl | hy
            · exact ⟨hx1, hlt⟩
            · have := h3 y hy
              rw [List.length_set] at this
              exact this
        · cases h1

theorem copyCells_setAll {D : A → DeviceMatrix F} {tr : A → DummyTrace F} {columns : List ℕ} {i : ℕ}
    (hD : ∀ a, (D a).width = (tr a).width ∧ SameMatrix (D a).height (D a).width (tr a).values (D a).buffer)
    {count : A → ℕ} (kept : List ((A × List (ℕ × ℕ)) × ℕ)) {row row' : List F}
    (h : (kept.map fun x => ((⟨(tr x.1.1).values, (i * count x.1.1 + x.2) * (tr x.1.1).width, (tr x.1.1).width⟩ :
      RowReference F), x.1.2.map fun y => (y.1, columns.idxOf y.2))).foldlM copyCells row = .ok row') :
    row' = setAll row (copiedCells D columns i kept count) ∧
      ∀ x ∈ kept, ∀ y ∈ x.1.2, y.1 < (D x.1.1).width ∧ i * count x.1.1 + x.2 < (D x.1.1).height ∧
        columns.idxOf y.2 < row.length := by
  induction kept generalizing row with
  | nil =>
    cases h
    exact ⟨rfl, by simp⟩
  | cons x t ih =>
    rw [List.map_cons, List.foldlM_cons] at h
    simp only [bind, Except.bind] at h
    split at h
    · cases h
    · rename_i row1 h1
      rw [copyCells] at h1
      simp only [bind, Except.bind] at h1
      split at h1
      · cases h1
      · rename_i dummy hs
        obtain ⟨h2, h3⟩ := copyCell_setAll _ h1
        obtain ⟨h4, h5⟩ := ih h
        rw [RowReference.slice] at hs
        simp only at hs
        split at hs
        · rename_i hle
          cases hs
          obtain ⟨hw, hv, hb, hcell⟩ := hD x.1.1
          have hdl : (List.take (tr x.1.1).width (List.drop ((i * count x.1.1 + x.2) * (tr x.1.1).width)
              (tr x.1.1).values)).length = (tr x.1.1).width := by
            rw [List.length_take, List.length_drop]
            omega
          have hcond : ∀ y ∈ x.1.2, y.1 < (D x.1.1).width ∧ i * count x.1.1 + x.2 < (D x.1.1).height := by
            intro y hy
            have := (h3 _ (List.mem_map.2 ⟨y, hy, rfl⟩)).1
            simp only at this
            rw [hdl] at this
            refine ⟨by omega, ?_⟩
            by_contra hc
            have h6 : (D x.1.1).height * (D x.1.1).width ≤ (i * count x.1.1 + x.2) * (D x.1.1).width :=
              Nat.mul_le_mul_right _ (by omega)
            rw [hw] at h6 hv
            omega
          refine ⟨?_, ?_⟩
          · rw [h4, h2, copiedCells, copiedCells, List.flatMap_cons, setAll_append]
            congr 2
            rw [List.map_map]
            apply List.map_congr_left
            intro y hy
            obtain ⟨hy1, hy2⟩ := hcond y hy
            simp only [Function.comp]
            have := hcell _ hy2 _ hy1
            rw [List.getD_eq_getElem?_getD, List.getElem?_take_of_lt (by omega), List.getElem?_drop, ← hw, this]
            rfl
          · intro z hz y hy
            rcases List.mem_cons.1 hz with rfl | hz
            · exact ⟨(hcond y hy).1, (hcond y hy).2, (h3 _ (List.mem_map.2 ⟨y, hy, rfl⟩)).2⟩
            · have := h5 z hz y hy
              rw [h2, setAll_length] at this
              exact this
        · cases hs

/-! ## The copies on the device -/

theorem tracegenRow_fold {calls r : ℕ} {airs : List (OriginalAir F)} (substs : List GpuSubst) {row : List F}
    (value : GpuSubst → F)
    (h : ∀ s ∈ substs, s.apcCol < row.length ∧ (r < calls → ∃ air, airs[s.airIndex]? = some air ∧
      air.buffer.read (s.col * air.height + (s.row + r * air.rowBlockSize)) = some (value s))) :
    substs.foldlM (tracegenRow calls airs r) row =
      some (setAll row (substs.map fun s => (s.apcCol, if r < calls then value s else 0))) := by
  induction substs generalizing row with
  | nil => rfl
  | cons s t ih =>
    obtain ⟨h1, h2⟩ := h s List.mem_cons_self
    have hstep : tracegenRow calls airs r row s = some (row.set s.apcCol (if r < calls then value s else 0)) := by
      rw [tracegenRow, if_pos h1]
      split
      · rename_i hr
        obtain ⟨air, ha, hv⟩ := h2 hr
        rw [ha]
        simp only [Option.bind_eq_bind, Option.bind_some]
        rw [hv]
        rfl
      · rfl
    rw [List.foldlM_cons, hstep]
    simp only [Option.bind_eq_bind, Option.bind_some]
    rw [ih fun s' hs' => by
      rw [List.length_set]
      exact h s' (List.mem_cons_of_mem _ hs')]
    rfl

/-- The substitutions of all AIRs. -/
def allSubsts (columns : List ℕ) (kept : List (A × List (ℕ × ℕ))) (order : List A) : List GpuSubst :=
  order.zipIdx.flatMap fun x => (gpuGroup kept x.1).zipIdx.flatMap fun y =>
    y.1.map fun s => ⟨x.2, s.1, y.2, columns.idxOf s.2⟩

theorem gpuAirSubsts_ok {columns : List ℕ} {kept : List (A × List (ℕ × ℕ))}
    (h : ∀ x ∈ kept, ∀ s ∈ x.2, s.2 ∈ columns) (order : List A) :
    ∃ l, order.zipIdx.mapM (gpuAirSubsts columns kept) = .ok l ∧ l.flatten = allSubsts columns kept order := by
  refine ⟨_, mapM_of_forall (fun x => (gpuGroup kept x.1).zipIdx.flatMap fun y =>
    y.1.map fun s => (⟨x.2, s.1, y.2, columns.idxOf s.2⟩ : GpuSubst)) fun x _ => ?_, ?_⟩
  · rw [gpuAirSubsts, mapM_of_forall (fun y : List (ℕ × ℕ) × ℕ => y.1.map fun s =>
      (⟨x.2, s.1, y.2, columns.idxOf s.2⟩ : GpuSubst)) fun y hy => ?_]
    · rfl
    · refine mapM_of_forall _ fun s hs => ?_
      have hy1 : y.1 ∈ gpuGroup kept x.1 := List.fst_mem_of_mem_zipIdx hy
      obtain ⟨z, hz, hzy⟩ := List.mem_map.1 hy1
      rw [columnIndex_ok (h z (List.mem_filter.1 hz).1 s (hzy ▸ hs))]
      rfl
  · rfl

end

/-! ## The rows of the CPU -/

section
variable {F : Type} [Field F] [DecidableEq F]

theorem fillWitness_inv {d : TraceData F} {bus : List (SymBus F ℕ)} {calls : ℕ} {values : List F}
    {messages : List (List (ℕ × F × List F))} (h : fillWitness d bus calls = .ok (values, messages))
    (hdl : d.dummyValues.length = calls) :
    ∃ rows : List (List F), values = rows.flatten ∧ rows.length = nextPowerOfTwoOrZero calls ∧
      messages.length = calls ∧
      (∀ i < calls, ∃ refs row ms, d.dummyValues[i]? = some refs ∧
        witnessRow d bus refs (List.replicate d.columns.length 0) = .ok (row, ms) ∧
        rows[i]? = some row ∧ messages[i]? = some ms) ∧
      ∀ i, calls ≤ i → i < nextPowerOfTwoOrZero calls → rows[i]? = some (List.replicate d.columns.length 0) := by
  unfold fillWitness at h
  simp only at h
  split at h
  · cases h
  · simp only [bind, Except.bind] at h
    split at h
    · cases h
    · rename_i filled hfill
      cases h
      rw [List.take_of_length_le (by rw [hdl]; exact clog_ge _)] at hfill
      have hf := mapM_ok hfill
      have hl := hf.length_eq
      rw [hdl] at hl
      have hge := clog_ge calls
      refine ⟨_, rfl, by simp; omega, by simp [← hl], ?_, ?_⟩
      · intro i hi
        have hg := (List.forall₂_iff_get.1 hf).2 i (by omega) (by omega)
        refine ⟨d.dummyValues[i]'(by omega), (filled[i]'(by omega)).1, (filled[i]'(by omega)).2,
          List.getElem?_eq_getElem _, hg, ?_, ?_⟩
        · rw [List.getElem?_append_left (by simp; omega), List.getElem?_map, List.getElem?_eq_getElem (by omega)]
          rfl
        · rw [List.getElem?_map, List.getElem?_eq_getElem (by omega)]
          rfl
      · intro i h1 h2
        rw [List.getElem?_append_right (by simp; omega), List.getElem?_replicate, if_pos]
        simp
        omega

theorem witnessRow_inv {d : TraceData F} {bus : List (SymBus F ℕ)} {refs : List (RowReference F)} {row0 row : List F}
    {ms : List (ℕ × F × List F)} (h : witnessRow d bus refs row0 = .ok (row, ms)) :
    ∃ row1, (refs.zip d.indices).foldlM copyCells row0 = .ok row1 ∧
      d.compute.foldlM (computeColumn d.columns) row1 = .ok row ∧
      bus.mapM (evalInteraction d.columns row) = .ok ms := by
  unfold witnessRow at h
  split at h
  · cases h
  · simp only [bind, Except.bind] at h
    split at h
    · cases h
    · rename_i row1 h1
      split at h
      · cases h
      · rename_i row2 h2
        split at h
        · cases h
        · rename_i ms' h3
          cases h
          exact ⟨row1, h1, h2, h3⟩

theorem flatten_rows {W : ℕ} (rows : List (List F)) (h : ∀ row ∈ rows, row.length = W) :
    rows.flatten.length = rows.length * W ∧
      ∀ (r : ℕ) row, rows[r]? = some row → ∀ c < W, rows.flatten[r * W + c]? = row[c]? := by
  induction rows with
  | nil => simp
  | cons x t ih =>
    obtain ⟨h1, h2⟩ := ih fun y hy => h y (List.mem_cons_of_mem _ hy)
    have hx := h x List.mem_cons_self
    refine ⟨?_, ?_⟩
    · rw [List.flatten_cons, List.length_append, h1, hx, List.length_cons, Nat.add_mul]
      omega
    · intro r row hr c hc
      cases r with
      | zero =>
        simp only [List.getElem?_cons_zero, Option.some.injEq] at hr
        subst hr
        rw [List.flatten_cons, Nat.zero_mul, Nat.zero_add, List.getElem?_append_left (by omega)]
      | succ r =>
        rw [List.getElem?_cons_succ] at hr
        have e : (r + 1) * W + c = x.length + (r * W + c) := by
          rw [hx, Nat.add_mul]
          omega
        rw [List.flatten_cons, e, List.getElem?_append_right (by omega), Nat.add_sub_cancel_left]
        exact h2 r row hr c hc

end

/-! ## The computed columns on the device -/

section
variable {p : ℕ} [Fact p.Prime]

theorem rowRead_column {columns : List ℕ} {H r : ℕ} (hr : r < H) (hs : columns.length * H ≤ 2 ^ 32)
    {row : List (ZMod p)} (hl : row.length = columns.length) {id : ℕ} (hid : id ∈ columns) :
    rowRead H r row (columns.idxOf id * H % 2 ^ 32 + r) = some (columnValue columns row id) := by
  have hi := List.idxOf_lt_length_iff.2 hid
  have hlt : columns.idxOf id * H < 2 ^ 32 := by
    have := cell_lt hr hi
    omega
  rw [Nat.mod_eq_of_lt hlt, rowRead, if_pos (by rw [Nat.mul_comm, Nat.mul_add_mod, Nat.mod_eq_of_lt hr])]
  have : (columns.idxOf id * H + r) / H = columns.idxOf id := by
    rw [Nat.add_comm, Nat.add_mul_div_right _ _ (by omega), Nat.div_eq_of_lt hr, Nat.zero_add]
  rw [this, columnValue, List.getD_eq_getElem?_getD, List.getElem?_eq_getElem (by omega)]
  rfl

theorem derivedRow_fold {columns : List ℕ} {H calls r : ℕ} (hr : r < H) (hs : columns.length * H ≤ 2 ^ 32)
    {code : List ℕ} {ds : List (ℕ × SymMethod (ZMod p) ℕ)} {specs : List DerivedExprSpec}
    (hf : List.Forall₂ (fun d s => d.1 ∈ columns ∧ (∀ r ∈ SymMethod.refs d.2, r ∈ columns) ∧
      s.colBase = columns.idxOf d.1 * H ∧ spanCode code s.span = methodCode columns H d.2) ds specs)
    (hfit : ∀ d ∈ ds, d.2.stackNeed ≤ stackCapacity) {row row' : List (ZMod p)} (hl : row.length = columns.length) :
    (r < calls → ds.foldlM (computeColumn columns) row = .ok row' →
      specs.foldlM (derivedRow H calls code r) row = some row' ∧ row'.length = columns.length) ∧
    (¬ r < calls → row = List.replicate columns.length 0 →
      specs.foldlM (derivedRow H calls code r) row = some row) := by
  induction hf generalizing row with
  | nil =>
    refine ⟨fun _ h => ?_, fun _ _ => rfl⟩
    cases h
    exact ⟨rfl, hl⟩
  | @cons d s ds specs h0 _ ih =>
    obtain ⟨h1, h2, h3, h4⟩ := h0
    have hi := List.idxOf_lt_length_iff.2 h1
    have hH : 0 < H := by omega
    have hcond : s.colBase % H = 0 ∧ s.colBase / H < row.length := by
      rw [h3, Nat.mul_mod_left, Nat.mul_div_cancel _ hH, hl]
      exact ⟨rfl, hi⟩
    have hq : s.colBase / H = columns.idxOf d.1 := by rw [h3, Nat.mul_div_cancel _ hH]
    refine ⟨fun hc h => ?_, fun hc h => ?_⟩
    · rw [List.foldlM_cons] at h
      rw [computeColumn, columnIndex_ok h1] at h
      simp only [bind, Except.bind] at h
      rw [computeValue_ok hl d.2 h2] at h
      simp only at h
      rw [if_pos (by rw [hl]; exact hi)] at h
      simp only [pure, Except.pure] at h
      have hv : evalArg s.span code (rowRead H r row) r = some (d.2.value (columnValue columns row)) := by
        have := (evalCode_method (columns := columns) (height := H) (r := r) (read := rowRead H r row)
          (σ := columnValue columns row) d.2 fun id hid => rowRead_column hr hs hl (h2 id hid)).1
          (hfit d List.mem_cons_self)
        rw [← h4] at this
        exact this
      have hstep : derivedRow H calls code r row s =
          some (row.set (columns.idxOf d.1) (d.2.value (columnValue columns row))) := by
        rw [derivedRow, if_pos hcond, if_pos hc, hv, hq]
        rfl
      rw [List.foldlM_cons, hstep]
      exact (ih (fun x hx => hfit x (List.mem_cons_of_mem _ hx)) (by rw [List.length_set, hl])).1 hc h
    · have hstep : derivedRow H calls code r row s = some row := by
        rw [derivedRow, if_pos hcond, if_neg hc, h]
        congr 1
        have := setAll_zero (F := ZMod p) (n := columns.length) [(s.colBase / H, 0)] (by simp)
        exact this
      rw [List.foldlM_cons, hstep]
      exact (ih (fun x hx => hfit x (List.mem_cons_of_mem _ hx)) hl).2 hc h

end

end Verif
