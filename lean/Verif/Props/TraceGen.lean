import Verif.Proofs.Witness
import Verif.Props.Machine

/-!
# C54, C64: the traces of precompiles
-/

set_option linter.unusedSectionVars false

namespace Verif

section
variable {A I S R F : Type} [LinearOrder A]

/-! ## C54 -/

/-- **C54.** Executing a precompile is executing its instructions: if the instructions run through in each of the
calls of a segment (and there are not more calls than estimated), then the segment leads through the same states, and
afterwards the arena of each chip holds the records of its instructions that have a column in the precompile, of all
calls, in the order of execution. -/
theorem C54_execution {step : I → S → Option (S × R)} {is : List I} {airs : List A} {subs : List (List (ℕ × ℕ))}
    {est : ℕ} (h1 : airs.length = subs.length) (h2 : is.length = airs.length) {log : List (CallLog S R)}
    (hlog : log ≠ []) (hruns : ∀ l ∈ log, Runs step is l.before l.records l.after) (hest : log.length ≤ est) :
    ∃ metas o, cachedMetas airs subs = .ok metas ∧
      executeSegment step is airs subs metas est (log.map CallLog.before) none =
        .ok (log.map CallLog.after, some o) ∧
      o.numberOfCalls = log.length ∧
      ∀ a ∈ airs, ∃ arena, (o.takeReal a).1 = some arena ∧ arena.records = log.flatMap fun l =>
        ((keptRecords airs subs l.records).filter fun x => decide (x.1 = a)).map Prod.snd := by
  obtain ⟨metas, hm, hf⟩ := cachedMetas_ok h1
  refine ⟨metas, _, hm, executeSegment_from_start h1 h2 hf hlog hruns hest, rfl, fun a ha => ?_⟩
  obtain ⟨j, hj⟩ := List.mem_iff_getElem?.1 ha
  have hjs : j < subs.length := by
    rw [← h1]
    exact (List.getElem?_eq_some_iff.1 hj).1
  have htag : (a, !subs[j].isEmpty) ∈ tagsOf airs subs := by
    refine List.mem_map.2 ⟨(a, subs[j]), ?_, rfl⟩
    refine List.mem_of_getElem? (i := j) ?_
    rw [List.getElem?_zip_eq_some]
    exact ⟨hj, List.getElem?_eq_getElem hjs⟩
  obtain ⟨d, hd⟩ := dimsOf_isSome htag
  obtain ⟨y, hy⟩ := find_zipIdx_isSome 0 hd
  have hy' : (arenaIndexOf (dimsOf airs subs)).find? (fun y => y.1 = a) = some y := hy
  obtain ⟨-, d', h4, -⟩ := arenaIndex_spec (dimsOf_sorted airs subs) hy'
  refine ⟨⟨d'.realHeight * est, recordsOf true a (allEvents (tagsOf airs subs) log)⟩, ?_,
    recordsOf_all airs subs log a⟩
  unfold OriginalArenas.takeReal
  simp only
  rw [hy']
  simp only
  rw [List.getElem?_map, h4]
  rfl

/-- An instruction that fails makes the call fail. -/
theorem C54_vm_error {step : I → S → Option (S × R)} {is : List I} {s : S} {metas : List CachedMeta}
    {o : OriginalArenas A R} (h : ¬ ∃ rs s', Runs step is s rs s') :
    ∀ r, executeCall step is metas s o ≠ .ok r := by
  intro r hr
  apply h
  unfold executeCall at hr
  split at hr
  · cases hr
  · rename_i hlen
    have hlen' : is.length = metas.length := by simpa using hlen
    have key : ∀ (is : List I) (metas : List CachedMeta) (s : S) (o : OriginalArenas A R) (r : S × OriginalArenas A R),
        is.length = metas.length → executeInstructions step (is.zip metas) s o = .ok r →
        ∃ rs s', Runs step is s rs s' := by
      intro is
      induction is with
      | nil => exact fun _ s _ _ _ _ => ⟨[], s, .nil s⟩
      | cons i is ih =>
        intro metas s o r hl hr
        cases metas with
        | nil => cases hl
        | cons c metas =>
          rw [List.zip_cons_cons, executeInstructions] at hr
          cases hs : step i s with
          | none => rw [hs] at hr; cases hr
          | some x =>
            obtain ⟨s', r'⟩ := x
            rw [hs] at hr
            simp only at hr
            cases hp : o.push c r' with
            | error e => rw [hp] at hr; cases hr
            | ok o' =>
              rw [hp] at hr
              obtain ⟨rs, s'', h3⟩ := ih metas s' o' r (by simpa using hl) hr
              exact ⟨r' :: rs, s'', .cons hs h3⟩
    cases he : executeInstructions step (is.zip metas) s o with
    | error e => rw [he] at hr; cases hr
    | ok x => exact key is metas s o x hlen' he

/-- **C54.** The rows read by trace generation after a segment: for each call, in order, and each of its instructions
that has a column in the precompile, in order, exactly the row which the chip made of the record that this instruction
produced in this call. -/
theorem C54_rows {step : I → S → Option (S × R)} {is : List I} {airs : List A} {subs : List (List (ℕ × ℕ))}
    {est : ℕ} (h1 : airs.length = subs.length) (h2 : is.length = airs.length) {log : List (CallLog S R)}
    (hruns : ∀ l ∈ log, Runs step is l.before l.records l.after) (hest : log.length ≤ est)
    {metas : List CachedMeta} (hm : cachedMetas airs subs = .ok metas) {ss : List S} {o : OriginalArenas A R}
    (ho : executeSegment step is airs subs metas est (log.map CallLog.before) none = .ok (ss, some o))
    {gen : A → List R → DummyTrace F} {width : A → ℕ} {row : A → R → List F} (hg : WritesRows gen width row)
    {chips : List A} (hchips : ∀ a ∈ airs, a ∈ chips) {m : SymMachine F ℕ}
    (hsubs : ∀ id, IsCopied subs id → id ∈ m.refs) :
    ∃ d, generateTrace (dummyTraces gen chips.reverse o) o.numberOfCalls airs subs m = .ok d ∧
      d.dummyValues.map (fun refs => refs.map RowReference.slice) =
        (log.map fun l => (keptRecords airs subs l.records).map fun x => .ok (row x.1 x.2)) ∧
      d.indices = (keptInstrs airs subs).map (fun x => x.2.map fun y => (y.1, m.mainColumns.idxOf y.2)) ∧
      d.columns = m.mainColumns ∧ d.compute = m.derived ∧ o.numberOfCalls = log.length := by
  have hlog : log ≠ [] := by
    rintro rfl
    cases ho
  obtain ⟨metas', hm', hf⟩ := cachedMetas_ok h1
  rw [hm] at hm'
  cases hm'
  rw [executeSegment_from_start h1 h2 hf hlog hruns hest] at ho
  have ho' := (Prod.mk.inj (Except.ok.inj ho)).2
  cases ho'
  refine ⟨traceDataOf (fun a => gen a (recordsOf true a (allEvents (tagsOf airs subs) log))) log.length airs subs m,
    ?_, ?_, rfl, rfl, rfl, rfl⟩
  · refine generateTrace_eq _ h1 hsubs fun a ha => ?_
    obtain ⟨ha1, ha2⟩ := keptAirs_mem ha
    obtain ⟨d, hd⟩ := dimsOf_isSome ha2
    obtain ⟨y, hy⟩ := find_zipIdx_isSome 0 hd
    have hy' : (arenaIndexOf (dimsOf airs subs)).find? (fun y => y.1 = a) = some y := hy
    obtain ⟨-, d', h4, -⟩ := arenaIndex_spec (dimsOf_sorted airs subs) hy'
    have := dummyTraces_find gen (a := a) chips.reverse {
        arenas := (dimsOf airs subs).map (arenaOf est (allEvents (tagsOf airs subs) log))
        index := arenaIndexOf (dimsOf airs subs)
        numberOfCalls := log.length } (arenaIndexOf_injective (dimsOf_sorted airs subs))
        (List.mem_reverse.2 (hchips a ha1)) hy'
        (q := ⟨⟨d'.realHeight * est, recordsOf true a (allEvents (tagsOf airs subs) log)⟩,
          ⟨d'.dummyHeight * est, recordsOf false a (allEvents (tagsOf airs subs) log)⟩⟩) (by
          simp only
          rw [List.getElem?_map, h4]
          rfl)
    exact this
  · refine traceDataOf_slices h1 (fun l hl => ?_) hg m
    rw [← h2, (hruns l hl).length]

/-- What `generate_trace` returns for a call and an instruction. -/
theorem generateTrace_reference {traces : List (A × DummyTrace F)} {calls : ℕ} {airs : List A}
    {subs : List (List (ℕ × ℕ))} {m : SymMachine F ℕ} {d : TraceData F}
    (h : generateTrace traces calls airs subs m = .ok d) :
    d.dummyValues.length = calls ∧ ∀ i < calls, ∃ refs, d.dummyValues[i]? = some refs ∧
      refs.length = (keptAirs airs subs).length ∧
      ∀ (k : ℕ) a, (keptAirs airs subs)[k]? = some a → ∃ t, traces.find? (fun y => y.1 = a) = some t ∧
        refs[k]? = some ⟨t.2.values, (i * (keptAirs airs subs).count a + ((keptAirs airs subs).take k).count a) *
          t.2.width, t.2.width⟩ := by
  unfold generateTrace at h
  split at h
  · cases h
  · simp only [bind, Except.bind] at h
    cases h1 : ((airs.zip subs).filter fun x => !x.2.isEmpty).mapM (fun x => indexPairs m.mainColumns x.2) with
    | error e => rw [h1] at h; cases h
    | ok indices =>
      rw [h1] at h
      simp only at h
      split at h
      · cases h
      · rename_i dv hdv
        cases h
        have hf := mapM_ok hdv
        have hl := hf.length_eq
        rw [List.length_range] at hl
        refine ⟨hl.symm, fun i hi => ?_⟩
        have hi' : i < dv.length := by omega
        have hfi := List.forall₂_iff_get.1 hf
        have := hfi.2 i (by simpa using hi) hi'
        simp only [List.get_eq_getElem, List.getElem_range] at this
        have hrow := mapM_ok this
        have hrl := hrow.length_eq
        rw [List.length_zip, tableOffsets_length, Nat.min_self] at hrl
        refine ⟨dv[i], List.getElem?_eq_getElem hi', hrl.symm, fun k a hk => ?_⟩
        have hkl : k < (keptAirs airs subs).length := (List.getElem?_eq_some_iff.1 hk).1
        have hkr : k < dv[i].length := by
          rw [← hrl]
          exact hkl
        have hz : k < ((keptAirs airs subs).zip (tableOffsets (keptAirs airs subs) fun _ => 0)).length := by
          rw [List.length_zip, tableOffsets_length, Nat.min_self]
          exact hkl
        have hg := (List.forall₂_iff_get.1 hrow).2 k hz hkr
        have hzk : ((keptAirs airs subs).zip (tableOffsets (keptAirs airs subs) fun _ => 0))[k]? =
            some (a, ((keptAirs airs subs).take k).count a) := by
          rw [List.getElem?_zip_eq_some]
          refine ⟨hk, ?_⟩
          rw [tableOffsets_get, hk]
          simp
        have hzk' : ((keptAirs airs subs).zip (tableOffsets (keptAirs airs subs) fun _ => 0)).get ⟨k, hz⟩ =
            (a, ((keptAirs airs subs).take k).count a) := by
          rw [List.getElem?_eq_getElem hz] at hzk
          exact Option.some.inj hzk
        have hzk2 : (((airs.zip subs).filter fun x => !x.2.isEmpty).map Prod.fst).zip
            (tableOffsets (((airs.zip subs).filter fun x => !x.2.isEmpty).map Prod.fst) fun _ => 0) =
            (keptAirs airs subs).zip (tableOffsets (keptAirs airs subs) fun _ => 0) := rfl
        have hg' : rowReference traces (fun a => (keptAirs airs subs).count a) i
            (a, ((keptAirs airs subs).take k).count a) = .ok dv[i][k] := by
          rw [← hzk']
          exact hg
        rw [rowReference] at hg'
        split at hg'
        · cases hg'
        · rename_i t ht
          refine ⟨t, ht, ?_⟩
          rw [List.getElem?_eq_getElem hkr, ← Except.ok.inj hg']

/-- The count of an element grows from one occurrence to the next. -/
theorem count_take_lt {l : List A} {k k' : ℕ} {a : A} (hk : l[k]? = some a) (h : k < k') :
    (l.take k).count a < (l.take k').count a := by
  have h1 : l.take (k + 1) <+: l.take k' := List.take_prefix_take_left (by omega)
  have h2 := h1.sublist.count_le a
  rw [List.take_add_one, hk] at h2
  simp at h2
  omega

/-- Every number below the count is the number of earlier occurrences for some occurrence. -/
theorem exists_count_take {l : List A} {a : A} {j : ℕ} (h : j < l.count a) :
    ∃ k : ℕ, l[k]? = some a ∧ (l.take k).count a = j := by
  induction l generalizing j with
  | nil => simp at h
  | cons x t ih =>
    by_cases hx : x = a
    · subst hx
      cases j with
      | zero => exact ⟨0, by simp, by simp⟩
      | succ j =>
        obtain ⟨k, h1, h2⟩ := ih (j := j) (by simpa using h)
        exact ⟨k + 1, by simpa using h1, by simp [h2]⟩
    · obtain ⟨k, h1, h2⟩ := ih (j := j) (by simpa [hx] using h)
      exact ⟨k + 1, by simpa using h1, by simp [h2, hx]⟩

/-- **C54.** The rows read for different calls or different instructions on the same chip do not overlap. -/
theorem C54_disjoint {traces : List (A × DummyTrace F)} {calls : ℕ} {airs : List A}
    {subs : List (List (ℕ × ℕ))} {m : SymMachine F ℕ} {d : TraceData F}
    (h : generateTrace traces calls airs subs m = .ok d) {i i' k k' : ℕ} {refs refs' : List (RowReference F)}
    {x x' : RowReference F} (hi : d.dummyValues[i]? = some refs) (hk : refs[k]? = some x)
    (hi' : d.dummyValues[i']? = some refs') (hk' : refs'[k']? = some x')
    (hchip : (keptAirs airs subs)[k]? = (keptAirs airs subs)[k']?) (hne : (i, k) ≠ (i', k')) :
    x.data = x'.data ∧ (x.start + x.length ≤ x'.start ∨ x'.start + x'.length ≤ x.start) := by
  obtain ⟨hl, hr⟩ := generateTrace_reference h
  have hi1 : i < calls := by
    rw [← hl]
    exact (List.getElem?_eq_some_iff.1 hi).1
  have hi2 : i' < calls := by
    rw [← hl]
    exact (List.getElem?_eq_some_iff.1 hi').1
  obtain ⟨r1, e1, l1, g1⟩ := hr i hi1
  obtain ⟨r2, e2, l2, g2⟩ := hr i' hi2
  rw [hi] at e1
  cases e1
  rw [hi'] at e2
  cases e2
  have hkl : k < (keptAirs airs subs).length := by
    rw [← l1]
    exact (List.getElem?_eq_some_iff.1 hk).1
  obtain ⟨a, ha⟩ : ∃ a, (keptAirs airs subs)[k]? = some a := ⟨_, List.getElem?_eq_getElem hkl⟩
  obtain ⟨t1, t2, t3⟩ := g1 k a ha
  obtain ⟨u1, u2, u3⟩ := g2 k' a (by rw [← hchip, ha])
  rw [t2] at u2
  cases u2
  rw [hk] at t3
  rw [hk'] at u3
  cases t3
  cases u3
  refine ⟨rfl, ?_⟩
  simp only
  have c1 : ((keptAirs airs subs).take k).count a < (keptAirs airs subs).count a := by
    have := count_take_lt ha hkl
    simpa using this
  have c2 : ((keptAirs airs subs).take k').count a < (keptAirs airs subs).count a := by
    have hk2 : (keptAirs airs subs)[k']? = some a := by rw [← hchip, ha]
    have := count_take_lt hk2 (List.getElem?_eq_some_iff.1 hk2).1
    simpa using this
  have hlt : ∀ {p q : ℕ} (w : ℕ), p < q → p * w + w ≤ q * w := by
    intro p q w hpq
    calc p * w + w = (p + 1) * w := by rw [Nat.add_mul, Nat.one_mul]
      _ ≤ q * w := Nat.mul_le_mul_right w hpq
  have hpos : i * (keptAirs airs subs).count a + ((keptAirs airs subs).take k).count a <
        i' * (keptAirs airs subs).count a + ((keptAirs airs subs).take k').count a ∨
      i' * (keptAirs airs subs).count a + ((keptAirs airs subs).take k').count a <
        i * (keptAirs airs subs).count a + ((keptAirs airs subs).take k).count a := by
    rcases lt_trichotomy i i' with hii | hii | hii
    · left
      have := hlt ((keptAirs airs subs).count a) hii
      omega
    · subst hii
      have hkk : k ≠ k' := fun e => hne (by rw [e])
      rcases Nat.lt_or_gt_of_ne hkk with hkk | hkk
      · left
        have := count_take_lt ha hkk
        omega
      · right
        have := count_take_lt (by rw [← hchip, ha] : (keptAirs airs subs)[k']? = some a) hkk
        omega
    · right
      have := hlt ((keptAirs airs subs).count a) hii
      omega
  rcases hpos with hpos | hpos
  · exact .inl (hlt _ hpos)
  · exact .inr (hlt _ hpos)

/-- **C54.** The rows read from a chip cover the start of its trace without gaps: as many rows as there are calls times
instructions on the chip. -/
theorem C54_cover {traces : List (A × DummyTrace F)} {calls : ℕ} {airs : List A}
    {subs : List (List (ℕ × ℕ))} {m : SymMachine F ℕ} {d : TraceData F}
    (h : generateTrace traces calls airs subs m = .ok d) {a : A} {t : A × DummyTrace F}
    (ht : traces.find? (fun y => y.1 = a) = some t) {n : ℕ}
    (hn : n < calls * (keptAirs airs subs).count a * t.2.width) :
    ∃ (i k : ℕ) (refs : List (RowReference F)) (x : RowReference F), d.dummyValues[i]? = some refs ∧
      refs[k]? = some x ∧ (keptAirs airs subs)[k]? = some a ∧
      x.data = t.2.values ∧ x.start ≤ n ∧ n < x.start + x.length := by
  obtain ⟨hl, hr⟩ := generateTrace_reference h
  have hw : 0 < t.2.width := by
    rcases Nat.eq_zero_or_pos t.2.width with h0 | h0
    · rw [h0] at hn
      simp at hn
    · exact h0
  have hq : n / t.2.width < calls * (keptAirs airs subs).count a := (Nat.div_lt_iff_lt_mul hw).2 hn
  have hc : 0 < (keptAirs airs subs).count a := by
    rcases Nat.eq_zero_or_pos ((keptAirs airs subs).count a) with h0 | h0
    · rw [h0] at hq
      simp at hq
    · exact h0
  obtain ⟨k, hk1, hk2⟩ := exists_count_take (Nat.mod_lt (n / t.2.width) hc)
  obtain ⟨refs, e1, -, g1⟩ := hr (n / t.2.width / (keptAirs airs subs).count a) ((Nat.div_lt_iff_lt_mul hc).2 hq)
  obtain ⟨t', e2, e3⟩ := g1 k a hk1
  rw [ht] at e2
  cases e2
  refine ⟨_, k, refs, _, e1, e3, hk1, rfl, ?_, ?_⟩
  · simp only
    rw [hk2, Nat.div_add_mod']
    exact Nat.div_mul_le_self n t.2.width
  · simp only
    rw [hk2, Nat.div_add_mod']
    exact Nat.lt_div_mul_add hw

/-! ## C64 -/

variable [Field F] [DecidableEq F]

/-- **C64.** The matrix of the precompile after a segment. Suppose every column of the machine is copied from an
original row or computed from columns before it, and for each call there is an assignment with the values of the original
rows in the copied columns and the right values in the computed columns. Then the matrix has one row for each call, in
order, with exactly these values; it is filled up with rows of zeros to a power of two. The messages replayed are exactly
those of the machine under these assignments. -/
theorem C64_matrix {step : I → S → Option (S × R)} {is : List I} {airs : List A} {subs : List (List (ℕ × ℕ))}
    {est : ℕ} (h1 : airs.length = subs.length) (h2 : is.length = airs.length) {log : List (CallLog S R)}
    (hruns : ∀ l ∈ log, Runs step is l.before l.records l.after) (hest : log.length ≤ est)
    {metas : List CachedMeta} (hm : cachedMetas airs subs = .ok metas) {ss : List S} {o : OriginalArenas A R}
    (ho : executeSegment step is airs subs metas est (log.map CallLog.before) none = .ok (ss, some o))
    {gen : A → List R → DummyTrace F} {width : A → ℕ} {row : A → R → List F} (hg : WritesRows gen width row)
    {chips : List A} (hchips : ∀ a ∈ airs, a ∈ chips) {m : SymMachine F ℕ} (hf : Fillable m subs)
    (hne : m.refs ≠ []) {σs : List (ℕ → F)}
    (hσ : List.Forall₂ (fun l σ => Explains m airs subs row l.records σ) log σs) :
    generateWitness gen chips (some o) airs subs m = .ok
      ((σs.map (fun σ => m.mainColumns.map σ) ++
        List.replicate (nextPowerOfTwoOrZero log.length - log.length)
          (List.replicate m.mainColumns.length 0)).flatten,
       σs.map fun σ => m.messages σ) := by
  obtain ⟨d, hd, hs, hi, hc, hcp, hcalls⟩ := C54_rows (F := F) h1 h2 hruns hest hm ho hg hchips hf.copied
  unfold generateWitness
  simp only
  rw [hd]
  simp only [bind, Except.bind]
  unfold fillWitness
  have hcl : d.columns.length ≠ 0 := by
    rw [hc]
    intro h0
    apply hne
    rw [List.eq_nil_iff_forall_not_mem]
    intro x hx
    have := mem_mainColumns.2 hx
    rw [List.eq_nil_of_length_eq_zero h0] at this
    cases this
  simp only
  rw [if_neg hcl, hcalls]
  have hdl : d.dummyValues.length = log.length := by
    have := congrArg List.length hs
    simpa using this
  have hsl : log.length = σs.length := hσ.length_eq
  have htake : d.dummyValues.take (nextPowerOfTwoOrZero log.length) = d.dummyValues :=
    List.take_of_length_le (by rw [hdl]; exact clog_ge _)
  have hfill : d.dummyValues.mapM (fun refs => witnessRow d m.bus refs (List.replicate d.columns.length 0)) =
      .ok (σs.map fun σ => (m.mainColumns.map σ, m.messages σ)) := by
    have key : ∀ (dv : List (List (RowReference F))) (log : List (CallLog S R)) (σs : List (ℕ → F)),
        (∀ l ∈ log, airs.length = l.records.length) →
        dv.map (fun refs => refs.map RowReference.slice) =
          (log.map fun l => (keptRecords airs subs l.records).map fun x => .ok (row x.1 x.2)) →
        List.Forall₂ (fun l σ => Explains m airs subs row l.records σ) log σs →
        dv.mapM (fun refs => witnessRow d m.bus refs (List.replicate d.columns.length 0)) =
          .ok (σs.map fun σ => (m.mainColumns.map σ, m.messages σ)) := by
      intro dv
      induction dv with
      | nil =>
        intro log σs _ h3 h4
        cases log with
        | nil =>
          cases h4
          rfl
        | cons l log => cases h3
      | cons refs dv ih =>
        intro log σs hll h3 h4
        cases h4 with
        | nil => cases h3
        | @cons l σ log σs h5 h6 =>
          rw [List.map_cons, List.map_cons, List.cons.injEq] at h3
          rw [List.mapM_cons, witnessRow_ok h1 (hll l List.mem_cons_self) hc hcp hi h3.1 hf h5,
            ih log σs (fun x hx => hll x (List.mem_cons_of_mem _ hx)) h3.2 h6]
          rfl
    refine key _ log σs (fun l hl => ?_) hs hσ
    rw [← h2, (hruns l hl).length]
  rw [htake, hfill]
  simp only [bind, Except.bind, pure, Except.pure, List.map_map, List.length_map, ← hsl, hc]
  rfl

/-- **C64.** The columns of the matrix: the columns of the machine, each once, in increasing order of their ids. -/
theorem C64_columns (m : SymMachine F ℕ) :
    m.mainColumns.Pairwise (· < ·) ∧ ∀ id, id ∈ m.mainColumns ↔ id ∈ m.refs :=
  ⟨(mainColumns_sorted m).and (mainColumns_nodup m) |>.imp fun h => lt_of_le_of_ne h.1 h.2,
    fun _ => mem_mainColumns⟩

/-- **C64.** A precompile that was not called has an empty matrix and sends nothing. -/
theorem C64_not_called {gen : A → List R → DummyTrace F} {chips : List A} {airs : List A}
    {subs : List (List (ℕ × ℕ))} {m : SymMachine F ℕ} :
    generateWitness gen chips none airs subs m = .ok ([], []) := rfl

/-- **C64.** The precondition is needed: if a computed column does not occur in the machine, trace generation panics after
the first call. -/
theorem C64_panics {gen : A → List R → DummyTrace F} {chips : List A} {o : OriginalArenas A R}
    {airs : List A} {subs : List (List (ℕ × ℕ))} {m : SymMachine F ℕ} (hcalls : o.numberOfCalls ≠ 0)
    {x : ℕ × SymMethod F ℕ} (hx : x ∈ m.derived)
    (hbad : x.1 ∉ m.refs ∨ ∃ e1 e2, x.2 = .quotientOrZero e1 e2 ∧ ∃ r, e2 = .reference r ∧ r ∉ m.refs) :
    ∀ r, generateWitness gen chips (some o) airs subs m ≠ .ok r := by
  intro r hr
  unfold generateWitness at hr
  simp only [bind, Except.bind] at hr
  cases hd : generateTrace (dummyTraces gen chips.reverse o) o.numberOfCalls airs subs m with
  | error e => rw [hd] at hr; cases hr
  | ok d =>
    rw [hd] at hr
    simp only at hr
    have hdd : d.columns = m.mainColumns ∧ d.compute = m.derived := by
      unfold generateTrace at hd
      split at hd
      · cases hd
      · simp only [bind, Except.bind] at hd
        split at hd
        · cases hd
        · split at hd
          · cases hd
          · cases hd
            exact ⟨rfl, rfl⟩
    obtain ⟨hl, -⟩ := generateTrace_reference hd
    have hfold : ∀ (l : List (ℕ × SymMethod F ℕ)) (row row' : List F), x ∈ l →
        l.foldlM (computeColumn d.columns) row = .ok row' → False := by
      intro l
      induction l with
      | nil => intro _ _ h; cases h
      | cons y t ih =>
        intro row row' hy h
        rw [List.foldlM_cons] at h
        simp only [bind, Except.bind] at h
        cases hy' : computeColumn d.columns row y with
        | error e => rw [hy'] at h; cases h
        | ok row1 =>
          rw [hy'] at h
          rcases List.mem_cons.1 hy with rfl | hy
          · unfold computeColumn at hy'
            rcases hbad with hbad | ⟨e1, e2, he, r', rfl, hr'⟩
            · rw [columnIndex, if_neg (by rw [hdd.1]; exact fun h => hbad (mem_mainColumns.1 h))] at hy'
              cases hy'
            · have hv : computeValue d.columns row x.2 = .error .assertion := by
                rw [he, computeValue, evalRow, rowValue, columnIndex,
                  if_neg (by rw [hdd.1]; exact fun h => hr' (mem_mainColumns.1 h))]
                rfl
              rw [hv] at hy'
              simp only [bind, Except.bind] at hy'
              split at hy' <;> cases hy'
          · exact ih row1 row' hy h
    unfold fillWitness at hr
    simp only at hr
    split at hr
    · cases hr
    · simp only [bind, Except.bind] at hr
      have hpos : 0 < nextPowerOfTwoOrZero o.numberOfCalls := lt_of_lt_of_le (Nat.pos_of_ne_zero hcalls) (clog_ge _)
      obtain ⟨refs, t, hdv⟩ : ∃ refs t, d.dummyValues = refs :: t := by
        cases hdv : d.dummyValues with
        | nil =>
          rw [hdv] at hl
          exact absurd hl.symm hcalls
        | cons refs t => exact ⟨refs, t, rfl⟩
      obtain ⟨n, hn⟩ := Nat.exists_eq_succ_of_ne_zero (Nat.pos_iff_ne_zero.1 hpos)
      rw [hdv, hn, List.take_succ_cons, List.mapM_cons] at hr
      simp only [bind, Except.bind] at hr
      cases hw : witnessRow d m.bus refs (List.replicate d.columns.length 0) with
      | error e => rw [hw] at hr; cases hr
      | ok w =>
        unfold witnessRow at hw
        split at hw
        · cases hw
        · simp only [bind, Except.bind] at hw
          split at hw
          · cases hw
          · rename_i row1 _
            split at hw
            · cases hw
            · rename_i row2 h2
              exact hfold d.compute row1 row2 (by rw [hdd.2]; exact hx) h2

end

/-- **C64.** With guards: let `m0` be the optimized machine and `m` the machine with guards. If the assignments satisfy
`m0`, then every row of the matrix satisfies `m`, the messages of the calls are those of `m0`, and the rows of padding
send nothing. -/
theorem C64_satisfied {A R : Type} {p : ℕ} [Fact p.Prime] {m0 m : SymMachine (ZMod p) ℕ}
    {alloc alloc' : ColumnAllocator} (hguard : addGuards m0 alloc = .ok (m, alloc')) {airs : List A}
    {subs : List (List (ℕ × ℕ))} {row : A → R → List (ZMod p)} {records : List R} {σ : ℕ → ZMod p}
    (hσ : Explains m airs subs row records σ) (hm0 : m0.Holds σ) :
    m.Holds (columnValue m.mainColumns (m.mainColumns.map σ)) ∧
    m.messages (columnValue m.mainColumns (m.mainColumns.map σ)) = m0.messages σ ∧
    m.Holds (columnValue m.mainColumns (List.replicate m.mainColumns.length 0)) ∧
    ∀ x ∈ m.messages (columnValue m.mainColumns (List.replicate m.mainColumns.length 0)), x.2.1 = 0 := by
  have h1 : σ alloc.nextPolyId = 1 := by
    have := hσ.computed (alloc.nextPolyId, .constant 1) (by
      rw [(C37_column hguard).1]
      simp)
    exact this
  obtain ⟨h2, h3⟩ := C37_active hguard h1
  have href : ∀ e ∈ m.exprs, ∀ r ∈ e.refs, r ∈ m.mainColumns := fun e he r hr =>
    mem_mainColumns.2 (List.mem_flatMap.2 ⟨e, he, hr⟩)
  have hval : ∀ e ∈ m.exprs, e.value (columnValue m.mainColumns (m.mainColumns.map σ)) = e.value σ := fun e he =>
    value_congr e fun r hr => columnValue_map (href e he r hr)
  have hz : columnValue m.mainColumns (List.replicate m.mainColumns.length 0) = fun _ => (0 : ZMod p) := by
    funext id
    simp [columnValue, List.getD_eq_getElem?_getD, List.getElem?_replicate]
    split <;> rfl
  refine ⟨?_, ?_, ?_, ?_⟩
  · intro e he
    rw [hval e (List.mem_append_left _ he)]
    exact h2.2 hm0 e he
  · rw [← h3]
    refine List.map_congr_left fun b hb => ?_
    have hb' : ∀ e ∈ b.mult :: b.args, e ∈ m.exprs := fun e he =>
      List.mem_append_right _ (List.mem_flatMap.2 ⟨b, hb, he⟩)
    unfold SymBus.message
    rw [hval _ (hb' _ List.mem_cons_self)]
    congr 2
    exact List.map_congr_left fun e he => hval e (hb' e (List.mem_cons_of_mem _ he))
  · rw [hz]
    exact C37_padding hguard
  · rw [hz]
    exact C37_inactive hguard rfl (C37_padding hguard)

/-! ### A sample

Chips `0` and `1`; three instructions on chips `0`, `1`, `0`. The second has no column left. The state is a number; the
record of an instruction is the state before. The rows of chip `0` are `[r, r + 1]`. -/

def sampleStep (i : ℕ) (s : ℕ) : Option (ℕ × ℕ) := if s < 100 then some (s + i, s) else none

def sampleAirs : List ℕ := [0, 1, 0]

def sampleSubs : List (List (ℕ × ℕ)) := [[(0, 2), (1, 5)], [], [(1, 4)]]

/-- The columns 2, 5 and 4 are copied; `x7 = x2 / x5` or zero, and `x9 = 1`. -/
def sampleMachine : SymMachine (ZMod 17) ℕ where
  constraints := [.binary (.reference 7) .mul (.reference 9)]
  bus := [⟨3, .reference 9, [.reference 2, .binary (.reference 5) .add (.reference 4)]⟩]
  derived := [(7, .quotientOrZero (.reference 2) (.reference 5)), (9, .constant 1)]

def sampleRow (a r : ℕ) : List (ZMod 17) := if a = 0 then [r, r + 1] else [r]

def sampleWidth (a : ℕ) : ℕ := if a = 0 then 2 else 1

def sampleGen (a : ℕ) (rs : List ℕ) : DummyTrace (ZMod 17) := ⟨sampleWidth a, rs.flatMap (sampleRow a) ++ [0, 0]⟩

theorem sampleGen_writes : WritesRows sampleGen sampleWidth sampleRow := by
  refine ⟨fun a r => ?_, fun a rs => ⟨rfl, _, rfl⟩⟩
  unfold sampleRow sampleWidth
  split <;> rfl

instance fact_17 : Fact (Nat.Prime 17) := ⟨by norm_num⟩

/-- Three calls, from the states 3, 20 and 50. -/
example : (match cachedMetas sampleAirs sampleSubs with
    | .ok metas =>
      match executeSegment sampleStep [1, 2, 3] sampleAirs sampleSubs metas 5 [3, 20, 50] none with
      | .ok (ss, some o) => decide (ss = [9, 26, 56] ∧ o.numberOfCalls = 3) &&
        match generateWitness sampleGen [0, 1] (some o) sampleAirs sampleSubs sampleMachine with
        | .ok (values, messages) => decide (values =
            [3, 7, 4, 5, 1, 20, 24, 21, 5, 1, 50, 54, 51, 0, 1, 0, 0, 0, 0, 0] ∧
            messages = [[(3, 1, [3, 11])], [(3, 1, [20, 45])], [(3, 1, [50, 105])]])
        | _ => false
      | _ => false
    | _ => false) = true := by decide +kernel

/-- The machine can be filled. -/
example : Fillable sampleMachine sampleSubs where
  copied := by
    rintro id ⟨s, hs, c, hc⟩
    simp only [sampleSubs, List.mem_cons, List.not_mem_nil, or_false] at hs
    rcases hs with rfl | rfl | rfl <;> simp only [List.mem_cons, Prod.mk.injEq, List.not_mem_nil, or_false] at hc
    · rcases hc with ⟨-, rfl⟩ | ⟨-, rfl⟩ <;> decide
    · obtain ⟨-, rfl⟩ := hc
      decide
  computed := by
    intro before d after h
    have hc : ∀ id c s, s ∈ sampleSubs → (c, id) ∈ s → IsCopied sampleSubs id := fun id c s h1 h2 => ⟨s, h1, c, h2⟩
    cases before with
    | nil =>
      simp only [sampleMachine, List.nil_append, List.cons.injEq] at h
      obtain ⟨rfl, -⟩ := h
      refine ⟨by decide, fun r hr => ?_⟩
      simp only [SymMethod.refs, AlgExpr.refs, List.cons_append, List.nil_append, List.mem_cons, List.not_mem_nil,
        or_false] at hr
      rcases hr with rfl | rfl
      · exact ⟨by decide, .inl (hc 2 0 _ (List.mem_cons_self) (by simp))⟩
      · exact ⟨by decide, .inl (hc 5 1 _ (List.mem_cons_self) (by simp))⟩
    | cons b before =>
      cases before with
      | nil =>
        simp only [sampleMachine, List.cons_append, List.nil_append, List.cons.injEq] at h
        obtain ⟨-, rfl, -⟩ := h
        exact ⟨by decide, fun r hr => by cases hr⟩
      | cons b' before =>
        simp only [sampleMachine, List.cons_append, List.cons.injEq] at h
        obtain ⟨-, -, h⟩ := h
        simp at h
  covered := by
    intro id hid
    have : ∀ id ∈ sampleMachine.refs, id = 7 ∨ id = 9 ∨ id = 2 ∨ id = 5 ∨ id = 4 := by decide
    rcases this id hid with rfl | rfl | rfl | rfl | rfl
    · exact .inr ⟨_, List.mem_cons_self, rfl⟩
    · exact .inr ⟨_, List.mem_cons_of_mem _ List.mem_cons_self, rfl⟩
    · exact .inl ⟨_, List.mem_cons_self, 0, by simp⟩
    · exact .inl ⟨_, List.mem_cons_self, 1, by simp⟩
    · exact .inl ⟨_, List.mem_cons_of_mem _ (List.mem_cons_of_mem _ List.mem_cons_self), 1, by simp⟩

/-- The assignment for the first call. -/
example : Explains sampleMachine sampleAirs sampleSubs sampleRow [3, 4, 6]
    (fun id => ([0, 0, 3, 0, 7, 4, 0, 5, 0, 1] : List (ZMod 17)).getD id 0) where
  copied := by
    intro k a s r h1 h2 h3 c id hc
    match k with
    | 0 =>
      cases h1; cases h2; cases h3
      simp only [List.mem_cons, Prod.mk.injEq, List.not_mem_nil, or_false] at hc
      rcases hc with ⟨rfl, rfl⟩ | ⟨rfl, rfl⟩ <;> decide
    | 1 =>
      cases h2
      cases hc
    | 2 =>
      cases h1; cases h2; cases h3
      simp only [List.mem_cons, Prod.mk.injEq, List.not_mem_nil, or_false] at hc
      obtain ⟨rfl, rfl⟩ := hc
      decide
    | k + 3 => cases h1
  computed := by
    intro d hd
    simp only [sampleMachine, List.mem_cons, List.not_mem_nil, or_false] at hd
    rcases hd with rfl | rfl <;> decide +kernel

/-- A case of `C64_satisfied`: the machine `guardSample`, one instruction on chip `0` with both columns kept, and a chip
whose rows are `[r, 3 / r]`; the call has the record `1`. -/
example : ∃ m alloc', addGuards guardSample ⟨[[0, 1]], 2⟩ = .ok (m, alloc') ∧
    guardSample.Holds (fun v => ([1, 3, 1] : List (ZMod 17)).getD v 0) ∧
    Explains m [0] [[(0, 0), (1, 1)]] (fun _ (r : ZMod 17) => [r, 3 / r]) [1]
      (fun v => ([1, 3, 1] : List (ZMod 17)).getD v 0) := by
  cases h : addGuards guardSample ⟨[[0, 1]], 2⟩ with
  | error e =>
    have : (addGuards guardSample ⟨[[0, 1]], 2⟩).toOption.isSome = true := by decide +kernel
    rw [h] at this
    cases this
  | ok r =>
    refine ⟨r.1, r.2, rfl, ?_, ?_, ?_⟩
    · unfold SymMachine.Holds
      decide
    · intro k a s r h1 h2 h3 c id hc
      match k with
      | 0 =>
        cases h1; cases h2; cases h3
        simp only [List.mem_cons, Prod.mk.injEq, List.not_mem_nil, or_false] at hc
        rcases hc with ⟨rfl, rfl⟩ | ⟨rfl, rfl⟩ <;> decide +kernel
      | k + 1 => cases h1
    · intro d hd
      rw [(C37_column (m' := r.1) (a' := r.2) h).1] at hd
      simp only [guardSample, List.nil_append, List.mem_cons, List.not_mem_nil, or_false] at hd
      subst hd
      decide +kernel

end Verif
