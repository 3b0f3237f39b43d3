import Verif.Proofs.TraceGen

/-!
# Proofs about the rows read by `generate_trace`
-/

set_option linter.unusedSectionVars false

namespace Verif

section
variable {A R F : Type} [LinearOrder A]

/-! ## The traces of the chips -/

/-- Different names have different arenas. -/
def IndexInjective (index : List (A × ℕ)) : Prop :=
  ∀ a b y z, index.find? (fun y => y.1 = a) = some y → index.find? (fun y => y.1 = b) = some z → y.2 = z.2 → a = b

theorem arenaIndexOf_injective {dims : List (A × ArenaDimension)} (hs : KeysSorted dims) :
    IndexInjective (arenaIndexOf dims) := by
  intro a b y z hy hz e
  obtain ⟨-, d, h1, -⟩ := arenaIndex_spec hs hy
  obtain ⟨-, d', h2, -⟩ := arenaIndex_spec hs hz
  rw [e, h2] at h1
  simpa using congrArg Prod.fst (Option.some.inj h1).symm

theorem dummyTraces_find (gen : A → List R → DummyTrace F) {a : A} (chips : List A) (o : OriginalArenas A R)
    (hi : IndexInjective o.index) (ha : a ∈ chips) {y : A × ℕ} (hy : o.index.find? (fun y => y.1 = a) = some y)
    {q : RecordArenaPair R} (hq : o.arenas[y.2]? = some (some q)) :
    (dummyTraces gen chips o).find? (fun y => y.1 = a) = some (a, gen a q.real.records) := by
  induction chips generalizing o with
  | nil => cases ha
  | cons c t ih =>
    by_cases hca : c = a
    · subst hca
      have : o.takeReal c = (some q.real, { o with arenas := o.arenas.set y.2 none }) := by
        unfold OriginalArenas.takeReal
        rw [hy]
        simp only
        rw [hq]
      rw [dummyTraces, this]
      simp
    · have ha' : a ∈ t := (List.mem_cons.1 ha).resolve_left (Ne.symm hca)
      unfold dummyTraces OriginalArenas.takeReal
      cases hc : o.index.find? (fun y => y.1 = c) with
      | none => exact ih o hi ha' hy hq
      | some z =>
        have hne : z.2 ≠ y.2 := fun e => hca (hi c a z y hc hy e)
        simp only
        cases hz : o.arenas[z.2]? with
        | none => exact ih o hi ha' hy hq
        | some w =>
          cases w with
          | none => exact ih o hi ha' hy hq
          | some q' =>
            simp only [List.find?_cons, hca, decide_false]
            refine ih _ hi ha' hy ?_
            simp only
            rw [List.getElem?_set_ne hne, hq]

/-! ## Offsets -/

theorem tableOffsets_get (ids : List A) (counts : A → ℕ) (k : ℕ) :
    (tableOffsets ids counts)[k]? = ids[k]?.map fun a => counts a + (ids.take k).count a := by
  induction ids generalizing counts k with
  | nil => simp [tableOffsets]
  | cons a t ih =>
    cases k with
    | zero => simp [tableOffsets]
    | succ k =>
      rw [tableOffsets, List.getElem?_cons_succ, ih, List.getElem?_cons_succ, List.take_succ_cons]
      congr 1
      funext b
      rw [List.count_cons, Function.update_apply]
      by_cases h : b = a
      · subst h
        simp
        omega
      · have : a ≠ b := Ne.symm h
        simp [h, this]

theorem tableOffsets_length (ids : List A) (counts : A → ℕ) : (tableOffsets ids counts).length = ids.length := by
  induction ids generalizing counts with
  | nil => rfl
  | cons a t ih => simp [tableOffsets, ih]

theorem filter_get_count {B : Type} (l : List (A × B)) {k : ℕ} {a : A} {x : B} (h : l[k]? = some (a, x)) :
    ((l.filter fun y => decide (y.1 = a)).map Prod.snd)[((l.map Prod.fst).take k).count a]? = some x := by
  induction l generalizing k with
  | nil => simp at h
  | cons y t ih =>
    cases k with
    | zero =>
      simp only [List.getElem?_cons_zero, Option.some.injEq] at h
      subst h
      simp
    | succ k =>
      rw [List.getElem?_cons_succ] at h
      have := ih h
      rw [List.map_cons, List.take_succ_cons, List.count_cons, List.filter_cons]
      by_cases hy : y.1 = a
      · simpa [hy] using this
      · simpa [hy] using this

theorem slice_flatMap {B : Type} (g : B → List F) (w : ℕ) (l : List B) (hw : ∀ y ∈ l, (g y).length = w)
    (pad : List F) {i : ℕ} {x : B} (h : l[i]? = some x) :
    ((l.flatMap g ++ pad).drop (i * w)).take w = g x ∧ i * w + w ≤ (l.flatMap g ++ pad).length := by
  induction l generalizing i with
  | nil => simp at h
  | cons y t ih =>
    have hy := hw y List.mem_cons_self
    cases i with
    | zero =>
      simp only [List.getElem?_cons_zero, Option.some.injEq] at h
      subst h
      rw [List.flatMap_cons, List.append_assoc, Nat.zero_mul, List.drop_zero, Nat.zero_add]
      constructor
      · rw [← hy]
        exact List.take_left
      · simp [hy]
    | succ i =>
      rw [List.getElem?_cons_succ] at h
      obtain ⟨h1, h2⟩ := ih (fun z hz => hw z (List.mem_cons_of_mem _ hz)) h
      rw [List.flatMap_cons, List.append_assoc]
      constructor
      · rw [show (i + 1) * w = (g y).length + i * w by rw [hy, Nat.add_mul, Nat.one_mul, Nat.add_comm],
          List.drop_append, List.drop_of_length_le (by omega)]
        simpa using h1
      · rw [List.length_append, hy, Nat.add_mul, Nat.one_mul]
        omega

theorem flatMap_get_const {B C : Type} (g : B → List C) (n : ℕ) (l : List B) (hn : ∀ y ∈ l, (g y).length = n)
    {i j : ℕ} {x : B} (h : l[i]? = some x) (hj : j < n) : (l.flatMap g)[i * n + j]? = (g x)[j]? := by
  induction l generalizing i with
  | nil => simp at h
  | cons y t ih =>
    have hy := hn y List.mem_cons_self
    rw [List.flatMap_cons]
    cases i with
    | zero =>
      simp only [List.getElem?_cons_zero, Option.some.injEq] at h
      subst h
      rw [Nat.zero_mul, Nat.zero_add, List.getElem?_append_left (by omega)]
    | succ i =>
      rw [List.getElem?_cons_succ] at h
      rw [List.getElem?_append_right (by rw [hy, Nat.add_mul]; omega)]
      rw [show (i + 1) * n + j - (g y).length = i * n + j by rw [hy, Nat.add_mul]; omega]
      exact ih (fun z hz => hn z (List.mem_cons_of_mem _ hz)) h

/-! ## Records of the kept instructions -/

variable {S : Type}

theorem recordsOf_kept (airs : List A) (subs : List (List (ℕ × ℕ))) (rs : List R) (a : A) :
    recordsOf true a ((tagsOf airs subs).zip rs) =
      ((keptRecords airs subs rs).filter fun x => decide (x.1 = a)).map Prod.snd := by
  unfold tagsOf keptRecords recordsOf
  generalize airs.zip subs = l
  induction l generalizing rs with
  | nil => simp
  | cons x t ih =>
    cases rs with
    | nil => simp
    | cons r rs =>
      have := ih rs
      obtain ⟨b, s⟩ := x
      simp only [List.map_cons, List.zip_cons_cons, List.filter_cons]
      cases s with
      | nil => simpa using this
      | cons z s =>
        by_cases hb : b = a
        · simpa [hb] using this
        · simpa [hb] using this

theorem recordsOf_all (airs : List A) (subs : List (List (ℕ × ℕ))) (log : List (CallLog S R)) (a : A) :
    recordsOf true a (allEvents (tagsOf airs subs) log) = log.flatMap fun l =>
      ((keptRecords airs subs l.records).filter fun x => decide (x.1 = a)).map Prod.snd := by
  induction log with
  | nil => rfl
  | cons l t ih =>
    rw [allEvents, List.flatMap_cons, recordsOf_append, List.flatMap_cons, recordsOf_kept]
    rw [allEvents] at ih
    rw [ih]

theorem keptRecords_airs (airs : List A) (subs : List (List (ℕ × ℕ))) (rs : List R)
    (h1 : airs.length = subs.length) (h2 : airs.length = rs.length) :
    (keptRecords airs subs rs).map Prod.fst = keptAirs airs subs := by
  unfold keptRecords keptAirs
  have h : (airs.zip subs).length = rs.length := by simp [← h1, h2]
  clear h1 h2
  revert h
  generalize airs.zip subs = l
  intro h
  induction l generalizing rs with
  | nil => simp
  | cons x t ih =>
    cases rs with
    | nil => cases h
    | cons r rs =>
      have := ih rs (by simpa using h)
      obtain ⟨b, s⟩ := x
      rw [List.zip_cons_cons, List.filter_cons, List.filter_cons]
      cases s with
      | nil => simpa using this
      | cons z s => simpa using this

theorem keptAirs_mem {airs : List A} {subs : List (List (ℕ × ℕ))} {a : A} (h : a ∈ keptAirs airs subs) :
    a ∈ airs ∧ (a, true) ∈ tagsOf airs subs := by
  obtain ⟨x, hx, rfl⟩ := List.mem_map.1 h
  obtain ⟨h1, h2⟩ := List.mem_filter.1 hx
  exact ⟨(List.of_mem_zip h1).1, List.mem_map.2 ⟨x, h1, by simp [h2]⟩⟩

theorem length_filter_fst {B : Type} (l : List (A × B)) (a : A) :
    ((l.filter fun x => decide (x.1 = a)).map Prod.snd).length = (l.map Prod.fst).count a := by
  induction l with
  | nil => rfl
  | cons x t ih =>
    rw [List.filter_cons, List.map_cons, List.count_cons]
    by_cases h : x.1 = a
    · simpa [h] using ih
    · simpa [h] using ih

/-- The row read for an instruction of a call. -/
theorem row_read {airs : List A} {subs : List (List (ℕ × ℕ))} (h1 : airs.length = subs.length)
    {log : List (CallLog S R)} (h2 : ∀ l ∈ log, airs.length = l.records.length)
    {gen : A → List R → DummyTrace F} {width : A → ℕ} {row : A → R → List F} (hg : WritesRows gen width row)
    {i k : ℕ} {l : CallLog S R} (hi : log[i]? = some l) {a : A} {r : R}
    (hk : (keptRecords airs subs l.records)[k]? = some (a, r)) :
    (tableOffsets (keptAirs airs subs) fun _ => 0)[k]? = some (((keptAirs airs subs).take k).count a) ∧
    ((keptAirs airs subs).take k).count a < (keptAirs airs subs).count a ∧
    (recordsOf true a (allEvents (tagsOf airs subs) log))[i * (keptAirs airs subs).count a +
      ((keptAirs airs subs).take k).count a]? = some r ∧
    RowReference.slice ⟨(gen a (recordsOf true a (allEvents (tagsOf airs subs) log))).values,
      (i * (keptAirs airs subs).count a + ((keptAirs airs subs).take k).count a) *
        (gen a (recordsOf true a (allEvents (tagsOf airs subs) log))).width,
      (gen a (recordsOf true a (allEvents (tagsOf airs subs) log))).width⟩ = .ok (row a r) := by
  have hl := List.mem_of_getElem? hi
  have hka := keptRecords_airs airs subs l.records h1 (h2 l hl)
  have hkk : (keptAirs airs subs)[k]? = some a := by
    rw [← hka, List.getElem?_map, hk]
    rfl
  have h4 := filter_get_count _ hk
  rw [hka] at h4
  have hlen : ∀ y ∈ log, (((keptRecords airs subs y.records).filter fun x => decide (x.1 = a)).map
      Prod.snd).length = (keptAirs airs subs).count a := by
    intro y hy
    rw [length_filter_fst, keptRecords_airs airs subs y.records h1 (h2 y hy)]
  have h5 : ((keptAirs airs subs).take k).count a < (keptAirs airs subs).count a := by
    rw [← hlen l hl]
    exact (List.getElem?_eq_some_iff.1 h4).1
  have h6 : (recordsOf true a (allEvents (tagsOf airs subs) log))[i * (keptAirs airs subs).count a +
      ((keptAirs airs subs).take k).count a]? = some r := by
    rw [recordsOf_all, flatMap_get_const _ _ _ hlen hi h5, h4]
  refine ⟨by rw [tableOffsets_get, hkk]; simp, h5, h6, ?_⟩
  obtain ⟨h7, h8⟩ := hg
  obtain ⟨h9, pad, h10⟩ := h8 a (recordsOf true a (allEvents (tagsOf airs subs) log))
  obtain ⟨h11, h12⟩ := slice_flatMap (row a) (width a) _ (fun y _ => h7 a y) pad h6
  rw [RowReference.slice]
  simp only
  rw [h9, h10, if_pos h12, h11]

end

end Verif
