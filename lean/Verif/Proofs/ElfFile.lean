import Verif.Proofs.ElfProgram
import Verif.Proofs.Expression

/-!
# Labels and segments of a file
-/

set_option linter.unusedSectionVars false

namespace Verif

/-! ## Segments -/

theorem insertSegment_mem {s x : ElfSegment} {l : List ElfSegment} (h : x ∈ insertSegment s l) : x = s ∨ x ∈ l := by
  induction l with
  | nil => simpa [insertSegment] using h
  | cons y t ih =>
    rw [insertSegment] at h
    split at h
    · simpa using h
    · split at h
      · rcases List.mem_cons.1 h with h | h
        · exact .inl h
        · exact .inr (List.mem_cons_of_mem _ h)
      · rcases List.mem_cons.1 h with rfl | h
        · exact .inr List.mem_cons_self
        · rcases ih h with h | h
          · exact .inl h
          · exact .inr (List.mem_cons_of_mem _ h)

theorem mem_insertSegment_self (s : ElfSegment) (l : List ElfSegment) : s ∈ insertSegment s l := by
  induction l with
  | nil => simp [insertSegment]
  | cons y t ih =>
    rw [insertSegment]
    split
    · simp
    · split
      · simp
      · exact List.mem_cons_of_mem _ ih

theorem mem_insertSegment_of {s x : ElfSegment} {l : List ElfSegment} (h : x ∈ l) (hne : x.vaddr ≠ s.vaddr) :
    x ∈ insertSegment s l := by
  induction l with
  | nil => cases h
  | cons y t ih =>
    rw [insertSegment]
    split
    · exact List.mem_cons_of_mem _ h
    · split
      · rename_i e
        rcases List.mem_cons.1 h with rfl | h
        · exact absurd e.symm hne
        · exact List.mem_cons_of_mem _ h
      · rcases List.mem_cons.1 h with rfl | h
        · exact List.mem_cons_self
        · exact List.mem_cons_of_mem _ (ih h)

theorem insertSegment_sorted {s : ElfSegment} {l : List ElfSegment}
    (h : l.Pairwise fun a b => a.vaddr.toNat < b.vaddr.toNat) :
    (insertSegment s l).Pairwise fun a b => a.vaddr.toNat < b.vaddr.toNat := by
  induction l with
  | nil => simp [insertSegment]
  | cons y t ih =>
    rw [insertSegment]
    obtain ⟨h1, h2⟩ := List.pairwise_cons.1 h
    split
    · rename_i hlt
      refine List.pairwise_cons.2 ⟨?_, h⟩
      intro a ha
      rcases List.mem_cons.1 ha with rfl | ha
      · exact hlt
      · exact lt_trans hlt (h1 a ha)
    · rename_i hlt
      split
      · rename_i e
        exact List.pairwise_cons.2 ⟨fun a ha => e ▸ h1 a ha, h2⟩
      · rename_i hne
        refine List.pairwise_cons.2 ⟨?_, ih h2⟩
        intro a ha
        rcases insertSegment_mem ha with rfl | ha
        · exact lt_of_le_of_ne (not_lt.1 hlt) fun e => hne (BitVec.eq_of_toNat_eq e.symm)
        · exact h1 a ha

theorem foldl_insertSegment (loads : List ElfSegment) : ∀ (m : List ElfSegment),
    (m.Pairwise fun a b => a.vaddr.toNat < b.vaddr.toNat) →
    (∀ x ∈ m, ∀ s ∈ loads, x.vaddr ≠ s.vaddr) → (loads.map (·.vaddr)).Nodup →
    ((loads.foldl (fun m s => insertSegment s m) m).Pairwise fun a b => a.vaddr.toNat < b.vaddr.toNat) ∧
    ∀ x, x ∈ loads.foldl (fun m s => insertSegment s m) m ↔ x ∈ m ∨ x ∈ loads := by
  induction loads with
  | nil => exact fun m h _ _ => ⟨h, by simp⟩
  | cons s t ih =>
    intro m hm hd hn
    rw [List.map_cons, List.nodup_cons] at hn
    obtain ⟨i1, i2⟩ := ih (insertSegment s m) (insertSegment_sorted hm) (by
      intro x hx y hy
      rcases insertSegment_mem hx with rfl | hx
      · exact fun e => hn.1 (e ▸ List.mem_map_of_mem hy)
      · exact hd x hx y (List.mem_cons_of_mem _ hy)) hn.2
    refine ⟨i1, fun x => ?_⟩
    rw [List.foldl_cons, i2, List.mem_cons]
    constructor
    · rintro (h | h)
      · rcases insertSegment_mem h with h | h <;> tauto
      · tauto
    · rintro (h | rfl | h)
      · exact .inl (mem_insertSegment_of h (hd x h s List.mem_cons_self))
      · exact .inl (mem_insertSegment_self _ _)
      · exact .inr h

/-- The segments, in the order of their addresses. -/
theorem addressMap_spec {loads : List ElfSegment} (hn : (loads.map (·.vaddr)).Nodup) :
    ((addressMap loads).Pairwise fun a b => a.vaddr.toNat < b.vaddr.toNat) ∧
    ∀ x, x ∈ addressMap loads ↔ x ∈ loads := by
  obtain ⟨h1, h2⟩ := foldl_insertSegment loads [] .nil (by simp) hn
  exact ⟨h1, fun x => (h2 x).trans (by simp)⟩

/-- The segment that the lookup finds: the last one that does not begin after the address. -/
theorem sectionOfAddr_eq {loads : List ElfSegment} (hn : (loads.map (·.vaddr)).Nodup) {s : ElfSegment} (hs : s ∈ loads)
    {a : BitVec 32} (h1 : s.vaddr.toNat ≤ a.toNat)
    (h2 : ∀ x ∈ loads, s.vaddr.toNat < x.vaddr.toNat → a.toNat < x.vaddr.toNat) :
    sectionOfAddr (addressMap loads) a = if a.toNat > (s.vaddr + s.memsz).toNat then none else some s := by
  obtain ⟨hsort, hmem⟩ := addressMap_spec hn
  obtain ⟨pre, post, he⟩ := List.append_of_mem ((hmem s).2 hs)
  have hpost : post.filter (fun x => decide (x.vaddr.toNat ≤ a.toNat)) = [] := by
    rw [List.filter_eq_nil_iff]
    intro x hx
    rw [he, List.pairwise_append, List.pairwise_cons] at hsort
    have := h2 x ((hmem x).1 (by rw [he]; simp [hx])) (hsort.2.1.1 x hx)
    simpa using this
  unfold sectionOfAddr
  rw [he, List.filter_append, List.filter_cons_of_pos (by simpa using h1), hpost, List.getLast?_append]
  rfl

/-! ## Labels -/

theorem foldlM_grows {α : Type} {f : DataMap × List (BitVec 32) → α → Except Panic (DataMap × List (BitVec 32))}
    (hf : ∀ x a y, f x a = .ok y → x.2 ⊆ y.2) : ∀ {l : List α} {x y}, l.foldlM f x = .ok y → x.2 ⊆ y.2
  | [], x, y, h => by
    rw [List.foldlM_nil] at h
    cases h
    exact List.Subset.refl _
  | a :: t, x, y, h => by
    rw [List.foldlM_cons] at h
    cases ha : f x a with
    | error e => rw [ha] at h; cases h
    | ok z =>
      rw [ha] at h
      exact List.Subset.trans (hf x a z ha) (foldlM_grows hf h)

/-- Each step of a loop is in the result. -/
theorem foldlM_step {α : Type} {f : DataMap × List (BitVec 32) → α → Except Panic (DataMap × List (BitVec 32))}
    (hf : ∀ x a y, f x a = .ok y → x.2 ⊆ y.2) : ∀ {l : List α} {x y}, l.foldlM f x = .ok y → ∀ a ∈ l,
    ∃ x' y', f x' a = .ok y' ∧ y'.2 ⊆ y.2
  | [], _, _, _, a, ha => by cases ha
  | b :: t, x, y, h, a, ha => by
    rw [List.foldlM_cons] at h
    cases hb : f x b with
    | error e => rw [hb] at h; cases h
    | ok z =>
      rw [hb] at h
      rcases List.mem_cons.1 ha with rfl | ha
      · exact ⟨x, z, hb, foldlM_grows hf h⟩
      · exact foldlM_step hf h a ha

theorem scanSegment_grows {d : RvDecoder} {f : ElfFile} {m : List ElfSegment} (x : DataMap × List (BitVec 32))
    (s : ElfSegment) (y : DataMap × List (BitVec 32)) (h : scanSegment d f m x s = .ok y) : x.2 ⊆ y.2 := by
  unfold scanSegment at h
  split at h
  · simp only [bind, Except.bind] at h
    split at h
    · cases h
    · split at h
      · cases h
      · cases h
        exact List.subset_append_left _ _
  · cases h
    exact List.Subset.refl _

theorem pieRelocate_grows {m : List ElfSegment} (x : DataMap × List (BitVec 32)) (r : ElfReloc)
    (y : DataMap × List (BitVec 32)) (h : pieRelocate m x r = .ok y) : x.2 ⊆ y.2 := by
  unfold pieRelocate at h
  split at h
  · cases h
  · split at h
    · cases h
    · split at h
      · cases h
      · split at h
        · cases h
          exact List.subset_append_left _ _
        · cases h
          exact List.Subset.refl _

theorem staticRelocate_grows {m : List ElfSegment} (x : DataMap × List (BitVec 32)) (r : ElfReloc)
    (y : DataMap × List (BitVec 32)) (h : staticRelocate m x r = .ok y) : x.2 ⊆ y.2 := by
  unfold staticRelocate at h
  split at h
  · cases h
    exact List.Subset.refl _
  · split at h
    · cases h
    · split at h
      · split at h
        · cases h
          exact List.subset_append_left _ _
        · cases h
          exact List.Subset.refl _
      · cases h

theorem relocateData_inv {f : ElfFile} {m : List ElfSegment} {x y : DataMap × List (BitVec 32)}
    (h : relocateData f m x = .ok y) :
    (f.dynamic = true ∧ f.dynRelas.foldlM (pieRelocate m) x = .ok y ∧ f.dynRels = 0) ∨
    (f.dynamic = false ∧ f.relocs.foldlM (staticRelocate m) x = .ok y) := by
  unfold relocateData at h
  split at h
  · rename_i hd
    simp only [bind, Except.bind] at h
    split at h
    · cases h
    · rename_i z hz
      split at h
      · cases h
      · rename_i hr
        cases h
        exact .inl ⟨hd, hz, not_not.1 hr⟩
  · rename_i hd
    exact .inr ⟨by simpa using hd, h⟩

theorem relocateData_grows {f : ElfFile} {m : List ElfSegment} {x y : DataMap × List (BitVec 32)}
    (h : relocateData f m x = .ok y) : x.2 ⊆ y.2 := by
  rcases relocateData_inv h with ⟨-, h, -⟩ | ⟨-, h⟩
  · exact foldlM_grows pieRelocate_grows h
  · exact foldlM_grows staticRelocate_grows h

/-- The parts of loading a file. -/
theorem loadElf_inv {d : RvDecoder} {f : ElfFile} {prog : ElfProgram} (h : loadElf d f = .ok prog) :
    ∃ x y text, (addressMap f.loads).foldlM (scanSegment d f (addressMap f.loads)) (fun _ => none, [f.entry]) = .ok x ∧
      relocateData f (addressMap f.loads) x = .ok y ∧
      ((addressMap f.loads).filter fun s => s.executable).mapM (liftSegment d f (addressMap f.loads) y.2) = .ok text ∧
      prog = ⟨y.1, y.2, text.flatten, f.entry⟩ ∧ (f.dynamic = true ∨ f.relocs ≠ []) := by
  unfold loadElf at h
  simp only [bind, Except.bind] at h
  split at h
  · cases h
  · rename_i hc
    split at h
    · cases h
    · rename_i x hx
      split at h
      · cases h
      · rename_i y hy
        split at h
        · cases h
        · rename_i text ht
          cases h
          refine ⟨x, y, text, hx, hy, ht, rfl, ?_⟩
          by_cases hd : f.dynamic = true
          · exact .inl hd
          · right
            intro he
            apply hc
            simp [he, hd]

/-- The labels that are collected in an executable segment are labels of the program. -/
theorem segment_labels {d : RvDecoder} {f : ElfFile} {prog : ElfProgram} (h : loadElf d f = .ok prog)
    (hn : (f.loads.map (·.vaddr)).Nodup) {s : ElfSegment} (hs : s ∈ f.loads) (he : s.executable = true)
    {l : List MaybeIns} (hl : rvInstructions d s.vaddr s.bytes = .ok l) :
    ∃ hs, Lifter.lift ⟨relocatedText f, isInTextSection (addressMap f.loads), none⟩ l = .ok hs ∧
      codeLabels hs ⊆ prog.textLabels := by
  obtain ⟨x, y, text, h1, h2, -, rfl, -⟩ := loadElf_inv h
  obtain ⟨x', y', h4, h5⟩ := foldlM_step scanSegment_grows h1 s (((addressMap_spec hn).2 s).2 hs)
  unfold scanSegment at h4
  rw [if_pos he, hl] at h4
  simp only [bind, Except.bind] at h4
  split at h4
  · cases h4
  · rename_i hs' hlift
    cases h4
    exact ⟨hs', hlift, List.Subset.trans (List.Subset.trans (List.subset_append_right _ _) h5) (relocateData_grows h2)⟩

/-- The instructions of a program come from executable segments. -/
theorem instruction_segment {d : RvDecoder} {f : ElfFile} {prog : ElfProgram} (h : loadElf d f = .ok prog)
    (hn : (f.loads.map (·.vaddr)).Nodup) {i : LiftedIns} (hi : i ∈ prog.instructions) :
    ∃ s ∈ f.loads, s.executable = true ∧ ∃ l hs, rvInstructions d s.vaddr s.bytes = .ok l ∧
      Lifter.lift ⟨relocatedText f, isInTextSection (addressMap f.loads), some fun a => decide (a ∈ prog.textLabels)⟩ l =
        .ok hs ∧ i ∈ hs := by
  obtain ⟨x, y, text, -, -, h3, rfl, -⟩ := loadElf_inv h
  obtain ⟨hs, h4, h5⟩ := List.mem_flatten.1 hi
  have hf := mapM_ok h3
  obtain ⟨k, hk, rfl⟩ := List.mem_iff_getElem.1 h4
  have hlen := hf.length_eq
  have hg := hf.get (i := k) (by omega) hk
  have hmem := List.getElem_mem (l := (addressMap f.loads).filter fun s => s.executable) (n := k) (by omega)
  obtain ⟨m1, m2⟩ := List.mem_filter.1 hmem
  refine ⟨_, ((addressMap_spec hn).2 _).1 m1, m2, ?_⟩
  simp only [List.get_eq_getElem] at hg
  unfold liftSegment at hg
  simp only [bind, Except.bind] at hg
  split at hg
  · cases hg
  · rename_i l hl
    exact ⟨l, _, hl, hg, h5⟩

/-- Every executable segment is lifted, as a whole. -/
theorem segment_instructions {d : RvDecoder} {f : ElfFile} {prog : ElfProgram} (h : loadElf d f = .ok prog)
    (hn : (f.loads.map (·.vaddr)).Nodup) {s : ElfSegment} (hs : s ∈ f.loads) (he : s.executable = true) :
    ∃ l hs, rvInstructions d s.vaddr s.bytes = .ok l ∧
      Lifter.lift ⟨relocatedText f, isInTextSection (addressMap f.loads), some fun a => decide (a ∈ prog.textLabels)⟩ l =
        .ok hs ∧ hs <:+: prog.instructions := by
  obtain ⟨x, y, text, -, -, h3, rfl, -⟩ := loadElf_inv h
  have hf := mapM_ok h3
  have hm : s ∈ (addressMap f.loads).filter fun s => s.executable :=
    List.mem_filter.2 ⟨((addressMap_spec hn).2 s).2 hs, he⟩
  obtain ⟨k, hk, rfl⟩ := List.mem_iff_getElem.1 hm
  have hlen := hf.length_eq
  have hg := hf.get (i := k) hk (by omega)
  simp only [List.get_eq_getElem] at hg
  unfold liftSegment at hg
  simp only [bind, Except.bind] at hg
  split at hg
  · cases hg
  · rename_i l hl
    refine ⟨l, _, hl, hg, ?_⟩
    have := List.getElem_mem (l := text) (n := k) (by omega)
    obtain ⟨p, q, he⟩ := List.append_of_mem this
    refine ⟨p.flatten, q.flatten, ?_⟩
    conv_rhs => rw [he]
    simp

/-! ## Labels in the data -/

/-- The addresses of code in the data are labels. -/
def DataLabels (x : DataMap × List (BitVec 32)) : Prop := ∀ a v, x.1 a = some (.textLabel v) → v ∈ x.2

theorem loadDataSection_labels {b : List (BitVec 8)} (n : ℕ) (hn : b.length ≤ n) {addr : BitVec 32} {m : DataMap}
    (hm : ∀ a v, m a ≠ some (.textLabel v)) (a v : BitVec 32) :
    loadDataSection addr b m a ≠ some (.textLabel v) := by
  have key : ∀ (m : DataMap), (∀ a v, m a ≠ some (.textLabel v)) → ∀ x y a v, insertWord m x y a ≠ some (.textLabel v) := by
    intro m hm x y a v
    unfold insertWord
    split
    · rw [Function.update_apply]
      split
      · simp
      · exact hm a v
    · exact hm a v
  induction n generalizing b addr m with
  | zero =>
    obtain rfl := List.length_eq_zero_iff.1 (Nat.le_zero.1 hn)
    exact hm a v
  | succ n ih =>
    match b, hn with
    | [], _ => exact hm a v
    | [_], _ => exact key m hm _ _ a v
    | [_, _], _ => exact key m hm _ _ a v
    | [_, _, _], _ => exact key m hm _ _ a v
    | b0 :: b1 :: b2 :: b3 :: t, hn =>
      simp only [List.length_cons] at hn
      rw [loadDataSection]
      exact ih (by omega) (key m hm _ _)

theorem scan_noLabels {d : RvDecoder} {f : ElfFile} {m : List ElfSegment} : ∀ {l : List ElfSegment} {x y},
    l.foldlM (scanSegment d f m) x = .ok y → (∀ a v, x.1 a ≠ some (.textLabel v)) → ∀ a v, y.1 a ≠ some (.textLabel v)
  | [], x, y, h, hx => by
    rw [List.foldlM_nil] at h
    cases h
    exact hx
  | s :: t, x, y, h, hx => by
    rw [List.foldlM_cons] at h
    cases hs : scanSegment d f m x s with
    | error e => rw [hs] at h; cases h
    | ok z =>
      rw [hs] at h
      refine scan_noLabels h ?_
      unfold scanSegment at hs
      split at hs
      · simp only [bind, Except.bind] at hs
        split at hs
        · cases hs
        · split at hs
          · cases hs
          · cases hs
            exact hx
      · cases hs
        exact loadDataSection_labels _ le_rfl hx

theorem relocate_dataLabels {α : Type} {f : DataMap × List (BitVec 32) → α → Except Panic (DataMap × List (BitVec 32))}
    (hf : ∀ x a y, f x a = .ok y → DataLabels x → DataLabels y) : ∀ {l : List α} {x y}, l.foldlM f x = .ok y →
    DataLabels x → DataLabels y
  | [], x, y, h, hx => by
    rw [List.foldlM_nil] at h
    cases h
    exact hx
  | a :: t, x, y, h, hx => by
    rw [List.foldlM_cons] at h
    cases ha : f x a with
    | error e => rw [ha] at h; cases h
    | ok z =>
      rw [ha] at h
      exact relocate_dataLabels hf h (hf x a z ha hx)

theorem DataLabels.insert {x : DataMap × List (BitVec 32)} (hx : DataLabels x) (o w : BitVec 32) :
    DataLabels (Function.update x.1 o (some (.textLabel w)), x.2 ++ [w]) := by
  intro a v h
  simp only [Function.update_apply] at h
  split at h
  · cases h
    simp
  · exact List.mem_append_left _ (hx a v h)

theorem data_labels {d : RvDecoder} {f : ElfFile} {prog : ElfProgram} (h : loadElf d f = .ok prog) {a v : BitVec 32}
    (ha : prog.data a = some (.textLabel v)) : v ∈ prog.textLabels := by
  obtain ⟨x, y, text, h1, h2, -, rfl, -⟩ := loadElf_inv h
  have hx : DataLabels x := fun a v h => absurd h (scan_noLabels h1 (by simp) a v)
  have hy : DataLabels y := by
    rcases relocateData_inv h2 with ⟨-, h2, -⟩ | ⟨-, h2⟩
    · refine relocate_dataLabels ?_ h2 hx
      intro x r y h hx
      unfold pieRelocate at h
      split at h
      · cases h
      · split at h
        · cases h
        · split at h
          · cases h
          · split at h
            · cases h
              exact hx.insert _ _
            · cases h
              intro a v h
              simp only [Function.update_apply] at h
              split at h
              · cases h
              · exact hx a v h
    · refine relocate_dataLabels ?_ h2 hx
      intro x r y h hx
      unfold staticRelocate at h
      split at h
      · cases h
        exact hx
      · split at h
        · cases h
        · split at h
          · split at h
            · cases h
              exact hx.insert _ _
            · cases h
              exact hx
          · cases h
  exact hy a v ha

end Verif
