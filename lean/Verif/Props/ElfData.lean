import Verif.Proofs.ElfFile

/-!
# C78: the initial memory
-/

namespace Verif

/-- The word of an entry of the initial memory: the value, or the address of the label. -/
def ElfData.word : ElfData → BitVec 32
  | .value v => v
  | .textLabel v => v

/-- The word at an address of the initial memory: zero if there is none. -/
def DataMap.word (m : DataMap) (a : BitVec 32) : BitVec 32 := ((m a).map ElfData.word).getD 0

/-- Word number `k` of bytes, little-endian, with zeros after the end. -/
def fileWord (b : List (BitVec 8)) (k : ℕ) : BitVec 32 :=
  b.getD (4 * k + 3) 0 ++ b.getD (4 * k + 2) 0 ++ b.getD (4 * k + 1) 0 ++ b.getD (4 * k) 0

theorem insertWord_self {m : DataMap} {a : BitVec 32} (h : m a = none) (v : BitVec 32) :
    (insertWord m a v).word a = v := by
  unfold insertWord DataMap.word
  split
  · simp [ElfData.word]
  · rename_i h0
    rw [not_not.1 h0, h]
    rfl

theorem insertWord_ne {m : DataMap} {a b : BitVec 32} (h : b ≠ a) (v : BitVec 32) : insertWord m a v b = m b := by
  unfold insertWord
  split
  · rw [Function.update_of_ne h]
  · rfl

/-- Other addresses are not changed. -/
theorem loadDataSection_out (n : ℕ) {b : List (BitVec 8)} (hn : b.length ≤ n) {addr a : BitVec 32} {m : DataMap}
    (h : ∀ k, 4 * k < b.length → a ≠ addr + BitVec.ofNat 32 (4 * k)) : loadDataSection addr b m a = m a := by
  induction n generalizing b addr m with
  | zero =>
    obtain rfl := List.length_eq_zero_iff.1 (Nat.le_zero.1 hn)
    rfl
  | succ n ih =>
    have h0 : b ≠ [] → a ≠ addr := by
      intro hb
      have := h 0 (by have := List.length_pos_iff.2 hb; omega)
      simpa using this
    match b, hn, h, h0 with
    | [], _, _, _ => rfl
    | [_], _, _, h0 => exact insertWord_ne (h0 (by simp)) _
    | [_, _], _, _, h0 => exact insertWord_ne (h0 (by simp)) _
    | [_, _, _], _, _, h0 => exact insertWord_ne (h0 (by simp)) _
    | b0 :: b1 :: b2 :: b3 :: t, hn, h, h0 =>
      simp only [List.length_cons] at hn h
      rw [loadDataSection, ih (by omega), insertWord_ne (h0 (by simp))]
      intro k hk
      have := h (k + 1) (by omega)
      rw [Nat.mul_add, Nat.add_comm, BitVec.ofNat_add, ← BitVec.add_assoc] at this
      exact this

/-- The words of the bytes are in memory. -/
theorem loadDataSection_in (n : ℕ) {b : List (BitVec 8)} (hn : b.length ≤ n) (hb : b.length ≤ 2 ^ 32) {addr : BitVec 32}
    {m : DataMap} {k : ℕ} (hk : 4 * k < b.length) (hm : m (addr + BitVec.ofNat 32 (4 * k)) = none) :
    (loadDataSection addr b m).word (addr + BitVec.ofNat 32 (4 * k)) = fileWord b k := by
  induction n generalizing b addr m k with
  | zero => omega
  | succ n ih =>
    match b, hn, hb, hk with
    | [], _, _, hk => simp at hk
    | [b0], _, _, hk =>
      obtain rfl : k = 0 := by simp at hk; omega
      simp only [Nat.mul_zero, BitVec.add_zero] at hm ⊢
      exact insertWord_self hm _
    | [b0, b1], _, _, hk =>
      obtain rfl : k = 0 := by simp at hk; omega
      simp only [Nat.mul_zero, BitVec.add_zero] at hm ⊢
      exact insertWord_self hm _
    | [b0, b1, b2], _, _, hk =>
      obtain rfl : k = 0 := by simp at hk; omega
      simp only [Nat.mul_zero, BitVec.add_zero] at hm ⊢
      exact insertWord_self hm _
    | b0 :: b1 :: b2 :: b3 :: t, hn, hb, hk =>
      simp only [List.length_cons] at hn hb hk
      rw [loadDataSection]
      have hshift : ∀ j : ℕ, addr + 4 + BitVec.ofNat 32 (4 * j) = addr + BitVec.ofNat 32 (4 * (j + 1)) := by
        intro j
        rw [Nat.mul_add, Nat.add_comm (4 * j), BitVec.ofNat_add, ← BitVec.add_assoc]
        rfl
      have hdist : ∀ j : ℕ, 4 * j < t.length → addr ≠ addr + BitVec.ofNat 32 (4 * (j + 1)) := by
        intro j hj he
        have := congrArg BitVec.toNat ((BitVec.add_right_inj addr).1 ((BitVec.add_zero addr).trans he))
        simp only [BitVec.toNat_ofNat] at this
        omega
      cases k with
      | zero =>
        simp only [Nat.mul_zero, BitVec.add_zero] at hm ⊢
        unfold DataMap.word
        rw [loadDataSection_out _ le_rfl (fun j hj => (hshift j).symm ▸ hdist j hj)]
        exact insertWord_self hm _
      | succ k =>
        rw [← hshift] at hm ⊢
        rw [ih (by omega) (by omega) (by omega) (by
          rw [insertWord_ne]
          · exact hm
          · rw [hshift]
            exact (hdist k (by omega)).symm)]
        simp [fileWord, Nat.mul_add, Nat.add_right_comm]

/-- The addresses of the words of a data segment. -/
def ElfSegment.holds (s : ElfSegment) (a : BitVec 32) : Prop :=
  s.executable = false ∧ ∃ k, 4 * k < s.bytes.length ∧ a = s.vaddr + BitVec.ofNat 32 (4 * k)

theorem scan_out {d : RvDecoder} {f : ElfFile} {m : List ElfSegment} {a : BitVec 32} : ∀ {l : List ElfSegment} {x y},
    l.foldlM (scanSegment d f m) x = .ok y → (∀ s ∈ l, ¬ s.holds a) → y.1 a = x.1 a
  | [], x, y, h, _ => by
    rw [List.foldlM_nil] at h
    cases h
    rfl
  | s :: t, x, y, h, hn => by
    rw [List.foldlM_cons] at h
    cases hs : scanSegment d f m x s with
    | error e => rw [hs] at h; cases h
    | ok z =>
      rw [hs] at h
      rw [scan_out h fun s hs => hn s (List.mem_cons_of_mem _ hs)]
      unfold scanSegment at hs
      split at hs
      · simp only [bind, Except.bind] at hs
        split at hs
        · cases hs
        · split at hs
          · cases hs
          · cases hs
            rfl
      · rename_i he
        cases hs
        refine loadDataSection_out _ le_rfl fun k hk e => hn s List.mem_cons_self ⟨by simpa using he, k, hk, e⟩

theorem scan_in {d : RvDecoder} {f : ElfFile} {m l : List ElfSegment} {x y : DataMap × List (BitVec 32)}
    (h : l.foldlM (scanSegment d f m) x = .ok y) {s : ElfSegment} (hs : s ∈ l) (hl : l.Nodup) (he : s.executable = false)
    (hlen : s.bytes.length ≤ 2 ^ 32) {k : ℕ} (hk : 4 * k < s.bytes.length)
    (hx : x.1 (s.vaddr + BitVec.ofNat 32 (4 * k)) = none)
    (hother : ∀ t ∈ l, t ≠ s → ¬ t.holds (s.vaddr + BitVec.ofNat 32 (4 * k))) :
    y.1.word (s.vaddr + BitVec.ofNat 32 (4 * k)) = fileWord s.bytes k := by
  induction l generalizing x with
  | nil => cases hs
  | cons t l ih =>
    rw [List.foldlM_cons] at h
    cases ht : scanSegment d f m x t with
    | error e => rw [ht] at h; cases h
    | ok z =>
      rw [ht] at h
      rw [List.nodup_cons] at hl
      rcases List.mem_cons.1 hs with rfl | hs'
      · unfold DataMap.word
        rw [scan_out h fun t ht => hother t (List.mem_cons_of_mem _ ht) fun e => hl.1 (e ▸ ht)]
        unfold scanSegment at ht
        rw [if_neg (by simp [he])] at ht
        cases ht
        exact loadDataSection_in _ le_rfl hlen hk hx
      · refine ih h hs' hl.2 ?_ fun u hu => hother u (List.mem_cons_of_mem _ hu)
        have hts : t ≠ s := fun e => hl.1 (e ▸ hs')
        have h1 : [t].foldlM (scanSegment d f m) x = .ok z := by
          rw [List.foldlM_cons, ht]
          rfl
        rw [scan_out h1 (by
          intro u hu
          rw [List.mem_singleton.1 hu]
          exact hother t List.mem_cons_self hts)]
        exact hx

theorem static_words {m : List ElfSegment} {a : BitVec 32} : ∀ {l : List ElfReloc} {x y},
    l.foldlM (staticRelocate m) x = .ok y → y.1.word a = x.1.word a
  | [], x, y, h => by
    rw [List.foldlM_nil] at h
    cases h
    rfl
  | r :: t, x, y, h => by
    rw [List.foldlM_cons] at h
    cases hr : staticRelocate m x r with
    | error e => rw [hr] at h; cases h
    | ok z =>
      rw [hr] at h
      rw [static_words h]
      unfold staticRelocate at hr
      split at hr
      · cases hr
        rfl
      · split at hr
        · cases hr
        · split at hr
          · rename_i v hv
            split at hr
            · cases hr
              unfold DataMap.word
              simp only [Function.update_apply]
              split
              · rename_i e
                rw [e, hv]
                rfl
              · rfl
            · cases hr
              rfl
          · cases hr

/-- C78: in a statically linked file, every word of a data segment is in the initial memory with the value it has in the
file, and all other words are zero. -/
theorem C78_static {d : RvDecoder} {f : ElfFile} {prog : ElfProgram} (h : loadElf d f = .ok prog)
    (hdyn : f.dynamic = false) (hn : (f.loads.map (·.vaddr)).Nodup) :
    (∀ s ∈ f.loads, s.executable = false → s.bytes.length ≤ 2 ^ 32 → ∀ k, 4 * k < s.bytes.length →
      (∀ t ∈ f.loads, t ≠ s → ¬ t.holds (s.vaddr + BitVec.ofNat 32 (4 * k))) →
      prog.data.word (s.vaddr + BitVec.ofNat 32 (4 * k)) = fileWord s.bytes k) ∧
    ∀ a, (∀ s ∈ f.loads, ¬ s.holds a) → prog.data.word a = 0 := by
  obtain ⟨x, y, text, h1, h2, -, rfl, -⟩ := loadElf_inv h
  obtain ⟨hsort, hmem⟩ := addressMap_spec hn
  have hnd : (addressMap f.loads).Nodup := hsort.imp fun h e => by rw [e] at h; exact lt_irrefl _ h
  have hw : ∀ a, y.1.word a = x.1.word a := by
    intro a
    rcases relocateData_inv h2 with ⟨h0, -⟩ | ⟨-, h2⟩
    · rw [hdyn] at h0
      cases h0
    · exact static_words h2
  refine ⟨?_, ?_⟩
  · intro s hs he hlen k hk hother
    rw [hw]
    exact scan_in h1 ((hmem s).2 hs) hnd he hlen hk rfl fun t ht => hother t ((hmem t).1 ht)
  · intro a ha
    rw [hw]
    unfold DataMap.word
    rw [scan_out h1 fun s hs => ha s ((hmem s).1 hs)]
    rfl

/-- The words of a static file that are addresses of code are recorded. -/
theorem static_label {m : List ElfSegment} : ∀ {l : List ElfReloc} {x y}, l.foldlM (staticRelocate m) x = .ok y →
    ∀ r ∈ l, isInDataSection m r.offset = true →
    r.type = .riscv32 ∧ (isInTextSection m (y.1.word r.offset) = true → y.1.word r.offset ∈ y.2)
  | [], x, y, h, r, hr, _ => by cases hr
  | a :: t, x, y, h, r, hr, hd => by
    rw [List.foldlM_cons] at h
    cases ha : staticRelocate m x a with
    | error e => rw [ha] at h; cases h
    | ok z =>
      rw [ha] at h
      rcases List.mem_cons.1 hr with rfl | hr
      · have hg := foldlM_grows staticRelocate_grows h
        have hw := static_words (a := r.offset) h
        unfold staticRelocate at ha
        rw [if_neg (by simp [hd])] at ha
        split at ha
        · cases ha
        · rename_i ht
          refine ⟨not_not.1 ht, ?_⟩
          rw [hw]
          split at ha
          · rename_i v hv
            split at ha
            · cases ha
              intro _
              apply hg
              simp [DataMap.word, ElfData.word]
            · rename_i hin
              cases ha
              intro hh
              refine absurd ?_ hin
              rw [DataMap.word, hv] at hh
              exact hh
          · cases ha
      · exact static_label h r hr hd

/-- C75: in a statically linked file, every word with a relocation that is an address of code is a label. -/
theorem C75_static {d : RvDecoder} {f : ElfFile} {prog : ElfProgram} (h : loadElf d f = .ok prog)
    (hdyn : f.dynamic = false) {r : ElfReloc} (hr : r ∈ f.relocs)
    (hd : isInDataSection (addressMap f.loads) r.offset = true)
    (ht : isInTextSection (addressMap f.loads) (prog.data.word r.offset) = true) :
    prog.data.word r.offset ∈ prog.textLabels := by
  obtain ⟨x, y, text, h1, h2, -, rfl, -⟩ := loadElf_inv h
  rcases relocateData_inv h2 with ⟨h0, -⟩ | ⟨-, h2⟩
  · rw [hdyn] at h0
    cases h0
  · exact (static_label h2 r hr hd).2 ht

theorem pie_words {m : List ElfSegment} {a : BitVec 32} : ∀ {l : List ElfReloc} {x y},
    l.foldlM (pieRelocate m) x = .ok y →
    y.1.word a = match (l.filter fun r => r.offset = a).getLast? with
      | some r => r.addend.getD 0
      | none => x.1.word a
  | [], x, y, h => by
    rw [List.foldlM_nil] at h
    cases h
    rfl
  | r :: t, x, y, h => by
    rw [List.foldlM_cons] at h
    cases hr : pieRelocate m x r with
    | error e => rw [hr] at h; cases h
    | ok z =>
      rw [hr] at h
      rw [pie_words h]
      have hz : z.1.word a = if r.offset = a then r.addend.getD 0 else x.1.word a := by
        unfold pieRelocate at hr
        split at hr
        · cases hr
        · split at hr
          · cases hr
          · split at hr
            · cases hr
            · rename_i v hv
              rw [hv]
              split at hr <;> cases hr <;> unfold DataMap.word <;> simp only [Function.update_apply]
              all_goals
                by_cases e : r.offset = a
                · rw [if_pos e, if_pos e.symm]
                  rfl
                · rw [if_neg e, if_neg (Ne.symm e)]
      by_cases e : r.offset = a
      · rw [List.filter_cons_of_pos (by simpa using e), List.getLast?_cons]
        cases (t.filter fun r => decide (r.offset = a)).getLast? with
        | none => simp [hz, e]
        | some r' => rfl
      · rw [List.filter_cons_of_neg (by simpa using e)]
        rw [if_neg e] at hz
        rw [hz]

/-- C78: in a dynamically linked file, a word with a relocation is the addend of the last one; the other words are those
of the data segments, or zero. -/
theorem C78_dynamic {d : RvDecoder} {f : ElfFile} {prog : ElfProgram} (h : loadElf d f = .ok prog)
    (hdyn : f.dynamic = true) (hn : (f.loads.map (·.vaddr)).Nodup) :
    (∀ pre r post, f.dynRelas = pre ++ r :: post → (∀ r' ∈ post, r'.offset ≠ r.offset) →
      ∃ v, r.addend = some v ∧ prog.data.word r.offset = v) ∧
    (∀ s ∈ f.loads, s.executable = false → s.bytes.length ≤ 2 ^ 32 → ∀ k, 4 * k < s.bytes.length →
      (∀ t ∈ f.loads, t ≠ s → ¬ t.holds (s.vaddr + BitVec.ofNat 32 (4 * k))) →
      (∀ r ∈ f.dynRelas, r.offset ≠ s.vaddr + BitVec.ofNat 32 (4 * k)) →
      prog.data.word (s.vaddr + BitVec.ofNat 32 (4 * k)) = fileWord s.bytes k) ∧
    ∀ a, (∀ s ∈ f.loads, ¬ s.holds a) → (∀ r ∈ f.dynRelas, r.offset ≠ a) → prog.data.word a = 0 := by
  obtain ⟨x, y, text, h1, h2, -, rfl, -⟩ := loadElf_inv h
  obtain ⟨hsort, hmem⟩ := addressMap_spec hn
  have hnd : (addressMap f.loads).Nodup := hsort.imp fun h e => by rw [e] at h; exact lt_irrefl _ h
  rcases relocateData_inv h2 with ⟨-, h2, -⟩ | ⟨h0, -⟩
  swap
  · rw [hdyn] at h0
    cases h0
  have hno : ∀ a, (∀ r ∈ f.dynRelas, r.offset ≠ a) → y.1.word a = x.1.word a := by
    intro a ha
    rw [pie_words h2, List.filter_eq_nil_iff.2 (by simpa using ha)]
    rfl
  refine ⟨?_, ?_, ?_⟩
  · intro pre r post he hlast
    have hadd : ∃ v, r.addend = some v := by
      obtain ⟨x', y', h3, -⟩ := foldlM_step pieRelocate_grows h2 r (by rw [he]; simp)
      unfold pieRelocate at h3
      split at h3
      · cases h3
      · split at h3
        · cases h3
        · split at h3
          · cases h3
          · rename_i v hv
            exact ⟨v, hv⟩
    obtain ⟨v, hv⟩ := hadd
    refine ⟨v, hv, ?_⟩
    show y.1.word r.offset = v
    rw [pie_words h2, he, List.filter_append, List.filter_cons_of_pos (by simp),
      show post.filter (fun r' => decide (r'.offset = r.offset)) = [] from
        List.filter_eq_nil_iff.2 (by simpa using hlast), List.getLast?_append]
    simp [hv]
  · intro s hs he hlen k hk hother hr
    show y.1.word _ = _
    rw [hno _ hr]
    exact scan_in h1 ((hmem s).2 hs) hnd he hlen hk rfl fun t ht => hother t ((hmem t).1 ht)
  · intro a ha hr
    show y.1.word _ = _
    rw [hno a hr]
    unfold DataMap.word
    rw [scan_out h1 fun s hs => ha s ((hmem s).1 hs)]
    rfl

/-! ## Bytes -/

example : (loadDataSection 0x2000 [0x78, 0x56, 0x34, 0x12, 0, 0, 0, 0, 0xff] fun _ => none) 0x2000 =
      some (.value 0x12345678) ∧
    (loadDataSection 0x2000 [0x78, 0x56, 0x34, 0x12, 0, 0, 0, 0, 0xff] fun _ => none) 0x2004 = none ∧
    (loadDataSection 0x2000 [0x78, 0x56, 0x34, 0x12, 0, 0, 0, 0, 0xff] fun _ => none) 0x2008 = some (.value 0xff) := by
  decide +kernel

end Verif
