import Verif.Proofs.ElfFetch
import Verif.Model.Rv64
import Verif.Spec.Elf
import Verif.Proofs.Expression

/-!
# C77: destinations of jumps of 64-bit programs
-/

namespace Verif

/-- The operands that the 64-bit decoder gives to `auipc` and `jalr`. -/
def Decodes64 (decode : BitVec 32 → Option RvIns) : Prop :=
  ∀ w i, decode w = some i → (i.opc = .auipc → i.rs1 = none) ∧ (i.opc = .jalr → ∃ rd, i.rd = some rd)

theorem rv64Instructions_mem {decode : BitVec 32 → Option RvIns} (n : ℕ) {b : List (BitVec 8)} (hn : b.length ≤ n)
    {l : List RvIns} (h : rv64Instructions decode b = .ok l) :
    4 * l.length = b.length ∧ ∀ i ∈ l, ∃ w, decode w = some i := by
  induction n generalizing b l with
  | zero =>
    obtain rfl := List.length_eq_zero_iff.1 (Nat.le_zero.1 hn)
    cases h
    simp
  | succ n ih =>
    match b, h, hn with
    | [], h, _ =>
      cases h
      simp
    | [_], h, _ => cases h
    | [_, _], h, _ => cases h
    | [_, _, _], h, _ => cases h
    | b0 :: b1 :: b2 :: b3 :: t, h, hn =>
      simp only [List.length_cons] at hn
      rw [rv64Instructions] at h
      split at h
      · simp only [bind, Except.bind] at h
        split at h
        · rename_i i hi
          split at h
          · cases h
          · rename_i l' hl
            cases h
            obtain ⟨h1, h2⟩ := ih (by omega) hl
            refine ⟨by simp only [List.length_cons]; omega, ?_⟩
            intro x hx
            rcases List.mem_cons.1 hx with rfl | hx
            · exact ⟨_, hi⟩
            · exact h2 x hx
        · cases h
      · cases h

/-- The destinations that are found: those of the jumps with a fixed offset, and no others. -/
theorem mem_jumpTargets64 {l : List RvIns}
    (hl : ∀ i ∈ l, (i.opc = .auipc → i.rs1 = none) ∧ (i.opc = .jalr → ∃ rd, i.rd = some rd)) (addr x : BitVec 64)
    (prev : Option (Option ℕ × Option (BitVec 32))) (hp : ∀ r v, prev = some (r, v) → r = none) :
    x ∈ jumpTargets64 addr prev l ↔ ∃ (k : ℕ) (hk : k < l.length), l[k].opc.isJump = true ∧
      ∃ v, l[k].imm = some v ∧ x = addr + BitVec.ofNat 64 (4 * k) + v.signExtend 64 := by
  induction l generalizing addr prev with
  | nil => simp [jumpTargets64]
  | cons i t ih =>
    rw [jumpTargets64, List.mem_append, ih (fun j hj => hl j (List.mem_cons_of_mem _ hj)) (addr + 4) (rememberAuipc i) (by
      intro r v h
      unfold rememberAuipc at h
      split at h
      · rename_i ho
        cases h
        exact (hl i List.mem_cons_self).1 ho
      · cases h)]
    have hfirst : x ∈ jumpTarget64 addr prev i ↔ i.opc.isJump = true ∧ ∃ v, i.imm = some v ∧ x = addr + v.signExtend 64 := by
      unfold jumpTarget64
      split
      · rename_i hj
        cases hi : i.imm with
        | none => simp
        | some v => simp [hj]
      · rename_i hj
        have : ¬ (i.opc.isJump = true ∧ ∃ v, i.imm = some v ∧ x = addr + v.signExtend 64) := fun h => hj h.1
        refine iff_of_false ?_ this
        split
        · rename_i ho
          obtain ⟨rd, hrd⟩ := (hl i List.mem_cons_self).2 ho
          split
          · rename_i rs1 imm
            rw [hp rs1 imm rfl, hrd, if_neg (by simp)]
            simp
          · simp
        · simp
    rw [hfirst]
    have hshift : ∀ k : ℕ, addr + 4 + BitVec.ofNat 64 (4 * k) = addr + BitVec.ofNat 64 (4 * (k + 1)) := by
      intro k
      rw [Nat.mul_add, Nat.add_comm, BitVec.ofNat_add, ← BitVec.add_assoc]
      rfl
    constructor
    · rintro (⟨hj, v, hv, rfl⟩ | ⟨k, hk, hj, v, hv, rfl⟩)
      · exact ⟨0, by simp, hj, v, hv, by simp⟩
      · exact ⟨k + 1, by simpa using hk, hj, v, hv, by rw [hshift]⟩
    · rintro ⟨k, hk, hj, v, hv, rfl⟩
      cases k with
      | zero => exact .inl ⟨hj, v, hv, by simp⟩
      | succ k => exact .inr ⟨k, by simpa using hk, hj, v, hv, by rw [hshift]⟩

/-- C77: the destinations are exactly the entry point, the symbols in executable segments, and the destinations of jumps
and branches with a fixed offset. The destination of a call through `auipc` and `jalr` is not among them unless it is
there for another reason. -/
theorem C77_destinations {decode : BitVec 32 → Option RvIns} (hd : Decodes64 decode) {f : Elf64File}
    {dests : List (BitVec 64)} (h : computeJumpdests decode f = .ok dests) (x : BitVec 64) :
    x ∈ dests ↔ x = f.entry ∨
      (x ∈ f.symbols ∧ x ≠ 0 ∧ ∃ s ∈ f.segments, s.executable = true ∧ s.vaddr.toNat ≤ x.toNat ∧
        x.toNat < (s.vaddr + s.memsz).toNat) ∨
      ∃ s ∈ f.segments, s.executable = true ∧ ∃ l, rv64Instructions decode s.bytes = .ok l ∧
        ∃ (k : ℕ) (hk : k < l.length), l[k].opc.isJump = true ∧
          ∃ v, l[k].imm = some v ∧ x = s.vaddr + BitVec.ofNat 64 (4 * k) + v.signExtend 64 := by
  unfold computeJumpdests at h
  simp only [bind, Except.bind] at h
  split at h
  · cases h
  · rename_i ts hts
    cases h
    have hf := mapM_ok hts
    rw [List.cons_append, List.mem_cons, List.mem_append, List.mem_filter, List.mem_flatten]
    refine or_congr Iff.rfl (or_congr ?_ ?_)
    · simp [symbolInText64, and_assoc]
    · have hscan : ∀ (s : Elf64Segment) l, rv64Instructions decode s.bytes = .ok l →
          (x ∈ jumpTargets64 s.vaddr none l ↔ ∃ (k : ℕ) (hk : k < l.length), l[k].opc.isJump = true ∧
            ∃ v, l[k].imm = some v ∧ x = s.vaddr + BitVec.ofNat 64 (4 * k) + v.signExtend 64) := by
        intro s l hl
        refine mem_jumpTargets64 ?_ _ _ _ (by simp)
        intro i hi
        obtain ⟨w, hw⟩ := (rv64Instructions_mem _ le_rfl hl).2 i hi
        exact hd w i hw
      have hinv : ∀ s t, scanSegment64 decode s = .ok t →
          ∃ l, rv64Instructions decode s.bytes = .ok l ∧ t = jumpTargets64 s.vaddr none l := by
        intro s t ht
        unfold scanSegment64 at ht
        simp only [bind, Except.bind] at ht
        split at ht
        · cases ht
        · rename_i l hl
          cases ht
          exact ⟨l, hl, rfl⟩
      constructor
      · rintro ⟨t, ht, hx⟩
        obtain ⟨k, hk, rfl⟩ := List.mem_iff_getElem.1 ht
        have hlen := hf.length_eq
        have hg := hf.get (i := k) (by omega) hk
        simp only [List.get_eq_getElem] at hg
        obtain ⟨m1, m2⟩ := List.mem_filter.1
          (List.getElem_mem (l := f.segments.filter fun s => s.executable) (n := k) (by omega))
        obtain ⟨l, hl, he⟩ := hinv _ _ hg
        rw [he] at hx
        exact ⟨_, m1, m2, l, hl, (hscan _ l hl).1 hx⟩
      · rintro ⟨s, hs, he, l, hl, hx⟩
        obtain ⟨k, hk, hke⟩ := List.mem_iff_getElem.1 (List.mem_filter.2 ⟨hs, he⟩ :
          s ∈ f.segments.filter fun s => s.executable)
        have hlen := hf.length_eq
        have hg := hf.get (i := k) hk (by omega)
        simp only [List.get_eq_getElem] at hg
        obtain ⟨l', hl', he'⟩ := hinv _ _ hg
        rw [hke] at hl' he'
        rw [hl] at hl'
        cases hl'
        exact ⟨_, List.getElem_mem (by omega), he' ▸ (hscan s l hl).2 hx⟩

/-- C77: no segment can contain an instruction of 16 bits, and its length is a multiple of 4, else nothing is computed. -/
theorem C77_whole {decode : BitVec 32 → Option RvIns} {f : Elf64File} {dests : List (BitVec 64)}
    (h : computeJumpdests decode f = .ok dests) {s : Elf64Segment} (hs : s ∈ f.segments) (he : s.executable = true) :
    ∃ l, rv64Instructions decode s.bytes = .ok l ∧ 4 * l.length = s.bytes.length := by
  unfold computeJumpdests at h
  simp only [bind, Except.bind] at h
  split at h
  · cases h
  · rename_i ts hts
    have hf := mapM_ok hts
    obtain ⟨k, hk, hke⟩ := List.mem_iff_getElem.1 (List.mem_filter.2 ⟨hs, he⟩ :
      s ∈ f.segments.filter fun s => s.executable)
    have hlen := hf.length_eq
    have hg := hf.get (i := k) hk (by omega)
    simp only [List.get_eq_getElem, hke] at hg
    unfold scanSegment64 at hg
    simp only [bind, Except.bind] at hg
    split at hg
    · cases hg
    · rename_i l hl
      exact ⟨l, hl, (rv64Instructions_mem _ le_rfl hl).1⟩

/-- C77: instruction number `k` of a segment is decoded from its bytes `4 k` to `4 k + 3`, the least significant first. -/
theorem C77_bytes {decode : BitVec 32 → Option RvIns} {b : List (BitVec 8)} {l : List RvIns}
    (h : rv64Instructions decode b = .ok l) (k : ℕ) (hk : k < l.length) :
    decode (BitVec.ofNat 32 (littleEndian ((b.drop (4 * k)).take 4))) = some l[k] := by
  induction l generalizing b k with
  | nil => simp at hk
  | cons i l ih =>
    match b, h with
    | [], h => cases h
    | [_], h => cases h
    | [_, _], h => cases h
    | [_, _, _], h => cases h
    | b0 :: b1 :: b2 :: b3 :: t, h =>
      rw [rv64Instructions] at h
      split at h
      · simp only [bind, Except.bind] at h
        split at h
        · rename_i j hj
          split at h
          · cases h
          · rename_i l' hl
            simp only [pure, Except.pure, Except.ok.injEq, List.cons.injEq] at h
            obtain ⟨rfl, rfl⟩ := h
            cases k with
            | zero =>
              have : BitVec.ofNat 32 (littleEndian [b0, b1, b2, b3]) = b3 ++ b2 ++ b1 ++ b0 :=
                (word_eq b0 b1 b2 b3).symm
              simp only [Nat.mul_zero, List.drop_zero, List.take_succ_cons, List.take_zero, List.getElem_cons_zero]
              rw [this]
              exact hj
            | succ k =>
              have := ih hl k (by simpa using hk)
              rw [show 4 * (k + 1) = 4 * k + 4 by ring]
              simpa using this
        · cases h
      · cases h

/-- C77: the lowest address is that of the first executable segment. -/
theorem C77_base (f : Elf64File) {s : Elf64Segment} (hs : s ∈ f.segments) (he : s.executable = true) :
    (pcBase64 f).toNat ≤ s.vaddr.toNat ∧ ∃ t ∈ f.segments, t.executable = true ∧ pcBase64 f = t.vaddr := by
  have hm : s.vaddr.toNat ∈ (f.segments.filter fun s => s.executable).map fun s => s.vaddr.toNat :=
    List.mem_map_of_mem (List.mem_filter.2 ⟨hs, he⟩)
  unfold pcBase64
  cases hmin : ((f.segments.filter fun s => s.executable).map fun s => s.vaddr.toNat).min? with
  | none =>
    rw [List.min?_eq_none_iff] at hmin
    rw [hmin] at hm
    cases hm
  | some v =>
    obtain ⟨h1, h2⟩ := List.min?_eq_some_iff.1 hmin
    obtain ⟨t, ht, rfl⟩ := List.mem_map.1 h1
    obtain ⟨ht, hte⟩ := List.mem_filter.1 ht
    refine ⟨?_, t, ht, hte, by simp⟩
    simpa using h2 _ hm

/-! ## A file -/

/-- A decoder of three instructions. -/
def sampleDecode64 (w : BitVec 32) : Option RvIns :=
  if w = 0x00000097 then some ⟨.auipc, some 1, none, none, some 0, .other⟩
  else if w = 0x010080e7 then some ⟨.jalr, some 1, some 1, none, some 16, .other⟩
  else if w = 0xfe000ce3 then some ⟨.beq, none, some 0, some 0, some (-8), .other⟩
  else none

theorem sampleDecode64_ok : Decodes64 sampleDecode64 := by
  intro w i h
  unfold sampleDecode64 at h
  split at h
  · cases h
    simp
  · split at h
    · cases h
      simp
    · split at h
      · cases h
        simp
      · cases h

/-- `auipc x1, 0; jalr x1, 16(x1); beq x0, x0, -8; beq x0, x0, -8; beq x0, x0, -8`: the call goes to 0x1010, which is not
found. -/
example : computeJumpdests sampleDecode64 ⟨0x1000, [⟨0x1000, 20, true,
    [0x97, 0, 0, 0, 0xe7, 0x80, 0x00, 0x01, 0xe3, 0x0c, 0x00, 0xfe, 0xe3, 0x0c, 0x00, 0xfe, 0xe3, 0x0c, 0x00, 0xfe]⟩],
    [0x1004, 0x2000]⟩ = .ok [0x1000, 0x1004, 0x1000, 0x1004, 0x1008] := by
  decide +kernel

end Verif
