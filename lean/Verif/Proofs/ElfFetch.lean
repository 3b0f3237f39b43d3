import Verif.Proofs.ElfProgram

/-!
# Which bytes of a segment an instruction comes from
-/

set_option linter.unusedSectionVars false
set_option linter.unusedSimpArgs false

namespace Verif

theorem bv_append_toNat {m n : ℕ} (x : BitVec m) (y : BitVec n) : (x ++ y).toNat = x.toNat * 2 ^ n + y.toNat := by
  rw [BitVec.toNat_append, ← Nat.shiftLeft_add_eq_or_of_lt y.isLt, Nat.shiftLeft_eq]

theorem low_bits (b : BitVec 8) : b &&& 3 = 3 ↔ b.toNat % 4 = 3 := by
  rw [← BitVec.toNat_inj, BitVec.toNat_and]
  have : b.toNat &&& (3 : BitVec 8).toNat = b.toNat % 4 := Nat.and_two_pow_sub_one_eq_mod b.toNat 2
  rw [this]
  rfl

theorem word_eq (b0 b1 b2 b3 : BitVec 8) :
    (b3 ++ b2 ++ b1 ++ b0 : BitVec 32) = BitVec.ofNat 32 (littleEndian [b0, b1, b2, b3]) := by
  apply BitVec.eq_of_toNat_eq
  have h := (b3 ++ b2 ++ b1 ++ b0 : BitVec 32).isLt
  rw [bv_append_toNat, bv_append_toNat, bv_append_toNat] at h
  rw [bv_append_toNat, bv_append_toNat, bv_append_toNat, BitVec.toNat_ofNat]
  simp only [littleEndian, List.foldr_cons, List.foldr_nil]
  rw [Nat.mod_eq_of_lt] <;> omega

theorem half_eq (b0 b1 : BitVec 8) : (b1 ++ b0 : BitVec 16) = BitVec.ofNat 16 (littleEndian [b0, b1]) := by
  apply BitVec.eq_of_toNat_eq
  have h := (b1 ++ b0 : BitVec 16).isLt
  rw [bv_append_toNat] at h
  rw [bv_append_toNat, BitVec.toNat_ofNat]
  simp only [littleEndian, List.foldr_cons, List.foldr_nil]
  rw [Nat.mod_eq_of_lt] <;> omega

theorem decodeHalf_fetches {d : RvDecoder} {b0 b1 : BitVec 8} {t : List (BitVec 8)} {i : UnimpOrInstruction}
    (hb : ¬ b0 &&& 3 = 3) (h : decodeHalf d b0 b1 = .ok i) : Fetches d (b0 :: b1 :: t) i := by
  refine ⟨b0, rfl, .inr ⟨fun hh => hb ((low_bits b0).2 hh), by simp, ?_⟩⟩
  have hw : BitVec.ofNat 16 (littleEndian ((b0 :: b1 :: t).take 2)) = (b1 ++ b0 : BitVec 16) := (half_eq b0 b1).symm
  rw [hw]
  unfold decodeHalf at h
  cases hd : d.decode16 (b1 ++ b0) with
  | ok j =>
    simp only [hd] at h
    cases hj : to32BitEquivalent j with
    | error e => simp [hj, Except.map] at h
    | ok j' =>
      simp only [hj, Except.map, Except.ok.injEq] at h
      exact .inl ⟨j, j', rfl, hj, h.symm⟩
  | illegal =>
    simp only [hd] at h
    split at h
    · rename_i h0
      simp only [Except.ok.injEq] at h
      exact .inr ⟨rfl, h0, h.symm⟩
    · exact absurd h (by simp)
  | error => simp [hd] at h

theorem decodeWord_fetches {d : RvDecoder} {b0 : BitVec 8} (b1 b2 b3 : BitVec 8) (t : List (BitVec 8))
    (hb : b0 &&& 3 = 3) : Fetches d (b0 :: b1 :: b2 :: b3 :: t) (decodeWord d b0 b1 b2 b3) := by
  refine ⟨b0, rfl, .inl ⟨(low_bits b0).1 hb, by simp, ?_⟩⟩
  have hw : BitVec.ofNat 32 (littleEndian ((b0 :: b1 :: b2 :: b3 :: t).take 4)) = (b3 ++ b2 ++ b1 ++ b0 : BitVec 32) :=
    (word_eq b0 b1 b2 b3).symm
  rw [hw]
  unfold decodeWord
  cases hd : d.decode32 (b3 ++ b2 ++ b1 ++ b0) with
  | none => exact .inr ⟨.inl rfl, rfl⟩
  | some j =>
    by_cases hj : j.opc = .csrrw
    · exact .inr ⟨.inr ⟨j, rfl, hj⟩, by simp [hj]⟩
    · exact .inl ⟨j, rfl, hj, by simp [hj]⟩

/-- Every instruction of a segment is decoded from the bytes at its address. -/
theorem rvInstructions_fetches {d : RvDecoder} (n : ℕ) : ∀ {bytes : List (BitVec 8)} {a : BitVec 32} {l : List MaybeIns},
    bytes.length ≤ n → rvInstructions d a bytes = .ok l → ∀ x ∈ l, ∃ k, k < bytes.length ∧
      x.address = a + BitVec.ofNat 32 k ∧ Fetches d (bytes.drop k) x.insn := by
  induction n with
  | zero =>
    intro bytes a l hn h x hx
    obtain rfl := List.length_eq_zero_iff.1 (Nat.le_zero.1 hn)
    simp only [rvInstructions, Except.ok.injEq] at h
    subst h
    cases hx
  | succ n ih =>
    intro bytes a l hn h x hx
    have shift : ∀ (t : List (BitVec 8)) (m : ℕ) (l' : List MaybeIns), t.length ≤ n → bytes.drop m = t → m ≤ bytes.length →
        rvInstructions d (a + BitVec.ofNat 32 m) t = .ok l' → x ∈ l' → ∃ k, k < bytes.length ∧
          x.address = a + BitVec.ofNat 32 k ∧ Fetches d (bytes.drop k) x.insn := by
      intro t m l' ht hm hmb hl hx'
      obtain ⟨k, hk, h1, h2⟩ := ih ht hl x hx'
      have hlen : t.length = bytes.length - m := by rw [← hm, List.length_drop]
      refine ⟨m + k, by omega, ?_, ?_⟩
      · rw [h1, BitVec.add_assoc, ← BitVec.ofNat_add]
      · rw [← List.drop_drop, hm]
        exact h2
    match bytes, hn, h, shift with
    | [], _, h, _ =>
      simp only [rvInstructions, Except.ok.injEq] at h
      subst h
      cases hx
    | [b], _, h, _ => simp [rvInstructions] at h
    | [b0, b1], _, h, _ =>
      rw [rvInstructions] at h
      split at h
      · exact absurd h (by simp)
      · rename_i hb
        simp only [bind, Except.bind, pure, Except.pure] at h
        cases hi : decodeHalf d b0 b1 with
        | error e => simp [hi] at h
        | ok i =>
          simp only [hi, Except.ok.injEq] at h
          subst h
          simp only [List.mem_singleton] at hx
          subst hx
          exact ⟨0, by simp, by simp, decodeHalf_fetches hb hi⟩
    | [b0, b1, b2], hn, h, shift =>
      rw [rvInstructions] at h
      split at h
      · exact absurd h (by simp)
      · rename_i hb
        simp only [bind, Except.bind, pure, Except.pure] at h
        cases hi : decodeHalf d b0 b1 with
        | error e => simp [hi] at h
        | ok i => simp [hi, rvInstructions] at h
    | b0 :: b1 :: b2 :: b3 :: t, hn, h, shift =>
      rw [rvInstructions] at h
      split at h
      · rename_i hb
        simp only [bind, Except.bind, pure, Except.pure] at h
        cases hl : rvInstructions d (a + 4) t with
        | error e => simp only [hl, reduceCtorEq] at h
        | ok l' =>
          simp only [hl, Except.ok.injEq] at h
          subst h
          rcases List.mem_cons.1 hx with rfl | hx
          · exact ⟨0, by simp, by simp, decodeWord_fetches b1 b2 b3 t hb⟩
          · exact shift t 4 _ (by simp only [List.length_cons] at hn; omega) rfl (by simp) hl hx
      · rename_i hb
        simp only [bind, Except.bind, pure, Except.pure] at h
        cases hi : decodeHalf d b0 b1 with
        | error e => simp [hi] at h
        | ok i =>
          simp only [hi] at h
          cases hl : rvInstructions d (a + 2) (b2 :: b3 :: t) with
          | error e => simp only [hl, reduceCtorEq] at h
          | ok l' =>
            simp only [hl, Except.ok.injEq] at h
            subst h
            rcases List.mem_cons.1 hx with rfl | hx
            · exact ⟨0, by simp, by simp, decodeHalf_fetches hb hi⟩
            · exact shift (b2 :: b3 :: t) 2 _ (by simp only [List.length_cons] at hn ⊢; omega) rfl (by simp)
                hl hx

end Verif
