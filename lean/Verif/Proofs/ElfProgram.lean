import Verif.Proofs.ElfLabels

/-!
# Programs: the instructions of a segment, and the labels of a file
-/

set_option linter.unusedSectionVars false

namespace Verif

variable {M : Type}

/-- The instructions follow each other, from an address on. -/
def Chained : BitVec 32 → List MaybeIns → Prop
  | _, [] => True
  | a, x :: t => x.address = a ∧ Chained (a + x.insn.len) t

/-- The number of bytes of instructions. -/
def bytesOf (l : List MaybeIns) : ℕ := (l.map fun x => x.insn.len.toNat).sum

theorem UnimpOrInstruction.len_cases (i : UnimpOrInstruction) : i.len = 2 ∨ i.len = 4 := by
  cases i with
  | unimp16 => exact .inl rfl
  | unimp32 => exact .inr rfl
  | instruction ins =>
    unfold UnimpOrInstruction.len
    by_cases h : ins.extension = .c
    · exact .inl (if_pos h)
    · exact .inr (if_neg h)

theorem UnimpOrInstruction.len_pos (i : UnimpOrInstruction) : 0 < i.len.toNat := by
  rcases i.len_cases with h | h <;> rw [h] <;> decide

theorem Chained.address {a : BitVec 32} {pre post : List MaybeIns} {x : MaybeIns} (h : Chained a (pre ++ x :: post)) :
    x.address = a + BitVec.ofNat 32 (bytesOf pre) := by
  induction pre generalizing a with
  | nil => simpa [bytesOf] using h.1
  | cons y t ih =>
    rw [ih h.2]
    simp only [bytesOf, List.map_cons, List.sum_cons, BitVec.ofNat_add, BitVec.ofNat_toNat, BitVec.setWidth_eq]
    rw [BitVec.add_assoc]

/-- An instruction is found at its address. -/
theorem Chained.find {a : BitVec 32} {pre post : List MaybeIns} {x : MaybeIns} (h : Chained a (pre ++ x :: post))
    (hl : bytesOf (pre ++ x :: post) ≤ 2 ^ 32) :
    (pre ++ x :: post).find? (fun y => y.address = x.address) = some x := by
  rw [List.find?_append, List.find?_cons_of_pos (by simp)]
  have : pre.find? (fun y => decide (y.address = x.address)) = none := by
    rw [List.find?_eq_none]
    intro y hy he
    obtain ⟨p1, p2, rfl⟩ := List.append_of_mem hy
    have e1 := h.address
    rw [List.append_assoc, List.cons_append] at h
    have e2 := h.address
    rw [decide_eq_true_eq, e1, e2] at he
    have he := congrArg BitVec.toNat ((BitVec.add_right_inj a).1 he)
    have hy := y.insn.len_pos
    have hx := x.insn.len_pos
    simp only [bytesOf, List.map_append, List.map_cons, List.sum_append, List.sum_cons, BitVec.toNat_ofNat] at he hl
    rw [Nat.mod_eq_of_lt (by omega), Nat.mod_eq_of_lt (by omega)] at he
    omega
  rw [this]
  rfl

/-! ## The instructions of a segment -/

/-- What is known about a decoded instruction. -/
def MaybeIns.Good (x : MaybeIns) : Prop := ∀ i, x.insn = .instruction i → i.Formed

theorem to32_extension {i j : RvIns} (h : to32BitEquivalent i = .ok j) : j.extension = i.extension := by
  unfold to32BitEquivalent at h
  split at h <;> first | (cases h; rfl) | cases h

theorem decodeHalf_spec {d : RvDecoder} (hd : d.Correct) {b0 b1 : BitVec 8} {i : UnimpOrInstruction}
    (h : decodeHalf d b0 b1 = .ok i) : i.len = 2 ∧ ∀ j, i = .instruction j → j.Formed := by
  unfold decodeHalf at h
  split at h
  · rename_i ins hins
    cases hc : to32BitEquivalent ins with
    | error e => rw [hc] at h; cases h
    | ok j =>
      rw [hc] at h
      cases h
      refine ⟨?_, ?_⟩
      · exact if_pos ((to32_extension hc).trans (hd.half _ _ hins))
      · intro j' hj
        cases hj
        exact hd.formed16 _ _ _ hins hc
  · split at h
    · cases h
      exact ⟨rfl, by simp⟩
    · cases h
  · cases h

theorem decodeWord_spec {d : RvDecoder} (hd : d.Correct) (b0 b1 b2 b3 : BitVec 8) :
    (decodeWord d b0 b1 b2 b3).len = 4 ∧ ∀ j, decodeWord d b0 b1 b2 b3 = .instruction j → j.Formed := by
  unfold decodeWord
  split
  · rename_i ins hins
    split
    · exact ⟨rfl, by simp⟩
    · refine ⟨?_, ?_⟩
      · exact if_neg (hd.word _ _ hins)
      · intro j hj
        cases hj
        exact hd.formed32 _ _ hins
  · exact ⟨rfl, by simp⟩

theorem rvInstructions_spec {d : RvDecoder} (hd : d.Correct) (n : ℕ) {a : BitVec 32} {bytes : List (BitVec 8)}
    (hn : bytes.length ≤ n) {l : List MaybeIns} (h : rvInstructions d a bytes = .ok l) :
    Chained a l ∧ bytesOf l = bytes.length ∧ ∀ x ∈ l, x.Good := by
  induction n generalizing a bytes l with
  | zero =>
    obtain rfl := List.length_eq_zero_iff.1 (Nat.le_zero.1 hn)
    rw [rvInstructions] at h
    cases h
    exact ⟨trivial, rfl, by simp⟩
  | succ n ih =>
    have two : ∀ (b0 b1 : BitVec 8) (t : List (BitVec 8)) (i : UnimpOrInstruction) (l' : List MaybeIns),
        t.length ≤ n → decodeHalf d b0 b1 = .ok i → rvInstructions d (a + 2) t = .ok l' →
        Chained a (⟨a, i⟩ :: l') ∧ bytesOf (⟨a, i⟩ :: l') = (b0 :: b1 :: t).length ∧
          ∀ x ∈ (⟨a, i⟩ :: l' : List MaybeIns), x.Good := by
      intro b0 b1 t i l' ht hi hl
      obtain ⟨e1, e2⟩ := decodeHalf_spec hd hi
      obtain ⟨c1, c2, c3⟩ := ih ht hl
      refine ⟨⟨rfl, e1 ▸ c1⟩, ?_, ?_⟩
      · simp only [bytesOf, List.map_cons, List.sum_cons, List.length_cons] at c2 ⊢
        rw [c2, e1]
        show 2 + _ = _
        omega
      · intro x hx
        rcases List.mem_cons.1 hx with rfl | hx
        · exact e2
        · exact c3 x hx
    match bytes, h, hn with
    | [], h, _ =>
      rw [rvInstructions] at h
      cases h
      exact ⟨trivial, rfl, by simp⟩
    | [_], h, _ =>
      rw [rvInstructions] at h
      cases h
    | [b0, b1], h, hn =>
      rw [rvInstructions] at h
      split at h
      · cases h
      · simp only [bind, Except.bind] at h
        split at h
        · cases h
        · rename_i i hi
          cases h
          exact two b0 b1 [] i [] (Nat.zero_le _) hi (by rw [rvInstructions])
    | [b0, b1, b2], h, hn =>
      rw [rvInstructions] at h
      split at h
      · cases h
      · simp only [bind, Except.bind] at h
        split at h
        · cases h
        · rw [rvInstructions] at h
          cases h
    | b0 :: b1 :: b2 :: b3 :: t, h, hn =>
      simp only [List.length_cons] at hn
      rw [rvInstructions] at h
      split at h
      · simp only [bind, Except.bind] at h
        split at h
        · cases h
        · rename_i l' hl
          cases h
          obtain ⟨e1, e2⟩ := decodeWord_spec hd b0 b1 b2 b3
          obtain ⟨c1, c2, c3⟩ := ih (by omega) hl
          refine ⟨⟨rfl, e1 ▸ c1⟩, ?_, ?_⟩
          · simp only [bytesOf, List.map_cons, List.sum_cons, List.length_cons] at c2 ⊢
            rw [c2, e1]
            show 4 + _ = _
            omega
          · intro x hx
            rcases List.mem_cons.1 hx with rfl | hx
            · exact e2
            · exact c3 x hx
      · simp only [bind, Except.bind] at h
        split at h
        · cases h
        · rename_i i hi
          split at h
          · cases h
          · rename_i l' hl
            cases h
            exact two b0 b1 (b2 :: b3 :: t) i l' (by simp only [List.length_cons]; omega) hi hl

/-! ## Steps of the machine -/

theorem machineStep_at {E : RvMachine M} {a : BitVec 32} {pre post : List MaybeIns} {x : MaybeIns}
    (hc : Chained a (pre ++ x :: post)) (hl : bytesOf (pre ++ x :: post) ≤ 2 ^ 32) {i : RvIns}
    (hi : x.insn = .instruction i) {s : RvState M} (hs : s.pc = x.address) :
    machineStep E (pre ++ x :: post) s = i.exec E x.insn.len s := by
  unfold machineStep
  rw [hs, hc.find hl]
  obtain ⟨xa, xi⟩ := x
  simp only at hi
  subst hi
  rfl

theorem machineStep_unimp {E : RvMachine M} {a : BitVec 32} {pre post : List MaybeIns} {x : MaybeIns}
    (hc : Chained a (pre ++ x :: post)) (hl : bytesOf (pre ++ x :: post) ≤ 2 ^ 32)
    (hi : ∀ i, x.insn ≠ .instruction i) {s : RvState M} (hs : s.pc = x.address) :
    machineStep E (pre ++ x :: post) s = none := by
  unfold machineStep
  rw [hs, hc.find hl]
  obtain ⟨xa, xi⟩ := x
  cases xi with
  | instruction i => exact absurd rfl (hi i)
  | unimp16 => rfl
  | unimp32 => rfl

theorem RvState.goto_set_pc (s : RvState M) (pc : BitVec 32) (r : ℕ) (v : BitVec 32) : ((s.goto pc).set r v).pc = pc := by
  unfold RvState.set
  split <;> rfl

/-- The first instruction of a pair goes to the next one. -/
theorem fuse_first_pc {E : RvMachine M} {c : Lifter} {a a2 : BitVec 32} {i1 i2 : RvIns} {x : LiftedOp × LiftedArgs}
    (h : c.fuse a a2 i1 i2 = .ok (some x)) {n : BitVec 32} {s t : RvState M} (ht : i1.exec E n s = some t) :
    t.pc = s.pc + n := by
  unfold RvIns.exec at ht
  rcases fuse_first h with h | h | h
  · rw [if_pos h] at ht
    simp only [Option.bind_eq_bind, Option.bind_eq_some_iff, Option.some.injEq] at ht
    obtain ⟨rd, -, v, -, rfl⟩ := ht
    exact RvState.goto_set_pc _ _ _ _
  · rw [if_neg (by rw [h]; decide), if_neg (by rw [h]; decide), if_pos h] at ht
    simp only [Option.bind_eq_bind, Option.bind_eq_some_iff, Option.some.injEq] at ht
    obtain ⟨rd, -, r, -, v, -, rfl⟩ := ht
    exact RvState.goto_set_pc _ _ _ _
  · rw [if_neg (by rw [h]; decide), if_pos h] at ht
    simp only [Option.bind_eq_bind, Option.bind_eq_some_iff, Option.some.injEq] at ht
    obtain ⟨rd, -, v, -, rfl⟩ := ht
    exact RvState.goto_set_pc _ _ _ _

/-- The lifted instruction at the program counter does what one or two instructions of the machine do. -/
theorem lift_step {d : RvDecoder} (hd : d.Correct) {base : BitVec 32} {bytes : List (BitVec 8)} {l : List MaybeIns}
    (hl : rvInstructions d base bytes = .ok l) (hlen : bytes.length ≤ 2 ^ 32) {c : Lifter} {hs : List LiftedIns}
    (hlift : c.lift l = .ok hs) {E : RvMachine M}
    (hE : ∀ x ∈ l, ∀ i, x.insn = .instruction i → E.IgnoresOrder i)
    (hsane : ∀ pre a b post i1 i2, l = pre ++ a :: b :: post → a.insn = .instruction i1 → b.insn = .instruction i2 →
      SanePair c a.address i1 i2)
    {h : LiftedIns} (hm : h ∈ hs) {s : RvState M} (hpc : s.pc = h.address) :
    machineStep E l s = h.exec E s ∨
    ∃ v, (machineStep E l s).bind (machineStep E l) = (h.exec E s).map fun t => if h.op = .tail then t.set 6 v else t := by
  obtain ⟨hc, hb, hg⟩ := rvInstructions_spec hd _ le_rfl hl
  obtain ⟨pre, a, post, rfl, ⟨b, post', rfl, h2⟩ | h1⟩ := tryMapTwoByTwo_inv _ le_rfl hlift hm
  · obtain ⟨i1, i2, op, args, e1, e2, e3, rfl⟩ := tryMapTwo_some h2
    right
    have hc2 : Chained base ((pre ++ [a]) ++ b :: post') := by simpa using hc
    have hbl : bytesOf (pre ++ a :: b :: post') ≤ 2 ^ 32 := hb ▸ hlen
    have hbl2 : bytesOf ((pre ++ [a]) ++ b :: post') ≤ 2 ^ 32 := by simpa using hbl
    have hadr : b.address = a.address + a.insn.len := by
      rw [hc2.address, hc.address, BitVec.add_assoc]
      congr 1
      simp [bytesOf, BitVec.ofNat_add]
    obtain ⟨v, hv⟩ := fuse_exec (E := E) (hg a (by simp) i1 e1) (hg b (by simp) i2 e2) e3
      (hsane pre a b post' i1 i2 rfl e1 e2) (s := s) hpc a.insn.len b.insn.len
    refine ⟨v, ?_⟩
    rw [← hv, machineStep_at hc hbl e1 hpc]
    cases ht : i1.exec E a.insn.len s with
    | none => rfl
    | some t =>
      simp only [Option.bind_some]
      have htp : t.pc = b.address := by
        rw [fuse_first_pc e3 ht, hpc, hadr]
      have := machineStep_at (E := E) hc2 hbl2 e2 htp
      simpa using this
  · left
    cases hi : a.insn with
    | instruction i =>
      obtain ⟨aa, ai⟩ := a
      simp only at hi
      subst hi
      have hadr : h.address = aa := by
        unfold mapOne at h1
        simp only at h1
        split at h1
        · simp only [bind, Except.bind] at h1
          split at h1
          · cases h1
          · cases h1
            rfl
        · simp only [bind, Except.bind] at h1
          split at h1
          · cases h1
          · cases h1
            rfl
      rw [machineStep_at hc (hb ▸ hlen) rfl (hpc.trans hadr),
        mapOne_exec (hg ⟨aa, .instruction i⟩ (by simp) i rfl) h1 (hE ⟨aa, .instruction i⟩ (by simp) i rfl) (hpc.trans hadr)]
    | unimp16 =>
      rw [mapOne, hi] at h1
      cases h1
      rw [machineStep_unimp hc (hb ▸ hlen) (by rw [hi]; simp) hpc]
      rfl
    | unimp32 =>
      rw [mapOne, hi] at h1
      cases h1
      rw [machineStep_unimp hc (hb ▸ hlen) (by rw [hi]; simp) hpc]
      rfl

end Verif
