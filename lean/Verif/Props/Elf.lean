import Verif.Proofs.ElfFile
import Verif.Proofs.ElfFetch
import Verif.Props.BasicBlocks

/-!
# C75: destinations of jumps, C76: lifting
-/

set_option linter.unusedSectionVars false

namespace Verif

variable {M : Type}

/-! ## C75 -/

/-- C75: the entry point is a label. -/
theorem C75_entry {d : RvDecoder} {f : ElfFile} {prog : ElfProgram} (h : loadElf d f = .ok prog) :
    prog.entryPoint = f.entry ∧ f.entry ∈ prog.textLabels := by
  obtain ⟨x, y, text, h1, h2, -, rfl, -⟩ := loadElf_inv h
  exact ⟨rfl, relocateData_grows h2 (foldlM_grows scanSegment_grows h1 (by simp))⟩

theorem jump_pc {E : RvMachine M} {i : RvIns} (hj : i.opc.isJump = true) {n : BitVec 32} {s t : RvState M}
    (ht : i.exec E n s = some t) : ∃ v, i.imm = some v ∧ (t.pc = s.pc + n ∨ t.pc = s.pc + v) := by
  unfold RvIns.exec at ht
  by_cases hjal : i.opc = .jal
  · rw [if_neg (by rw [hjal]; decide), if_neg (by rw [hjal]; decide), if_neg (by rw [hjal]; decide),
      if_neg (by rw [hjal]; decide), if_pos hjal] at ht
    simp only [Option.bind_eq_bind, Option.bind_eq_some_iff, Option.some.injEq] at ht
    obtain ⟨rd, -, v, hv, rfl⟩ := ht
    exact ⟨v, hv, .inr (RvState.goto_set_pc _ _ _ _)⟩
  · have hb : i.opc.isBranch = true ∧ i.opc ≠ .lui ∧ i.opc ≠ .auipc ∧ i.opc ≠ .addi ∧ i.opc ≠ .add ∧ i.opc ≠ .jalr := by
      simp only [RvOp.isJump, List.mem_cons, List.not_mem_nil, or_false, decide_eq_true_eq] at hj
      rcases hj with h | h | h | h | h | h | h
      · exact absurd h hjal
      all_goals rw [h]; decide
    rw [if_neg hb.2.1, if_neg hb.2.2.1, if_neg hb.2.2.2.1, if_neg hb.2.2.2.2.1, if_neg hjal, if_neg hb.2.2.2.2.2,
      if_pos hb.1] at ht
    simp only [Option.bind_eq_bind, Option.bind_eq_some_iff, Option.some.injEq] at ht
    obtain ⟨r1, -, r2, -, v, hv, rfl⟩ := ht
    refine ⟨v, hv, ?_⟩
    split
    · exact .inr rfl
    · exact .inl rfl

theorem formed_jump {i : RvIns} (hf : i.Formed) (hj : i.opc.isJump = true) : i.extension ≠ .a := by
  obtain ⟨opc, rd, rs1, rs2, imm, ext⟩ := i
  simp only [RvOp.isJump, List.mem_cons, List.not_mem_nil, or_false, decide_eq_true_eq] at hj
  rcases hj with h | h | h | h | h | h | h <;> subst h <;> exact hf.2

/-- C75: after a jump or branch with a fixed offset, in any executable segment and in any state, the machine is at the
next instruction or at a label. -/
theorem C75_jumps {d : RvDecoder} (hd : d.Correct) {f : ElfFile} {prog : ElfProgram} (h : loadElf d f = .ok prog)
    (hn : (f.loads.map (·.vaddr)).Nodup) {s : ElfSegment} (hs : s ∈ f.loads) (he : s.executable = true)
    {l : List MaybeIns} (hl : rvInstructions d s.vaddr s.bytes = .ok l) {x : MaybeIns} (hx : x ∈ l) {i : RvIns}
    (hi : x.insn = .instruction i) (hj : i.opc.isJump = true) {E : RvMachine M} {u t : RvState M}
    (hu : u.pc = x.address) (ht : i.exec E x.insn.len u = some t) :
    t.pc = x.address + x.insn.len ∨ t.pc ∈ prog.textLabels := by
  obtain ⟨hs, h1, h2⟩ := segment_labels h hn hs he hl
  have hg := (rvInstructions_spec hd _ le_rfl hl).2.2 x hx i hi
  obtain ⟨v, hv, hp⟩ := jump_pc hj ht
  rw [hu] at hp
  rcases hp with hp | hp
  · exact .inl hp
  · exact .inr (hp ▸ h2 (jump_label h1 hx hi hj (formed_jump hg hj) hv))

/-- C75: after a call or a jump through `auipc` and `jalr`, in any executable segment and in any state, the machine is at
a label. -/
theorem C75_calls {d : RvDecoder} (hd : d.Correct) {f : ElfFile} {prog : ElfProgram} (h : loadElf d f = .ok prog)
    (hn : (f.loads.map (·.vaddr)).Nodup) {s : ElfSegment} (hs : s ∈ f.loads) (he : s.executable = true)
    {pre post : List MaybeIns} {a b : MaybeIns} (hl : rvInstructions d s.vaddr s.bytes = .ok (pre ++ a :: b :: post))
    {i1 i2 : RvIns} (h1 : a.insn = .instruction i1) (h2 : b.insn = .instruction i2) (ho1 : i1.opc = .auipc)
    (ho2 : i2.opc = .jalr) {r : ℕ} (hr : r ≠ 0) (hr1 : i1.rd = some r) (hr2 : i2.rs1 = some r) {hi lo : BitVec 32}
    (hhi : i1.imm = some hi) (hlo : i2.imm = some lo) (heven : (hi + a.address + lo) &&& 1 = 0)
    {E : RvMachine M} {u t : RvState M} (hu : u.pc = a.address)
    (ht : (i1.exec E a.insn.len u).bind (i2.exec E b.insn.len) = some t) : t.pc ∈ prog.textLabels := by
  obtain ⟨hs, e1, e2⟩ := segment_labels h hn hs he hl
  have hg := (rvInstructions_spec hd _ le_rfl hl).2.2
  have hg1 := hg a (by simp) i1 h1
  have hg2 := hg b (by simp) i2 h2
  have hsec : i1.opc ≠ .addi ∧ i1.opc ≠ .ecall ∧ i1.opc ≠ .jalr ∧ i1.opc.isLoad = false := by rw [ho1]; decide
  have hrs2 : i2.rs2 = none := by
    obtain ⟨opc, rd, rs1, rs2, imm, ext⟩ := i2
    simp only at ho2
    subst ho2
    obtain ⟨⟨_, _, _, -, -, rfl, -⟩, -⟩ := hg2
    rfl
  have hrd2 : ∃ rd, i2.rd = some rd := by
    obtain ⟨opc, rd, rs1, rs2, imm, ext⟩ := i2
    simp only at ho2
    subst ho2
    obtain ⟨⟨rd, _, _, rfl, -⟩, -⟩ := hg2
    exact ⟨rd, rfl⟩
  obtain ⟨rd, hrd⟩ := hrd2
  -- the pair is lifted together
  obtain ⟨op, args, hf, hlab, hop⟩ : ∃ op args,
      Lifter.fuse ⟨relocatedText f, isInTextSection (addressMap f.loads), none⟩ a.address b.address i1 i2 =
        .ok (some (op, args)) ∧ args.imm = .codeLabel (hi + a.address + lo) ∧
      ((op = .ins .jal ∧ args.rd = some rd) ∨ op = .tail) := by
    have hfe : Lifter.fuse ⟨relocatedText f, isInTextSection (addressMap f.loads), none⟩ a.address b.address i1 i2 =
        if r = r ∧ r = rd then .ok (some (.ins .jal, { rd := some rd, imm := .codeLabel (hi + a.address + lo) }))
        else if rd = 0 ∧ r = 6 ∧ r = 6 then .ok (some (.tail, { imm := .codeLabel (hi + a.address + lo) }))
        else .error .assertion := by
      unfold Lifter.fuse
      rw [ho1, hr1, hhi]
      show Lifter.afterAuipc _ (hi + a.address) r b.address i2 = _
      unfold Lifter.afterAuipc
      rw [ho2, hrd, hr2, hrs2, hlo]
    rw [hfe]
    split
    · exact ⟨_, _, rfl, rfl, .inl ⟨rfl, rfl⟩⟩
    · rename_i hc1
      rw [if_neg hc1] at hfe
      split
      · exact ⟨_, _, rfl, rfl, .inr rfl⟩
      · rename_i hc2
        rw [if_neg hc2] at hfe
        exfalso
        have herr : Lifter.tryMapTwo ⟨relocatedText f, isInTextSection (addressMap f.loads), none⟩ a b =
            .error .assertion := by
          unfold Lifter.tryMapTwo
          rw [h1, h2]
          simp only [bind, Except.bind]
          rw [hfe]
        rcases tryMapTwoByTwo_mem pre.length le_rfl e1 (never_second h1 hsec) with ⟨b', p', r', f1, f2, -⟩ | ⟨f0, -⟩
        · cases f1
          rw [herr] at f2
          cases f2
        · rw [f0 b (by simp)] at herr
          cases herr
  have hsane : SanePair ⟨relocatedText f, isInTextSection (addressMap f.loads), none⟩ a.address i1 i2 := by
    refine ⟨?_, ?_⟩
    · intro _ _ _ _ ho
      rw [ho2] at ho
      cases ho
    · intro rs1 hi' lo' _ _ q1 _ q3 q4
      rw [hr1] at q1
      rw [hhi] at q3
      rw [hlo] at q4
      cases q1
      cases q3
      cases q4
      exact ⟨hr, heven⟩
  obtain ⟨v, hv⟩ := fuse_exec (E := E) hg1 hg2 hf hsane (s := u) hu a.insn.len b.insn.len
  rw [ht] at hv
  have hlabel := e2 (pair_label e1 h1 h2 (.inl ho1) hf hlab)
  have : t.pc = hi + a.address + lo := by
    rcases hop with ⟨rfl, hard⟩ | rfl
    · simp only [LiftedIns.exec, hlab, hard, LiftedImm.word, Option.bind_eq_bind, Option.bind_some, reduceCtorEq,
        if_false, if_true, Option.map_some, Option.some.injEq] at hv
      rw [hv]
      exact RvState.goto_set_pc _ _ _ _
    · simp only [LiftedIns.exec, hlab, LiftedImm.word, Option.bind_eq_bind, Option.bind_some,
        if_true, Option.map_some, Option.some.injEq] at hv
      rw [hv]
      exact RvState.goto_set_pc _ _ _ _
  rw [this]
  exact hlabel

/-- C75: every label in the lifted instructions and in the initial memory is one of the labels of the program. -/
theorem C75_references {d : RvDecoder} {f : ElfFile} {prog : ElfProgram} (h : loadElf d f = .ok prog)
    (hn : (f.loads.map (·.vaddr)).Nodup) :
    (∀ i ∈ prog.instructions, ∀ v, i.args.imm = .codeLabel v → v ∈ prog.textLabels) ∧
    ∀ a v, prog.data a = some (.textLabel v) → v ∈ prog.textLabels := by
  refine ⟨?_, fun a v hv => data_labels h hv⟩
  intro i hi v hv
  obtain ⟨s, hs, he, l, hs', h1, h2, h3⟩ := instruction_segment h hn hi
  obtain ⟨hs'', h4, h5⟩ := segment_labels h hn hs he h1
  exact h5 (lift_labels h4 h2 (mem_codeLabels.2 ⟨i, h3, hv⟩))

/-- C75: an address of code that two instructions compute is a label: a `lui` with a relocation for it, or an `auipc`, and an
`addi` on the same register, to a register other than 3. -/
theorem C75_loaded {d : RvDecoder} {f : ElfFile} {prog : ElfProgram} (h : loadElf d f = .ok prog)
    (hn : (f.loads.map (·.vaddr)).Nodup) {s : ElfSegment} (hs : s ∈ f.loads) (he : s.executable = true)
    {pre post : List MaybeIns} {a b : MaybeIns} (hl : rvInstructions d s.vaddr s.bytes = .ok (pre ++ a :: b :: post))
    {i1 i2 : RvIns} (h1 : a.insn = .instruction i1) (h2 : b.insn = .instruction i2) {r rd : ℕ} {hi lo v : BitVec 32}
    (ho : (i1.opc = .auipc ∧ v = hi + a.address + lo) ∨
      (i1.opc = .lui ∧ v = hi + lo ∧ ∃ x ∈ f.relocs, x.type = .hi20 ∧ x.offset = a.address))
    (ho2 : i2.opc = .addi) (hr1 : i1.rd = some r) (hr2 : i2.rs1 = some r) (hrd : i2.rd = some rd) (h3 : rd ≠ 3)
    (hhi : i1.imm = some hi) (hlo : i2.imm = some lo) (ht : isInTextSection (addressMap f.loads) v = true) :
    v ∈ prog.textLabels := by
  obtain ⟨hs, e1, e2⟩ := segment_labels h hn hs he hl
  apply e2
  rcases ho with ⟨ho, rfl⟩ | ⟨ho, rfl, x, hx, hx1, hx2⟩
  · refine pair_label e1 h1 h2 (.inl ho) (op := .la) (args := { rd := some r, imm := .codeLabel (hi + a.address + lo) }) ?_ rfl
    unfold Lifter.fuse
    rw [ho, hr1, hhi]
    show Lifter.afterAuipc _ (hi + a.address) r b.address i2 = _
    unfold Lifter.afterAuipc
    rw [ho2, hrd, hr2, hlo]
    simp only [if_true, Lifter.composedImmediate, ht, Bool.true_and, ne_eq, h3, not_false_eq_true, decide_true]
  · refine pair_label e1 h1 h2 (.inr ho) (op := .la) (args := { rd := some r, imm := .codeLabel (hi + lo) }) ?_ rfl
    have hrel : relocatedText f a.address = true := List.any_eq_true.2 ⟨x, hx, by simp [hx1, hx2]⟩
    unfold Lifter.fuse
    rw [ho, hr1, hhi, ho2, hrd, hr2, hlo]
    simp only [if_true, Lifter.composedImmediate, ht, hrel, Bool.true_and, ne_eq, h3, not_false_eq_true, decide_true]

/-- C75: only addresses are taken for addresses: an instruction that loads an address of code comes from an `auipc`, or from a
`lui` with a relocation for it. -/
theorem C75_addresses {d : RvDecoder} {f : ElfFile} {prog : ElfProgram} (h : loadElf d f = .ok prog)
    (hn : (f.loads.map (·.vaddr)).Nodup) {i : LiftedIns} (hi : i ∈ prog.instructions) (hla : i.op = .la) :
    ∃ s ∈ f.loads, s.executable = true ∧ ∃ pre a post i1, rvInstructions d s.vaddr s.bytes = .ok (pre ++ a :: post) ∧
      a.address = i.address ∧ a.insn = .instruction i1 ∧
      (i1.opc = .auipc ∨ (i1.opc = .lui ∧ ∃ x ∈ f.relocs, x.type = .hi20 ∧ x.offset = i.address)) := by
  obtain ⟨s, hs, he, l, hs', h1, h2, h3⟩ := instruction_segment h hn hi
  obtain ⟨pre, a, post, rfl, hx⟩ := tryMapTwoByTwo_inv _ le_rfl h2 h3
  rcases hx with ⟨b, post', rfl, h4⟩ | h4
  · obtain ⟨i1, i2, op, args, e1, e2, e3, rfl⟩ := tryMapTwo_some h4
    refine ⟨s, hs, he, pre, a, b :: post', i1, h1, rfl, e1, ?_⟩
    simp only at hla
    subst hla
    unfold Lifter.fuse at e3
    split at e3
    · rename_i q1 _ _
      right
      refine ⟨q1, ?_⟩
      split at e3
      · split at e3
        · simp only [Except.ok.injEq] at e3
          unfold Lifter.composedImmediate at e3
          simp only at e3
          split at e3
          · rename_i hc
            simp only [Bool.and_eq_true] at hc
            obtain ⟨x, hx, hx'⟩ := List.any_eq_true.1 hc.1.1
            simp only [Bool.and_eq_true, decide_eq_true_eq] at hx'
            exact ⟨x, hx, hx'.1, hx'.2⟩
          · split at e3
            · split at e3 <;> simp at e3
            · cases e3
        · cases e3
      · cases e3
    · split at e3
      · simp only [Except.ok.injEq, Option.map_eq_some_iff, Prod.mk.injEq, reduceCtorEq, false_and, and_false,
          exists_false] at e3
      · cases e3
    · rename_i q1 _ _
      exact .inl q1
    · cases e3
  · exfalso
    unfold mapOne at h4
    split at h4
    · split at h4
      · simp only [bind, Except.bind, pure, Except.pure] at h4
        split at h4
        · cases h4
        · cases h4
          cases hla
      · simp only [bind, Except.bind, pure, Except.pure] at h4
        split at h4
        · cases h4
        · cases h4
          cases hla
    · cases h4
      cases hla

/-- C75: the words that the dynamic loader writes and that are addresses of code are labels. -/
theorem C75_dynamic {d : RvDecoder} {f : ElfFile} {prog : ElfProgram} (h : loadElf d f = .ok prog)
    (hdyn : f.dynamic = true) {r : ElfReloc} (hr : r ∈ f.dynRelas) {v : BitVec 32} (hv : r.addend = some v)
    (ht : isInTextSection (addressMap f.loads) v = true) : v ∈ prog.textLabels := by
  obtain ⟨x, y, text, -, h2, -, rfl, -⟩ := loadElf_inv h
  rcases relocateData_inv h2 with ⟨-, h2, -⟩ | ⟨h0, -⟩
  · obtain ⟨x', y', h3, h4⟩ := foldlM_step pieRelocate_grows h2 r hr
    apply h4
    unfold pieRelocate at h3
    split at h3
    · cases h3
    · split at h3
      · cases h3
      · rw [hv] at h3
        simp only [ht, if_true, Except.ok.injEq] at h3
        rw [← h3]
        simp
  · rw [hdyn] at h0
    cases h0

/-- C75: an address in a segment counts as code exactly if the segment is executable. So does the address one past the
end of a segment, unless another segment begins there. -/
theorem C75_sections {loads : List ElfSegment} (hn : (loads.map (·.vaddr)).Nodup) {s : ElfSegment} (hs : s ∈ loads)
    (hnw : s.vaddr.toNat + s.memsz.toNat < 2 ^ 32) {a : BitVec 32} (h1 : s.vaddr.toNat ≤ a.toNat)
    (h2 : ∀ x ∈ loads, s.vaddr.toNat < x.vaddr.toNat → a.toNat < x.vaddr.toNat) :
    (a.toNat ≤ s.vaddr.toNat + s.memsz.toNat → isInTextSection (addressMap loads) a = s.executable ∧
      isInDataSection (addressMap loads) a = !s.executable) ∧
    (s.vaddr.toNat + s.memsz.toNat < a.toNat → isInTextSection (addressMap loads) a = false ∧
      isInDataSection (addressMap loads) a = false) := by
  have he := sectionOfAddr_eq hn hs h1 h2
  rw [BitVec.toNat_add, Nat.mod_eq_of_lt hnw] at he
  unfold isInTextSection isInDataSection
  rw [he]
  constructor
  · intro h
    rw [if_neg (by omega)]
    exact ⟨rfl, rfl⟩
  · intro h
    rw [if_pos h]
    exact ⟨rfl, rfl⟩

/-- C75: the opcodes that end a block are those of jumps and branches, also on big integers; precompiles can be made of jumps and
branches other than those on big integers, and of the instructions without control flow or hints. -/
theorem C75_opcodes (op : ℕ) :
    (op ∈ branchOpcodesBigint ↔ ∃ c ∈ bigintClasses, c.has op) ∧
    (op ∈ branchOpcodesSet ↔ ∃ c ∈ jumpClasses ++ bigintClasses, c.has op) ∧
    (op ∈ instructionAllowlist ↔ ∃ c ∈ jumpClasses ++ straightClasses, c.has op) := by
  refine ⟨?_, ?_, ?_⟩
  · simp only [branchOpcodesBigint, bigintClasses, branchEqual256Class, branchLessThan256Class, VmOpcodeClass.has,
      List.mem_cons, exists_eq_or_imp, exists_eq_left, List.not_mem_nil, or_false]
    omega
  · simp only [branchOpcodesSet, branchOpcodesBigint, branchOpcodes, jumpClasses, bigintClasses, branchEqual256Class,
      branchLessThan256Class, branchEqualClass, branchLessThanClass, jalClass, jalrClass, VmOpcodeClass.has, List.cons_append,
      List.nil_append, List.mem_cons, exists_eq_or_imp, exists_eq_left, List.not_mem_nil, or_false]
    omega
  · simp only [instructionAllowlist, allOpcodesExceptBigint, hintOpcodes, List.mem_filter, decide_eq_true_eq, jumpClasses,
      straightClasses, branchEqualClass, branchLessThanClass, jalClass, jalrClass, VmOpcodeClass.has, List.cons_append,
      List.nil_append, List.mem_cons, exists_eq_or_imp, exists_eq_left, List.not_mem_nil, or_false]
    omega

/-- C75: the destinations of OpenVM: the labels, and for each branch on big integers, its address plus the operand. -/
theorem C75_openvm {p : ℕ} {elf : ElfProgram} {base : BitVec 32} {program : List (VmInstr p)} {dests : List (BitVec 32)}
    (h : jumpDestinations elf base (program.map some) = .ok dests) (x : BitVec 32) :
    x ∈ dests ↔ x ∈ elf.textLabels ∨ ∃ (i : ℕ) (hi : i < program.length), program[i].opcode ∈ branchOpcodesBigint ∧
      x = base + BitVec.ofNat 32 (4 * i) + BitVec.ofNat 32 program[i].c.val := by
  unfold jumpDestinations at h
  have hm := mapM_of_forall (f := extraTarget (p := p) base 4)
    (fun y => match y.1 with
      | none => []
      | some i => if i.opcode ∈ branchOpcodesBigint then
          [base + BitVec.ofNat 32 y.2 * 4 + BitVec.ofNat 32 i.c.val] else [])
    (l := (program.map some).zipIdx) (by
      intro y hy
      obtain ⟨z, k⟩ := y
      rw [List.mk_mem_zipIdx_iff_getElem?] at hy
      rw [List.getElem?_map, Option.map_eq_some_iff] at hy
      obtain ⟨i, -, rfl⟩ := hy
      simp only [extraTarget]
      split <;> rfl)
  rw [hm] at h
  cases h
  rw [List.mem_append, List.mem_flatten]
  constructor
  · rintro (h | ⟨l, hl, hx⟩)
    · exact .inl h
    · obtain ⟨⟨z, k⟩, hz, rfl⟩ := List.mem_map.1 hl
      rw [List.mk_mem_zipIdx_iff_getElem?, List.getElem?_map, Option.map_eq_some_iff] at hz
      obtain ⟨i, hi, rfl⟩ := hz
      obtain ⟨hk, rfl⟩ := List.getElem?_eq_some_iff.1 hi
      simp only at hx
      split at hx
      · rename_i ho
        refine .inr ⟨k, hk, ho, ?_⟩
        rw [List.mem_singleton.1 hx, Nat.mul_comm, BitVec.ofNat_mul]
        rfl
      · cases hx
  · rintro (h | ⟨k, hk, ho, rfl⟩)
    · exact .inl h
    · refine .inr ⟨_, List.mem_map.2 ⟨(some program[k], k), ?_, rfl⟩, ?_⟩
      · rw [List.mk_mem_zipIdx_iff_getElem?, List.getElem?_map, List.getElem?_eq_getElem hk]
        rfl
      · simp only [ho, if_true, List.mem_singleton]
        rw [Nat.mul_comm, BitVec.ofNat_mul]
        rfl

/-- C75: of a branch on big integers, the destination is added if the offset is not negative. If it is negative, the
address that is added is wrong: it is the destination plus the characteristic. -/
theorem C75_bigint {p : ℕ} {elf : ElfProgram} {base : BitVec 32} {program : List (VmInstr p)}
    {dests : List (BitVec 32)} (h : jumpDestinations elf base (program.map some) = .ok dests) {i : ℕ}
    (hi : i < program.length) (ho : program[i].opcode ∈ branchOpcodesBigint) {offset : ℤ}
    (hc : program[i].c = (offset : ZMod p)) :
    (0 ≤ offset → offset < p → base + BitVec.ofNat 32 (4 * i) + BitVec.ofInt 32 offset ∈ dests) ∧
    (offset < 0 → -(p : ℤ) ≤ offset →
      base + BitVec.ofNat 32 (4 * i) + BitVec.ofInt 32 offset + BitVec.ofNat 32 p ∈ dests) := by
  have key : ∀ z : ℤ, 0 ≤ z → z < p → program[i].c = (z : ZMod p) →
      base + BitVec.ofNat 32 (4 * i) + BitVec.ofInt 32 z ∈ dests := by
    intro z hz1 hz2 hz
    lift z to ℕ using hz1
    rw [C75_openvm h]
    refine .inr ⟨i, hi, ho, ?_⟩
    rw [hz, BitVec.ofInt_natCast, Int.cast_natCast, ZMod.val_natCast, Nat.mod_eq_of_lt (by exact_mod_cast hz2)]
  refine ⟨fun h1 h2 => key offset h1 h2 hc, fun h1 h2 => ?_⟩
  have := key (offset + p) (by omega) (by omega) (by rw [hc]; simp)
  rw [BitVec.ofInt_add, BitVec.ofInt_natCast, ← BitVec.add_assoc] at this
  exact this

/-- C75: a destination in the program starts a basic block. -/
theorem C75_blocks {p : ℕ} {elf : ElfProgram} {base : BitVec 32} {program : List (VmInstr p)} {dests : List (BitVec 32)}
    (h : jumpDestinations elf base (program.map some) = .ok dests) (c : DetectionConfig (VmInstr p))
    (hj : ∀ pc, c.jumpDest pc = dests.any fun x => decide (x.toNat = pc)) {i : ℕ} (hi : i < program.length)
    {x : BitVec 32} (hx : x ∈ elf.textLabels) (hpc : x.toNat = c.basePc + i * c.pcStep) :
    ∃ b ∈ collectBasicBlocks c program, b.startPc = x.toNat ∧ b.instructions.head? = some program[i] := by
  rw [hpc]
  refine C43_targets c program hi ?_
  rw [hj, List.any_eq_true]
  exact ⟨x, (C75_openvm h x).2 (.inl hx), by simpa using hpc⟩

/-! ## C76 -/

/-- C76: wherever a lifted instruction begins, executing it has the effect of one or of two steps of the machine on the
instructions of the segment; after a `tail`, register 6 may differ. -/
theorem C76_lifting {d : RvDecoder} (hd : d.Correct) {f : ElfFile} {prog : ElfProgram} (h : loadElf d f = .ok prog)
    (hn : (f.loads.map (·.vaddr)).Nodup) (hlen : ∀ s ∈ f.loads, s.bytes.length ≤ 2 ^ 32) {E : RvMachine M}
    (hE : ∀ i, E.IgnoresOrder i)
    (hsane : ∀ s ∈ f.loads, ∀ pre a b post i1 i2, rvInstructions d s.vaddr s.bytes = .ok (pre ++ a :: b :: post) →
      a.insn = .instruction i1 → b.insn = .instruction i2 →
      SanePair ⟨relocatedText f, isInTextSection (addressMap f.loads), some fun a => decide (a ∈ prog.textLabels)⟩
        a.address i1 i2)
    {i : LiftedIns} (hi : i ∈ prog.instructions) :
    ∃ s ∈ f.loads, s.executable = true ∧ ∃ l, rvInstructions d s.vaddr s.bytes = .ok l ∧
      ∀ u : RvState M, u.pc = i.address →
        machineStep E l u = i.exec E u ∨
        ∃ v, (machineStep E l u).bind (machineStep E l) =
          (i.exec E u).map fun t => if i.op = .tail then t.set 6 v else t := by
  obtain ⟨s, hs, he, l, hs', h1, h2, h3⟩ := instruction_segment h hn hi
  refine ⟨s, hs, he, l, h1, fun u hu => ?_⟩
  exact lift_step hd h1 (hlen s hs) h2 (fun _ _ i _ => hE i)
    (fun pre a b post i1 i2 hl => hsane s hs pre a b post i1 i2 (hl ▸ h1)) h3 hu

/-- C76: the instructions of a segment are decoded from its bytes: the one at an address from the two or four bytes there, the
least significant byte first. -/
theorem C76_bytes {d : RvDecoder} {s : ElfSegment} {l : List MaybeIns} (h : rvInstructions d s.vaddr s.bytes = .ok l) :
    ∀ x ∈ l, ∃ k, k < s.bytes.length ∧ x.address = s.vaddr + BitVec.ofNat 32 k ∧ Fetches d (s.bytes.drop k) x.insn :=
  rvInstructions_fetches _ le_rfl h

/-- C76: the system call a number stands for. -/
theorem C76_syscalls (v : BitVec 32) (name : String) :
    syscallName v = some name ↔ syscallNumber name = some v.toNat :=
  syscallName_iff v name

/-- Every element is the first one of a pair, mapped alone, or the second one of a pair. -/
theorem tryMapTwoByTwo_all {A R : Type} {two : A → A → Except Panic (Option R)} {one : A → Except Panic R} (n : ℕ)
    {l : List A} (hn : l.length ≤ n) {hs : List R} (h : tryMapTwoByTwo two one l = .ok hs) {x : A} (hx : x ∈ l) :
    (∃ r ∈ hs, one x = .ok r ∨ ∃ b, two x b = .ok (some r)) ∨
    ∃ pre a post, l = pre ++ a :: x :: post ∧ ∃ r ∈ hs, two a x = .ok (some r) := by
  induction n generalizing l hs with
  | zero =>
    obtain rfl := List.length_eq_zero_iff.1 (Nat.le_zero.1 hn)
    cases hx
  | succ n ih =>
    cases l with
    | nil => cases hx
    | cons a t =>
      simp only [List.length_cons] at hn
      rcases tryMapTwoByTwo_cons h with ⟨b, t', r', hs', rfl, h1, h2, rfl⟩ | ⟨-, r', hs', h1, h2, rfl⟩
      · rcases List.mem_cons.1 hx with rfl | hx
        · exact .inl ⟨r', List.mem_cons_self, .inr ⟨b, h1⟩⟩
        · rcases List.mem_cons.1 hx with rfl | hx
          · exact .inr ⟨[], a, t', rfl, r', List.mem_cons_self, h1⟩
          · simp only [List.length_cons] at hn
            rcases ih (by omega) h2 hx with ⟨r, e1, e2⟩ | ⟨pre, y, post, rfl, r, e1, e2⟩
            · exact .inl ⟨r, List.mem_cons_of_mem _ e1, e2⟩
            · exact .inr ⟨a :: b :: pre, y, post, rfl, r, List.mem_cons_of_mem _ e1, e2⟩
      · rcases List.mem_cons.1 hx with rfl | hx
        · exact .inl ⟨r', List.mem_cons_self, .inl h1⟩
        · rcases ih (by omega) h2 hx with ⟨r, e1, e2⟩ | ⟨pre, y, post, rfl, r, e1, e2⟩
          · exact .inl ⟨r, List.mem_cons_of_mem _ e1, e2⟩
          · exact .inr ⟨a :: pre, y, post, rfl, r, List.mem_cons_of_mem _ e1, e2⟩

theorem mapOne_address {x : MaybeIns} {r : LiftedIns} (h : mapOne x = .ok r) : r.address = x.address := by
  unfold mapOne at h
  split at h
  · split at h
    · simp only [bind, Except.bind] at h
      split at h
      · cases h
      · cases h
        rfl
    · simp only [bind, Except.bind] at h
      split at h
      · cases h
      · cases h
        rfl
  · cases h
    rfl

/-- A referenced instruction is not the second part of an `li`. -/
theorem fuse_li_not_referenced {c : Lifter} {refs : BitVec 32 → Bool} (hc : c.referenced = some refs) {a a2 : BitVec 32}
    {i1 i2 : RvIns} {args : LiftedArgs} (h : c.fuse a a2 i1 i2 = .ok (some (.li, args))) : refs a2 = false := by
  have key : ∀ hi lo r rd isA, c.composedImmediate hi lo r rd a2 isA = some (.li, args) → refs a2 = false := by
    intro hi lo r rd isA h
    unfold Lifter.composedImmediate at h
    simp only at h
    split at h
    · cases h
    · split at h
      · rw [hc] at h
        simp only at h
        split at h
        · cases h
        · rename_i hr
          simpa using hr
      · cases h
  unfold Lifter.fuse at h
  split at h
  · split at h
    · split at h
      · exact key _ _ _ _ _ (Except.ok.inj h)
      · cases h
    · cases h
  · split at h
    · simp only [Except.ok.injEq, Option.map_eq_some_iff, Prod.mk.injEq, reduceCtorEq, false_and, and_false,
        exists_const] at h
    · cases h
  · unfold Lifter.afterAuipc at h
    split at h
    · split at h
      · exact key _ _ _ _ _ (Except.ok.inj h)
      · cases h
    · split at h
      · cases h
      · split at h <;> cases h
    · split at h
      · split at h <;> cases h
      · cases h
    · split at h
      · split at h <;> cases h
      · cases h
    · cases h
  · cases h

/-- C76: at every label that is the address of an instruction, a lifted instruction begins, unless the instruction is the
second part of a loaded address, a call, a load or a system call. -/
theorem C76_starts {d : RvDecoder} {f : ElfFile} {prog : ElfProgram} (h : loadElf d f = .ok prog)
    (hn : (f.loads.map (·.vaddr)).Nodup) {s : ElfSegment} (hs : s ∈ f.loads) (he : s.executable = true) {l : List MaybeIns}
    (hl : rvInstructions d s.vaddr s.bytes = .ok l) {x : MaybeIns} (hx : x ∈ l) (hlab : x.address ∈ prog.textLabels) :
    (∃ i ∈ prog.instructions, i.address = x.address) ∨
    ∃ pre a post, l = pre ++ a :: x :: post ∧ ∃ i ∈ prog.instructions, i.address = a.address ∧
      i.size = a.insn.len + x.insn.len ∧ i.op ≠ .li := by
  obtain ⟨l', hs', h1, h2, h3⟩ := segment_instructions h hn hs he
  rw [hl] at h1
  cases h1
  rcases tryMapTwoByTwo_all _ le_rfl h2 hx with ⟨r, e1, e2⟩ | ⟨pre, a, post, e0, r, e1, e2⟩
  · refine .inl ⟨r, h3.subset e1, ?_⟩
    rcases e2 with e2 | ⟨b, e2⟩
    · exact mapOne_address e2
    · obtain ⟨i1, i2, op, args, -, -, -, rfl⟩ := tryMapTwo_some e2
      rfl
  · obtain ⟨i1, i2, op, args, -, -, e3, rfl⟩ := tryMapTwo_some e2
    refine .inr ⟨pre, a, post, e0, _, h3.subset e1, rfl, rfl, ?_⟩
    rintro rfl
    have := fuse_li_not_referenced (c := ⟨_, _, some _⟩) rfl e3
    simp [hlab] at this

/-- C76: two instructions that load an address of code with two different registers (neither 0, the second one not 3) are
lifted to an instruction that leaves the second register unchanged, although the code sets it to the address. -/
theorem C76_la {c : Lifter} {a a2 hi lo : BitVec 32} {r rd : ℕ} (hr : r ≠ 0) (hrd : rd ≠ 0) (hne : rd ≠ r) (h3 : rd ≠ 3)
    (hin : c.inText (hi + a + lo) = true) (E : RvMachine M) {n1 n2 : BitVec 32} {s : RvState M} (hs : s.pc = a) :
    ∃ op args, c.fuse a a2 ⟨.auipc, some r, none, none, some hi, .other⟩ ⟨.addi, some rd, some r, none, some lo, .other⟩ =
        .ok (some (op, args)) ∧
      ((LiftedIns.exec E ⟨a, n1 + n2, op, args⟩ s).map fun t => t.get rd) = some (s.get rd) ∧
      (((RvIns.exec E ⟨.auipc, some r, none, none, some hi, .other⟩ n1 s).bind
        (RvIns.exec E ⟨.addi, some rd, some r, none, some lo, .other⟩ n2)).map fun t => t.get rd) =
          some (hi + a + lo) := by
  subst hs
  refine ⟨.la, { rd := some r, imm := .codeLabel (hi + s.pc + lo) }, ?_, ?_, ?_⟩
  · simp [Lifter.fuse, Lifter.afterAuipc, Lifter.composedImmediate, hin, h3]
  · simp [LiftedIns.exec, LiftedImm.word, RvState.get, RvState.set, RvState.goto, hr, hrd, hne]
  · simp [RvIns.exec, RvState.get, RvState.set, RvState.goto, hr, hrd, Function.update_apply]
    rw [BitVec.add_comm s.pc hi]

/-- C76: a compressed instruction becomes an instruction with the same effect and the same size. -/
theorem C76_compressed {E : RvMachine M} {i : RvIns} {s : RvState M} {r : Option (RvState M)} (hc : i.extension = .c)
    (h : CompressedExec E i s r) :
    ∃ j, to32BitEquivalent i = .ok j ∧ (UnimpOrInstruction.instruction j).len = 2 ∧
      j.exec E (UnimpOrInstruction.instruction j).len s = r := by
  have hz : s.get 0 = 0 := rfl
  obtain ⟨opc, rd, rs1, rs2, imm, ext⟩ := i
  simp only at hc
  subst hc
  cases h
  case alu op h =>
    simp only [List.mem_cons, Prod.mk.injEq, List.not_mem_nil, or_false] at h
    rcases h with ⟨rfl, rfl⟩ | ⟨rfl, rfl⟩ | ⟨rfl, rfl⟩ | ⟨rfl, rfl⟩ | ⟨rfl, rfl⟩ | ⟨rfl, rfl⟩ | ⟨rfl, rfl⟩ | ⟨rfl, rfl⟩ |
      ⟨rfl, rfl⟩ <;> exact ⟨_, rfl, rfl, rfl⟩
  case nop v h h1 =>
    simp only at h h1
    subst h h1
    exact ⟨_, rfl, rfl, rfl⟩
  case li v h h1 h2 =>
    simp only at h h1 h2
    subst h h1 h2
    refine ⟨_, rfl, rfl, ?_⟩
    simp [RvIns.exec, UnimpOrInstruction.len, hz]
  case mv h h1 h2 =>
    simp only at h h1 h2
    subst h h1 h2
    refine ⟨_, rfl, rfl, ?_⟩
    simp [RvIns.exec, UnimpOrInstruction.len, hz]
  case jr h h1 =>
    simp only at h h1
    subst h h1
    refine ⟨_, rfl, rfl, ?_⟩
    show some ((s.goto ((s.get _ + 0) &&& ~~~1)).set 0 _) = _
    rw [show s.get _ + (0 : BitVec 32) = s.get _ from BitVec.add_zero _]
    rfl
  case jalr h h1 =>
    simp only at h h1
    subst h h1
    refine ⟨_, rfl, rfl, ?_⟩
    show some ((s.goto ((s.get _ + 0) &&& ~~~1)).set 1 _) = _
    rw [show s.get _ + (0 : BitVec 32) = s.get _ from BitVec.add_zero _]
    rfl
  all_goals
    simp_all only
    exact ⟨_, rfl, rfl, rfl⟩

/-! ## A file -/

/-- A decoder of five instructions. -/
def sampleDecoder : RvDecoder where
  decode32 w :=
    if w = 0x00000097 then some ⟨.auipc, some 1, none, none, some (0 <<< 12), .other⟩
    else if w = 0x008080e7 then some ⟨.jalr, some 1, some 1, none, some 8, .other⟩
    else if w = 0xfe000ce3 then some ⟨.beq, none, some 0, some 0, some (-8), .other⟩
    else none
  decode16 w :=
    if w = 0x0001 then .ok ⟨.cNop, none, none, none, some 0, .c⟩
    else if w = 0 then .illegal
    else .error

theorem sampleDecoder_correct : sampleDecoder.Correct where
  half := by
    intro w i h
    simp only [sampleDecoder] at h
    split at h
    · cases h; rfl
    · split at h <;> cases h
  word := by
    intro w i h
    simp only [sampleDecoder] at h
    split at h
    · cases h; decide
    · split at h
      · cases h; decide
      · split at h
        · cases h; decide
        · cases h
  formed32 := by
    intro w i h
    simp only [sampleDecoder] at h
    split at h
    · cases h
      exact ⟨⟨1, 0, rfl, rfl, rfl, rfl⟩, by decide⟩
    · split at h
      · cases h
        exact ⟨⟨1, 1, 8, rfl, rfl, rfl, rfl⟩, by decide⟩
      · split at h
        · cases h
          exact ⟨⟨0, 0, -8, rfl, rfl, rfl, rfl⟩, by decide⟩
        · cases h
  formed16 := by
    intro w i j h hj
    simp only [sampleDecoder] at h
    split at h
    · cases h
      cases hj
      exact ⟨⟨0, 0, 0, rfl, rfl, rfl, rfl⟩, by decide⟩
    · split at h <;> cases h

/-- Code at 0x1000: `auipc x1, 0; jalr x1, 8(x1); beq x0, x0, -8; c.nop`, and a word of data at 0x2000 that is an
address of code. -/
def sampleElf : ElfFile where
  entry := 0x1000
  dynamic := false
  loads := [⟨0x2000, 8, false, [0x08, 0x10, 0, 0]⟩,
    ⟨0x1000, 14, true, [0x97, 0, 0, 0, 0xe7, 0x80, 0x80, 0x00, 0xe3, 0x0c, 0x00, 0xfe, 0x01, 0x00]⟩]
  relocs := [⟨0x2000, .riscv32, none⟩]
  dynRelas := []
  dynRels := 0

/-- The instructions of the code. -/
def sampleCode : List MaybeIns :=
  [⟨0x1000, .instruction ⟨.auipc, some 1, none, none, some 0, .other⟩⟩,
    ⟨0x1004, .instruction ⟨.jalr, some 1, some 1, none, some 8, .other⟩⟩,
    ⟨0x1008, .instruction ⟨.beq, none, some 0, some 0, some (-8), .other⟩⟩,
    ⟨0x100c, .instruction ⟨.addi, some 0, some 0, none, some 0, .c⟩⟩]

theorem sampleCode_eq : rvInstructions sampleDecoder 0x1000
    [0x97, 0, 0, 0, 0xe7, 0x80, 0x80, 0x00, 0xe3, 0x0c, 0x00, 0xfe, 0x01, 0x00] = .ok sampleCode := by
  simp [rvInstructions, decodeWord, decodeHalf, sampleDecoder, to32BitEquivalent, sampleCode, bind, Except.bind, pure,
    Except.pure, Except.map]

example : ∃ prog, loadElf sampleDecoder sampleElf = .ok prog ∧
    prog.textLabels = [0x1000, 0x1008, 0x1000, 0x1008] ∧ prog.data 0x2000 = some (.textLabel 0x1008) ∧
    prog.instructions = [⟨0x1000, 8, .ins .jal, { rd := some 1, imm := .codeLabel 0x1008 }⟩,
      ⟨0x1008, 4, .ins .beq, { rs1 := some 0, rs2 := some 0, imm := .codeLabel 0x1000 }⟩,
      ⟨0x100c, 2, .ins .addi, { rd := some 0, rs1 := some 0, imm := .value 0 }⟩] := by
  have ham : addressMap sampleElf.loads = [⟨0x1000, 14, true,
      [0x97, 0, 0, 0, 0xe7, 0x80, 0x80, 0x00, 0xe3, 0x0c, 0x00, 0xfe, 0x01, 0x00]⟩,
      ⟨0x2000, 8, false, [0x08, 0x10, 0, 0]⟩] := rfl
  unfold loadElf
  simp only [ham]
  rw [if_neg (by decide), List.foldlM_cons, List.filter_cons_of_pos rfl, List.filter_cons_of_neg (by decide),
    List.filter_nil]
  simp only [scanSegment, liftSegment, List.mapM_cons, if_true, sampleCode_eq]
  exact ⟨_, rfl, rfl, rfl, rfl⟩

/-- The pairs of the code are as compilers emit them. -/
example (c : Lifter) (pre : List MaybeIns) (a b : MaybeIns) (post : List MaybeIns) (i1 i2 : RvIns)
    (h : sampleCode = pre ++ a :: b :: post) (h1 : a.insn = .instruction i1) (h2 : b.insn = .instruction i2) :
    SanePair c a.address i1 i2 := by
  match pre, h with
  | [], h =>
    cases h
    cases h1
    cases h2
    refine ⟨by simp, ?_⟩
    rintro rs1 hi lo - - ⟨⟩ - ⟨⟩ ⟨⟩
    decide
  | [_], h =>
    cases h
    cases h1
    cases h2
    exact ⟨by simp, by simp⟩
  | [_, _], h =>
    cases h
    cases h1
    cases h2
    exact ⟨by simp, by simp⟩
  | [_, _, _], h => cases h
  | _ :: _ :: _ :: _ :: [], h => cases h
  | _ :: _ :: _ :: _ :: _ :: _, h => cases h

/-- One past the end of the code counts as code. -/
example : isInTextSection (addressMap sampleElf.loads) 0x100e = true ∧
    isInTextSection (addressMap sampleElf.loads) 0x100f = false := by
  decide +kernel

/-- A branch on big integers at address 8 that goes back to address 0: the destination is missing. -/
example : ∃ dests, jumpDestinations (p := 2013265921) ⟨fun _ => none, [], [], 0⟩ 0
      [some ⟨512, 0⟩, some ⟨512, 0⟩, some ⟨1056, ((-8 : ℤ) : ZMod 2013265921)⟩] = .ok dests ∧ (0 : BitVec 32) ∉ dests := by
  refine ⟨_, rfl, ?_⟩
  decide +kernel

end Verif
