import Verif.Proofs.Elf

/-!
# Which instructions are lifted together, and which addresses are labels
-/

set_option linter.unusedSectionVars false

namespace Verif

/-! ## `try_map_two_by_two` -/

section
variable {E R : Type} {two : E → E → Except Panic (Option R)} {one : E → Except Panic R}

theorem tryMapTwoByTwo_cons {a : E} {t : List E} {hs : List R} (h : tryMapTwoByTwo two one (a :: t) = .ok hs) :
    (∃ b t' r hs', t = b :: t' ∧ two a b = .ok (some r) ∧ tryMapTwoByTwo two one t' = .ok hs' ∧ hs = r :: hs') ∨
    ((∀ b ∈ t.head?, two a b = .ok none) ∧ ∃ r hs', one a = .ok r ∧ tryMapTwoByTwo two one t = .ok hs' ∧
      hs = r :: hs') := by
  cases t with
  | nil =>
    rw [tryMapTwoByTwo] at h
    simp only [bind, Except.bind] at h
    split at h
    · cases h
    · rename_i r hr
      cases h
      exact .inr ⟨by simp, r, [], hr, rfl, rfl⟩
  | cons b t =>
    rw [tryMapTwoByTwo] at h
    simp only [bind, Except.bind] at h
    split at h
    · cases h
    · rename_i m hm
      cases m with
      | some r =>
        simp only at h
        split at h
        · cases h
        · rename_i hs' hhs
          cases h
          exact .inl ⟨b, t, r, hs', rfl, hm, hhs, rfl⟩
      | none =>
        simp only at h
        split at h
        · cases h
        · rename_i r hr
          split at h
          · cases h
          · rename_i hs' hhs
            cases h
            exact .inr ⟨by simpa using hm, r, hs', hr, hhs, rfl⟩

/-- Where a result comes from. -/
theorem tryMapTwoByTwo_inv (n : ℕ) {l : List E} (hn : l.length ≤ n) {hs : List R}
    (h : tryMapTwoByTwo two one l = .ok hs) {r : R} (hr : r ∈ hs) :
    ∃ pre a post, l = pre ++ a :: post ∧
      ((∃ b post', post = b :: post' ∧ two a b = .ok (some r)) ∨ one a = .ok r) := by
  induction n generalizing l hs with
  | zero =>
    obtain rfl := List.length_eq_zero_iff.1 (Nat.le_zero.1 hn)
    cases h
    cases hr
  | succ n ih =>
    cases l with
    | nil => cases h; cases hr
    | cons a t =>
      simp only [List.length_cons] at hn
      rcases tryMapTwoByTwo_cons h with ⟨b, t', r', hs', rfl, h1, h2, rfl⟩ | ⟨-, r', hs', h1, h2, rfl⟩
      · rcases List.mem_cons.1 hr with rfl | hr
        · exact ⟨[], a, b :: t', rfl, .inl ⟨b, t', rfl, h1⟩⟩
        · simp only [List.length_cons] at hn
          obtain ⟨pre, x, post, rfl, hx⟩ := ih (by omega) h2 hr
          exact ⟨a :: b :: pre, x, post, rfl, hx⟩
      · rcases List.mem_cons.1 hr with rfl | hr
        · exact ⟨[], a, t, rfl, .inr h1⟩
        · obtain ⟨pre, x, post, rfl, hx⟩ := ih (by omega) h2 hr
          exact ⟨a :: pre, x, post, rfl, hx⟩

/-- An element that is never the second one of a pair is the first one of a pair, or mapped alone. -/
theorem tryMapTwoByTwo_mem (n : ℕ) {pre post : List E} {a : E} (hn : pre.length ≤ n) {hs : List R}
    (h : tryMapTwoByTwo two one (pre ++ a :: post) = .ok hs) (ha : ∀ x r, two x a ≠ .ok (some r)) :
    (∃ b post' r, post = b :: post' ∧ two a b = .ok (some r) ∧ r ∈ hs) ∨
    ((∀ b ∈ post.head?, two a b = .ok none) ∧ ∃ r, one a = .ok r ∧ r ∈ hs) := by
  induction n generalizing pre hs with
  | zero =>
    obtain rfl := List.length_eq_zero_iff.1 (Nat.le_zero.1 hn)
    rcases tryMapTwoByTwo_cons h with ⟨b, t', r', hs', h0, h1, h2, rfl⟩ | ⟨h0, r', hs', h1, h2, rfl⟩
    · exact .inl ⟨b, t', r', h0, h1, List.mem_cons_self⟩
    · exact .inr ⟨h0, r', h1, List.mem_cons_self⟩
  | succ n ih =>
    cases pre with
    | nil => exact ih (pre := []) (Nat.zero_le n) h
    | cons x pre =>
      simp only [List.length_cons] at hn
      have key : ∀ hs', tryMapTwoByTwo two one (pre ++ a :: post) = .ok hs' → hs' ⊆ hs →
          (∃ b post' r, post = b :: post' ∧ two a b = .ok (some r) ∧ r ∈ hs) ∨
          ((∀ b ∈ post.head?, two a b = .ok none) ∧ ∃ r, one a = .ok r ∧ r ∈ hs) := by
        intro hs' h' hsub
        rcases ih (by omega) h' with ⟨b, p', r, e1, e2, e3⟩ | ⟨e0, r, e1, e2⟩
        · exact .inl ⟨b, p', r, e1, e2, hsub e3⟩
        · exact .inr ⟨e0, r, e1, hsub e2⟩
      rcases tryMapTwoByTwo_cons h with ⟨b, t', r', hs', h0, h1, h2, rfl⟩ | ⟨-, r', hs', -, h2, rfl⟩
      · cases pre with
        | nil =>
          change a :: post = b :: t' at h0
          rw [List.cons.injEq] at h0
          exact absurd h1 (h0.1 ▸ ha x r')
        | cons y pre =>
          change y :: (pre ++ a :: post) = b :: t' at h0
          rw [List.cons.injEq] at h0
          obtain ⟨rfl, rfl⟩ := h0
          simp only [List.length_cons] at hn
          rcases ih (by omega) h2 with ⟨b, p', r, e1, e2, e3⟩ | ⟨e0, r, e1, e2⟩
          · exact .inl ⟨b, p', r, e1, e2, List.mem_cons_of_mem _ e3⟩
          · exact .inr ⟨e0, r, e1, List.mem_cons_of_mem _ e2⟩
      · exact key hs' h2 (List.subset_cons_self _ _)

end

/-! ## Labels -/

theorem mem_codeLabels {l : List LiftedIns} {a : BitVec 32} : a ∈ codeLabels l ↔ ∃ h ∈ l, h.args.imm = .codeLabel a := by
  unfold codeLabels
  rw [List.mem_filterMap]
  constructor
  · rintro ⟨h, h1, h2⟩
    refine ⟨h, h1, ?_⟩
    split at h2
    · rename_i e
      rw [e, Option.some.inj h2]
    · cases h2
  · rintro ⟨h, h1, h2⟩
    exact ⟨h, h1, by rw [h2]⟩

/-- The second instruction of a pair. -/
theorem fuse_second {c : Lifter} {a a2 : BitVec 32} {i1 i2 : RvIns} {x : LiftedOp × LiftedArgs}
    (h : c.fuse a a2 i1 i2 = .ok (some x)) :
    i2.opc = .addi ∨ i2.opc = .ecall ∨ i2.opc = .jalr ∨ i2.opc.isLoad = true := by
  unfold Lifter.fuse at h
  split at h
  · split at h
    · rename_i e _ _ _
      exact .inl e
    · cases h
  · split at h
    · rename_i hc
      exact .inr (.inl hc.2.2)
    · cases h
  · unfold Lifter.afterAuipc at h
    split at h
    · rename_i e _ _ _
      exact .inl e
    · rename_i e _ _ _ _
      exact .inr (.inr (.inl e))
    · split at h
      · rename_i hc
        exact .inr (.inr (.inr hc.1))
      · cases h
    · split at h
      · split at h <;> cases h
      · cases h
    · cases h
  · cases h

/-- The first instruction of a pair. -/
theorem fuse_first {c : Lifter} {a a2 : BitVec 32} {i1 i2 : RvIns} {x : LiftedOp × LiftedArgs}
    (h : c.fuse a a2 i1 i2 = .ok (some x)) : i1.opc = .lui ∨ i1.opc = .addi ∨ i1.opc = .auipc := by
  unfold Lifter.fuse at h
  split at h
  · rename_i e _ _
    exact .inl e
  · rename_i e _ _ _
    exact .inr (.inl e)
  · rename_i e _ _
    exact .inr (.inr e)
  · cases h

theorem tryMapTwo_some {c : Lifter} {a b : MaybeIns} {h : LiftedIns} (e : c.tryMapTwo a b = .ok (some h)) :
    ∃ i1 i2 op args, a.insn = .instruction i1 ∧ b.insn = .instruction i2 ∧
      c.fuse a.address b.address i1 i2 = .ok (some (op, args)) ∧ h = ⟨a.address, a.insn.len + b.insn.len, op, args⟩ := by
  unfold Lifter.tryMapTwo at e
  split at e
  · rename_i i1 i2 e1 e2
    simp only [bind, Except.bind] at e
    split at e
    · cases e
    · rename_i x hx
      cases x with
      | none => cases e
      | some x =>
        cases e
        exact ⟨i1, i2, x.1, x.2, e1, e2, hx, rfl⟩
  · cases e

theorem tryMapTwo_of_fuse {c : Lifter} {a b : MaybeIns} {i1 i2 : RvIns} (e1 : a.insn = .instruction i1)
    (e2 : b.insn = .instruction i2) {x : Option (LiftedOp × LiftedArgs)}
    (h : c.fuse a.address b.address i1 i2 = .ok x) :
    c.tryMapTwo a b = .ok (x.map fun x => ⟨a.address, a.insn.len + b.insn.len, x.1, x.2⟩) := by
  unfold Lifter.tryMapTwo
  rw [e1, e2]
  simp only [bind, Except.bind]
  rw [h]
  rfl

/-- Instructions that are never second. -/
theorem never_second {c : Lifter} {b : MaybeIns} {i : RvIns} (hb : b.insn = .instruction i)
    (hi : i.opc ≠ .addi ∧ i.opc ≠ .ecall ∧ i.opc ≠ .jalr ∧ i.opc.isLoad = false) (x : MaybeIns) (r : LiftedIns) :
    c.tryMapTwo x b ≠ .ok (some r) := by
  intro h
  obtain ⟨i1, i2, op, args, -, e2, e3, -⟩ := tryMapTwo_some h
  rw [hb] at e2
  cases e2
  rcases fuse_second e3 with h | h | h | h
  · exact hi.1 h
  · exact hi.2.1 h
  · exact hi.2.2.1 h
  · rw [hi.2.2.2] at h
    cases h

/-- The destination of a jump is a label. -/
theorem jump_label {c : Lifter} {l : List MaybeIns} {hs : List LiftedIns} (h : c.lift l = .ok hs) {x : MaybeIns}
    (hx : x ∈ l) {i : RvIns} (hi : x.insn = .instruction i) (hj : i.opc.isJump = true) (ha : i.extension ≠ .a)
    {v : BitVec 32} (hv : i.imm = some v) : x.address + v ∈ codeLabels hs := by
  obtain ⟨pre, post, rfl⟩ := List.append_of_mem hx
  have hop : i.opc ≠ .addi ∧ i.opc ≠ .ecall ∧ i.opc ≠ .jalr ∧ i.opc.isLoad = false ∧ i.opc ≠ .lui ∧ i.opc ≠ .auipc := by
    simp only [RvOp.isJump, List.mem_cons, List.not_mem_nil, or_false, decide_eq_true_eq] at hj
    rcases hj with h | h | h | h | h | h | h <;> rw [h] <;> decide
  rcases tryMapTwoByTwo_mem pre.length le_rfl h (never_second hi ⟨hop.1, hop.2.1, hop.2.2.1, hop.2.2.2.1⟩) with
    ⟨b, p', r, -, e2, -⟩ | ⟨-, r, e1, e2⟩
  · obtain ⟨i1, i2, op, args, f1, f2, f3, -⟩ := tryMapTwo_some e2
    rw [hi] at f1
    cases f1
    rcases fuse_first f3 with h | h | h
    · exact absurd h hop.2.2.2.2.1
    · exact absurd h hop.1
    · exact absurd h hop.2.2.2.2.2
  · rw [mem_codeLabels]
    refine ⟨r, e2, ?_⟩
    unfold mapOne at e1
    rw [hi] at e1
    simp only at e1
    rw [if_neg hop.2.2.2.2.2] at e1
    unfold liftImm at e1
    rw [if_pos hj, RvIns.unwrapImm, hv] at e1
    simp only [bind, Except.bind, pure, Except.pure] at e1
    cases e1
    simp only [ha, if_false]
    rw [BitVec.add_comm]

/-- The label of a pair. -/
theorem pair_label {c : Lifter} {pre post : List MaybeIns} {a b : MaybeIns} {hs : List LiftedIns}
    (h : c.lift (pre ++ a :: b :: post) = .ok hs) {i1 i2 : RvIns} (h1 : a.insn = .instruction i1)
    (h2 : b.insn = .instruction i2) (hop : i1.opc = .auipc ∨ i1.opc = .lui) {op : LiftedOp} {args : LiftedArgs}
    (hf : c.fuse a.address b.address i1 i2 = .ok (some (op, args))) {v : BitVec 32} (hv : args.imm = .codeLabel v) :
    v ∈ codeLabels hs := by
  have hs2 : i1.opc ≠ .addi ∧ i1.opc ≠ .ecall ∧ i1.opc ≠ .jalr ∧ i1.opc.isLoad = false := by
    rcases hop with h | h <;> rw [h] <;> decide
  have hm := tryMapTwo_of_fuse h1 h2 hf
  rcases tryMapTwoByTwo_mem pre.length le_rfl h (never_second h1 hs2) with ⟨b', p', r, e1, e2, e3⟩ | ⟨e0, -⟩
  · cases e1
    rw [hm] at e2
    cases e2
    exact mem_codeLabels.2 ⟨_, e3, hv⟩
  · rw [e0 b (by simp)] at hm
    cases hm

/-- While the labels are collected, a pair gives the label that it gives later. -/
theorem fuse_write {rel inT : BitVec 32 → Bool} {refs : BitVec 32 → Bool} {a a2 : BitVec 32} {i1 i2 : RvIns}
    {op : LiftedOp} {args : LiftedArgs} (h : Lifter.fuse ⟨rel, inT, some refs⟩ a a2 i1 i2 = .ok (some (op, args)))
    {v : BitVec 32} (hv : args.imm = .codeLabel v) :
    (i1.opc = .auipc ∨ i1.opc = .lui) ∧ Lifter.fuse ⟨rel, inT, none⟩ a a2 i1 i2 = .ok (some (op, args)) := by
  have key : ∀ hi lo r rd isA, Lifter.composedImmediate ⟨rel, inT, some refs⟩ hi lo r rd a2 isA = some (op, args) →
      Lifter.composedImmediate ⟨rel, inT, none⟩ hi lo r rd a2 isA = some (op, args) := by
    intro hi lo r rd isA hc
    have := composedImmediate_inv hc
    rcases this with ⟨rfl, rfl, c1, c2, rfl⟩ | ⟨-, rfl, -⟩
    · unfold Lifter.composedImmediate
      have hcond : (true && inT (hi + lo) && decide (rd ≠ 3)) = true := by
        have : inT (hi + lo) = true := c1
        simp [this, c2]
      simp only
      rw [if_pos hcond]
    · cases hv
  unfold Lifter.fuse at h ⊢
  split at h
  · rename_i e1 _ _
    refine ⟨.inr e1, ?_⟩
    split at h
    · split at h
      · rename_i hc
        rw [key _ _ _ _ _ (Except.ok.inj h), if_pos hc]
      · cases h
    · cases h
  · exfalso
    split at h
    · simp only [Except.ok.injEq, Option.map_eq_some_iff, Prod.mk.injEq] at h
      obtain ⟨-, -, -, rfl⟩ := h
      cases hv
    · cases h
  · rename_i e1 _ _
    refine ⟨.inl e1, ?_⟩
    unfold Lifter.afterAuipc at h ⊢
    split at h
    · split at h
      · rename_i hc
        rw [key _ _ _ _ _ (Except.ok.inj h), if_pos hc]
      · cases h
    · exact h
    · exact h
    · exact h
    · exact h
  · cases h

/-- Every label that is used while lifting has been collected. -/
theorem lift_labels {rel inT : BitVec 32 → Bool} {refs : BitVec 32 → Bool} {l : List MaybeIns} {hs hs' : List LiftedIns}
    (hw : Lifter.lift ⟨rel, inT, none⟩ l = .ok hs) (hr : Lifter.lift ⟨rel, inT, some refs⟩ l = .ok hs') {v : BitVec 32}
    (hv : v ∈ codeLabels hs') : v ∈ codeLabels hs := by
  obtain ⟨h, hm, he⟩ := mem_codeLabels.1 hv
  obtain ⟨pre, a, post, rfl, ⟨b, post', rfl, h2⟩ | h1⟩ := tryMapTwoByTwo_inv _ le_rfl hr hm
  · obtain ⟨i1, i2, op, args, e1, e2, e3, rfl⟩ := tryMapTwo_some h2
    obtain ⟨f1, f2⟩ := fuse_write e3 he
    exact pair_label hw e1 e2 f1 f2 he
  · unfold mapOne at h1
    split at h1
    · rename_i i hi
      split at h1
      · simp only [bind, Except.bind] at h1
        split at h1
        · cases h1
        · cases h1
          cases he
      · simp only [bind, Except.bind] at h1
        split at h1
        · cases h1
        · rename_i imm himm
          cases h1
          simp only at he
          split at he
          · cases he
          · rename_i hext
            unfold liftImm at himm
            split at himm
            · rename_i hj
              simp only [bind, Except.bind] at himm
              split at himm
              · cases himm
              · rename_i w hw'
                cases himm
                cases he
                have : i.imm = some w := by
                  unfold RvIns.unwrapImm at hw'
                  split at hw'
                  · rename_i e
                    rw [e, Except.ok.inj hw']
                  · cases hw'
                rw [BitVec.add_comm]
                exact jump_label hw (by simp) hi hj hext this
            · split at himm
              · simp only [bind, Except.bind] at himm
                split at himm
                · cases himm
                · split at himm
                  · cases himm
                    cases he
                  · cases himm
              · split at himm
                · simp only [bind, Except.bind] at himm
                  split at himm
                  · cases himm
                  · cases himm
                    cases he
                · split at himm
                  · cases himm
                    cases he
                  · cases himm
                    cases he
    · cases h1
      cases he

end Verif
