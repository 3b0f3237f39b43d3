import Verif.Spec.Gpu
import Verif.Proofs.Witness

/-!
# Proofs about the bytecode of the GPU
-/

set_option linter.unusedSectionVars false

namespace Verif

section
variable {p : ℕ}

/-- The bytecode of an expression. -/
def exprCode (columns : List ℕ) (height : ℕ) : AlgExpr (ZMod p) ℕ → List ℕ
  | .number c => [1, c.val]
  | .reference r => [0, columns.idxOf r * height % 2 ^ 32]
  | .minus e => exprCode columns height e ++ [5]
  | .binary l op r => exprCode columns height l ++ exprCode columns height r ++ [op.gpuOpCode.code]

theorem emitExpr_ok {columns : List ℕ} {height : ℕ} (e : AlgExpr (ZMod p) ℕ) (h : ∀ r ∈ e.refs, r ∈ columns)
    (bc : List ℕ) : emitExpr columns height bc e = .ok (bc ++ exprCode columns height e) := by
  induction e generalizing bc with
  | number c => rfl
  | reference r =>
    rw [emitExpr, columnIndex_ok (h r (by simp [AlgExpr.refs]))]
    rfl
  | minus e ih =>
    rw [emitExpr, ih h]
    simp [bind, Except.bind, pure, Except.pure, exprCode, GpuOpCode.code]
  | binary l op r ihl ihr =>
    rw [emitExpr, ihl fun x hx => h x (by simp [AlgExpr.refs, hx])]
    simp only [bind, Except.bind]
    rw [ihr fun x hx => h x (by simp [AlgExpr.refs, hx])]
    simp [pure, Except.pure, exprCode]

theorem emitExpr_refs {columns : List ℕ} {height : ℕ} (e : AlgExpr (ZMod p) ℕ) {bc bc' : List ℕ}
    (h : emitExpr columns height bc e = .ok bc') : ∀ r ∈ e.refs, r ∈ columns := by
  induction e generalizing bc bc' with
  | number c => intro r hr; cases hr
  | reference r =>
    intro x hx
    simp only [AlgExpr.refs, List.mem_cons, List.not_mem_nil, or_false] at hx
    subst hx
    rw [emitExpr, columnIndex] at h
    by_contra hn
    rw [if_neg hn] at h
    cases h
  | minus e ih =>
    rw [emitExpr] at h
    simp only [bind, Except.bind] at h
    split at h
    · cases h
    · rename_i h1
      exact ih h1
  | binary l op r ihl ihr =>
    rw [emitExpr] at h
    simp only [bind, Except.bind] at h
    split at h
    · cases h
    · rename_i h1
      split at h
      · cases h
      · rename_i h2
        intro x hx
        rcases List.mem_append.1 (by simpa [AlgExpr.refs] using hx) with hx | hx
        · exact ihl h1 x hx
        · exact ihr h2 x hx

theorem stackNeed_pos {T R : Type} (e : AlgExpr T R) : 0 < e.stackNeed := by
  induction e with
  | number c => simp [AlgExpr.stackNeed]
  | reference r => simp [AlgExpr.stackNeed]
  | minus e ih => exact ih
  | binary l op r ihl ihr => simp [AlgExpr.stackNeed]

theorem stackPush_ok {stack : List (ZMod p)} (h : stack.length < 16) (v : ZMod p) :
    stackPush stack v = some (v :: stack) := by
  rw [stackPush]
  exact if_pos h

theorem stackPush_full {stack : List (ZMod p)} (h : ¬ stack.length < 16) (v : ZMod p) :
    stackPush stack v = none := by
  rw [stackPush]
  exact if_neg h

variable [NeZero p]

/-- Evaluating the bytecode of an expression puts its value on the stack, if there is enough room, and fails
otherwise. -/
theorem evalCode_expr {columns : List ℕ} {height r : ℕ} {read : ℕ → Option (ZMod p)} {σ : ℕ → ZMod p}
    (e : AlgExpr (ZMod p) ℕ)
    (hread : ∀ id ∈ e.refs, read (columns.idxOf id * height % 2 ^ 32 + r) = some (σ id))
    (code : List ℕ) (stack : List (ZMod p)) :
    (stack.length + e.stackNeed ≤ 16 →
      evalCode read r (exprCode columns height e ++ code) stack = evalCode read r code (e.value σ :: stack)) ∧
    (¬ stack.length + e.stackNeed ≤ 16 → evalCode read r (exprCode columns height e ++ code) stack = none) := by
  induction e generalizing code stack with
  | number c =>
    simp only [exprCode, List.cons_append, List.nil_append, evalCode, GpuOpCode.ofCode,
      AlgExpr.stackNeed, AlgExpr.value]
    refine ⟨fun h => ?_, fun h => ?_⟩
    · rw [stackPush_ok (by omega)]
      simp
    · rw [stackPush_full (by omega)]
      rfl
  | reference id =>
    simp only [exprCode, List.cons_append, List.nil_append, evalCode, GpuOpCode.ofCode,
      AlgExpr.stackNeed, AlgExpr.value]
    rw [hread id (by simp [AlgExpr.refs])]
    simp only [Option.bind_eq_bind, Option.bind_some]
    refine ⟨fun h => ?_, fun h => ?_⟩
    · rw [stackPush_ok (by omega)]
      rfl
    · rw [stackPush_full (by omega)]
      rfl
  | minus e ih =>
    rw [exprCode, List.append_assoc]
    obtain ⟨i1, i2⟩ := ih hread ([5] ++ code) stack
    simp only [AlgExpr.stackNeed, AlgExpr.value]
    refine ⟨fun h => ?_, i2⟩
    have := stackNeed_pos e
    rw [i1 h]
    simp only [List.cons_append, List.nil_append, evalCode, GpuOpCode.ofCode, stackUnary, stackPop,
      Option.bind_eq_bind, Option.bind_some]
    rw [stackPush_ok (by omega)]
    rfl
  | binary l op e ihl ihr =>
    rw [exprCode, List.append_assoc, List.append_assoc]
    obtain ⟨i1, i2⟩ := ihl (fun x hx => hread x (by simp [AlgExpr.refs, hx]))
      (exprCode columns height e ++ ([op.gpuOpCode.code] ++ code)) stack
    obtain ⟨j1, j2⟩ := ihr (fun x hx => hread x (by simp [AlgExpr.refs, hx]))
      ([op.gpuOpCode.code] ++ code) (l.value σ :: stack)
    simp only [List.length_cons] at j1 j2
    simp only [AlgExpr.stackNeed]
    refine ⟨fun h => ?_, fun h => ?_⟩
    · have := stackNeed_pos e
      have hs := stackPush_ok (p := p) (stack := stack) (by omega)
      rw [i1 (by omega), j1 (by omega)]
      cases op <;>
      · simp only [List.cons_append, List.nil_append, evalCode, GpuOpCode.ofCode, AlgOp.gpuOpCode, GpuOpCode.code,
          stackBinary, stackPop, Option.bind_eq_bind, Option.bind_some, hs]
        rfl
    · by_cases h1 : stack.length + l.stackNeed ≤ 16
      · rw [i1 h1, j2 (by omega)]
      · exact i2 h1

/-- The bytecode of a computed column. -/
def methodCode (columns : List ℕ) (height : ℕ) : SymMethod (ZMod p) ℕ → List ℕ
  | .constant c => [1, c.val]
  | .quotientOrZero e1 e2 => exprCode columns height e2 ++ [6] ++ exprCode columns height e1 ++ [4]

theorem emitMethod_ok {columns : List ℕ} {height : ℕ} (d : SymMethod (ZMod p) ℕ) (h : ∀ r ∈ d.refs, r ∈ columns)
    (bc : List ℕ) : emitMethod columns height bc d = .ok (bc ++ methodCode columns height d) := by
  cases d with
  | constant c => rfl
  | quotientOrZero e1 e2 =>
    rw [emitMethod, emitExpr_ok e2 fun x hx => h x (by simp [SymMethod.refs, hx])]
    simp only [bind, Except.bind]
    rw [emitExpr_ok e1 fun x hx => h x (by simp [SymMethod.refs, hx])]
    simp [pure, Except.pure, methodCode, GpuOpCode.code]

theorem emitMethod_refs {columns : List ℕ} {height : ℕ} (d : SymMethod (ZMod p) ℕ) {bc bc' : List ℕ}
    (h : emitMethod columns height bc d = .ok bc') : ∀ r ∈ d.refs, r ∈ columns := by
  cases d with
  | constant c => intro r hr; cases hr
  | quotientOrZero e1 e2 =>
    rw [emitMethod] at h
    simp only [bind, Except.bind] at h
    split at h
    · cases h
    · rename_i h1
      split at h
      · cases h
      · rename_i h2
        intro x hx
        rcases List.mem_append.1 (by simpa [SymMethod.refs] using hx) with hx | hx
        · exact emitExpr_refs _ h2 x hx
        · exact emitExpr_refs _ h1 x hx

end

/-! ## Spans -/

/-- The instructions of a span. -/
def spanCode (bc : List ℕ) (s : ExprSpan) : List ℕ := (bc.drop s.off).take s.len

theorem spanCode_append {bc code tail : List ℕ} (h : (bc ++ code).length < 2 ^ 32) :
    spanCode (bc ++ code ++ tail) ⟨bc.length % 2 ^ 32, (bc ++ code).length % 2 ^ 32 - bc.length % 2 ^ 32⟩ = code := by
  have h1 : bc.length < 2 ^ 32 := by rw [List.length_append] at h; omega
  rw [Nat.mod_eq_of_lt h, Nat.mod_eq_of_lt h1]
  simp [spanCode]

section
variable {p : ℕ} [NeZero p]

theorem emitExprSpan_ok {columns : List ℕ} {height : ℕ} {bc bc' : List ℕ} {e : AlgExpr (ZMod p) ℕ} {s : ExprSpan}
    (h : emitExprSpan columns height bc e = .ok (bc', s)) :
    (∀ r ∈ e.refs, r ∈ columns) ∧ bc' = bc ++ exprCode columns height e ∧
      (bc'.length < 2 ^ 32 → ∀ tail, spanCode (bc' ++ tail) s = exprCode columns height e) := by
  unfold emitExprSpan at h
  simp only [bind, Except.bind] at h
  split at h
  · cases h
  · rename_i bc1 h1
    have hr := emitExpr_refs _ h1
    rw [emitExpr_ok e hr] at h1
    cases h1
    cases h
    exact ⟨hr, rfl, fun hl tail => spanCode_append hl⟩

theorem emitSpans_ok {columns : List ℕ} {height : ℕ} (es : List (AlgExpr (ZMod p) ℕ)) {spans spans' : List ExprSpan}
    {bc bc' : List ℕ} (h : emitSpans columns height es (spans, bc) = .ok (spans', bc')) (hl : bc'.length < 2 ^ 32) :
    bc <+: bc' ∧ ∃ new, spans' = spans ++ new ∧ List.Forall₂ (fun e s => (∀ r ∈ AlgExpr.refs e, r ∈ columns) ∧
      ∀ tail, spanCode (bc' ++ tail) s = exprCode columns height e) es new := by
  induction es generalizing spans bc with
  | nil =>
    rw [emitSpans] at h
    cases h
    exact ⟨List.prefix_rfl, [], by simp, .nil⟩
  | cons e t ih =>
    rw [emitSpans] at h
    simp only [bind, Except.bind] at h
    split at h
    · cases h
    · rename_i x hx
      obtain ⟨bc1, s⟩ := x
      obtain ⟨h1, h2, h3⟩ := emitExprSpan_ok hx
      obtain ⟨⟨u, hu⟩, new, rfl, hn⟩ := ih h
      refine ⟨⟨exprCode columns height e ++ u, by rw [← hu, h2, List.append_assoc]⟩, s :: new, by simp, .cons ⟨h1, ?_⟩ hn⟩
      intro tail
      rw [← hu, List.append_assoc]
      refine h3 ?_ _
      have := congrArg List.length hu
      simp only [List.length_append] at this
      omega

theorem compileDerived_ok {columns : List ℕ} {height : ℕ} (ds : List (ℕ × SymMethod (ZMod p) ℕ))
    {specs specs' : List DerivedExprSpec} {bc bc' : List ℕ}
    (h : compileDerived columns height ds (specs, bc) = .ok (specs', bc')) (hl : bc'.length < 2 ^ 32) :
    bc <+: bc' ∧ ∃ new, specs' = specs ++ new ∧ List.Forall₂ (fun d s => d.1 ∈ columns ∧
      (∀ r ∈ SymMethod.refs d.2, r ∈ columns) ∧ s.colBase = columns.idxOf d.1 * height ∧
      ∀ tail, spanCode (bc' ++ tail) s.span = methodCode columns height d.2) ds new := by
  induction ds generalizing specs bc with
  | nil =>
    rw [compileDerived] at h
    cases h
    exact ⟨List.prefix_rfl, [], by simp, .nil⟩
  | cons d t ih =>
    rw [compileDerived] at h
    simp only [bind, Except.bind] at h
    split at h
    · cases h
    · rename_i i hi
      have hd : d.1 ∈ columns := by
        by_contra hn
        rw [columnIndex, if_neg hn] at hi
        cases hi
      rw [columnIndex_ok hd] at hi
      cases hi
      split at h
      · cases h
      · rename_i bc1 h1
        have hr := emitMethod_refs _ h1
        rw [emitMethod_ok _ hr] at h1
        cases h1
        obtain ⟨⟨u, hu⟩, new, rfl, hn⟩ := ih h
        refine ⟨⟨methodCode columns height d.2 ++ u, by rw [← hu, List.append_assoc]⟩, _ :: new,
          by rw [List.append_assoc]; rfl, .cons ⟨hd, hr, rfl, fun tail => ?_⟩ hn⟩
        rw [← hu, List.append_assoc]
        refine spanCode_append ?_
        rw [← hu, List.length_append] at hl
        omega

theorem compileBus_ok {columns : List ℕ} {height : ℕ} (bs : List (SymBus (ZMod p) ℕ))
    {xs xs' : List DevInteraction} {spans spans' : List ExprSpan} {bc bc' : List ℕ}
    (h : compileBus columns height bs (xs, spans, bc) = .ok (xs', spans', bc')) (hl : bc'.length < 2 ^ 32)
    (hs : spans'.length < 2 ^ 32) :
    bc <+: bc' ∧ spans <+: spans' ∧ ∃ new, xs' = xs ++ new ∧ List.Forall₂ (fun b x => x.busId = b.id % 2 ^ 32 ∧
      ∀ (k : ℕ) e, (b.mult :: b.args)[k]? = some e → (∀ r ∈ AlgExpr.refs e, r ∈ columns) ∧
        ∃ span, spans'[x.argsIndexOff + k]? = some span ∧
          ∀ tail, spanCode (bc' ++ tail) span = exprCode columns height e) bs new := by
  induction bs generalizing xs spans bc with
  | nil =>
    rw [compileBus] at h
    cases h
    exact ⟨List.prefix_rfl, List.prefix_rfl, [], by simp, .nil⟩
  | cons b t ih =>
    rw [compileBus] at h
    simp only [bind, Except.bind] at h
    split at h
    · cases h
    · rename_i y hy
      obtain ⟨spans1, bc1⟩ := y
      obtain ⟨⟨u, hu⟩, ⟨v, hv⟩, new, rfl, hn⟩ := ih h
      have hl1 : bc1.length < 2 ^ 32 := by
        have := congrArg List.length hu
        simp only [List.length_append] at this
        omega
      obtain ⟨⟨w, hw⟩, nsp, rfl, hf⟩ := emitSpans_ok _ hy hl1
      refine ⟨⟨w ++ u, by rw [← hu, ← hw, List.append_assoc]⟩, ⟨nsp ++ v, by rw [← hv, List.append_assoc]⟩, _ :: new,
        by rw [List.append_assoc]; rfl, .cons ⟨rfl, fun k e hk => ?_⟩ hn⟩
      have hk' : k < (b.mult :: b.args).length := (List.getElem?_eq_some_iff.1 hk).1
      have hkn : k < nsp.length := by rw [← hf.length_eq]; exact hk'
      have hfk := hf.get hk' hkn
      have he : (b.mult :: b.args).get ⟨k, hk'⟩ = e := (List.getElem?_eq_some_iff.1 hk).2
      rw [he] at hfk
      refine ⟨hfk.1, nsp[k], ?_, fun tail => ?_⟩
      · simp only
        have hsl : spans.length < 2 ^ 32 := by
          rw [← hv, List.length_append, List.length_append] at hs
          omega
        rw [Nat.mod_eq_of_lt hsl, ← hv, List.append_assoc, List.getElem?_append_right (by omega),
          Nat.add_sub_cancel_left, List.getElem?_append_left hkn, List.getElem?_eq_getElem hkn]
      · rw [← hu, List.append_assoc]
        exact hfk.2 _

end

section
variable {p : ℕ} [Fact p.Prime]

/-- Evaluating the bytecode of a computed column. -/
theorem evalCode_method {columns : List ℕ} {height r : ℕ} {read : ℕ → Option (ZMod p)} {σ : ℕ → ZMod p}
    (d : SymMethod (ZMod p) ℕ)
    (hread : ∀ id ∈ d.refs, read (columns.idxOf id * height % 2 ^ 32 + r) = some (σ id)) :
    (d.stackNeed ≤ 16 → evalCode read r (methodCode columns height d) [] = some (d.value σ)) ∧
    (¬ d.stackNeed ≤ 16 → evalCode read r (methodCode columns height d) [] = none) := by
  cases d with
  | constant c =>
    simp only [methodCode, SymMethod.stackNeed, evalCode, GpuOpCode.ofCode, SymMethod.value]
    rw [stackPush_ok (by simp)]
    simp
  | quotientOrZero e1 e2 =>
    have hr1 : ∀ id ∈ e1.refs, read (columns.idxOf id * height % 2 ^ 32 + r) = some (σ id) :=
      fun x hx => hread x (by simp [SymMethod.refs, hx])
    have hr2 : ∀ id ∈ e2.refs, read (columns.idxOf id * height % 2 ^ 32 + r) = some (σ id) :=
      fun x hx => hread x (by simp [SymMethod.refs, hx])
    simp only [methodCode, SymMethod.stackNeed, SymMethod.value, List.append_assoc]
    obtain ⟨i1, i2⟩ := evalCode_expr e2 hr2 ([6] ++ (exprCode columns height e1 ++ [4])) []
    obtain ⟨j1, j2⟩ := evalCode_expr e1 hr1 [4] [if e2.value σ = 0 then 0 else (e2.value σ)⁻¹]
    simp only [List.length_nil, List.length_cons, Nat.zero_add] at i1 i2 j1 j2
    have hinv : evalCode read r ([6] ++ (exprCode columns height e1 ++ [4])) [e2.value σ] =
        evalCode read r (exprCode columns height e1 ++ [4]) [if e2.value σ = 0 then 0 else (e2.value σ)⁻¹] := by
      simp only [List.cons_append, List.nil_append, evalCode, GpuOpCode.ofCode, stackUnary, stackPop,
        Option.bind_eq_bind, Option.bind_some]
      rw [stackPush_ok (by simp)]
      rfl
    refine ⟨fun h => ?_, fun h => ?_⟩
    · rw [i1 (by omega), hinv, j1 (by omega)]
      simp only [evalCode, GpuOpCode.ofCode, stackBinary, stackPop, Option.bind_eq_bind, Option.bind_some]
      rw [stackPush_ok (by simp)]
      simp only [Option.bind_some]
      split
      · simp
      · rw [mul_comm, div_eq_mul_inv, mul_comm]
    · by_cases h1 : e2.stackNeed ≤ 16
      · rw [i1 h1, hinv, j2 (by omega)]
      · exact i2 h1

end

end Verif
